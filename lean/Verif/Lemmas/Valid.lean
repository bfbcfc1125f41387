import Verif.Lemmas.Safety

/-! # Decoded names are valid -/

namespace Ariadne

open Spec BitsBuf

namespace Run

variable {ε α : Type} {msg : List UInt8} {r : Nat}

theorem both {m : BufM ε α} {B B' : Prop} {Q Q' : α → Nat → Prop} (h : Run msg r m B Q) (h' : Run msg r m B' Q') :
    Run msg r m B fun a r' => Q a r' ∧ Q' a r' := by
  obtain ⟨o, r1, e, h1, h2, h3⟩ := h
  obtain ⟨o', r2, e', h1', h2', h3'⟩ := h'
  rw [e] at e'
  obtain ⟨rfl, e2⟩ := Prod.mk.inj e'
  have : r1 = r2 := congrArg BitsBuf.rPos e2
  subst this
  exact ⟨o, r1, e, h1, fun a ha => ⟨h2 a ha, h2' a ha⟩, h3⟩

theorem validName (p : Profile) (hr : r ≤ 8 * msg.length) :
    Run msg r (nameP p) True (fun n _ => ValidName n.s) := by
  apply mapErr
  obtain ⟨o, r', e, hr', h⟩ := Name.fromBytes_spec p msg r hr
  refine ⟨o, r', e, hr', ?_, fun _ => trivial⟩
  rintro n rfl
  exact h.1

theorem checkLen' (p : Profile) {len : UInt16} {a b : Nat} {v : α} {Q : α → Nat → Prop} (hr : r ≤ 8 * msg.length)
    (h : Q v r) : Run msg r (Record.checkLen p len a b v) True Q := by
  unfold Record.checkLen
  refine Run.bind (Run.lift hr fun _ => trivial) fun w r1 hr1 ⟨h1, _⟩ => ?_
  subst h1
  split
  · exact Run.throw hr1
  · exact Run.pure hr1 h

end Run

theorem run_question_valid (p : Profile) {msg : List UInt8} {r : Nat} (hr : r ≤ 8 * msg.length) :
    Run msg r (Question.decode p) True (fun q _ => ValidName q.node.s) := by
  unfold Question.decode
  refine (Run.validName p hr).bind fun node r1 hr1 hv => ?_
  have ht : Run msg r1 Question.decodeRecordType True (fun _ _ => True) := by
    unfold Question.decodeRecordType
    refine (Run.u16 hr1).bind fun n r2 hr2 _ => ?_
    cases ht : RecordType.fromNum n with
    | none => exact (Run.u16 hr2).bind fun _ r3 hr3 _ => Run.throw hr3
    | some t =>
      simp only
      split
      · exact Run.throw hr2
      · exact Run.pure hr2 trivial
  exact ht.bind fun t r2 hr2 _ => (Run.u16 hr2).bind fun cn r3 hr3 _ =>
    (Run.lift hr3 fun _ => trivial).bind fun c r4 hr4 _ => Run.pure hr4 hv

theorem run_nameData_valid (p : Profile) {msg : List UInt8} {r : Nat} {len : UInt16} (f : Name → RData)
    (hf : ∀ n, dataNames (f n) = [n]) (hr : r ≤ 8 * msg.length) :
    Run msg r (do let x ← Record.decodeNameData p len; pure (f x) : BufM ParsingErr RData) True
      (fun d _ => ∀ n ∈ dataNames d, ValidName n.s) := by
  refine Run.bind (Q := fun n _ => ValidName n.s) ?_ fun n r1 hr1 hv => Run.pure hr1 (by rw [hf]; simpa using hv)
  unfold Record.decodeNameData
  exact (Run.readPos hr).bind fun b r1 hr1 _ => (Run.validName p hr1).bind fun n r2 hr2 hv =>
    (Run.readPos hr2).bind fun a r3 hr3 _ => Run.checkLen' p hr3 hv

theorem run_soa_valid (p : Profile) {msg : List UInt8} {r : Nat} {len : UInt16} (hr : r ≤ 8 * msg.length) :
    Run msg r (Record.decodeSoa p len) True (fun d _ => ∀ n ∈ dataNames d, ValidName n.s) := by
  unfold Record.decodeSoa
  refine (Run.readPos hr).bind fun b r1 hr1 _ => (Run.validName p hr1).bind fun a r2 hr2 h1 =>
    (Run.validName p hr2).bind fun b r3 hr3 h2 => (Run.u32 hr3).bind fun _ r4 hr4 _ => (Run.u32 hr4).bind fun _ r5 hr5 _ =>
    (Run.u32 hr5).bind fun _ r6 hr6 _ => (Run.u32 hr6).bind fun _ r7 hr7 _ => (Run.u32 hr7).bind fun _ r8 hr8 _ =>
    (Run.readPos hr8).bind fun _ r9 hr9 _ => Run.checkLen' p hr9 ?_
  simp only [dataNames, List.mem_cons, List.not_mem_nil, or_false, forall_eq_or_imp, forall_eq]
  exact ⟨h1, h2⟩

theorem run_mx_valid (p : Profile) {msg : List UInt8} {r : Nat} {len : UInt16} (hr : r ≤ 8 * msg.length) :
    Run msg r (Record.decodeMx p len) True (fun d _ => ∀ n ∈ dataNames d, ValidName n.s) := by
  unfold Record.decodeMx
  refine (Run.readPos hr).bind fun b r1 hr1 _ => (Run.u16 hr1).bind fun _ r2 hr2 _ =>
    (Run.validName p hr2).bind fun b r3 hr3 h2 => (Run.readPos hr3).bind fun _ r9 hr9 _ => Run.checkLen' p hr9 ?_
  simpa [dataNames] using h2

theorem dataNames_nil {d : RData} (h : d.recordType = .A ∨ d.recordType = .WKS ∨ d.recordType = .HINFO ∨
    d.recordType = .TXT) : dataNames d = [] := by
  cases d <;> simp_all [RData.recordType, dataNames]

theorem run_data_valid (p : Profile) {msg : List UInt8} {r : Nat} {t : RecordType} {len : UInt16} (hr : r ≤ 8 * msg.length)
    (ht : t.isSupportedForRecords = true) :
    Run msg r (Record.decodeData p t len) True (fun d _ => ∀ n ∈ dataNames d, ValidName n.s) := by
  have hn : (t = .A ∨ t = .WKS ∨ t = .HINFO ∨ t = .TXT) →
      Run msg r (Record.decodeData p t len) True (fun d _ => ∀ n ∈ dataNames d, ValidName n.s) := fun h =>
    (run_data p hr ht).mono (fun _ => trivial) fun d r' hd => by
      rw [dataNames_nil (by rw [hd.2.1]; exact h)]; simp
  have h1 : t = .NS → Run msg r (Record.decodeData p t len) True (fun d _ => ∀ n ∈ dataNames d, ValidName n.s) := by
    rintro rfl; exact run_nameData_valid p RData.NS (fun _ => rfl) hr
  have h2 : t = .CNAME → Run msg r (Record.decodeData p t len) True (fun d _ => ∀ n ∈ dataNames d, ValidName n.s) := by
    rintro rfl; exact run_nameData_valid p RData.CNAME (fun _ => rfl) hr
  have h3 : t = .PTR → Run msg r (Record.decodeData p t len) True (fun d _ => ∀ n ∈ dataNames d, ValidName n.s) := by
    rintro rfl; exact run_nameData_valid p RData.PTR (fun _ => rfl) hr
  have h4 : t = .SOA → Run msg r (Record.decodeData p t len) True (fun d _ => ∀ n ∈ dataNames d, ValidName n.s) := by
    rintro rfl; exact run_soa_valid p hr
  have h5 : t = .MX → Run msg r (Record.decodeData p t len) True (fun d _ => ∀ n ∈ dataNames d, ValidName n.s) := by
    rintro rfl; exact run_mx_valid p hr
  have hc : (t = .A ∨ t = .WKS ∨ t = .HINFO ∨ t = .TXT) ∨ t = .NS ∨ t = .CNAME ∨ t = .PTR ∨ t = .SOA ∨ t = .MX := by
    clear hn h1 h2 h3 h4 h5
    revert ht
    cases t <;> decide
  rcases hc with h | h | h | h | h | h
  · exact hn h
  · exact h1 h
  · exact h2 h
  · exact h3 h
  · exact h4 h
  · exact h5 h

theorem run_charStr_short {msg : List UInt8} {r : Nat} (hr : r ≤ 8 * msg.length) :
    Run msg r decodeCharacterString True (fun s _ => (strBytes s).length ≤ 255) := by
  unfold decodeCharacterString
  refine Run.bind (Run.u8 hr) fun l r1 hr1 _ => Run.bind (Run.bytes l.toNat hr1) fun bs r2 hr2 _ => ?_
  by_cases hl : bs.length > 255
  · rw [if_pos hl]; exact Run.throw hr2
  · rw [if_neg hl]
    cases hu : fromUtf8 bs with
    | none => exact Run.throw hr2
    | some s =>
      have := (fromUtf8_iff _ _).1 hu
      exact Run.pure hr2 (by rw [this]; omega)

theorem run_txtLoop_short (p : Profile) {msg : List UInt8} {len : UInt16} :
    ∀ (fuel : Nat) (strs : List Str) (read : UInt16) (r : Nat), r ≤ 8 * msg.length → (∀ s ∈ strs, (strBytes s).length ≤ 255) →
      Run msg r (Record.decodeTxtLoop p len fuel strs read) True (fun out _ => ∀ s ∈ out, (strBytes s).length ≤ 255)
  | 0, _, _, r, hr, _ => ⟨.diverge, r, rfl, hr, by simp, fun _ => trivial⟩
  | fuel + 1, strs, read, r, hr, hs => by
    unfold Record.decodeTxtLoop
    refine (Run.readPos hr).bind fun pos r0 hr0 ⟨h1, h2⟩ => ?_
    subst h1; subst h2
    refine (Run.u8 hr0).bind fun l r1 hr1 ⟨h3, f1⟩ => ?_
    have hset : Run msg r1 (setReadPos (pos - 1) : BufM ParsingErr Unit) True (fun _ r' => r' = pos - 1) := by
      refine ⟨.ok (), pos - 1, ?_, by omega, fun _ _ => rfl, by simp [Out.Returns]⟩
      rw [setReadPos_bit (by omega)]
    refine hset.bind fun _ r2 hr2 h4 => (run_add p hr2 (fun _ _ => trivial)).bind fun s1 r3 hr3 _ =>
      (run_add p hr3 (fun _ _ => trivial)).bind fun s2 r4 hr4 _ => ?_
    by_cases hc : s2 > len
    · rw [if_pos hc]; exact Run.throw hr4
    · rw [if_neg hc]
      refine (run_charStr_short hr4).bind fun str r5 hr5 h5 => (run_add p hr5 (fun _ _ => trivial)).bind fun l1 r6 hr6 _ =>
        (run_add p hr6 (fun _ _ => trivial)).bind fun rd2 r7 hr7 _ => ?_
      have hs' : ∀ s ∈ strs ++ [str], (strBytes s).length ≤ 255 := by
        intro s hm
        rcases List.mem_append.1 hm with hm | hm
        · exact hs s hm
        · rw [List.mem_singleton.1 hm]; exact h5
      by_cases hd : rd2 = len
      · rw [if_pos hd]; exact Run.pure hr7 hs'
      · rw [if_neg hd]
        exact run_txtLoop_short p fuel _ rd2 r7 hr7 hs'

theorem run_data_short (p : Profile) {msg : List UInt8} {r : Nat} {t : RecordType} {len : UInt16} (hr : r ≤ 8 * msg.length)
    (ht : t.isSupportedForRecords = true) :
    Run msg r (Record.decodeData p t len) True (fun d _ => ∀ x : Record, x.data = d → StringsAtMost 255 x) := by
  by_cases h1 : t = .HINFO
  · subst h1
    show Run msg r (Record.decodeHinfo p len) _ _
    unfold Record.decodeHinfo
    refine (Run.readPos hr).bind fun _ r0 hr0 _ => (run_charStr_short hr0).bind fun c r1 hr1 hc =>
      (run_charStr_short hr1).bind fun o r2 hr2 ho => (Run.readPos hr2).bind fun _ r3 hr3 _ => Run.checkLen' p hr3 ?_
    intro x hx
    unfold StringsAtMost
    rw [hx]
    exact ⟨hc, ho⟩
  · by_cases h2 : t = .TXT
    · subst h2
      show Run msg r (Record.decodeTxt p len) _ _
      unfold Record.decodeTxt
      refine (run_txtLoop_short p _ _ _ _ hr (by simp)).bind fun txts r1 hr1 hs => Run.pure hr1 ?_
      intro x hx
      unfold StringsAtMost
      rw [hx]
      exact hs
    · refine (run_data p hr ht).mono (fun _ => trivial) fun d r' hd x hx => ?_
      have h3 := hd.2.1
      unfold StringsAtMost
      rw [hx]
      cases d with
      | HINFO _ _ => exact absurd h3.symm h1
      | TXT _ => exact absurd h3.symm h2
      | _ => trivial

theorem run_record_valid (p : Profile) {msg : List UInt8} {r : Nat} (hr : r ≤ 8 * msg.length) :
    Run msg r (Record.decode p) True (fun rec _ => WellFormed rec) := by
  unfold Record.decode
  exact (Run.validName p hr).bind fun node r1 hr1 hv => (run_recordType hr1).bind fun t r2 hr2 ⟨_, _, hs⟩ =>
    (Run.u16 hr2).bind fun cn r3 hr3 _ => (run_class cn hr3).bind fun c r4 hr4 hc =>
    (Run.u32 hr4).bind fun ttl r5 hr5 _ => (Run.u16 hr5).bind fun len r6 hr6 _ =>
    ((run_data_valid p hr6 hs).both (run_data_short p hr6 hs)).bind fun d r7 hr7 ⟨h7, h8⟩ =>
      Run.pure hr7 ⟨hv, h7, hc.2.1, h8 _ rfl⟩

theorem run_items_all {α : Type} {msg : List UInt8} {d : BufM ParsingErr α} {sec : Section} {P : α → Prop}
    (hrun : ∀ r, r ≤ 8 * msg.length → Run msg r d True (fun a _ => P a)) :
    ∀ (n i : Nat) (r : Nat), r ≤ 8 * msg.length →
      Run msg r (Message.decodeItems d sec n i) True (fun as _ => ∀ a ∈ as, P a)
  | 0, i, r, hr => Run.pure hr (by simp)
  | n + 1, i, r, hr => by
    obtain ⟨o, r', e, hr', hq, hb⟩ := hrun r hr
    unfold Run
    simp only [Message.decodeItems, e]
    cases o with
    | ok a =>
      have h := run_items_all hrun (sec := sec) n (i + 1) r' hr'
      exact Run.bind (f := fun rest => (pure (a :: rest) : BufM MessageErr (List α))) h
        (Q' := fun as r' => ∀ a ∈ as, P a) (fun as r2 hr2 h4 => Run.pure hr2
          (by simp only [List.mem_cons, forall_eq_or_imp]; exact ⟨hq a rfl, h4⟩))
    | err x =>
      cases x with
      | unknownType v => exact run_items_all hrun (sec := sec) n (i + 1) r' hr'
      | _ => exact ⟨_, r', rfl, hr', by simp, by simp [Out.Returns]⟩
    | panic k => exact ⟨_, r', rfl, hr', by simp, fun _ => trivial⟩
    | diverge => exact ⟨_, r', rfl, hr', by simp, fun _ => trivial⟩

/-- All names of a message are valid. -/
structure MessageNames (m : Message) : Prop where
  qs : ∀ q ∈ m.questions, ValidName q.node.s
  an : ∀ r ∈ m.answers, WellFormed r
  au : ∀ r ∈ m.authorities, WellFormed r
  ad : ∀ r ∈ m.additionals, WellFormed r

theorem run_message_valid (p : Profile) (msg : List UInt8) :
    Run msg 0 (Message.decode p) True (fun m _ => MessageNames m) := by
  unfold Message.decode
  exact (Run.mapErr (run_header (Nat.zero_le _))).bind fun h r1 hr1 _ => (Run.lift hr1 fun _ => trivial).bind fun _ r2 hr2 _ =>
    (run_items_all (fun r hr => run_question_valid p hr) _ _ _ hr2).bind fun qs r3 hr3 c3 =>
    (run_items_all (fun r hr => run_record_valid p hr) _ _ _ hr3).bind fun an r4 hr4 c4 =>
    (run_items_all (fun r hr => run_record_valid p hr) _ _ _ hr4).bind fun au r5 hr5 c5 =>
    (run_items_all (fun r hr => run_record_valid p hr) _ _ _ hr5).bind fun ad r6 hr6 c6 =>
    Run.pure hr6 ⟨c3, c4, c5, c6⟩

/-- What is certain about a decoded message. -/
theorem decoded_message {p : Profile} {bytes : List UInt8} {m : Message} (h : Message.decodeFromBytes p bytes = .ok m) :
    Decoded bytes m ∧ MessageNames m := by
  obtain ⟨o, r', e, -, hq, -⟩ := (run_message p bytes).both (run_message_valid p bytes)
  unfold Message.decodeFromBytes at h
  have e' : Message.decode p (fromRawBytes bytes) = (o, rdBit bytes r') := e
  rw [e'] at h
  exact hq m h

end Ariadne
