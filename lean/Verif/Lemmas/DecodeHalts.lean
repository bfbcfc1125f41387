import Verif.Lemmas.Safety

/-! # When the decoders do not hang -/

namespace Ariadne

open Spec BitsBuf

/-- Run from bit `r`: ends inside the message; a value satisfies `Q`; hanging implies `Hang`. -/
def DHalts {ε α : Type} (msg : List UInt8) (r : Nat) (d : BufM ε α) (Hang : Prop) (Q : α → Nat → Prop) : Prop :=
  ∃ o r', d (rdBit msg r) = (o, rdBit msg r') ∧ r' ≤ 8 * msg.length ∧ (∀ a, o = .ok a → Q a r') ∧ (o = .diverge → Hang)

theorem Run.halts {ε α : Type} {msg : List UInt8} {r : Nat} {d : BufM ε α} {Q : α → Nat → Prop} {Hang : Prop}
    (h : Run msg r d False Q) : DHalts msg r d Hang Q := by
  obtain ⟨o, r', e, hr, hq, hb⟩ := h
  exact ⟨o, r', e, hr, hq, fun hd => (hb (by rw [hd]; simp [Out.Returns])).elim⟩

namespace DHalts

variable {ε ε' α β : Type} {msg : List UInt8} {r : Nat} {Hang Hang' : Prop}

theorem bind {m : BufM ε α} {f : α → BufM ε β} {Q : α → Nat → Prop} {Q' : β → Nat → Prop}
    (h1 : DHalts msg r m Hang Q) (h2 : ∀ a r', r' ≤ 8 * msg.length → Q a r' → DHalts msg r' (f a) Hang Q') :
    DHalts msg r (m >>= f) Hang Q' := by
  obtain ⟨o, r', e, hr, hq, hb⟩ := h1
  cases o with
  | ok a =>
    obtain ⟨o2, r2, e2, h⟩ := h2 a r' hr (hq a rfl)
    exact ⟨o2, r2, by rw [BufM.bind_ok e, e2], h⟩
  | err x => exact ⟨.err x, r', BufM.bind_err e, hr, by simp, by simp⟩
  | panic x => exact ⟨.panic x, r', BufM.bind_panic e, hr, by simp, by simp⟩
  | diverge =>
    refine ⟨.diverge, r', ?_, hr, by simp, fun _ => hb rfl⟩
    rw [BufM.bind_apply, e]

theorem mono {m : BufM ε α} {Q Q' : α → Nat → Prop} (h : DHalts msg r m Hang Q) (hb : Hang → Hang')
    (hq : ∀ a r', Q a r' → Q' a r') : DHalts msg r m Hang' Q' := by
  obtain ⟨o, r', e, hr, h1, h2⟩ := h
  exact ⟨o, r', e, hr, fun a ha => hq _ _ (h1 a ha), fun h => hb (h2 h)⟩

theorem pure {Q : α → Nat → Prop} {a : α} (hr : r ≤ 8 * msg.length) (h : Q a r) :
    DHalts msg r (Pure.pure a : BufM ε α) Hang Q :=
  ⟨.ok a, r, rfl, hr, by rintro _ ⟨⟩; exact h, by simp⟩

theorem throw {Q : α → Nat → Prop} {e : ε} (hr : r ≤ 8 * msg.length) : DHalts msg r (BufM.throw e : BufM ε α) Hang Q :=
  ⟨.err e, r, rfl, hr, by simp, by simp⟩

theorem panic {Q : α → Nat → Prop} {k : Panic} (hr : r ≤ 8 * msg.length) : DHalts msg r (BufM.panic k : BufM ε α) Hang Q :=
  ⟨.panic k, r, rfl, hr, by simp, by simp⟩

theorem lift {o : Out ε α} (hr : r ≤ 8 * msg.length) (h : o = .diverge → Hang) :
    DHalts msg r (BufM.lift o) Hang (fun a r' => r' = r ∧ o = .ok a) :=
  ⟨o, r, rfl, hr, fun a h => ⟨rfl, h⟩, h⟩

theorem mapErr {m : BufM ε α} {f : ε → ε'} {Q : α → Nat → Prop} (h : DHalts msg r m Hang Q) :
    DHalts msg r (BufM.mapErr f m) Hang Q := by
  obtain ⟨o, r', e, hr, h1, h2⟩ := h
  refine ⟨o.mapErr f, r', by unfold BufM.mapErr; rw [e], hr, ?_, ?_⟩
  · intro a ha
    cases o <;> simp [Out.mapErr] at ha
    subst ha; exact h1 _ rfl
  · intro hn
    apply h2
    cases o <;> simp_all [Out.mapErr]

theorem name (p : Profile) (hr : r ≤ 8 * msg.length) :
    DHalts msg r (nameP p) Hang (fun _ r' => r < r' ∧ ∃ ls k, WireName (codeAddr p) msg r ls r' k) := by
  apply mapErr
  obtain ⟨o, r', e, hr', h⟩ := Name.fromBytes_spec p msg r hr
  refine ⟨o, r', e, hr', ?_, ?_⟩
  · rintro n rfl
    obtain ⟨-, ls, k, hw, -⟩ := h
    exact ⟨by have := WireName_next hw; omega, ls, k, hw⟩
  · rintro rfl
    exact h.elim

theorem add (p : Profile) {a b : UInt16} (hr : r ≤ 8 * msg.length) :
    DHalts msg r (BufM.lift (addU16 p a b) : BufM ParsingErr UInt16) Hang (fun _ r' => r' = r) := by
  refine (lift hr ?_).mono id fun _ _ h => h.1
  unfold addU16
  by_cases h : a.toNat + b.toNat < 65536
  · rw [if_pos h]; simp
  · rw [if_neg h]; cases p <;> simp

theorem checkLen (p : Profile) {len : UInt16} {before after : Nat} {v : α} (hr : r ≤ 8 * msg.length) :
    DHalts msg r (Record.checkLen p len before after v) Hang (fun _ _ => True) := by
  unfold Record.checkLen
  refine bind (lift hr ?_) fun want r1 hr1 _ => ?_
  · unfold mulU16
    by_cases h : len.toNat * (8 : UInt16).toNat < 65536
    · rw [if_pos h]; simp
    · rw [if_neg h]; cases p <;> simp
  · by_cases h : after - before ≠ want.toNat
    · rw [if_pos h]; exact throw hr1
    · rw [if_neg h]; exact pure hr1 trivial

end DHalts

theorem halts_txtLoop (p : Profile) {msg : List UInt8} {len : UInt16} {Hang : Prop} :
    ∀ (fuel : Nat) (strs : List Str) (read : UInt16) (r : Nat), r ≤ 8 * msg.length → 8 * msg.length < r + fuel →
      DHalts msg r (Record.decodeTxtLoop p len fuel strs read) Hang (fun _ _ => True)
  | 0, _, _, r, hr, hf => by omega
  | fuel + 1, strs, read, r, hr, hf => by
    unfold Record.decodeTxtLoop
    refine (Run.halts (Run.readPos hr)).bind fun pos r0 hr0 ⟨h1, h2⟩ => ?_
    subst h1; subst h2
    refine (Run.halts (Run.u8 hr0)).bind fun l r1 hr1 ⟨h3, f1⟩ => ?_
    have hset : DHalts msg r1 (setReadPos (pos - 1) : BufM ParsingErr Unit) Hang (fun _ r' => r' = pos - 1) := by
      refine ⟨.ok (), pos - 1, ?_, by omega, fun _ _ => rfl, by simp⟩
      rw [setReadPos_bit (by omega)]
    refine hset.bind fun _ r2 hr2 h4 => (DHalts.add p hr2).bind fun s1 r3 hr3 h5 =>
      (DHalts.add p hr3).bind fun s2 r4 hr4 h6 => ?_
    by_cases hc : s2 > len
    · rw [if_pos hc]; exact DHalts.throw hr4
    · rw [if_neg hc]
      refine (Run.halts (Run.charStr hr4)).bind fun str r5 hr5 ⟨l2, f2, h9⟩ => (DHalts.add p hr5).bind fun l1 r6 hr6 h10 =>
        (DHalts.add p hr6).bind fun rd2 r7 hr7 h11 => ?_
      by_cases hd : rd2 = len
      · rw [if_pos hd]; exact DHalts.pure hr7 trivial
      · rw [if_neg hd]
        exact halts_txtLoop p fuel _ rd2 r7 hr7 (by omega)

theorem wks_debug : ∀ l : List UInt8, Record.parseWksPorts .debug l ≠ .diverge
  | [] => by intro h; cases h
  | x :: xs => by
    unfold Record.parseWksPorts
    by_cases hx : x = 0
    · rw [if_pos hx]; exact wks_debug xs
    · rw [if_neg hx]; intro h; cases h

theorem halts_wks (p : Profile) {msg : List UInt8} {r : Nat} {len : UInt16} (hr : r ≤ 8 * msg.length) :
    DHalts msg r (Record.decodeWks p len)
      (p = .release ∧ ∃ i v, 5 + i < len.toNat ∧ FieldAt msg (r + 40 + 8 * i) 8 v ∧ v ≠ 0) (fun _ _ => True) := by
  unfold Record.decodeWks
  have e5 : (5 : UInt16).toNat = 5 := rfl
  refine (Run.halts (run_ip4 hr)).bind fun ip r1 hr1 h1 => (Run.halts (Run.u8 hr1)).bind fun proto r2 hr2 ⟨h2, f2⟩ => ?_
  by_cases h5 : len > 5
  · have h5' : 5 < len.toNat := UInt16.lt_iff_toNat_lt.1 h5
    have hn : (len - 5).toNat = len.toNat - 5 := by
      rw [UInt16.toNat_sub_of_le _ _ (UInt16.le_iff_toNat_le.2 (by omega)), e5]
    rw [if_pos h5, hn]
    by_cases h : r2 + 8 * (len.toNat - 5) ≤ 8 * msg.length
    · obtain ⟨l, e1, e2, e3⟩ := readBytesVec_bit (ε := ParsingErr) (len.toNat - 5) h
      refine DHalts.bind (Q := fun o r' => o = some l ∧ r' = r2 + 8 * (len.toNat - 5))
        ⟨_, _, e1, h, by rintro _ ⟨⟩; exact ⟨rfl, rfl⟩, by simp⟩ fun o r3 hr3 ⟨h3, h4⟩ => ?_
      subst h3
      refine (DHalts.lift hr3 ?_).bind fun ports r4 hr4 _ => DHalts.pure hr4 trivial
      intro hret
      have hp : p = .release := by
        cases p with
        | release => rfl
        | debug =>
          exact absurd hret (wks_debug l)
      refine ⟨hp, ?_⟩
      by_cases hall : ∀ x ∈ l, x = 0
      · rw [parseWksPorts_zero p hall] at hret; cases hret
      · simp only [not_forall] at hall
        obtain ⟨x, hx, hx0⟩ := hall
        obtain ⟨i, hi, rfl⟩ := List.mem_iff_getElem.1 hx
        refine ⟨i, (l[i]).toNat, by omega, ?_, fun h => hx0 (UInt8.toNat_inj.1 h)⟩
        have := e3 i hi
        rwa [show r + 40 + 8 * i = r2 + 8 * i by omega]
    · have e1 := readBytesVec_bit_none (ε := ParsingErr) (msg := msg) (r := r2) (len.toNat - 5) (by omega)
      refine DHalts.bind (Q := fun o r' => o = none ∧ r' = r2)
        ⟨_, _, e1, hr2, by rintro _ ⟨⟩; exact ⟨rfl, rfl⟩, by simp⟩ fun o r3 hr3 ⟨h3, h4⟩ => ?_
      subst h3
      exact DHalts.panic hr3
  · rw [if_neg h5]
    exact DHalts.pure hr2 trivial

theorem halts_nameData (p : Profile) {msg : List UInt8} {r : Nat} {len : UInt16} (f : Name → RData) {Hang : Prop}
    (hr : r ≤ 8 * msg.length) : DHalts msg r (do let x ← Record.decodeNameData p len; pure (f x)) Hang (fun _ _ => True) := by
  unfold Record.decodeNameData
  refine DHalts.bind (Q := fun _ _ => True) ?_ fun _ r1 hr1 _ => DHalts.pure hr1 trivial
  exact (Run.halts (Run.readPos hr)).bind fun b r1 hr1 _ => (DHalts.name p hr1).bind fun n r2 hr2 _ =>
    (Run.halts (Run.readPos hr2)).bind fun a r3 hr3 _ => DHalts.checkLen p hr3

theorem halts_data (p : Profile) {msg : List UInt8} {r : Nat} {t : RecordType} {len : UInt16} (hr : r ≤ 8 * msg.length) :
    DHalts msg r (Record.decodeData p t len)
      (t = .WKS ∧ p = .release ∧ ∃ i v, 5 + i < len.toNat ∧ FieldAt msg (r + 40 + 8 * i) 8 v ∧ v ≠ 0) (fun _ _ => True) := by
  cases t <;> first | exact DHalts.panic hr | skip
  · -- A
    show DHalts msg r (do let x ← Record.decodeA len; pure (RData.A x)) _ _
    unfold Record.decodeA
    by_cases h : len ≠ 4
    · rw [if_pos h]
      exact DHalts.bind (Q := fun _ _ => False) (DHalts.throw hr) (fun _ _ _ h => h.elim)
    · rw [if_neg h]
      exact (Run.halts (run_ip4 hr)).bind fun ip r1 hr1 h1 => DHalts.pure hr1 trivial
  · exact halts_nameData p .NS hr
  · exact halts_nameData p .CNAME hr
  · show DHalts msg r (Record.decodeSoa p len) _ _
    unfold Record.decodeSoa
    exact (Run.halts (Run.readPos hr)).bind fun _ r0 hr0 _ => (DHalts.name p hr0).bind fun _ r1 hr1 _ =>
      (DHalts.name p hr1).bind fun _ r2 hr2 _ => (Run.halts (Run.u32 hr2)).bind fun _ r3 hr3 _ =>
      (Run.halts (Run.u32 hr3)).bind fun _ r4 hr4 _ => (Run.halts (Run.u32 hr4)).bind fun _ r5 hr5 _ =>
      (Run.halts (Run.u32 hr5)).bind fun _ r6 hr6 _ => (Run.halts (Run.u32 hr6)).bind fun _ r7 hr7 _ =>
      (Run.halts (Run.readPos hr7)).bind fun _ r8 hr8 _ => DHalts.checkLen p hr8
  · exact (halts_wks p hr).mono (fun h => ⟨rfl, h⟩) fun _ _ h => h
  · exact halts_nameData p .PTR hr
  · show DHalts msg r (Record.decodeHinfo p len) _ _
    unfold Record.decodeHinfo
    exact (Run.halts (Run.readPos hr)).bind fun _ r0 hr0 _ => (Run.halts (Run.charStr hr0)).bind fun _ r1 hr1 _ =>
      (Run.halts (Run.charStr hr1)).bind fun _ r2 hr2 _ => (Run.halts (Run.readPos hr2)).bind fun _ r3 hr3 _ =>
      DHalts.checkLen p hr3
  · show DHalts msg r (Record.decodeMx p len) _ _
    unfold Record.decodeMx
    exact (Run.halts (Run.readPos hr)).bind fun _ r0 hr0 _ => (Run.halts (Run.u16 hr0)).bind fun _ r1 hr1 _ =>
      (DHalts.name p hr1).bind fun _ r2 hr2 _ => (Run.halts (Run.readPos hr2)).bind fun _ r3 hr3 _ => DHalts.checkLen p hr3
  · have h := halts_txtLoop p (msg := msg) (len := len) (Hang := RecordType.TXT = .WKS ∧ p = .release ∧
      ∃ i v, 5 + i < len.toNat ∧ FieldAt msg (r + 40 + 8 * i) 8 v ∧ v ≠ 0)
      ((rdBit msg r).last + 1) [] 0 r hr (by simp [rdBit]; omega)
    exact DHalts.bind (f := fun txts => (pure (RData.TXT txts) : BufM ParsingErr RData)) (Q' := fun _ _ => True) h
      (fun a r' hr' hq => DHalts.pure hr' trivial)

theorem halts_record (p : Profile) {msg : List UInt8} {r : Nat} (hr : r ≤ 8 * msg.length) :
    DHalts msg r (Record.decode p) (p = .release ∧ WksBit p msg r) (fun _ _ => True) := by
  unfold Record.decode
  refine (DHalts.name p hr).bind fun node r1 hr1 ⟨l1, ls, k, hw⟩ => (Run.halts (run_recordType hr1)).bind fun t r2 hr2 ⟨h2, f2, hs⟩ =>
    (Run.halts (Run.u16 hr2)).bind fun cn r3 hr3 ⟨h3, f3⟩ => (Run.halts (run_class cn hr3)).bind fun c r4 hr4 ⟨h4, h4', _⟩ =>
    (Run.halts (Run.u32 hr4)).bind fun ttl r5 hr5 ⟨h5, f5⟩ => (Run.halts (Run.u16 hr5)).bind fun len r6 hr6 ⟨h6, f6⟩ => ?_
  have e : r6 = r1 + 80 := by omega
  subst e
  have f7 : FieldAt msg (r1 + 64) 16 len.toNat := by rwa [show r1 + 64 = r5 by omega]
  refine ((halts_data p hr6).mono ?_ fun _ _ h => h).bind fun d r7 hr7 _ => DHalts.pure hr7 trivial
  rintro ⟨rfl, hp, i, v, h1, h2, h3⟩
  exact ⟨hp, ls, r1, k, len.toNat, i, v, hw, f2, f7, h1, h2, h3⟩

theorem halts_items {α : Type} (p : Profile) {msg : List UInt8} {d : BufM ParsingErr α} {sec : Section}
    (hrun : ∀ r, r ≤ 8 * msg.length → DHalts msg r d (p = .release ∧ WksBit p msg r) (fun _ _ => True))
    (hstep : ∀ r r', Reached p msg r → StepsTo d msg r r' → Reached p msg r') :
    ∀ (n i : Nat) (r : Nat), r ≤ 8 * msg.length → Reached p msg r →
      DHalts msg r (Message.decodeItems d sec n i) (p = .release ∧ ∃ r₁, Reached p msg r₁ ∧ WksBit p msg r₁)
        (fun _ r' => Reached p msg r')
  | 0, i, r, hr, hre => DHalts.pure hr hre
  | n + 1, i, r, hr, hre => by
    obtain ⟨o, r', e, hr', hq, hb⟩ := hrun r hr
    unfold DHalts
    simp only [Message.decodeItems, e]
    cases o with
    | ok a =>
      have h := halts_items p hrun hstep (sec := sec) n (i + 1) r' hr' (hstep r r' hre ⟨_, e, .inl ⟨a, rfl⟩⟩)
      exact DHalts.bind (f := fun rest => (pure (a :: rest) : BufM MessageErr (List α))) h
        (Q' := fun _ r' => Reached p msg r') (fun as r2 hr2 h2 => DHalts.pure hr2 h2)
    | err x =>
      cases x with
      | unknownType v =>
        exact halts_items p hrun hstep (sec := sec) n (i + 1) r' hr' (hstep r r' hre ⟨_, e, .inr ⟨v, rfl⟩⟩)
      | _ => exact ⟨_, r', rfl, hr', by simp, by simp⟩
    | panic k => exact ⟨_, r', rfl, hr', by simp, by simp⟩
    | diverge => exact ⟨_, r', rfl, hr', by simp, fun _ => ⟨(hb rfl).1, r, hre, (hb rfl).2⟩⟩

theorem halts_message (p : Profile) (msg : List UInt8) :
    DHalts msg 0 (Message.decode p) (p = .release ∧ ∃ r₁, Reached p msg r₁ ∧ WksBit p msg r₁) (fun _ _ => True) := by
  unfold Message.decode
  refine (DHalts.mapErr (Run.halts (run_header (Nat.zero_le _)))).bind fun h r1 hr1 ⟨h1, hl⟩ => ?_
  refine (DHalts.lift hr1 ?_).bind fun _ r2 hr2 ⟨h2, _⟩ => ?_
  · intro hn
    exfalso
    rcases h with ⟨_, _, op, _⟩
    cases op <;> cases hn
  have h96 : r2 = 96 := by omega
  subst h96
  have rq : ∀ r, r ≤ 8 * msg.length → DHalts msg r (Question.decode p) (p = .release ∧ WksBit p msg r) (fun _ _ => True) := by
    intro r hr
    unfold Question.decode
    refine (DHalts.name p hr).bind fun node r1 hr1 _ => ?_
    have ht : DHalts msg r1 Question.decodeRecordType (p = .release ∧ WksBit p msg r) (fun _ _ => True) := by
      unfold Question.decodeRecordType
      refine (Run.halts (Run.u16 hr1)).bind fun n r2 hr2 _ => ?_
      cases ht : RecordType.fromNum n with
      | none => exact (Run.halts (Run.u16 hr2)).bind fun _ r3 hr3 _ => DHalts.throw hr3
      | some t =>
        simp only
        by_cases hs : (!t.isSupportedForQuestion) = true
        · rw [if_pos hs]; exact DHalts.throw hr2
        · rw [if_neg hs]; exact DHalts.pure hr2 trivial
    refine ht.bind fun t r2 hr2 _ => (Run.halts (Run.u16 hr2)).bind fun cn r3 hr3 _ => ?_
    have he : Question.decodeClass cn = Record.decodeClass cn := by
      unfold Question.decodeClass Record.decodeClass; cases Class.fromNum cn <;> rfl
    rw [he]
    exact (Run.halts (run_class cn hr3)).bind fun c r4 hr4 _ => DHalts.pure hr4 trivial
  have rr := fun r hr => halts_record p (msg := msg) (r := r) hr
  exact (halts_items p rq (fun _ _ a b => .question a b) _ _ _ hr2 .start).bind fun qs r3 hr3 h3 =>
    (halts_items p rr (fun _ _ a b => .record a b) _ _ _ hr3 h3).bind fun an r4 hr4 h4 =>
    (halts_items p rr (fun _ _ a b => .record a b) _ _ _ hr4 h4).bind fun au r5 hr5 h5 =>
    (halts_items p rr (fun _ _ a b => .record a b) _ _ _ hr5 h5).bind fun ad r6 hr6 h6 =>
    DHalts.pure hr6 trivial

/-- Decoding hangs only in release builds, and only because of a WKS record with a port bit. -/
theorem decode_hangs {p : Profile} {msg : List UInt8} (h : Message.decodeFromBytes p msg = .diverge) :
    p = .release ∧ ∃ r, Reached p msg r ∧ WksBit p msg r := by
  obtain ⟨o, r', e, -, -, hd⟩ := halts_message p msg
  apply hd
  unfold Message.decodeFromBytes at h
  have e' : Message.decode p (fromRawBytes msg) = (o, rdBit msg r') := e
  rw [e'] at h
  exact h

end Ariadne
