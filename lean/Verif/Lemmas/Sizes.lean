import Verif.Lemmas.Valid

/-! # How big a decoded record can be -/

namespace Ariadne

open Spec BitsBuf

/-- The octets of the strings of a TXT record. -/
def textSize (l : List Str) : Nat := (l.flatMap charString).length

theorem textSize_snoc (l : List Str) (s : Str) : textSize (l ++ [s]) = textSize l + (strBytes s).length + 1 := by
  unfold textSize
  rw [List.flatMap_append, List.length_append]
  simp [charString]
  omega

theorem run_charStr_size {msg : List UInt8} {r : Nat} {Bad : Prop} (hr : r ≤ 8 * msg.length) :
    Run msg r decodeCharacterString Bad (fun s r' => r' = r + 8 + 8 * (strBytes s).length) := by
  unfold decodeCharacterString
  refine Run.bind (Run.u8 hr) fun l r1 hr1 ⟨h1, f1⟩ => Run.bind (Run.bytes l.toNat hr1) fun bs r2 hr2 ⟨h2, h3, f2⟩ => ?_
  by_cases hl : bs.length > 255
  · rw [if_pos hl]; exact Run.throw hr2
  · rw [if_neg hl]
    cases hu : fromUtf8 bs with
    | none => exact Run.throw hr2
    | some s =>
      have := (fromUtf8_iff _ _).1 hu
      exact Run.pure hr2 (by rw [this, h3]; omega)

theorem run_txtLoop_size (p : Profile) {msg : List UInt8} {len : UInt16} :
    ∀ (fuel : Nat) (strs : List Str) (read : UInt16) (r : Nat), r ≤ 8 * msg.length →
      Run msg r (Record.decodeTxtLoop p len fuel strs read) True (fun out r' => 7 * textSize out + r ≤ 7 * textSize strs + r')
  | 0, _, _, r, hr => ⟨.diverge, r, rfl, hr, by simp, fun _ => trivial⟩
  | fuel + 1, strs, read, r, hr => by
    unfold Record.decodeTxtLoop
    refine (Run.readPos hr).bind fun pos r0 hr0 ⟨h1, h2⟩ => ?_
    subst h1; subst h2
    refine (Run.u8 hr0).bind fun l r1 hr1 ⟨h3, f1⟩ => ?_
    have hset : Run msg r1 (setReadPos (pos - 1) : BufM ParsingErr Unit) True (fun _ r' => r' = pos - 1) := by
      refine ⟨.ok (), pos - 1, ?_, by omega, fun _ _ => rfl, by simp [Out.Returns]⟩
      rw [setReadPos_bit (by omega)]
    refine hset.bind fun _ r2 hr2 h4 => (run_add p hr2 (fun _ _ => trivial)).bind fun s1 r3 hr3 ⟨h5, _⟩ =>
      (run_add p hr3 (fun _ _ => trivial)).bind fun s2 r4 hr4 ⟨h6, _⟩ => ?_
    by_cases hc : s2 > len
    · rw [if_pos hc]; exact Run.throw hr4
    · rw [if_neg hc]
      refine (run_charStr_size hr4).bind fun str r5 hr5 h7 => (run_add p hr5 (fun _ _ => trivial)).bind fun l1 r6 hr6 ⟨h8, _⟩ =>
        (run_add p hr6 (fun _ _ => trivial)).bind fun rd2 r7 hr7 ⟨h9, _⟩ => ?_
      have hs := textSize_snoc strs str
      by_cases hd : rd2 = len
      · rw [if_pos hd]; exact Run.pure hr7 (by omega)
      · rw [if_neg hd]
        exact (run_txtLoop_size p fuel _ rd2 r7 hr7).mono id fun _ _ h => by omega

theorem wksPorts_none (p : Profile) : ∀ {bs : List UInt8} {ports : List UInt32}, Record.parseWksPorts p bs = .ok ports → ports = []
  | [], _, h => by cases h; rfl
  | x :: xs, ports, h => by
    unfold Record.parseWksPorts at h
    by_cases hx : x = 0
    · rw [if_pos hx] at h; exact wksPorts_none p h
    · rw [if_neg hx] at h; cases p <;> cases h

/-- Record data as it comes out of a datagram: no ports, and strings of at most 585 octets together. -/
def SmallData (d : RData) : Prop :=
  (∀ l, d = .TXT l → textSize l ≤ 585) ∧ ∀ ip proto ports, d = .WKS ip proto ports → ports = []

theorem smallData_other {d : RData} (h1 : d.recordType ≠ .TXT) (h2 : d.recordType ≠ .WKS) : SmallData d := by
  refine ⟨?_, ?_⟩
  · rintro l rfl; exact absurd rfl h1
  · rintro _ _ _ rfl; exact absurd rfl h2

theorem run_wks_none (p : Profile) {msg : List UInt8} {r : Nat} {len : UInt16} (hr : r ≤ 8 * msg.length) :
    Run msg r (Record.decodeWks p len) True (fun d _ => ∃ ip proto, d = .WKS ip proto []) := by
  unfold Record.decodeWks
  refine (run_ip4 hr).bind fun ip r1 hr1 h1 => (Run.u8 hr1).bind fun proto r2 hr2 ⟨h2, f2⟩ => ?_
  by_cases h5 : len > 5
  · rw [if_pos h5]
    by_cases h : r2 + 8 * (len - 5).toNat ≤ 8 * msg.length
    · obtain ⟨l, e1, e2, e3⟩ := readBytesVec_bit (ε := ParsingErr) (len - 5).toNat h
      refine Run.bind (Q := fun o r' => o = some l)
        ⟨_, _, e1, h, by rintro _ ⟨⟩; rfl, by simp [Out.Returns]⟩ fun o r3 hr3 h3 => ?_
      subst h3
      refine (Run.lift hr3 fun _ => trivial).bind fun ports r4 hr4 ⟨h6, h7⟩ => Run.pure hr4 ⟨ip, proto, ?_⟩
      rw [wksPorts_none p h7]
    · have e1 := readBytesVec_bit_none (ε := ParsingErr) (msg := msg) (r := r2) (len - 5).toNat (by omega)
      refine Run.bind (Q := fun o r' => o = none)
        ⟨_, _, e1, hr2, by rintro _ ⟨⟩; rfl, by simp [Out.Returns]⟩ fun o r3 hr3 h3 => ?_
      subst h3
      exact Run.panic hr3 trivial
  · rw [if_neg h5]
    exact Run.pure hr2 ⟨ip, proto, rfl⟩

theorem run_data_small (p : Profile) {msg : List UInt8} {r : Nat} {t : RecordType} {len : UInt16} (hm : msg.length ≤ 512)
    (hr : r ≤ 8 * msg.length) (ht : t.isSupportedForRecords = true) :
    Run msg r (Record.decodeData p t len) True (fun d _ => SmallData d) := by
  by_cases h1 : t = .TXT
  · subst h1
    show Run msg r (Record.decodeTxt p len) _ _
    unfold Record.decodeTxt
    refine (run_txtLoop_size p _ _ _ _ hr).bind fun txts r1 hr1 hs => Run.pure hr1 ⟨?_, ?_⟩
    · rintro l h
      injection h with h
      subst h
      have : textSize [] = 0 := rfl
      omega
    · intro _ _ _ h; cases h
  · by_cases h2 : t = .WKS
    · subst h2
      refine (run_wks_none p hr).mono id ?_
      rintro _ _ ⟨ip, proto, rfl⟩
      exact ⟨fun _ h => (by cases h), fun _ _ _ h => (by cases h; rfl)⟩
    · refine (run_data p hr ht).mono (fun _ => trivial) fun d r' hd => smallData_other ?_ ?_
      · rw [hd.2.1]; exact h1
      · rw [hd.2.1]; exact h2

theorem run_record_small (p : Profile) {msg : List UInt8} {r : Nat} (hm : msg.length ≤ 512) (hr : r ≤ 8 * msg.length) :
    Run msg r (Record.decode p) True (fun rec _ => SmallData rec.data) := by
  unfold Record.decode
  exact (Run.validName p hr).bind fun node r1 hr1 hv => (run_recordType hr1).bind fun t r2 hr2 ⟨_, _, hs⟩ =>
    (Run.u16 hr2).bind fun cn r3 hr3 _ => (run_class cn hr3).bind fun c r4 hr4 hc =>
    (Run.u32 hr4).bind fun ttl r5 hr5 _ => (Run.u16 hr5).bind fun len r6 hr6 _ =>
    (run_data_small p hm hr6 hs).bind fun d r7 hr7 h7 => Run.pure hr7 h7

theorem run_message_small (p : Profile) {msg : List UInt8} (hm : msg.length ≤ 512) :
    Run msg 0 (Message.decode p) True (fun m _ => ∀ r ∈ m.answers ++ m.authorities ++ m.additionals, SmallData r.data) := by
  unfold Message.decode
  refine (Run.mapErr (run_header (Nat.zero_le _))).bind fun h r1 hr1 _ => (Run.lift hr1 fun _ => trivial).bind fun _ r2 hr2 _ =>
    (run_items_all (fun r hr => run_question_valid p hr) _ _ _ hr2).bind fun qs r3 hr3 _ =>
    (run_items_all (fun r hr => run_record_small p hm hr) _ _ _ hr3).bind fun an r4 hr4 c4 =>
    (run_items_all (fun r hr => run_record_small p hm hr) _ _ _ hr4).bind fun au r5 hr5 c5 =>
    (run_items_all (fun r hr => run_record_small p hm hr) _ _ _ hr5).bind fun ad r6 hr6 c6 => Run.pure hr6 ?_
  intro r hr
  simp only [List.mem_append] at hr
  rcases hr with (h | h) | h
  · exact c4 r h
  · exact c5 r h
  · exact c6 r h

theorem decoded_small {p : Profile} {bytes : List UInt8} {m : Message} (hl : bytes.length ≤ 512)
    (h : Message.decodeFromBytes p bytes = .ok m) : ∀ r ∈ m.answers ++ m.authorities ++ m.additionals, SmallData r.data := by
  obtain ⟨o, r', e, -, hq, -⟩ := run_message_small p hl
  unfold Message.decodeFromBytes at h
  have e' : Message.decode p (fromRawBytes bytes) = (o, rdBit bytes r') := e
  rw [e'] at h
  exact hq m h

end Ariadne
