import Verif.Lemmas.Trunc
import Verif.Spec.Hazards

/-! # Everything the decoders can do on arbitrary bytes -/

namespace Ariadne

open Spec BitsBuf

/-- Run from bit `r`: ends inside the message; a value satisfies `Q`; not returning implies `Bad`. -/
def Run {ε α : Type} (msg : List UInt8) (r : Nat) (d : BufM ε α) (Bad : Prop) (Q : α → Nat → Prop) : Prop :=
  ∃ o r', d (rdBit msg r) = (o, rdBit msg r') ∧ r' ≤ 8 * msg.length ∧ (∀ a, o = .ok a → Q a r') ∧ (¬ o.Returns → Bad)

namespace Run

variable {ε ε' α β : Type} {msg : List UInt8} {r : Nat} {Bad Bad' : Prop}

theorem bind {m : BufM ε α} {f : α → BufM ε β} {Q : α → Nat → Prop} {Q' : β → Nat → Prop}
    (h1 : Run msg r m Bad Q) (h2 : ∀ a r', r' ≤ 8 * msg.length → Q a r' → Run msg r' (f a) Bad Q') :
    Run msg r (m >>= f) Bad Q' := by
  obtain ⟨o, r', e, hr, hq, hb⟩ := h1
  cases o with
  | ok a =>
    obtain ⟨o2, r2, e2, h⟩ := h2 a r' hr (hq a rfl)
    exact ⟨o2, r2, by rw [BufM.bind_ok e, e2], h⟩
  | err x => exact ⟨.err x, r', BufM.bind_err e, hr, by simp, by simp [Out.Returns]⟩
  | panic x => exact ⟨.panic x, r', BufM.bind_panic e, hr, by simp, fun _ => hb (by simp [Out.Returns])⟩
  | diverge =>
    refine ⟨.diverge, r', ?_, hr, by simp, fun _ => hb (by simp [Out.Returns])⟩
    rw [BufM.bind_apply, e]

theorem mono {m : BufM ε α} {Q Q' : α → Nat → Prop} (h : Run msg r m Bad Q) (hb : Bad → Bad')
    (hq : ∀ a r', Q a r' → Q' a r') : Run msg r m Bad' Q' := by
  obtain ⟨o, r', e, hr, h1, h2⟩ := h
  exact ⟨o, r', e, hr, fun a ha => hq _ _ (h1 a ha), fun h => hb (h2 h)⟩

theorem pure {Q : α → Nat → Prop} {a : α} (hr : r ≤ 8 * msg.length) (h : Q a r) :
    Run msg r (Pure.pure a : BufM ε α) Bad Q :=
  ⟨.ok a, r, rfl, hr, by rintro _ ⟨⟩; exact h, by simp [Out.Returns]⟩

theorem throw {Q : α → Nat → Prop} {e : ε} (hr : r ≤ 8 * msg.length) : Run msg r (BufM.throw e : BufM ε α) Bad Q :=
  ⟨.err e, r, rfl, hr, by simp, by simp [Out.Returns]⟩

theorem lift {o : Out ε α} (hr : r ≤ 8 * msg.length) (h : ¬ o.Returns → Bad) :
    Run msg r (BufM.lift o) Bad (fun a r' => r' = r ∧ o = .ok a) :=
  ⟨o, r, rfl, hr, fun a h => ⟨rfl, h⟩, h⟩

theorem panic {Q : α → Nat → Prop} {k : Panic} (hr : r ≤ 8 * msg.length) (h : Bad) :
    Run msg r (BufM.panic k : BufM ε α) Bad Q :=
  ⟨.panic k, r, rfl, hr, by simp, fun _ => h⟩

theorem mapErr {m : BufM ε α} {f : ε → ε'} {Q : α → Nat → Prop} (h : Run msg r m Bad Q) :
    Run msg r (BufM.mapErr f m) Bad Q := by
  obtain ⟨o, r', e, hr, h1, h2⟩ := h
  refine ⟨o.mapErr f, r', by unfold BufM.mapErr; rw [e], hr, ?_, ?_⟩
  · intro a ha
    cases o <;> simp [Out.mapErr] at ha
    subst ha; exact h1 _ rfl
  · intro hn
    apply h2
    cases o <;> simp_all [Out.mapErr, Out.Returns]

theorem bits (n : Nat) (hn0 : 0 < n) (hn : n ≤ 8) (hr : r ≤ 8 * msg.length) :
    Run msg r (checkEndP (readBits n)) Bad (fun v r' => r' = r + n ∧ FieldAt msg r n v.toNat) := by
  rcases getBits msg r n hn0 hn with ⟨l, v, e, f⟩ | ⟨l, e⟩
  · exact ⟨_, _, e, l, by rintro _ ⟨⟩; exact ⟨rfl, f⟩, by simp [Out.Returns]⟩
  · exact ⟨_, _, e, hr, by simp, by simp [Out.Returns]⟩

theorem u8 (hr : r ≤ 8 * msg.length) :
    Run msg r (checkEndP readU8) Bad (fun v r' => r' = r + 8 ∧ FieldAt msg r 8 v.toNat) :=
  bits 8 (by decide) (by decide) hr

theorem u16 (hr : r ≤ 8 * msg.length) :
    Run msg r (checkEndP readU16) Bad (fun v r' => r' = r + 16 ∧ FieldAt msg r 16 v.toNat) := by
  rcases getU16 msg r with ⟨l, v, e, f⟩ | ⟨l, e⟩
  · exact ⟨_, _, e, l, by rintro _ ⟨⟩; exact ⟨rfl, f⟩, by simp [Out.Returns]⟩
  · exact ⟨_, _, e, hr, by simp, by simp [Out.Returns]⟩

theorem u32 (hr : r ≤ 8 * msg.length) :
    Run msg r (checkEndP readU32) Bad (fun v r' => r' = r + 32 ∧ FieldAt msg r 32 v.toNat) := by
  rcases getU32 msg r with ⟨l, v, e, f⟩ | ⟨l, e⟩
  · exact ⟨_, _, e, l, by rintro _ ⟨⟩; exact ⟨rfl, f⟩, by simp [Out.Returns]⟩
  · exact ⟨_, _, e, hr, by simp, by simp [Out.Returns]⟩

theorem bytes (n : Nat) (hr : r ≤ 8 * msg.length) :
    Run msg r (checkEndP (readBytesVec n)) Bad (fun l r' => r' = r + 8 * n ∧ l.length = n ∧ BytesAt msg r l) := by
  rcases getBytes msg r n with ⟨l, v, e, f⟩ | ⟨l, e⟩
  · exact ⟨_, _, e, l, by rintro _ ⟨⟩; exact ⟨rfl, f⟩, by simp [Out.Returns]⟩
  · exact ⟨_, _, e, hr, by simp, by simp [Out.Returns]⟩

theorem readPos (hr : r ≤ 8 * msg.length) :
    Run msg r (BitsBuf.readPos : BufM ε Nat) Bad (fun v r' => r' = r ∧ v = r) :=
  ⟨.ok r, r, rfl, hr, by rintro _ ⟨⟩; exact ⟨rfl, rfl⟩, by simp [Out.Returns]⟩

theorem name (p : Profile) (hr : r ≤ 8 * msg.length) (hbad : BadName p msg r → Bad) :
    Run msg r (nameP p) Bad (fun n r' => r < r' ∧ ∃ ls k, WireName (codeAddr p) msg r ls r' k) := by
  apply mapErr
  obtain ⟨o, r', e, hr', h⟩ := Name.fromBytes_spec p msg r hr
  refine ⟨o, r', e, hr', ?_, ?_⟩
  · rintro n rfl
    obtain ⟨-, ls, k, hw, -⟩ := h
    exact ⟨by have := WireName_next hw; omega, ls, k, hw⟩
  · intro hn
    cases o with
    | ok a => simp [Out.Returns] at hn
    | err a => simp [Out.Returns] at hn
    | panic a => exact hbad h
    | diverge => exact h.elim

theorem charStr (hr : r ≤ 8 * msg.length) :
    Run msg r decodeCharacterString Bad
      (fun s r' => ∃ l : UInt8, FieldAt msg r 8 l.toNat ∧ r' = r + 8 + 8 * l.toNat) := by
  unfold decodeCharacterString
  refine bind (u8 hr) fun l r1 hr1 ⟨h1, f1⟩ => bind (bytes l.toNat hr1) fun bs r2 hr2 ⟨h2, h3, f2⟩ => ?_
  by_cases hl : bs.length > 255
  · rw [if_pos hl]; exact throw hr2
  · rw [if_neg hl]
    cases hu : fromUtf8 bs with
    | none => exact throw hr2
    | some s => exact pure hr2 ⟨l, f1, by omega⟩

theorem checkLen (p : Profile) {len : UInt16} {before after : Nat} {v : α} (hr : r ≤ 8 * msg.length)
    (hbad : LongData p len.toNat → Bad) :
    Run msg r (Record.checkLen p len before after v) Bad
      (fun v' r' => r' = r ∧ v' = v ∧ (p = .debug ∨ len.toNat < 8192 → after - before = 8 * len.toNat)) := by
  unfold Record.checkLen
  have e8 : (8 : UInt16).toNat = 8 := rfl
  refine bind (lift hr ?_) fun want r1 hr1 ⟨h1, h2⟩ => ?_
  · intro hn
    apply hbad
    unfold mulU16 at hn
    rw [e8] at hn
    by_cases h : len.toNat * 8 < 65536
    · rw [if_pos h] at hn; simp [Out.Returns] at hn
    · rw [if_neg h] at hn
      cases p
      · exact ⟨rfl, by omega⟩
      · simp [Out.Returns] at hn
  · by_cases hc : after - before ≠ want.toNat
    · rw [if_pos hc]; exact throw hr1
    · rw [if_neg hc]
      refine pure hr1 ⟨h1, rfl, fun hp => ?_⟩
      have hlt : len.toNat < 8192 := by
        rcases hp with rfl | h
        · unfold mulU16 at h2
          rw [e8] at h2
          by_cases h : len.toNat * 8 < 65536
          · omega
          · rw [if_neg h] at h2; cases h2
        · exact h
      unfold mulU16 at h2
      rw [e8, if_pos (by omega)] at h2
      cases h2
      have : (len * 8).toNat = 8 * len.toNat := by rw [UInt16.toNat_mul, e8]; omega
      omega

theorem withLen (p : Profile) {len : UInt16} {m : BufM ParsingErr α} {Q : α → Nat → Prop} (hr : r ≤ 8 * msg.length)
    (hbad : LongData p len.toNat → Bad) (h : Run msg r m Bad (fun a r' => r ≤ r' ∧ Q a r')) :
    Run msg r (Ariadne.withLen p len m) Bad
      (fun a r' => Q a r' ∧ (p = .debug ∨ len.toNat < 8192 → r' = r + 8 * len.toNat)) := by
  unfold Ariadne.withLen
  refine bind (readPos hr) fun b r1 hr1 ⟨h1, h2⟩ => ?_
  subst h1; subst h2
  refine bind h fun v r2 hr2 ⟨h3, h4⟩ => bind (readPos hr2) fun af r3 hr3 ⟨h5, h6⟩ => ?_
  subst h5; subst h6
  refine (checkLen p hr3 hbad).mono id ?_
  rintro a r' ⟨rfl, rfl, h⟩
  exact ⟨h4, fun hp => by have := h hp; omega⟩

end Run

theorem run_ip4 {msg : List UInt8} {r : Nat} {Bad : Prop} (hr : r ≤ 8 * msg.length) :
    Run msg r (checkEndP Record.readIp4) Bad (fun _ r' => r' = r + 32) := by
  by_cases h : r + 32 ≤ 8 * msg.length
  · obtain ⟨l, h1, h2, h3⟩ := readBytesVec_bit (ε := ParsingErr) (msg := msg) (r := r) 4 (by omega)
    match l, h2 with
    | [a, b, c, d], _ =>
      have e : Record.readIp4 (rdBit msg r) = (.ok (some ⟨a, b, c, d⟩), rdBit msg (r + 8 * 4)) := by
        unfold Record.readIp4; rw [BufM.bind_ok h1]; rfl
      exact ⟨_, _, checkEndP_some e, by omega, by rintro _ ⟨⟩; rfl, by simp [Out.Returns]⟩
  · have h1 := readBytesVec_bit_none (ε := ParsingErr) (msg := msg) (r := r) 4 (by omega)
    have e : Record.readIp4 (rdBit msg r) = (.ok none, rdBit msg r) := by
      unfold Record.readIp4; rw [BufM.bind_ok h1]; rfl
    exact ⟨_, _, checkEndP_none e, hr, by simp, by simp [Out.Returns]⟩

/-- What is promised after the data of a record: the right variant, and the cursor behind RDLENGTH octets. -/
def DataDone (p : Profile) (t : RecordType) (len : UInt16) (r : Nat) (d : RData) (r' : Nat) : Prop :=
  r ≤ r' ∧ d.recordType = t ∧
  (t ≠ .TXT → (t = .WKS → 5 ≤ len.toNat) → (p = .debug ∨ t = .A ∨ t = .WKS ∨ len.toNat < 8192) →
    r' = r + 8 * len.toNat)

theorem run_wks (p : Profile) {msg : List UInt8} {r : Nat} {len : UInt16} (hr : r ≤ 8 * msg.length) :
    Run msg r (Record.decodeWks p len) (BadData p msg .WKS len.toNat r) (DataDone p .WKS len r) := by
  unfold Record.decodeWks
  have e5 : (5 : UInt16).toNat = 5 := rfl
  refine (run_ip4 hr).bind fun ip r1 hr1 h1 => (Run.u8 hr1).bind fun proto r2 hr2 ⟨h2, f2⟩ => ?_
  by_cases h5 : len > 5
  · have h5' : 5 < len.toNat := UInt16.lt_iff_toNat_lt.1 h5
    have hn : (len - 5).toNat = len.toNat - 5 := by
      rw [UInt16.toNat_sub_of_le _ _ (UInt16.le_iff_toNat_le.2 (by omega)), e5]
    rw [if_pos h5, hn]
    by_cases h : r2 + 8 * (len.toNat - 5) ≤ 8 * msg.length
    · obtain ⟨l, e1, e2, e3⟩ := readBytesVec_bit (ε := ParsingErr) (len.toNat - 5) h
      refine Run.bind (Q := fun o r' => o = some l ∧ r' = r2 + 8 * (len.toNat - 5))
        ⟨_, _, e1, h, by rintro _ ⟨⟩; exact ⟨rfl, rfl⟩, by simp [Out.Returns]⟩ fun o r3 hr3 ⟨h3, h4⟩ => ?_
      subst h3
      refine (Run.lift hr3 ?_).bind fun ports r4 hr4 ⟨h6, h7⟩ =>
        Run.pure hr4 ⟨by omega, rfl, fun _ _ _ => by omega⟩
      intro hret
      refine ⟨h5', .inr ?_⟩
      by_cases hall : ∀ x ∈ l, x = 0
      · rw [parseWksPorts_zero p hall] at hret; simp [Out.Returns] at hret
      · simp only [not_forall] at hall
        obtain ⟨x, hx, hx0⟩ := hall
        obtain ⟨i, hi, rfl⟩ := List.mem_iff_getElem.1 hx
        refine ⟨i, (l[i]).toNat, by omega, ?_, fun h => hx0 (UInt8.toNat_inj.1 h)⟩
        have := e3 i hi
        rwa [show r + 40 + 8 * i = r2 + 8 * i by omega]
    · have e1 := readBytesVec_bit_none (ε := ParsingErr) (msg := msg) (r := r2) (len.toNat - 5) (by omega)
      refine Run.bind (Q := fun o r' => o = none ∧ r' = r2)
        ⟨_, _, e1, hr2, by rintro _ ⟨⟩; exact ⟨rfl, rfl⟩, by simp [Out.Returns]⟩ fun o r3 hr3 ⟨h3, h4⟩ => ?_
      subst h3
      exact Run.panic hr3 ⟨h5', .inl (by omega)⟩
  · rw [if_neg h5]
    have : ¬ 5 < len.toNat := fun h => h5 (UInt16.lt_iff_toNat_lt.2 h)
    exact Run.pure hr2 ⟨by omega, rfl, fun _ h _ => by have := h rfl; omega⟩

theorem run_add (p : Profile) {msg : List UInt8} {r : Nat} {a b : UInt16} {Bad : Prop} (hr : r ≤ 8 * msg.length)
    (hbad : p = .debug → 65536 ≤ a.toNat + b.toNat → Bad) :
    Run msg r (BufM.lift (addU16 p a b) : BufM ParsingErr UInt16) Bad
      (fun v r' => r' = r ∧ v.toNat = (a.toNat + b.toNat) % 65536 ∧ (p = .debug → a.toNat + b.toNat < 65536)) := by
  refine (Run.lift hr ?_).mono id ?_
  · intro hn
    unfold addU16 at hn
    by_cases h : a.toNat + b.toNat < 65536
    · rw [if_pos h] at hn; simp [Out.Returns] at hn
    · rw [if_neg h] at hn
      cases p
      · exact hbad rfl (by omega)
      · simp [Out.Returns] at hn
  · rintro v r' ⟨rfl, h⟩
    unfold addU16 at h
    by_cases hl : a.toNat + b.toNat < 65536
    · rw [if_pos hl] at h; cases h
      exact ⟨rfl, by rw [UInt16.toNat_add], fun _ => hl⟩
    · rw [if_neg hl] at h
      cases p
      · cases h
      · cases h; exact ⟨rfl, by rw [UInt16.toNat_add], fun h => by cases h⟩

theorem run_txtLoop (p : Profile) {msg : List UInt8} {len : UInt16} {Bad : Prop}
    (hbad : p = .debug → 65280 ≤ len.toNat → Bad) :
    ∀ (fuel : Nat) (strs : List Str) (read : UInt16) (r : Nat), r ≤ 8 * msg.length → 8 * msg.length < r + fuel →
      (p = .debug → read.toNat ≤ len.toNat) →
      Run msg r (Record.decodeTxtLoop p len fuel strs read) Bad (fun _ r' => r ≤ r')
  | 0, _, _, r, hr, hf, _ => by omega
  | fuel + 1, strs, read, r, hr, hf, hrd => by
    unfold Record.decodeTxtLoop
    refine (Run.readPos hr).bind fun pos r0 hr0 ⟨h1, h2⟩ => ?_
    subst h1; subst h2
    refine (Run.u8 hr0).bind fun l r1 hr1 ⟨h3, f1⟩ => ?_
    have hset : Run msg r1 (setReadPos (pos - 1) : BufM ParsingErr Unit) Bad (fun _ r' => r' = pos - 1) := by
      refine ⟨.ok (), pos - 1, ?_, by omega, fun _ _ => rfl, by simp [Out.Returns]⟩
      rw [setReadPos_bit (by omega)]
    have hl : l.toUInt16.toNat = l.toNat := by simp
    have hl2 := l.toNat_lt
    refine hset.bind fun _ r2 hr2 h4 => (run_add p hr2 ?_).bind fun s1 r3 hr3 ⟨h5, h6, h6'⟩ =>
      (run_add p hr3 ?_).bind fun s2 r4 hr4 ⟨h7, h8, h8'⟩ => ?_
    · intro hp h; have := hrd hp; exact hbad hp (by omega)
    · intro hp h; have := hrd hp; have := h6' hp
      have : (1 : UInt16).toNat = 1 := rfl
      exact hbad hp (by omega)
    by_cases hc : s2 > len
    · rw [if_pos hc]; exact Run.throw hr4
    · rw [if_neg hc]
      have hc' : s2.toNat ≤ len.toNat := by
        have : ¬ len.toNat < s2.toNat := fun h => hc (UInt16.lt_iff_toNat_lt.2 h)
        omega
      have e1 : (1 : UInt16).toNat = 1 := rfl
      refine (Run.charStr hr4).bind fun str r5 hr5 ⟨l2, f2, h9⟩ => (run_add p hr5 ?_).bind fun l1 r6 hr6 ⟨h10, h11, h11'⟩ =>
        (run_add p hr6 ?_).bind fun rd2 r7 hr7 ⟨h12, h13, h13'⟩ => ?_
      · intro hp h; omega
      · intro hp h; have := hrd hp; have := h6' hp; have := h8' hp; exact hbad hp (by omega)
      by_cases hd : rd2 = len
      · rw [if_pos hd]; exact Run.pure hr7 (by omega)
      · rw [if_neg hd]
        refine (run_txtLoop p hbad fuel _ rd2 r7 hr7 (by omega) ?_).mono id fun _ r' h => by omega
        intro hp
        have := h6' hp; have := h8' hp; have := h13' hp; have := h11' hp
        omega

theorem run_txt (p : Profile) {msg : List UInt8} {r : Nat} {len : UInt16} (hr : r ≤ 8 * msg.length) :
    Run msg r (Record.decodeTxt p len) (BadData p msg .TXT len.toNat r) (DataDone p .TXT len r) := by
  have h := run_txtLoop p (msg := msg) (len := len) (Bad := BadData p msg .TXT len.toNat r) (fun a b => ⟨a, b⟩)
    ((rdBit msg r).last + 1) [] 0 r hr (by simp [rdBit]; omega) (by simp)
  have h2 := Run.bind (f := fun txts => (pure (RData.TXT txts) : BufM ParsingErr RData)) (Q' := DataDone p .TXT len r) h
    (fun a r' hr' hq => Run.pure hr' ⟨hq, rfl, fun h => absurd rfl h⟩)
  exact h2

theorem run_nameData (p : Profile) {msg : List UInt8} {r : Nat} {len : UInt16} {t : RecordType} (f : Name → RData)
    (hr : r ≤ 8 * msg.length) (ht : ∀ n, (f n).recordType = t) (h1 : t ≠ .A) (h2 : t ≠ .WKS) {Bad : Prop}
    (hb : BadName p msg r ∨ LongData p len.toNat → Bad) :
    Run msg r (do let x ← Record.decodeNameData p len; pure (f x)) Bad (DataDone p t len r) := by
  rw [nameData_withLen]
  refine Run.bind (Run.withLen p hr (fun h => hb (.inr h)) (Q := fun _ r' => r < r')
    ((Run.name p hr (fun h => hb (.inl h))).mono id fun n r' h => ⟨by omega, h.1⟩)) ?_
  intro n r' hr' ⟨h3, h4⟩
  refine Run.pure hr' ⟨by omega, ht n, fun _ _ hp => h4 ?_⟩
  rcases hp with h | h | h | h
  · exact .inl h
  · exact absurd h h1
  · exact absurd h h2
  · exact .inr h

theorem run_data (p : Profile) {msg : List UInt8} {r : Nat} {t : RecordType} {len : UInt16} (hr : r ≤ 8 * msg.length)
    (ht : t.isSupportedForRecords = true) :
    Run msg r (Record.decodeData p t len) (BadData p msg t len.toNat r) (DataDone p t len r) := by
  have hp4 : ∀ {t : RecordType} {n : Nat}, t ≠ .A → t ≠ .WKS → (p = .debug ∨ t = .A ∨ t = .WKS ∨ n < 8192) →
      p = .debug ∨ n < 8192 := by
    intro t n h1 h2 h
    rcases h with h | h | h | h
    · exact .inl h
    · exact absurd h h1
    · exact absurd h h2
    · exact .inr h
  cases t <;> first | (exact absurd ht (by decide)) | skip
  · -- A
    show Run msg r (do let x ← Record.decodeA len; pure (RData.A x)) _ _
    unfold Record.decodeA
    by_cases h : len ≠ 4
    · rw [if_pos h]
      exact Run.bind (Q := fun _ _ => False) (Run.throw hr) (fun _ _ _ h => h.elim)
    · rw [if_neg h]
      have : len = 4 := Decidable.not_not.1 h
      subst this
      refine (run_ip4 hr).bind fun ip r1 hr1 h1 => Run.pure hr1 ⟨by omega, rfl, fun _ _ _ => ?_⟩
      have : (4 : UInt16).toNat = 4 := rfl
      omega
  · exact run_nameData p .NS hr (fun _ => rfl) (by decide) (by decide) id
  · exact run_nameData p .CNAME hr (fun _ => rfl) (by decide) (by decide) id
  · -- SOA
    show Run msg r (Record.decodeSoa p len) _ _
    rw [soa_withLen]
    refine (Run.withLen p hr (fun h => .inr (.inr h)) (Q := fun d r' => d.recordType = .SOA ∧ r ≤ r') ?_).mono id
      fun d r' ⟨⟨h1, h3⟩, h2⟩ => ⟨h3, h1, fun _ _ hp => h2 (hp4 (by decide) (by decide) hp)⟩
    refine (Run.name p hr (fun h => .inl h)).bind fun n1 r1 hr1 ⟨l1, ls, k, hw⟩ =>
      (Run.name p hr1 (fun h => .inr (.inl ⟨ls, r1, k, hw, h⟩))).bind fun n2 r2 hr2 ⟨l2, _⟩ =>
      (Run.u32 hr2).bind fun _ r3 hr3 ⟨l3, _⟩ => (Run.u32 hr3).bind fun _ r4 hr4 ⟨l4, _⟩ =>
      (Run.u32 hr4).bind fun _ r5 hr5 ⟨l5, _⟩ => (Run.u32 hr5).bind fun _ r6 hr6 ⟨l6, _⟩ =>
      (Run.u32 hr6).bind fun _ r7 hr7 ⟨l7, _⟩ => Run.pure hr7 ⟨by omega, rfl, by omega⟩
  · exact run_wks p hr
  · exact run_nameData p .PTR hr (fun _ => rfl) (by decide) (by decide) id
  · -- HINFO
    show Run msg r (Record.decodeHinfo p len) _ _
    rw [hinfo_withLen]
    refine (Run.withLen p hr id (Q := fun d r' => d.recordType = .HINFO ∧ r ≤ r') ?_).mono id
      fun d r' ⟨⟨h1, h3⟩, h2⟩ => ⟨h3, h1, fun _ _ hp => h2 (hp4 (by decide) (by decide) hp)⟩
    refine (Run.charStr hr).bind fun s1 r1 hr1 ⟨l1, _, h1⟩ => (Run.charStr hr1).bind fun s2 r2 hr2 ⟨l2, _, h2⟩ =>
      Run.pure hr2 ⟨by omega, rfl, by omega⟩
  · -- MX
    show Run msg r (Record.decodeMx p len) _ _
    rw [mx_withLen]
    refine (Run.withLen p hr .inr (Q := fun d r' => d.recordType = .MX ∧ r ≤ r') ?_).mono id
      fun d r' ⟨⟨h1, h3⟩, h2⟩ => ⟨h3, h1, fun _ _ hp => h2 (hp4 (by decide) (by decide) hp)⟩
    refine (Run.u16 hr).bind fun v r1 hr1 ⟨h1, _⟩ => (Run.name p hr1 ?_).bind fun n r2 hr2 ⟨h2, _⟩ =>
      Run.pure hr2 ⟨by omega, rfl, by omega⟩
    subst h1; exact .inl
  · exact run_txt p hr

/-! ## Items -/

theorem run_class {msg : List UInt8} {r : Nat} {Bad : Prop} (n : UInt16) (hr : r ≤ 8 * msg.length) :
    Run msg r (BufM.lift (Record.decodeClass n) : BufM ParsingErr Class) Bad
      (fun c r' => r' = r ∧ c = .IN ∧ n = Class.IN.toNum) := by
  refine (Run.lift hr ?_).mono id ?_
  · intro h
    unfold Record.decodeClass at h
    cases hc : Class.fromNum n with
    | none => rw [hc] at h; simp [Out.Returns] at h
    | some c =>
      rw [hc] at h
      by_cases hs : (!c.isSupported) = true
      · simp only [if_pos hs, Out.Returns] at h; exact absurd trivial h
      · simp only [if_neg hs, Out.Returns] at h; exact absurd trivial h
  · rintro c r' ⟨rfl, h⟩
    unfold Record.decodeClass at h
    cases hc : Class.fromNum n with
    | none => rw [hc] at h; cases h
    | some c' =>
      rw [hc] at h
      have hn := Class.toNum_of_fromNum hc
      cases c' <;> simp [Class.isSupported] at h
      subst h; exact ⟨rfl, rfl, hn.symm⟩

theorem run_recordType {msg : List UInt8} {r : Nat} {Bad : Prop} (hr : r ≤ 8 * msg.length) :
    Run msg r Record.decodeRecordType Bad
      (fun t r' => r' = r + 16 ∧ FieldAt msg r 16 t.toNum.toNat ∧ t.isSupportedForRecords = true) := by
  unfold Record.decodeRecordType
  refine (Run.u16 hr).bind fun n r1 hr1 ⟨h1, f⟩ => ?_
  cases ht : RecordType.fromNum n with
  | none =>
    refine (Run.u16 hr1).bind fun _ r2 hr2 _ => (Run.u32 hr2).bind fun _ r3 hr3 _ => (Run.u16 hr3).bind fun n r4 hr4 _ =>
      (Run.bytes n.toNat hr4).bind fun _ r5 hr5 _ => Run.throw hr5
  | some t =>
    simp only
    by_cases hs : (!t.isSupportedForRecords) = true
    · rw [if_pos hs]; exact Run.throw hr1
    · rw [if_neg hs]
      exact Run.pure hr1 ⟨h1, by rw [RecordType.toNum_of_fromNum ht]; exact f, by simpa using hs⟩

theorem run_record (p : Profile) {msg : List UInt8} {r : Nat} (hr : r ≤ 8 * msg.length) :
    Run msg r (Record.decode p) (Harmful p msg r) (fun rec r' => rec.cls = .IN ∧
      ∃ ls next k, WireName (codeAddr p) msg r ls next k ∧ FieldAt msg next 16 rec.recordType.toNum.toNat ∧
        FieldAt msg (next + 64) 16 rec.dataLen.toNat ∧ DataDone p rec.recordType rec.dataLen (next + 80) rec.data r') := by
  unfold Record.decode
  refine (Run.name p hr .inl).bind fun node r1 hr1 ⟨l1, ls, k, hw⟩ => (run_recordType hr1).bind fun t r2 hr2 ⟨h2, f2, hs⟩ =>
    (Run.u16 hr2).bind fun cn r3 hr3 ⟨h3, f3⟩ => (run_class cn hr3).bind fun c r4 hr4 ⟨h4, h4', _⟩ =>
    (Run.u32 hr4).bind fun ttl r5 hr5 ⟨h5, f5⟩ => (Run.u16 hr5).bind fun len r6 hr6 ⟨h6, f6⟩ => ?_
  have e : r6 = r1 + 80 := by omega
  subst e
  have f7 : FieldAt msg (r1 + 64) 16 len.toNat := by rwa [show r1 + 64 = r5 by omega]
  refine ((run_data p hr6 hs).mono (fun h => .inr ⟨ls, r1, k, t, len.toNat, hw, f2, f7, h⟩) fun _ _ h => h).bind
    fun d r7 hr7 h7 => Run.pure hr7 ⟨h4', ls, r1, k, hw, ?_, f7, ?_⟩
  · show FieldAt msg r1 16 d.recordType.toNum.toNat
    rw [h7.2.1]; exact f2
  · show DataDone p d.recordType len (r1 + 80) d r7
    rw [h7.2.1]; exact h7

theorem run_question (p : Profile) {msg : List UInt8} {r : Nat} (hr : r ≤ 8 * msg.length) :
    Run msg r (Question.decode p) (BadName p msg r) (fun q r' => q.cls = .IN ∧
      q.recordType.isSupportedForQuestion = true ∧
      ∃ ls next k, WireName (codeAddr p) msg r ls next k ∧ FieldAt msg next 16 q.recordType.toNum.toNat ∧
        r' = next + 32) := by
  unfold Question.decode
  refine (Run.name p hr id).bind fun node r1 hr1 ⟨l1, ls, k, hw⟩ => ?_
  have ht : Run msg r1 Question.decodeRecordType (BadName p msg r) (fun t r' => r' = r1 + 16 ∧ FieldAt msg r1 16 t.toNum.toNat ∧
      t.isSupportedForQuestion = true) := by
    unfold Question.decodeRecordType
    refine (Run.u16 hr1).bind fun n r2 hr2 ⟨h2, f⟩ => ?_
    cases ht : RecordType.fromNum n with
    | none => exact (Run.u16 hr2).bind fun _ r3 hr3 _ => Run.throw hr3
    | some t =>
      simp only
      by_cases hs : (!t.isSupportedForQuestion) = true
      · rw [if_pos hs]; exact Run.throw hr2
      · rw [if_neg hs]
        exact Run.pure hr2 ⟨h2, by rw [RecordType.toNum_of_fromNum ht]; exact f, by simpa using hs⟩
  refine ht.bind fun t r2 hr2 ⟨h2, f2, hs⟩ => (Run.u16 hr2).bind fun cn r3 hr3 ⟨h3, _⟩ => ?_
  have he : Question.decodeClass cn = Record.decodeClass cn := by
    unfold Question.decodeClass Record.decodeClass; cases Class.fromNum cn <;> rfl
  rw [he]
  exact (run_class cn hr3).bind fun c r4 hr4 ⟨h4, h4', _⟩ =>
    Run.pure hr4 ⟨h4', hs, ls, r1, k, hw, f2, by omega⟩

theorem run_items {α : Type} (p : Profile) {msg : List UInt8} {d : BufM ParsingErr α} {sec : Section} {P : α → Prop}
    (hrun : ∀ r, r ≤ 8 * msg.length → Run msg r d (Harmful p msg r) (fun a _ => P a))
    (hstep : ∀ r r', Reached p msg r → StepsTo d msg r r' → Reached p msg r') :
    ∀ (n i : Nat) (r : Nat), r ≤ 8 * msg.length → Reached p msg r →
      Run msg r (Message.decodeItems d sec n i) (∃ r₁, Reached p msg r₁ ∧ Harmful p msg r₁)
        (fun as r' => Reached p msg r' ∧ as.length ≤ n ∧ ∀ a ∈ as, P a)
  | 0, i, r, hr, hre => Run.pure hr ⟨hre, by simp, by simp⟩
  | n + 1, i, r, hr, hre => by
    obtain ⟨o, r', e, hr', hq, hb⟩ := hrun r hr
    unfold Run
    simp only [Message.decodeItems, e]
    cases o with
    | ok a =>
      have h := run_items p hrun hstep (sec := sec) n (i + 1) r' hr' (hstep r r' hre ⟨_, e, .inl ⟨a, rfl⟩⟩)
      exact Run.bind (f := fun rest => (pure (a :: rest) : BufM MessageErr (List α))) h
        (Q' := fun as r' => Reached p msg r' ∧ as.length ≤ n + 1 ∧ ∀ a ∈ as, P a) (fun as r2 hr2 ⟨h2, h3, h4⟩ => Run.pure hr2
          ⟨h2, by simp; omega, by simp only [List.mem_cons, forall_eq_or_imp]; exact ⟨hq a rfl, h4⟩⟩)
    | err x =>
      cases x with
      | unknownType v =>
        exact (run_items p hrun hstep (sec := sec) n (i + 1) r' hr' (hstep r r' hre ⟨_, e, .inr ⟨v, rfl⟩⟩)).mono id
          fun _ _ ⟨h2, h3, h4⟩ => ⟨h2, by omega, h4⟩
      | _ => exact ⟨_, r', rfl, hr', by simp, by simp [Out.Returns]⟩
    | panic k => exact ⟨_, r', rfl, hr', by simp, fun _ => ⟨r, hre, hb (by simp [Out.Returns])⟩⟩
    | diverge => exact ⟨_, r', rfl, hr', by simp, fun _ => ⟨r, hre, hb (by simp [Out.Returns])⟩⟩

theorem run_header {msg : List UInt8} {r : Nat} {Bad : Prop} (hr : r ≤ 8 * msg.length) :
    Run msg r Header.decode Bad (fun h r' => r' = r + 96 ∧ Laid msg r (headerFields h)) := by
  obtain ⟨o, r', e, hr', h⟩ := header_decode_spec msg r hr
  refine ⟨o, r', e, hr', ?_, ?_⟩
  · rintro a rfl; exact h
  · intro hn
    cases o <;> simp_all [Out.Returns, HeaderOutcome]

/-- A decoded message: what is certain about it. -/
structure Decoded (msg : List UInt8) (m : Message) : Prop where
  header : Laid msg 0 (headerFields m.header)
  opCode : m.header.opCode = .STD
  nq : m.questions.length ≤ m.header.questionsCount.toNat
  nan : m.answers.length ≤ m.header.answersCount.toNat
  nau : m.authorities.length ≤ m.header.authoritiesCount.toNat
  nad : m.additionals.length ≤ m.header.additionalsCount.toNat
  qs : ∀ q ∈ m.questions, q.cls = .IN ∧ q.recordType.isSupportedForQuestion = true
  an : ∀ r ∈ m.answers, r.cls = .IN
  au : ∀ r ∈ m.authorities, r.cls = .IN
  ad : ∀ r ∈ m.additionals, r.cls = .IN

theorem run_message (p : Profile) (msg : List UInt8) :
    Run msg 0 (Message.decode p) (∃ r₁, Reached p msg r₁ ∧ Harmful p msg r₁) (fun m _ => Decoded msg m) := by
  unfold Message.decode
  refine (Run.mapErr (run_header (Nat.zero_le _))).bind fun h r1 hr1 ⟨h1, hl⟩ => ?_
  have hsup : Run msg r1 (BufM.lift (h.isSupported.mapErr MessageErr.headerErr) : BufM MessageErr Unit)
      (∃ r₁, Reached p msg r₁ ∧ Harmful p msg r₁) (fun _ r' => r' = r1 ∧ h.opCode = .STD) := by
    refine (Run.lift hr1 ?_).mono id ?_
    · intro hn
      exfalso; apply hn
      rcases h with ⟨_, _, op, _⟩
      cases op <;> exact trivial
    · rintro _ r' ⟨rfl, h2⟩
      refine ⟨rfl, ?_⟩
      rcases h with ⟨_, _, op, _⟩
      cases op
      · rfl
      · cases h2
      · cases h2
  refine hsup.bind fun _ r2 hr2 ⟨h2, hop⟩ => ?_
  have h96 : r2 = 96 := by omega
  subst h96
  have rq : ∀ r, r ≤ 8 * msg.length → Run msg r (Question.decode p) (Harmful p msg r)
      (fun q _ => q.cls = .IN ∧ q.recordType.isSupportedForQuestion = true) := fun r hr =>
    (run_question p hr).mono .inl fun _ _ h => ⟨h.1, h.2.1⟩
  have rr : ∀ r, r ≤ 8 * msg.length → Run msg r (Record.decode p) (Harmful p msg r) (fun r _ => r.cls = .IN) :=
    fun r hr => (run_record p hr).mono id fun _ _ h => h.1
  refine (run_items p rq (fun _ _ a b => .question a b) _ _ _ hr2 .start).bind fun qs r3 hr3 ⟨h3, n3, c3⟩ =>
    (run_items p rr (fun _ _ a b => .record a b) _ _ _ hr3 h3).bind fun an r4 hr4 ⟨h4, n4, c4⟩ =>
    (run_items p rr (fun _ _ a b => .record a b) _ _ _ hr4 h4).bind fun au r5 hr5 ⟨h5, n5, c5⟩ =>
    (run_items p rr (fun _ _ a b => .record a b) _ _ _ hr5 h5).bind fun ad r6 hr6 ⟨h6, n6, c6⟩ =>
    Run.pure hr6 ⟨hl, hop, n3, n4, n5, n6, c3, c4, c5, c6⟩

end Ariadne

namespace Ariadne

open Spec BitsBuf

/-! ## TXT -/

theorem run_charStr_bytes {msg : List UInt8} {r : Nat} {Bad : Prop} (hr : r ≤ 8 * msg.length) :
    Run msg r decodeCharacterString Bad
      (fun s r' => FieldAt msg r 8 (strBytes s).length ∧ BytesAt msg (r + 8) (strBytes s) ∧ r ≤ r') := by
  unfold decodeCharacterString
  refine Run.bind (Run.u8 hr) fun l r1 hr1 ⟨h1, f1⟩ => Run.bind (Run.bytes l.toNat hr1) fun bs r2 hr2 ⟨h2, h3, f2⟩ => ?_
  by_cases hl : bs.length > 255
  · rw [if_pos hl]; exact Run.throw hr2
  · rw [if_neg hl]
    cases hu : fromUtf8 bs with
    | none => exact Run.throw hr2
    | some s =>
      have := (fromUtf8_iff _ _).1 hu
      subst h1
      refine Run.pure hr2 ⟨?_, ?_, by omega⟩
      · rw [this, h3]; exact f1
      · rw [this]; exact f2

theorem txtLoop_prefix (p : Profile) {msg : List UInt8} {len : UInt16} :
    ∀ (fuel : Nat) (strs : List Str) (read : UInt16) (r : Nat), r ≤ 8 * msg.length →
      Run msg r (Record.decodeTxtLoop p len fuel strs read) True (fun out _ => strs <+: out)
  | 0, _, _, r, hr => ⟨.diverge, r, rfl, hr, by simp, fun _ => trivial⟩
  | fuel + 1, strs, read, r, hr => by
    unfold Record.decodeTxtLoop
    refine (Run.readPos hr).bind fun pos r0 hr0 ⟨h1, h2⟩ => ?_
    subst h1; subst h2
    refine (Run.u8 hr0).bind fun l r1 hr1 ⟨h3, f1⟩ => ?_
    have hset : Run msg r1 (setReadPos (pos - 1) : BufM ParsingErr Unit) True (fun _ r' => r' = pos - 1) := by
      refine ⟨.ok (), pos - 1, ?_, by omega, fun _ _ => rfl, by simp [Out.Returns]⟩
      rw [setReadPos_bit (by omega)]
    refine hset.bind fun _ r2 hr2 h4 => (run_add p hr2 (fun _ _ => trivial)).bind fun s1 r3 hr3 _ =>
      (run_add p hr3 (fun _ _ => trivial)).bind fun s2 r4 hr4 _ => ?_
    by_cases hc : s2 > len
    · rw [if_pos hc]; exact Run.throw hr4
    · rw [if_neg hc]
      refine (run_charStr_bytes hr4).bind fun str r5 hr5 _ => (run_add p hr5 (fun _ _ => trivial)).bind fun l1 r6 hr6 _ =>
        (run_add p hr6 (fun _ _ => trivial)).bind fun rd2 r7 hr7 _ => ?_
      by_cases hd : rd2 = len
      · rw [if_pos hd]; exact Run.pure hr7 (List.prefix_append _ _)
      · rw [if_neg hd]
        exact (txtLoop_prefix p fuel _ rd2 r7 hr7).mono id fun _ _ h => (List.prefix_append strs [str]).trans h

/-- The first string of a decoded TXT record was read one bit too early. -/
theorem txt_first (p : Profile) {msg : List UInt8} {len : UInt16} {r : Nat} (hpos : 0 < r) (hr : r ≤ 8 * msg.length) :
    Run msg r (Record.decodeTxt p len) True (fun d _ => ∃ s rest, d = .TXT (s :: rest) ∧
      FieldAt msg (r - 1) 8 (strBytes s).length ∧ BytesAt msg (r + 7) (strBytes s)) := by
  have h : ∀ fuel, Run msg r (do let txts ← Record.decodeTxtLoop p len fuel [] 0; pure (RData.TXT txts)) True
      (fun d _ => ∃ s rest, d = RData.TXT (s :: rest) ∧
      FieldAt msg (r - 1) 8 (strBytes s).length ∧ BytesAt msg (r + 7) (strBytes s)) := by
    intro fuel
    cases fuel with
    | zero => exact ⟨.diverge, r, rfl, hr, by simp, fun _ => trivial⟩
    | succ fuel =>
    unfold Record.decodeTxtLoop
    refine Run.bind (Q := fun txts _ => ∃ s rest, txts = s :: rest ∧
      FieldAt msg (r - 1) 8 (strBytes s).length ∧ BytesAt msg (r + 7) (strBytes s)) ?_
      (fun txts r' hr' ⟨s, rest, h1, h2⟩ => Run.pure hr' ⟨s, rest, by rw [h1], h2⟩)
    refine (Run.readPos hr).bind fun pos r0 hr0 ⟨h1, h2⟩ => ?_
    subst h1; subst h2
    refine (Run.u8 hr0).bind fun l r1 hr1 ⟨h3, f1⟩ => ?_
    have hset : Run msg r1 (setReadPos (pos - 1) : BufM ParsingErr Unit) True (fun _ r' => r' = pos - 1) := by
      refine ⟨.ok (), pos - 1, ?_, by omega, fun _ _ => rfl, by simp [Out.Returns]⟩
      rw [setReadPos_bit (by omega)]
    refine hset.bind fun _ r2 hr2 h4 => (run_add p hr2 (fun _ _ => trivial)).bind fun s1 r3 hr3 ⟨h5, _⟩ =>
      (run_add p hr3 (fun _ _ => trivial)).bind fun s2 r4 hr4 ⟨h6, _⟩ => ?_
    have h7 : r4 = pos - 1 := by omega
    subst h7
    by_cases hc : s2 > len
    · rw [if_pos hc]; exact Run.throw hr4
    · rw [if_neg hc]
      refine (run_charStr_bytes hr4).bind fun str r5 hr5 ⟨g1, g2, _⟩ => (run_add p hr5 (fun _ _ => trivial)).bind
        fun l1 r6 hr6 _ => (run_add p hr6 (fun _ _ => trivial)).bind fun rd2 r7 hr7 _ => ?_
      rw [show pos - 1 + 8 = pos + 7 by omega] at g2
      by_cases hd : rd2 = len
      · rw [if_pos hd]; exact Run.pure hr7 ⟨str, [], rfl, g1, g2⟩
      · rw [if_neg hd]
        refine (txtLoop_prefix p fuel _ rd2 r7 hr7).mono id fun out _ ⟨rest, h⟩ => ⟨str, rest, ?_, g1, g2⟩
        rw [← h]; rfl
  exact h _

theorem utf8_ne_ff (c : Char) : (255 : UInt8) ∉ String.utf8EncodeChar c := by
  intro h
  rw [String.utf8EncodeChar] at h
  have hv := c.valid
  split at h
  · rename_i hlt
    simp at h; have := congrArg UInt8.toNat h; simp at this
    have e : c.toNat = c.val.toNat := rfl
    omega
  split at h
  · simp at h
    rcases h with h | h <;> (have := congrArg UInt8.toNat h; simp at this; omega)
  split at h
  · simp at h
    rcases h with h | h | h <;> (have := congrArg UInt8.toNat h; simp at this; omega)
  · simp at h
    rcases h with h | h | h | h <;> (have := congrArg UInt8.toNat h; simp at this; omega)

/-- The same byte at two neighbouring bit positions has eight equal bits. -/
theorem field_shift {msg : List UInt8} {r v : Nat} (h0 : 0 < r) (h1 : FieldAt msg r 8 v) (h2 : FieldAt msg (r - 1) 8 v) :
    (v = 0 ∨ v = 255) ∧ (v.testBit 0 = bitAt msg (r - 1)) := by
  obtain ⟨hv, a⟩ := h1
  obtain ⟨-, b⟩ := h2
  have key : ∀ j, j < 7 → v.testBit (7 - j) = v.testBit (6 - j) := by
    intro j hj
    have x := a j (by omega)
    have y := b (j + 1) (by omega)
    rw [show 8 - 1 - j = 7 - j by omega] at x
    rw [show 8 - 1 - (j + 1) = 6 - j by omega, show r - 1 + (j + 1) = r + j by omega] at y
    rw [x, y]
  have k0 := key 0 (by omega); have k1 := key 1 (by omega); have k2 := key 2 (by omega); have k3 := key 3 (by omega)
  have k4 := key 4 (by omega); have k5 := key 5 (by omega); have k6 := key 6 (by omega)
  have hb := b 0 (by omega)
  simp only [Nat.sub_zero, Nat.add_zero, Nat.reduceSub] at k0 k1 k2 k3 k4 k5 k6 hb
  refine ⟨?_, by rw [← hb, k0, k1, k2, k3, k4, k5, k6]⟩
  have hv' : v < 256 := hv
  clear a b hb key hv
  have all : ∀ v : Fin 256, (v.val.testBit 7 == v.val.testBit 6 && v.val.testBit 6 == v.val.testBit 5 &&
      v.val.testBit 5 == v.val.testBit 4 && v.val.testBit 4 == v.val.testBit 3 && v.val.testBit 3 == v.val.testBit 2 &&
      v.val.testBit 2 == v.val.testBit 1 && v.val.testBit 1 == v.val.testBit 0) = true →
      v.val = 0 ∨ v.val = 255 := by decide +kernel
  exact all ⟨v, hv'⟩ (by simp [k0, k1, k2, k3, k4, k5, k6])

end Ariadne
