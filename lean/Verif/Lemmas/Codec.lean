import Verif.Lemmas.Over

/-! # Reading and writing at any bit position; codecs -/

namespace Ariadne

open Spec BitsBuf

/-! ## Reads on a raw buffer -/

theorem readBits_bit {ε : Type} {msg : List UInt8} {r n : Nat} (hn0 : 0 < n) (hn : n ≤ 8) (h : r + n ≤ 8 * msg.length) :
    ∃ v : UInt8, (readBits n : BufM ε (Option UInt8)) (rdBit msg r) = (.ok (some v), rdBit msg (r + n)) ∧
      FieldAt msg r n v.toNat := by
  obtain ⟨v, h1, h2⟩ := readBits_spec (ε := ε) (b := rdBit msg r) (n := n) (by simp [rdBit]; omega) hn0 hn
    (by simp [rdBit]; omega)
  exact ⟨v, h1, h2⟩

theorem readBits_bit_none {ε : Type} {msg : List UInt8} {r n : Nat} (hn0 : 0 < n) (hn : n ≤ 8)
    (h : 8 * msg.length < r + n) :
    (readBits n : BufM ε (Option UInt8)) (rdBit msg r) = (.ok none, rdBit msg r) :=
  readBits_none hn0 hn (by simp [rdBit]; omega)

theorem readU16_bit {ε : Type} {msg : List UInt8} {r : Nat} (h : r + 16 ≤ 8 * msg.length) :
    ∃ v : UInt16, (readU16 : BufM ε (Option UInt16)) (rdBit msg r) = (.ok (some v), rdBit msg (r + 16)) ∧
      FieldAt msg r 16 v.toNat := by
  obtain ⟨v, h1, h2⟩ := readU16_spec (ε := ε) (b := rdBit msg r) (by simp [rdBit]; omega) (by simp [rdBit]; omega)
  exact ⟨v, h1, h2⟩

theorem readU16_bit_none {ε : Type} {msg : List UInt8} {r : Nat} (h : 8 * msg.length < r + 16) :
    (readU16 : BufM ε (Option UInt16)) (rdBit msg r) = (.ok none, rdBit msg r) := by
  unfold readU16
  have : (rdBit msg r).rPos + 16 > (rdBit msg r).last := by simp [rdBit]; omega
  rw [if_pos this]

theorem readU32_bit {ε : Type} {msg : List UInt8} {r : Nat} (h : r + 32 ≤ 8 * msg.length) :
    ∃ v : UInt32, (readU32 : BufM ε (Option UInt32)) (rdBit msg r) = (.ok (some v), rdBit msg (r + 32)) ∧
      FieldAt msg r 32 v.toNat := by
  obtain ⟨v, h1, h2⟩ := readU32_spec (ε := ε) (b := rdBit msg r) (by simp [rdBit]; omega) (by simp [rdBit]; omega)
  exact ⟨v, h1, h2⟩

theorem readU32_bit_none {ε : Type} {msg : List UInt8} {r : Nat} (h : 8 * msg.length < r + 32) :
    (readU32 : BufM ε (Option UInt32)) (rdBit msg r) = (.ok none, rdBit msg r) := by
  unfold readU32
  have : (rdBit msg r).rPos + 32 > (rdBit msg r).last := by simp [rdBit]; omega
  rw [if_pos this]

theorem checkEndP_some {α : Type} {m : BufM ParsingErr (Option α)} {b b' : BitsBuf} {v : α}
    (h : m b = (.ok (some v), b')) : checkEndP m b = (.ok v, b') := by
  unfold checkEndP; rw [BufM.bind_ok h]; rfl

theorem checkEndP_none {α : Type} {m : BufM ParsingErr (Option α)} {b b' : BitsBuf}
    (h : m b = (.ok none, b')) : checkEndP m b = (.err .bytesEnd, b') := by
  unfold checkEndP; rw [BufM.bind_ok h]; rfl

/-- A checked read either yields the field or `BytesEnd`. -/
theorem getBits (msg : List UInt8) (r n : Nat) (hn0 : 0 < n) (hn : n ≤ 8) :
    (r + n ≤ 8 * msg.length ∧ ∃ v : UInt8, checkEndP (readBits n) (rdBit msg r) = (.ok v, rdBit msg (r + n)) ∧
      FieldAt msg r n v.toNat) ∨
    (8 * msg.length < r + n ∧ checkEndP (readBits n) (rdBit msg r) = (.err .bytesEnd, rdBit msg r)) := by
  by_cases h : r + n ≤ 8 * msg.length
  · obtain ⟨v, h1, h2⟩ := readBits_bit (ε := ParsingErr) hn0 hn h
    exact .inl ⟨h, v, checkEndP_some h1, h2⟩
  · exact .inr ⟨by omega, checkEndP_none (readBits_bit_none hn0 hn (by omega))⟩

theorem getU8 (msg : List UInt8) (r : Nat) :
    (r + 8 ≤ 8 * msg.length ∧ ∃ v : UInt8, checkEndP readU8 (rdBit msg r) = (.ok v, rdBit msg (r + 8)) ∧
      FieldAt msg r 8 v.toNat) ∨
    (8 * msg.length < r + 8 ∧ checkEndP readU8 (rdBit msg r) = (.err .bytesEnd, rdBit msg r)) :=
  getBits msg r 8 (by decide) (by decide)

theorem getU16 (msg : List UInt8) (r : Nat) :
    (r + 16 ≤ 8 * msg.length ∧ ∃ v : UInt16, checkEndP readU16 (rdBit msg r) = (.ok v, rdBit msg (r + 16)) ∧
      FieldAt msg r 16 v.toNat) ∨
    (8 * msg.length < r + 16 ∧ checkEndP readU16 (rdBit msg r) = (.err .bytesEnd, rdBit msg r)) := by
  by_cases h : r + 16 ≤ 8 * msg.length
  · obtain ⟨v, h1, h2⟩ := readU16_bit (ε := ParsingErr) h
    exact .inl ⟨h, v, checkEndP_some h1, h2⟩
  · exact .inr ⟨by omega, checkEndP_none (readU16_bit_none (by omega))⟩

theorem getU32 (msg : List UInt8) (r : Nat) :
    (r + 32 ≤ 8 * msg.length ∧ ∃ v : UInt32, checkEndP readU32 (rdBit msg r) = (.ok v, rdBit msg (r + 32)) ∧
      FieldAt msg r 32 v.toNat) ∨
    (8 * msg.length < r + 32 ∧ checkEndP readU32 (rdBit msg r) = (.err .bytesEnd, rdBit msg r)) := by
  by_cases h : r + 32 ≤ 8 * msg.length
  · obtain ⟨v, h1, h2⟩ := readU32_bit (ε := ParsingErr) h
    exact .inl ⟨h, v, checkEndP_some h1, h2⟩
  · exact .inr ⟨by omega, checkEndP_none (readU32_bit_none (by omega))⟩

theorem getBytes (msg : List UInt8) (r n : Nat) :
    (r + 8 * n ≤ 8 * msg.length ∧ ∃ l, checkEndP (readBytesVec n) (rdBit msg r) = (.ok l, rdBit msg (r + 8 * n)) ∧
      l.length = n ∧ BytesAt msg r l) ∨
    (8 * msg.length < r + 8 * n ∧ checkEndP (readBytesVec n) (rdBit msg r) = (.err .bytesEnd, rdBit msg r)) := by
  by_cases h : r + 8 * n ≤ 8 * msg.length
  · obtain ⟨v, h1, h2⟩ := readBytesVec_bit (ε := ParsingErr) n h
    exact .inl ⟨h, v, checkEndP_some h1, h2⟩
  · exact .inr ⟨by omega, checkEndP_none (readBytesVec_bit_none n (by omega))⟩

/-! ## Header decoding -/

theorem field_flag {msg : List UInt8} {r : Nat} {v : UInt8} (h : FieldAt msg r 1 v.toNat) :
    FieldAt msg r 1 (flag (v == 1)) := by
  have h1 : v.toNat < 2 := h.1
  have : flag (v == 1) = v.toNat := by
    rcases (show v.toNat = 0 ∨ v.toNat = 1 by omega) with e | e
    · have : v = 0 := UInt8.toNat_inj.1 e
      subst this; rfl
    · have : v = 1 := UInt8.toNat_inj.1 e
      subst this; rfl
  rw [this]; exact h

theorem OpCode.toNum_of_fromNum {n : UInt8} {c : OpCode} (h : OpCode.fromNum n = some c) : c.toNum = n := by
  unfold OpCode.fromNum at h
  split at h; · cases h; simp_all [OpCode.toNum]
  split at h; · cases h; simp_all [OpCode.toNum]
  split at h; · cases h; simp_all [OpCode.toNum]
  cases h

theorem RespCode.toNum_of_fromNum {n : UInt8} {c : RespCode} (h : RespCode.fromNum n = some c) : c.toNum = n := by
  unfold RespCode.fromNum at h
  split at h; · cases h; simp_all [RespCode.toNum]
  split at h; · cases h; simp_all [RespCode.toNum]
  split at h; · cases h; simp_all [RespCode.toNum]
  split at h; · cases h; simp_all [RespCode.toNum]
  split at h; · cases h; simp_all [RespCode.toNum]
  split at h; · cases h; simp_all [RespCode.toNum]
  cases h

/-- What header decoding can result in. -/
def HeaderOutcome (msg : List UInt8) (r r' : Nat) : Out ParsingErr Header → Prop
  | .ok h => r' = r + 96 ∧ Laid msg r (headerFields h)
  | .err e => (e = .bytesEnd ∧ 8 * msg.length < r + 96) ∨
      (∃ n : UInt8, e = .unknownOpCode n ∧ FieldAt msg (r + 17) 4 n.toNat ∧ OpCode.fromNum n = none) ∨
      (∃ n : UInt8, e = .unknownRespCode n ∧ FieldAt msg (r + 28) 4 n.toNat ∧ RespCode.fromNum n = none)
  | _ => False

theorem header_decode_spec (msg : List UInt8) (r : Nat) (hr : r ≤ 8 * msg.length) :
    ∃ o r', Header.decode (rdBit msg r) = (o, rdBit msg r') ∧ r' ≤ 8 * msg.length ∧ HeaderOutcome msg r r' o := by
  unfold Header.decode
  rcases getU16 msg r with ⟨l1, id, e1, f1⟩ | ⟨l, e⟩
  swap
  · exact ⟨_, _, BufM.bind_err e, by omega, .inl ⟨rfl, by omega⟩⟩
  rw [BufM.bind_ok e1]
  rcases getBits msg (r + 16) 1 (by decide) (by decide) with ⟨l2, qr, e2, f2⟩ | ⟨l, e⟩
  swap
  · exact ⟨_, _, BufM.bind_err e, by omega, .inl ⟨rfl, by omega⟩⟩
  rw [BufM.bind_ok e2]
  rcases getBits msg (r + 16 + 1) 4 (by decide) (by decide) with ⟨l3, op, e3, f3⟩ | ⟨l, e⟩
  swap
  · exact ⟨_, _, BufM.bind_err e, by omega, .inl ⟨rfl, by omega⟩⟩
  rw [BufM.bind_ok e3]
  cases hop : OpCode.fromNum op with
  | none =>
    refine ⟨_, _, BufM.bind_err (e := .unknownOpCode op) (b' := rdBit msg (r + 16 + 1 + 4)) (by simp [Header.decodeOpCode, hop]), by omega, ?_⟩
    exact .inr (.inl ⟨op, rfl, f3, hop⟩)
  | some c =>
  rw [BufM.bind_ok (a := c) (b' := rdBit msg (r + 16 + 1 + 4)) (by simp [Header.decodeOpCode, hop])]
  rcases getBits msg (r + 16 + 1 + 4) 1 (by decide) (by decide) with ⟨l4, aa, e4, f4⟩ | ⟨l, e⟩
  swap
  · exact ⟨_, _, BufM.bind_err e, by omega, .inl ⟨rfl, by omega⟩⟩
  rw [BufM.bind_ok e4]
  rcases getBits msg (r + 16 + 1 + 4 + 1) 1 (by decide) (by decide) with ⟨l5, tc, e5, f5⟩ | ⟨l, e⟩
  swap
  · exact ⟨_, _, BufM.bind_err e, by omega, .inl ⟨rfl, by omega⟩⟩
  rw [BufM.bind_ok e5]
  rcases getBits msg (r + 16 + 1 + 4 + 1 + 1) 1 (by decide) (by decide) with ⟨l6, rd', e6, f6⟩ | ⟨l, e⟩
  swap
  · exact ⟨_, _, BufM.bind_err e, by omega, .inl ⟨rfl, by omega⟩⟩
  rw [BufM.bind_ok e6]
  rcases getBits msg (r + 16 + 1 + 4 + 1 + 1 + 1) 1 (by decide) (by decide) with ⟨l7, ra, e7, f7⟩ | ⟨l, e⟩
  swap
  · exact ⟨_, _, BufM.bind_err e, by omega, .inl ⟨rfl, by omega⟩⟩
  rw [BufM.bind_ok e7]
  rcases getBits msg (r + 16 + 1 + 4 + 1 + 1 + 1 + 1) 3 (by decide) (by decide) with ⟨l8, z, e8, f8⟩ | ⟨l, e⟩
  swap
  · exact ⟨_, _, BufM.bind_err e, by omega, .inl ⟨rfl, by omega⟩⟩
  rw [BufM.bind_ok e8]
  rcases getBits msg (r + 16 + 1 + 4 + 1 + 1 + 1 + 1 + 3) 4 (by decide) (by decide) with ⟨l9, rc, e9, f9⟩ | ⟨l, e⟩
  swap
  · exact ⟨_, _, BufM.bind_err e, by omega, .inl ⟨rfl, by omega⟩⟩
  rw [BufM.bind_ok e9]
  cases hrc : RespCode.fromNum rc with
  | none =>
    refine ⟨_, _, BufM.bind_err (e := .unknownRespCode rc)
      (b' := rdBit msg (r + 16 + 1 + 4 + 1 + 1 + 1 + 1 + 3 + 4)) (by simp [Header.decodeRespCode, hrc]), by omega, ?_⟩
    exact .inr (.inr ⟨rc, rfl, f9, hrc⟩)
  | some d =>
  rw [BufM.bind_ok (a := d) (b' := rdBit msg (r + 16 + 1 + 4 + 1 + 1 + 1 + 1 + 3 + 4))
    (by simp [Header.decodeRespCode, hrc])]
  rcases getU16 msg (r + 16 + 1 + 4 + 1 + 1 + 1 + 1 + 3 + 4) with ⟨l10, qc, e10, f10⟩ | ⟨l, e⟩
  swap
  · exact ⟨_, _, BufM.bind_err e, by omega, .inl ⟨rfl, by omega⟩⟩
  rw [BufM.bind_ok e10]
  rcases getU16 msg (r + 16 + 1 + 4 + 1 + 1 + 1 + 1 + 3 + 4 + 16) with ⟨l11, ac, e11, f11⟩ | ⟨l, e⟩
  swap
  · exact ⟨_, _, BufM.bind_err e, by omega, .inl ⟨rfl, by omega⟩⟩
  rw [BufM.bind_ok e11]
  rcases getU16 msg (r + 16 + 1 + 4 + 1 + 1 + 1 + 1 + 3 + 4 + 16 + 16) with ⟨l12, uc, e12, f12⟩ | ⟨l, e⟩
  swap
  · exact ⟨_, _, BufM.bind_err e, by omega, .inl ⟨rfl, by omega⟩⟩
  rw [BufM.bind_ok e12]
  rcases getU16 msg (r + 16 + 1 + 4 + 1 + 1 + 1 + 1 + 3 + 4 + 16 + 16 + 16) with ⟨l13, dc, e13, f13⟩ | ⟨l, e⟩
  swap
  · exact ⟨_, _, BufM.bind_err e, by omega, .inl ⟨rfl, by omega⟩⟩
  rw [BufM.bind_ok e13]
  refine ⟨_, _, rfl, l13, rfl, f1, field_flag f2, ?_, field_flag f4, field_flag f5, field_flag f6, field_flag f7, f8, ?_,
    f10, f11, f12, f13, trivial⟩
  · show FieldAt _ _ _ c.toNum.toNat
    rw [OpCode.toNum_of_fromNum hop]; exact f3
  · show FieldAt _ _ _ d.toNum.toNat
    rw [RespCode.toNum_of_fromNum hrc]; exact f9

theorem flag_inj {a b : Bool} (h : flag a = flag b) : a = b := by cases a <;> cases b <;> simp_all [flag]
theorem OpCode.toNum_inj {a b : OpCode} (h : a.toNum.toNat = b.toNum.toNat) : a = b := by
  cases a <;> cases b <;> first | rfl | (exact absurd h (by decide))
theorem RespCode.toNum_inj {a b : RespCode} (h : a.toNum.toNat = b.toNum.toNat) : a = b := by
  cases a <;> cases b <;> first | rfl | (exact absurd h (by decide))
theorem OpCode.fromNum_toNum (c : OpCode) : OpCode.fromNum c.toNum = some c := by cases c <;> rfl
theorem RespCode.fromNum_toNum (c : RespCode) : RespCode.fromNum c.toNum = some c := by cases c <;> rfl

theorem laid_header_unique {msg : List UInt8} {r : Nat} {h h' : Header} (a : Laid msg r (headerFields h))
    (b : Laid msg r (headerFields h')) : h = h' := by
  obtain ⟨a1, a2, a3, a4, a5, a6, a7, a8, a9, a10, a11, a12, a13, -⟩ := a
  obtain ⟨b1, b2, b3, b4, b5, b6, b7, b8, b9, b10, b11, b12, b13, -⟩ := b
  obtain ⟨id, qr, op, aa, tc, rd', ra, z, rc, c1, c2, c3, c4⟩ := h
  obtain ⟨id', qr', op', aa', tc', rd'', ra', z', rc', c1', c2', c3', c4'⟩ := h'
  congr
  · exact UInt16.toNat_inj.1 (fieldAt_unique a1 b1)
  · exact flag_inj (fieldAt_unique a2 b2)
  · exact OpCode.toNum_inj (fieldAt_unique a3 b3)
  · exact flag_inj (fieldAt_unique a4 b4)
  · exact flag_inj (fieldAt_unique a5 b5)
  · exact flag_inj (fieldAt_unique a6 b6)
  · exact flag_inj (fieldAt_unique a7 b7)
  · exact UInt8.toNat_inj.1 (fieldAt_unique a8 b8)
  · exact RespCode.toNum_inj (fieldAt_unique a9 b9)
  · exact UInt16.toNat_inj.1 (fieldAt_unique a10 b10)
  · exact UInt16.toNat_inj.1 (fieldAt_unique a11 b11)
  · exact UInt16.toNat_inj.1 (fieldAt_unique a12 b12)
  · exact UInt16.toNat_inj.1 (fieldAt_unique a13 b13)

theorem header_decode_of_laid {msg : List UInt8} {r : Nat} {h : Header} (hr : r + 96 ≤ 8 * msg.length)
    (a : Laid msg r (headerFields h)) : Header.decode (rdBit msg r) = (.ok h, rdBit msg (r + 96)) := by
  obtain ⟨o, r', h1, h2, h3⟩ := header_decode_spec msg r (by omega)
  cases o with
  | ok h' =>
    obtain ⟨rfl, h4⟩ := h3
    rw [h1, laid_header_unique a h4]
  | err e =>
    exfalso
    obtain ⟨a1, a2, a3, a4, a5, a6, a7, a8, a9, -⟩ := a
    rcases h3 with ⟨-, h4⟩ | ⟨n, -, h4, h5⟩ | ⟨n, -, h4, h5⟩
    · omega
    · have := UInt8.toNat_inj.1 (fieldAt_unique h4 a3)
      subst this; rw [OpCode.fromNum_toNum] at h5; cases h5
    · have := UInt8.toNat_inj.1 (fieldAt_unique h4 a9)
      subst this; rw [RespCode.fromNum_toNum] at h5; cases h5
  | panic k => exact h3.elim
  | diverge => exact h3.elim

end Ariadne
