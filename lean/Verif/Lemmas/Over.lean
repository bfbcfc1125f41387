import Verif.Lemmas.NameRound
import Verif.Spec.Wire

namespace Ariadne

open Spec BitsBuf

theorem fieldAt_split {bs : List UInt8} {r n m v : Nat} (h : FieldAt bs r (n + m) v) :
    FieldAt bs r n (v / 2 ^ m) ∧ FieldAt bs (r + n) m (v % 2 ^ m) := by
  refine ⟨⟨?_, ?_⟩, ⟨Nat.mod_lt _ (Nat.pow_pos (by decide)), ?_⟩⟩
  · have := h.1
    rw [Nat.pow_add] at this
    exact Nat.div_lt_of_lt_mul (by rw [Nat.mul_comm]; exact this)
  · intro j hj
    rw [Nat.testBit_div_two_pow]
    have := h.2 j (by omega)
    rw [← this]; congr 1; omega
  · intro j hj
    rw [Nat.testBit_mod_two_pow]
    have := h.2 (n + j) (by omega)
    rw [show r + n + j = r + (n + j) by omega, ← this, show n + m - 1 - (n + j) = m - 1 - j by omega]
    have : m - 1 - j < m := by omega
    simp [this]

theorem fieldAt_unconcat {bs : List UInt8} {r n m v u : Nat} (h : FieldAt bs r (n + m) (v * 2 ^ m + u))
    (hu : u < 2 ^ m) : FieldAt bs r n v ∧ FieldAt bs (r + n) m u := by
  have := fieldAt_split h
  have e1 : (v * 2 ^ m + u) / 2 ^ m = v := by
    rw [Nat.mul_comm, Nat.mul_add_div (Nat.pow_pos (by decide)), Nat.div_eq_of_lt hu, Nat.add_zero]
  have e2 : (v * 2 ^ m + u) % 2 ^ m = u := by
    rw [Nat.mul_comm, Nat.mul_add_mod, Nat.mod_eq_of_lt hu]
  rwa [e1, e2] at this

/-! ## Overwriting a field -/

/-- Writing a field of width `n` and value `v` at the write position, whatever comes after it. -/
def Over (b b' : BitsBuf) (n v : Nat) : Prop :=
  b'.Inv ∧ b'.last = max b.last (b.wPos + n) ∧ b'.wPos = b.wPos + n ∧ b'.rPos = b.rPos ∧
    (∀ i, (i < b.wPos ∨ b.wPos + n ≤ i) → bitAt b'.buf i = bitAt b.buf i) ∧ FieldAt b'.buf b.wPos n v

theorem writeBits_over {ε : Type} {b : BitsBuf} {n : Nat} (v : UInt8) (hinv : b.Inv) (hn0 : 0 < n) (hn : n ≤ 8) :
    ∃ b', (writeBits v n : BufM ε Unit) b = (.ok (), b') ∧ Over b b' n (v.toNat % 2 ^ n) := by
  obtain ⟨buf', h1, h2, h3⟩ := writeBits_spec (ε := ε) v hinv hn0 hn
  refine ⟨_, h1, writeBits_inv hinv hn0 hn h1, rfl, rfl, rfl, ?_, ?_⟩
  · intro i hi
    rw [h3, if_neg (by omega)]
  · refine ⟨Nat.mod_lt _ (Nat.pow_pos (by decide)), ?_⟩
    intro j hj
    rw [h3, if_pos (by omega), Nat.testBit_mod_two_pow]
    rw [show n - 1 - (b.wPos + j - b.wPos) = n - 1 - j by omega]
    have : n - 1 - j < n := by omega
    simp [this]

theorem Over.trans {b c d : BitsBuf} {n m v u : Nat} (h1 : Over b c n v) (h2 : Over c d m u) :
    Over b d (n + m) (v * 2 ^ m + u) := by
  obtain ⟨_, l1, w1, r1, p1, f1⟩ := h1
  obtain ⟨i2, l2, w2, r2, p2, f2⟩ := h2
  refine ⟨i2, by omega, by omega, by omega, ?_, ?_⟩
  · intro i hi
    rw [p2 i (by omega), p1 i (by omega)]
  · rw [w1] at f2
    exact fieldAt_concat (fieldAt_congr f1 (fun i _ _ => p2 i (by omega))) f2

theorem writeU16_over {ε : Type} {b : BitsBuf} (v : UInt16) (hinv : b.Inv) :
    ∃ b', (writeU16 v : BufM ε Unit) b = (.ok (), b') ∧ Over b b' 16 v.toNat := by
  obtain ⟨c, h1, a1⟩ := writeBits_over (ε := ε) (n := 8) (v >>> 8).toUInt8 hinv (by decide) (by decide)
  obtain ⟨d, h2, a2⟩ := writeBits_over (ε := ε) (n := 8) v.toUInt8 a1.1 (by decide) (by decide)
  refine ⟨d, ?_, ?_⟩
  · unfold writeU16; rw [BufM.bind_ok h1, h2]
  · have := a1.trans a2
    have e : (v >>> 8).toUInt8.toNat % 2 ^ 8 * 2 ^ 8 + v.toUInt8.toNat % 2 ^ 8 = v.toNat := by
      have := v.toNat_lt
      simp [UInt16.toNat_shiftRight, Nat.shiftRight_eq_div_pow]; omega
    rwa [e] at this

/-! ## The header -/

/-- The header as one 96-bit number. -/
def headerVal (h : Header) : Nat :=
  (((((((((((((h.id.toNat) * 2 ^ 1 + (Header.bit h.queryResp).toNat % 2 ^ 1) * 2 ^ 4 + h.opCode.toNum.toNat % 2 ^ 4) * 2 ^ 1 +
    (Header.bit h.authAnswer).toNat % 2 ^ 1) * 2 ^ 1 + (Header.bit h.truncated).toNat % 2 ^ 1) * 2 ^ 1 +
    (Header.bit h.recursionDesired).toNat % 2 ^ 1) * 2 ^ 1 + (Header.bit h.recursionAvailable).toNat % 2 ^ 1) * 2 ^ 3 +
    h.z.toNat % 2 ^ 3) * 2 ^ 4 + h.respCode.toNum.toNat % 2 ^ 4) * 2 ^ 16 + h.questionsCount.toNat) * 2 ^ 16 +
    h.answersCount.toNat) * 2 ^ 16 + h.authoritiesCount.toNat) * 2 ^ 16 + h.additionalsCount.toNat)

theorem header_encode_over (h : Header) (hop : h.opCode.isSupported = true) {b : BitsBuf} (hinv : b.Inv) :
    ∃ b', Header.encode h b = (.ok (), b') ∧ Over b b' 96 (headerVal h) := by
  obtain ⟨c1, e1, a1⟩ := writeU16_over (ε := ParsingErr) h.id hinv
  obtain ⟨c2, e2, a2⟩ := writeBits_over (ε := ParsingErr) (n := 1) (Header.bit h.queryResp) a1.1 (by decide) (by decide)
  obtain ⟨c3, e3, a3⟩ := writeBits_over (ε := ParsingErr) (n := 4) h.opCode.toNum a2.1 (by decide) (by decide)
  obtain ⟨c4, e4, a4⟩ := writeBits_over (ε := ParsingErr) (n := 1) (Header.bit h.authAnswer) a3.1 (by decide) (by decide)
  obtain ⟨c5, e5, a5⟩ := writeBits_over (ε := ParsingErr) (n := 1) (Header.bit h.truncated) a4.1 (by decide) (by decide)
  obtain ⟨c6, e6, a6⟩ := writeBits_over (ε := ParsingErr) (n := 1) (Header.bit h.recursionDesired) a5.1 (by decide) (by decide)
  obtain ⟨c7, e7, a7⟩ := writeBits_over (ε := ParsingErr) (n := 1) (Header.bit h.recursionAvailable) a6.1 (by decide) (by decide)
  obtain ⟨c8, e8, a8⟩ := writeBits_over (ε := ParsingErr) (n := 3) h.z a7.1 (by decide) (by decide)
  obtain ⟨c9, e9, a9⟩ := writeBits_over (ε := ParsingErr) (n := 4) h.respCode.toNum a8.1 (by decide) (by decide)
  obtain ⟨c10, e10, a10⟩ := writeU16_over (ε := ParsingErr) h.questionsCount a9.1
  obtain ⟨c11, e11, a11⟩ := writeU16_over (ε := ParsingErr) h.answersCount a10.1
  obtain ⟨c12, e12, a12⟩ := writeU16_over (ε := ParsingErr) h.authoritiesCount a11.1
  obtain ⟨c13, e13, a13⟩ := writeU16_over (ε := ParsingErr) h.additionalsCount a12.1
  refine ⟨c13, ?_, (((((((((((a1.trans a2).trans a3).trans a4).trans a5).trans a6).trans a7).trans a8).trans a9).trans
    a10).trans a11).trans a12).trans a13⟩
  unfold Header.encode
  rw [hop, BufM.bind_ok (BufM.assert_true b), BufM.bind_ok e1, BufM.bind_ok e2, BufM.bind_ok e3, BufM.bind_ok e4,
    BufM.bind_ok e5, BufM.bind_ok e6, BufM.bind_ok e7, BufM.bind_ok e8, BufM.bind_ok e9, BufM.bind_ok e10,
    BufM.bind_ok e11, BufM.bind_ok e12, e13]

/-- The 12 octets. -/
def headerBytes (h : Header) : List UInt8 :=
  be16 h.id.toNat ++
  [UInt8.ofNat (flag h.queryResp * 128 + h.opCode.toNum.toNat * 8 + flag h.authAnswer * 4 + flag h.truncated * 2 +
    flag h.recursionDesired),
   UInt8.ofNat (flag h.recursionAvailable * 128 + h.z.toNat % 8 * 16 + h.respCode.toNum.toNat)] ++
  be16 h.questionsCount.toNat ++ be16 h.answersCount.toNat ++ be16 h.authoritiesCount.toNat ++
  be16 h.additionalsCount.toNat

theorem headerBytes_length (h : Header) : (headerBytes h).length = 12 := rfl

theorem bit_toNat (b : Bool) : (Header.bit b).toNat = flag b := by cases b <;> rfl
theorem flag_lt (b : Bool) : flag b < 2 := by cases b <;> decide
theorem opCode_lt (c : OpCode) : c.toNum.toNat < 3 := by cases c <;> decide
theorem respCode_lt (c : RespCode) : c.toNum.toNat < 6 := by cases c <;> decide

theorem beVal_append (a b : List UInt8) : beVal (a ++ b) = beVal a * 256 ^ b.length + beVal b := by
  induction a with
  | nil => simp [beVal]
  | cons x xs ih =>
    rw [List.cons_append, beVal_cons, beVal_cons, ih, List.length_append, Nat.pow_add, Nat.add_mul, Nat.mul_assoc,
      Nat.add_assoc]

theorem beVal_be16 {n : Nat} (h : n < 65536) : beVal (be16 n) = n := by
  simp [be16, beVal]; omega

theorem beVal_headerBytes (h : Header) : beVal (headerBytes h) = headerVal h := by
  have h1 := flag_lt h.queryResp
  have h2 := flag_lt h.authAnswer
  have h3 := flag_lt h.truncated
  have h4 := flag_lt h.recursionDesired
  have h5 := flag_lt h.recursionAvailable
  have h6 := opCode_lt h.opCode
  have h7 := respCode_lt h.respCode
  have h8 := h.z.toNat_lt
  have c0 := h.id.toNat_lt
  have c1 := h.questionsCount.toNat_lt
  have c2 := h.answersCount.toNat_lt
  have c3 := h.authoritiesCount.toNat_lt
  have c4 := h.additionalsCount.toNat_lt
  unfold headerBytes headerVal
  simp only [beVal_append, bit_toNat]
  rw [beVal_be16 c0, beVal_be16 c1, beVal_be16 c2, beVal_be16 c3, beVal_be16 c4]
  simp only [show ∀ n, (be16 n).length = 2 from fun _ => rfl]
  simp only [beVal, List.foldl, List.length_cons, List.length_nil, UInt8.toNat_ofNat']
  omega

/-- A field that covers whole bytes determines them. -/
theorem bytes_of_field {bs : List UInt8} {l : List UInt8} {pre : Nat}
    (hlen : pre + l.length ≤ bs.length) (h : FieldAt bs (8 * pre) (8 * l.length) (beVal l)) :
    (bs.drop pre).take l.length = l := by
  obtain ⟨m, h1, h2, h3⟩ := readBytesVec_spec (ε := Unit) l.length (b := rd bs pre) (by simp [rd, rdBit]; omega)
    (by simp [rd, rdBit]; omega)
  have h4 := readBytesVec_rd (ε := Unit) hlen
  rw [h2] at h4
  have e : m = (bs.drop pre).take l.length := by
    have := congrArg Prod.fst h4
    simpa using this
  rw [← e]
  exact beVal_inj h1 (fieldAt_unique h3 h)

theorem field_of_bytes {bs l : List UInt8} {pre : Nat} (hlen : pre + l.length ≤ bs.length)
    (h : (bs.drop pre).take l.length = l) : FieldAt bs (8 * pre) (8 * l.length) (beVal l) := by
  obtain ⟨m, h1, h2, h3⟩ := readBytesVec_spec (ε := Unit) l.length (b := rd bs pre) (by simp [rd, rdBit]; omega)
    (by simp [rd, rdBit]; omega)
  have h4 := readBytesVec_rd (ε := Unit) hlen
  rw [h2] at h4
  have e : m = (bs.drop pre).take l.length := by
    have := congrArg Prod.fst h4
    simpa using this
  rw [h] at e
  subst e; exact h3

theorem field_mid {pre l post : List UInt8} : FieldAt (pre ++ l ++ post) (8 * pre.length) (8 * l.length) (beVal l) :=
  field_of_bytes (by simp) (by simp)

theorem header_laid (h : Header) (hz : h.z.toNat < 8) {bs : List UInt8} {r : Nat}
    (hf : FieldAt bs r 96 (headerVal h)) : Laid bs r (headerFields h) := by
  have c1 := h.questionsCount.toNat_lt
  have c2 := h.answersCount.toNat_lt
  have c3 := h.authoritiesCount.toNat_lt
  have c4 := h.additionalsCount.toNat_lt
  have m : ∀ (x k : Nat), x % 2 ^ k < 2 ^ k := fun x k => Nat.mod_lt _ (Nat.pow_pos (by decide))
  have k1 := fieldAt_unconcat (n := 80) (m := 16) hf c4
  have k2 := fieldAt_unconcat (n := 64) (m := 16) k1.1 c3
  have k3 := fieldAt_unconcat (n := 48) (m := 16) k2.1 c2
  have k4 := fieldAt_unconcat (n := 32) (m := 16) k3.1 c1
  have k5 := fieldAt_unconcat (n := 28) (m := 4) k4.1 (m _ _)
  have k6 := fieldAt_unconcat (n := 25) (m := 3) k5.1 (m _ _)
  have k7 := fieldAt_unconcat (n := 24) (m := 1) k6.1 (m _ _)
  have k8 := fieldAt_unconcat (n := 23) (m := 1) k7.1 (m _ _)
  have k9 := fieldAt_unconcat (n := 22) (m := 1) k8.1 (m _ _)
  have k10 := fieldAt_unconcat (n := 21) (m := 1) k9.1 (m _ _)
  have k11 := fieldAt_unconcat (n := 17) (m := 4) k10.1 (m _ _)
  have k12 := fieldAt_unconcat (n := 16) (m := 1) k11.1 (m _ _)
  have f1 := Nat.mod_eq_of_lt (flag_lt h.queryResp)
  have f2 := Nat.mod_eq_of_lt (flag_lt h.authAnswer)
  have f3 := Nat.mod_eq_of_lt (flag_lt h.truncated)
  have f4 := Nat.mod_eq_of_lt (flag_lt h.recursionDesired)
  have f5 := Nat.mod_eq_of_lt (flag_lt h.recursionAvailable)
  have f6 : h.opCode.toNum.toNat % 2 ^ 4 = h.opCode.toNum.toNat := by have := opCode_lt h.opCode; omega
  have f7 : h.respCode.toNum.toNat % 2 ^ 4 = h.respCode.toNum.toNat := by have := respCode_lt h.respCode; omega
  have f8 : h.z.toNat % 2 ^ 3 = h.z.toNat := by omega
  have g12 := k12.2; rw [bit_toNat, Nat.pow_one, f1] at g12
  have g11 := k11.2; rw [f6] at g11
  have g10 := k10.2; rw [bit_toNat, Nat.pow_one, f2] at g10
  have g9 := k9.2; rw [bit_toNat, Nat.pow_one, f3] at g9
  have g8 := k8.2; rw [bit_toNat, Nat.pow_one, f4] at g8
  have g7 := k7.2; rw [bit_toNat, Nat.pow_one, f5] at g7
  have g6 := k6.2; rw [f8] at g6
  have g5 := k5.2; rw [f7] at g5
  exact ⟨k12.1, g12, g11, g10, g9, g8, g7, g6, g5, k4.2, k3.2, k2.2, k1.2, trivial⟩

end Ariadne
