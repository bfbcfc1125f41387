import Verif.Model.Buffer
import Verif.Spec.Bits
import Mathlib.Tactic.IntervalCases

namespace Ariadne

open Spec

theorem u8_lt (x : UInt8) : x.toNat < 2 ^ 8 := x.toNat_lt

theorem tb_hi (x : UInt8) {k : Nat} (hk : 8 ≤ k) : x.toNat.testBit k = false :=
  Nat.testBit_lt_two_pow (Nat.lt_of_lt_of_le (u8_lt x) (Nat.pow_le_pow_right (by decide) hk))

theorem tb_and (x y : UInt8) (k : Nat) :
    (x &&& y).toNat.testBit k = (x.toNat.testBit k && y.toNat.testBit k) := by
  rw [UInt8.toNat_and, Nat.testBit_and]

theorem tb_or (x y : UInt8) (k : Nat) :
    (x ||| y).toNat.testBit k = (x.toNat.testBit k || y.toNat.testBit k) := by
  rw [UInt8.toNat_or, Nat.testBit_or]

theorem tb_not (x : UInt8) (k : Nat) :
    (~~~ x).toNat.testBit k = (decide (k < 8) && !x.toNat.testBit k) := by
  rw [UInt8.toNat_not]
  have h : UInt8.size - 1 - x.toNat = 2 ^ 8 - (x.toNat + 1) := by
    have := u8_lt x
    simp only [UInt8.size]; omega
  rw [h, Nat.testBit_two_pow_sub_succ (u8_lt x)]

theorem toUInt8_toNat {s : Nat} (hs : s < 256) : s.toUInt8.toNat = s := by
  simp [Nat.toUInt8]; omega

theorem tb_shl (x : UInt8) {s : Nat} (hs : s < 8) (k : Nat) :
    (x <<< s.toUInt8).toNat.testBit k = (decide (k < 8) && (decide (s ≤ k) && x.toNat.testBit (k - s))) := by
  rw [UInt8.toNat_shiftLeft, toUInt8_toNat (by omega), Nat.mod_eq_of_lt hs, Nat.testBit_mod_two_pow,
    Nat.testBit_shiftLeft]

theorem tb_shr (x : UInt8) {s : Nat} (hs : s < 8) (k : Nat) :
    (x >>> s.toUInt8).toNat.testBit k = x.toNat.testBit (s + k) := by
  rw [UInt8.toNat_shiftRight, toUInt8_toNat (by omega), Nat.mod_eq_of_lt hs, Nat.testBit_shiftRight]

theorem mask_toNat {n : Nat} (hn : n ≤ 8) : (BitsBuf.mask n).toNat = 2 ^ n - 1 := by
  interval_cases n <;> rfl

theorem tb_mask {n : Nat} (hn : n ≤ 8) (k : Nat) :
    (BitsBuf.mask n).toNat.testBit k = decide (k < n) := by
  rw [mask_toNat hn, Nat.testBit_two_pow_sub_one]

theorem u8_ext {x y : UInt8} (h : ∀ k, k < 8 → x.toNat.testBit k = y.toNat.testBit k) : x = y := by
  apply UInt8.toNat_inj.1
  apply Nat.eq_of_testBit_eq
  intro i
  by_cases hi : i < 8
  · exact h i hi
  · rw [tb_hi x (by omega), tb_hi y (by omega)]

/-! ## The value computed by `read_bits` -/

theorem read_one_spec (cur : UInt8) {o n : Nat} (hn0 : 0 < n) (ho : o < 8) (h : n ≤ 8 - o) (k : Nat) :
    ((cur &&& BitsBuf.mask (8 - o)) >>> (8 - o - n).toUInt8).toNat.testBit k =
      (decide (k < n) && cur.toNat.testBit (8 - o - n + k)) := by
  rw [tb_shr _ (by omega), tb_and, tb_mask (by omega)]
  by_cases hk : k < n
  · have : 8 - o - n + k < 8 - o := by omega
    simp [hk, this]
  · have : ¬ 8 - o - n + k < 8 - o := by omega
    simp [hk, this]

theorem read_two_spec (cur nxt : UInt8) {o n : Nat} (ho : o < 8) (hn : n ≤ 8) (h : ¬ n ≤ 8 - o) (k : Nat) :
    (((cur &&& BitsBuf.mask (8 - o)) <<< (n - (8 - o)).toUInt8) |||
      (nxt >>> (8 - (n - (8 - o))).toUInt8)).toNat.testBit k =
      (decide (k < n) && (if k < n - (8 - o) then nxt.toNat.testBit (8 - (n - (8 - o)) + k)
        else cur.toNat.testBit (k - (n - (8 - o))))) := by
  rw [tb_or, tb_shl _ (by omega), tb_shr _ (by omega), tb_and, tb_mask (by omega)]
  by_cases hk : k < n - (8 - o)
  · have h1 : ¬ (n - (8 - o)) ≤ k := by omega
    have h2 : k < n := by omega
    simp [hk, h1, h2]
  · have h1 : (n - (8 - o)) ≤ k := by omega
    rw [tb_hi nxt (k := 8 - (n - (8 - o)) + k) (by omega)]
    by_cases h2 : k < n
    · have h3 : k < 8 := by omega
      have h4 : k - (n - (8 - o)) < 8 - o := by omega
      simp [hk, h1, h2, h3, h4]
    · have h4 : ¬ k - (n - (8 - o)) < 8 - o := by omega
      simp [h2, h4]

/-! ## The byte computed by `write_bits` -/

/-- Writing in one byte: bits `[s, s+n)` (counted from the least significant) replaced. -/
theorem write_one_spec (cur v : UInt8) {s n : Nat} (hs : s < 8) (h : s + n ≤ 8) (k : Nat) :
    ((cur &&& ~~~ (BitsBuf.mask n <<< s.toUInt8)) |||
      ((v &&& BitsBuf.mask n) <<< s.toUInt8)).toNat.testBit k =
      (if s ≤ k ∧ k < s + n then v.toNat.testBit (k - s) else cur.toNat.testBit k) := by
  rw [tb_or, tb_and, tb_not, tb_shl _ hs, tb_shl _ hs, tb_and, tb_mask (by omega)]
  by_cases hk8 : k < 8
  · by_cases h1 : s ≤ k
    · by_cases h2 : k < s + n
      · have : k - s < n := by omega
        simp [hk8, h1, h2, this]
      · have : ¬ k - s < n := by omega
        simp [hk8, h1, h2, this]
    · simp [hk8, h1]
  · have h2 : ¬ (s ≤ k ∧ k < s + n) := by omega
    rw [tb_hi cur (by omega)]
    simp [hk8, h2]

theorem write_first_spec (cur v : UInt8) {a n : Nat} (ha0 : 0 < a) (hn : n ≤ 8) (h : ¬ n ≤ a) (k : Nat) :
    ((cur &&& ~~~ (BitsBuf.mask a)) |||
      ((v &&& BitsBuf.mask n) >>> (n - a).toUInt8)).toNat.testBit k =
      (if k < a then v.toNat.testBit (n - a + k) else cur.toNat.testBit k) := by
  rw [tb_or, tb_and, tb_not, tb_shr _ (by omega), tb_and, tb_mask (by omega), tb_mask (by omega)]
  by_cases hk8 : k < 8
  · by_cases h1 : k < a
    · have : n - a + k < n := by omega
      simp [hk8, h1, this]
    · have : ¬ n - a + k < n := by omega
      simp [hk8, h1, this]
  · have h1 : ¬ k < a := by omega
    have h2 : ¬ n - a + k < n := by omega
    rw [tb_hi cur (by omega)]
    simp [h1, h2]

theorem write_second_spec (nxt v : UInt8) {a n : Nat} (ha0 : 0 < a) (hn : n ≤ 8) (h : ¬ n ≤ a) (k : Nat) :
    ((nxt &&& ~~~ (BitsBuf.mask (n - a) <<< (8 - (n - a)).toUInt8)) |||
      (((v &&& BitsBuf.mask n) &&& BitsBuf.mask (n - a)) <<< (8 - (n - a)).toUInt8)).toNat.testBit k =
      (if 8 - (n - a) ≤ k ∧ k < 8 then v.toNat.testBit (k - (8 - (n - a))) else nxt.toNat.testBit k) := by
  have hv : (v &&& BitsBuf.mask n) &&& BitsBuf.mask (n - a) = v &&& BitsBuf.mask (n - a) := by
    apply u8_ext
    intro k _
    rw [tb_and, tb_and, tb_and, tb_mask (by omega), tb_mask (by omega)]
    by_cases h1 : k < n - a
    · have : k < n := by omega
      simp [h1, this]
    · simp [h1]
  rw [hv, write_one_spec nxt v (by omega) (by omega)]
  have : 8 - (n - a) + (n - a) = 8 := by omega
  rw [this]

end Ariadne
