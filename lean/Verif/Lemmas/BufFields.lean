import Verif.Lemmas.Buffer
import Verif.Spec.BufOps

namespace Ariadne

open Spec

theorem fieldAt_concat {bs : List UInt8} {r n m v u : Nat} (h1 : FieldAt bs r n v)
    (h2 : FieldAt bs (r + n) m u) : FieldAt bs r (n + m) (v * 2 ^ m + u) := by
  refine ⟨?_, ?_⟩
  · have := h1.1; have := h2.1
    rw [Nat.pow_add]
    calc v * 2 ^ m + u < v * 2 ^ m + 2 ^ m := by omega
      _ = (v + 1) * 2 ^ m := by rw [Nat.add_mul, Nat.one_mul]
      _ ≤ 2 ^ n * 2 ^ m := Nat.mul_le_mul_right _ (by omega)
  · intro j hj
    rw [Nat.mul_comm, Nat.testBit_two_pow_mul_add _ h2.1]
    by_cases h : n + m - 1 - j < m
    · rw [if_pos h]
      have := h2.2 (j - n) (by omega)
      rw [show r + n + (j - n) = r + j by omega, show m - 1 - (j - n) = n + m - 1 - j by omega] at this
      exact this
    · rw [if_neg h]
      have := h1.2 j (by omega)
      rw [show n - 1 - j = n + m - 1 - j - m by omega] at this
      exact this

theorem fieldAt_zero (bs : List UInt8) (r : Nat) : FieldAt bs r 0 0 :=
  ⟨by decide, fun j hj => absurd hj (by omega)⟩

theorem fieldAt_congr {bs cs : List UInt8} {r n v : Nat} (h : FieldAt bs r n v)
    (hb : ∀ i, r ≤ i → i < r + n → bitAt cs i = bitAt bs i) : FieldAt cs r n v :=
  ⟨h.1, fun j hj => by rw [h.2 j hj, hb _ (by omega) (by omega)]⟩

/-! ## Multi-byte reads at any bit position -/

namespace BitsBuf

theorem readU8Unwrap_spec {ε : Type} {b : BitsBuf} (hlen : b.last ≤ 8 * b.buf.length)
    (hr : b.rPos + 8 ≤ b.last) :
    ∃ v : UInt8, (readU8Unwrap : BufM ε UInt8) b = (.ok v, { b with rPos := b.rPos + 8 }) ∧
      FieldAt b.buf b.rPos 8 v.toNat := by
  obtain ⟨v, h1, h2⟩ := readBits_spec (ε := ε) hlen (n := 8) (by decide) (by decide) hr
  refine ⟨v, ?_, h2⟩
  unfold readU8Unwrap readU8
  rw [BufM.bind_ok h1]; rfl

theorem u16_combine (x y : UInt8) :
    ((x.toUInt16 <<< 8) ||| y.toUInt16).toNat = x.toNat * 2 ^ 8 + y.toNat := by
  have hx := u8_lt x; have hy := u8_lt y
  rw [UInt16.toNat_or, UInt16.toNat_shiftLeft]
  simp only [UInt8.toNat_toUInt16, show (8 : UInt16).toNat % 16 = 8 from rfl]
  rw [Nat.shiftLeft_eq, Nat.mod_eq_of_lt (by omega), ← Nat.shiftLeft_eq,
    ← Nat.shiftLeft_add_eq_or_of_lt hy, Nat.shiftLeft_eq]

theorem u32_combine (x y z w : UInt8) :
    ((x.toUInt32 <<< 24) ||| (y.toUInt32 <<< 16) ||| (z.toUInt32 <<< 8) ||| w.toUInt32).toNat =
      ((x.toNat * 2 ^ 8 + y.toNat) * 2 ^ 8 + z.toNat) * 2 ^ 8 + w.toNat := by
  have hx := u8_lt x; have hy := u8_lt y; have hz := u8_lt z; have hw := u8_lt w
  simp only [UInt32.toNat_or, UInt32.toNat_shiftLeft, UInt8.toNat_toUInt32, show (8 : UInt32).toNat % 32 = 8 from rfl,
    show (16 : UInt32).toNat % 32 = 16 from rfl, show (24 : UInt32).toNat % 32 = 24 from rfl]
  rw [Nat.shiftLeft_eq, Nat.shiftLeft_eq, Nat.shiftLeft_eq, Nat.mod_eq_of_lt (a := x.toNat * 2 ^ 24) (by omega),
    Nat.mod_eq_of_lt (a := y.toNat * 2 ^ 16) (by omega), Nat.mod_eq_of_lt (a := z.toNat * 2 ^ 8) (by omega)]
  have e1 : x.toNat * 2 ^ 24 ||| y.toNat * 2 ^ 16 = (x.toNat * 2 ^ 8 + y.toNat) * 2 ^ 16 := by
    rw [← Nat.shiftLeft_eq, ← Nat.shiftLeft_add_eq_or_of_lt (by omega), Nat.shiftLeft_eq]; omega
  have e2 : (x.toNat * 2 ^ 8 + y.toNat) * 2 ^ 16 ||| z.toNat * 2 ^ 8 =
      ((x.toNat * 2 ^ 8 + y.toNat) * 2 ^ 8 + z.toNat) * 2 ^ 8 := by
    rw [← Nat.shiftLeft_eq, ← Nat.shiftLeft_add_eq_or_of_lt (by omega), Nat.shiftLeft_eq]; omega
  have e3 : ((x.toNat * 2 ^ 8 + y.toNat) * 2 ^ 8 + z.toNat) * 2 ^ 8 ||| w.toNat =
      ((x.toNat * 2 ^ 8 + y.toNat) * 2 ^ 8 + z.toNat) * 2 ^ 8 + w.toNat := by
    rw [← Nat.shiftLeft_eq, ← Nat.shiftLeft_add_eq_or_of_lt (by omega)]
  rw [e1, e2, e3]

theorem readU16_spec {ε : Type} {b : BitsBuf} (hlen : b.last ≤ 8 * b.buf.length)
    (hr : b.rPos + 16 ≤ b.last) :
    ∃ v : UInt16, (readU16 : BufM ε (Option UInt16)) b = (.ok (some v), { b with rPos := b.rPos + 16 }) ∧
      FieldAt b.buf b.rPos 16 v.toNat := by
  obtain ⟨x, h1, h2⟩ := readU8Unwrap_spec (ε := ε) hlen (by omega)
  obtain ⟨y, h3, h4⟩ := readU8Unwrap_spec (ε := ε) (b := { b with rPos := b.rPos + 8 }) hlen
    (show b.rPos + 8 + 8 ≤ b.last by omega)
  refine ⟨(x.toUInt16 <<< 8) ||| y.toUInt16, ?_, ?_⟩
  · unfold readU16
    rw [if_neg (by omega), BufM.bind_ok h1, BufM.bind_ok h3]
    rfl
  · rw [u16_combine]; exact fieldAt_concat h2 h4

theorem readU32_spec {ε : Type} {b : BitsBuf} (hlen : b.last ≤ 8 * b.buf.length)
    (hr : b.rPos + 32 ≤ b.last) :
    ∃ v : UInt32, (readU32 : BufM ε (Option UInt32)) b = (.ok (some v), { b with rPos := b.rPos + 32 }) ∧
      FieldAt b.buf b.rPos 32 v.toNat := by
  obtain ⟨x, h1, h2⟩ := readU8Unwrap_spec (ε := ε) hlen (by omega)
  obtain ⟨y, h3, h4⟩ := readU8Unwrap_spec (ε := ε) (b := { b with rPos := b.rPos + 8 }) hlen
    (show b.rPos + 8 + 8 ≤ b.last by omega)
  obtain ⟨z, h5, h6⟩ := readU8Unwrap_spec (ε := ε) (b := { b with rPos := b.rPos + 8 + 8 }) hlen
    (show b.rPos + 8 + 8 + 8 ≤ b.last by omega)
  obtain ⟨w, h7, h8⟩ := readU8Unwrap_spec (ε := ε) (b := { b with rPos := b.rPos + 8 + 8 + 8 }) hlen
    (show b.rPos + 8 + 8 + 8 + 8 ≤ b.last by omega)
  refine ⟨(x.toUInt32 <<< 24) ||| (y.toUInt32 <<< 16) ||| (z.toUInt32 <<< 8) ||| w.toUInt32, ?_, ?_⟩
  · unfold readU32
    rw [if_neg (by omega), BufM.bind_ok h1, BufM.bind_ok h3, BufM.bind_ok h5, BufM.bind_ok h7]
    rfl
  · rw [u32_combine]
    exact fieldAt_concat (fieldAt_concat (fieldAt_concat h2 h4) h6) h8

/-- Big-endian value of a byte list. -/
def beVal (l : List UInt8) : Nat := l.foldl (fun acc x => acc * 256 + x.toNat) 0

theorem beVal_acc (l : List UInt8) : ∀ a, l.foldl (fun acc x => acc * 256 + x.toNat) a =
    a * 256 ^ l.length + beVal l := by
  induction l with
  | nil => intro a; simp [beVal]
  | cons x xs ih =>
    intro a
    simp only [List.foldl_cons, beVal, List.length_cons]
    rw [ih, ih (0 * 256 + x.toNat)]
    rw [Nat.pow_succ, Nat.add_mul, Nat.zero_mul, Nat.zero_add, Nat.mul_assoc, Nat.mul_comm 256, Nat.add_assoc]

theorem beVal_cons (x : UInt8) (xs : List UInt8) :
    beVal (x :: xs) = x.toNat * 256 ^ xs.length + beVal xs := by
  show (x :: xs).foldl _ 0 = _
  rw [List.foldl_cons, beVal_acc]; simp

theorem beVal_lt (l : List UInt8) : beVal l < 256 ^ l.length := by
  induction l with
  | nil => simp [beVal]
  | cons x xs ih =>
    rw [beVal_cons, List.length_cons, Nat.pow_succ]
    have := u8_lt x
    calc x.toNat * 256 ^ xs.length + beVal xs < (x.toNat + 1) * 256 ^ xs.length := by
          rw [Nat.add_mul]; omega
      _ ≤ 256 * 256 ^ xs.length := Nat.mul_le_mul_right _ (by omega)
      _ = _ := Nat.mul_comm _ _

theorem beVal_inj : ∀ {l m : List UInt8}, l.length = m.length → beVal l = beVal m → l = m
  | [], [], _, _ => rfl
  | x :: xs, y :: ys, hl, h => by
    simp only [List.length_cons, Nat.add_right_cancel_iff] at hl
    rw [beVal_cons, beVal_cons, hl] at h
    have h1 := beVal_lt xs; have h2 := beVal_lt ys
    rw [hl] at h1
    have hd : x.toNat = y.toNat := by
      have e1 : (x.toNat * 256 ^ ys.length + beVal xs) / 256 ^ ys.length = x.toNat := by
        rw [Nat.mul_comm, Nat.mul_add_div (Nat.pow_pos (by decide)), Nat.div_eq_of_lt h1]; rfl
      have e2 : (y.toNat * 256 ^ ys.length + beVal ys) / 256 ^ ys.length = y.toNat := by
        rw [Nat.mul_comm, Nat.mul_add_div (Nat.pow_pos (by decide)), Nat.div_eq_of_lt h2]; rfl
      rw [← e1, h, e2]
    rw [hd] at h
    have ht : xs = ys := beVal_inj hl (by omega)
    rw [UInt8.toNat_inj.1 hd, ht]

theorem readBytesLoop_spec {ε : Type} (n : Nat) : ∀ {b : BitsBuf}, b.last ≤ 8 * b.buf.length →
    b.rPos + 8 * n ≤ b.last →
    ∃ l : List UInt8, l.length = n ∧ (readBytesLoop n : BufM ε (List UInt8)) b =
      (.ok l, { b with rPos := b.rPos + 8 * n }) ∧ FieldAt b.buf b.rPos (8 * n) (beVal l) := by
  induction n with
  | zero => intro b _ _; exact ⟨[], rfl, rfl, fieldAt_zero _ _⟩
  | succ n ih =>
    intro b hlen hr
    obtain ⟨x, h1, h2⟩ := readU8Unwrap_spec (ε := ε) hlen (by omega)
    obtain ⟨l, h3, h4, h5⟩ := ih (b := { b with rPos := b.rPos + 8 }) hlen
      (show b.rPos + 8 + 8 * n ≤ b.last by omega)
    refine ⟨x :: l, by simp [h3], ?_, ?_⟩
    · unfold readBytesLoop
      rw [BufM.bind_ok h1, BufM.bind_ok h4, BufM.pure_apply]
      simp only [Prod.mk.injEq, BitsBuf.mk.injEq, true_and]
      omega
    · rw [beVal_cons, h3, show (256 : Nat) ^ n = 2 ^ (8 * n) by rw [Nat.pow_mul],
        show 8 * (n + 1) = 8 + 8 * n by omega]
      exact fieldAt_concat h2 h5

theorem readBytesVec_spec {ε : Type} (n : Nat) {b : BitsBuf} (hlen : b.last ≤ 8 * b.buf.length)
    (hr : b.rPos + 8 * n ≤ b.last) :
    ∃ l : List UInt8, l.length = n ∧ (readBytesVec n : BufM ε (Option (List UInt8))) b =
      (.ok (some l), { b with rPos := b.rPos + 8 * n }) ∧ FieldAt b.buf b.rPos (8 * n) (beVal l) := by
  obtain ⟨l, h1, h2, h3⟩ := readBytesLoop_spec (ε := ε) n hlen hr
  refine ⟨l, h1, ?_, h3⟩
  unfold readBytesVec
  rw [if_neg (by omega), BufM.bind_ok h2]; rfl

/-! ## Appending a field -/

/-- What appending a field of width `n` and value `v` does to a buffer whose write position is at
its end. -/
def Appends (b b' : BitsBuf) (n v : Nat) : Prop :=
  b'.Inv ∧ b'.last = b.last + n ∧ b'.wPos = b'.last ∧ b'.rPos = b.rPos ∧
    (∀ i, i < b.last → bitAt b'.buf i = bitAt b.buf i) ∧ FieldAt b'.buf b.last n v

theorem writeBits_appends {ε : Type} {b : BitsBuf} {n : Nat} (v : UInt8) (hinv : b.Inv) (hw : b.wPos = b.last)
    (hn0 : 0 < n) (hn : n ≤ 8) :
    ∃ b', (writeBits v n : BufM ε Unit) b = (.ok (), b') ∧ Appends b b' n (v.toNat % 2 ^ n) := by
  obtain ⟨buf', h1, h2, h3⟩ := writeBits_spec (ε := ε) v hinv hn0 hn
  refine ⟨_, h1, writeBits_inv hinv hn0 hn h1, by simp only; omega, by simp only; omega, rfl, ?_, ?_⟩
  · intro i hi
    rw [h3, if_neg (by omega)]
  · refine ⟨Nat.mod_lt _ (Nat.pow_pos (by decide)), ?_⟩
    intro j hj
    rw [h3, if_pos (by omega), Nat.testBit_mod_two_pow, hw]
    rw [show n - 1 - (b.last + j - b.last) = n - 1 - j by omega]
    have : n - 1 - j < n := by omega
    simp [this]

theorem writeU8_appends {ε : Type} {b : BitsBuf} (v : UInt8) (hinv : b.Inv) (hw : b.wPos = b.last) :
    ∃ b', (writeBits v 8 : BufM ε Unit) b = (.ok (), b') ∧ Appends b b' 8 v.toNat := by
  have := writeBits_appends (ε := ε) (n := 8) v hinv hw (by decide) (by decide)
  rwa [Nat.mod_eq_of_lt (u8_lt v)] at this

theorem Appends.trans {b c d : BitsBuf} {n m v u : Nat} (h1 : Appends b c n v) (h2 : Appends c d m u) :
    Appends b d (n + m) (v * 2 ^ m + u) := by
  obtain ⟨_, l1, _, r1, p1, f1⟩ := h1
  obtain ⟨i2, l2, w2, r2, p2, f2⟩ := h2
  refine ⟨i2, by omega, w2, by omega, ?_, ?_⟩
  · intro i hi
    rw [p2 i (by omega), p1 i hi]
  · rw [l1] at f2
    exact fieldAt_concat (fieldAt_congr f1 (fun i _ _ => p2 i (by omega))) f2

theorem writeU16_appends {ε : Type} {b : BitsBuf} (v : UInt16) (hinv : b.Inv) (hw : b.wPos = b.last) :
    ∃ b', (writeU16 v : BufM ε Unit) b = (.ok (), b') ∧ Appends b b' 16 v.toNat := by
  obtain ⟨c, h1, a1⟩ := writeU8_appends (ε := ε) (v >>> 8).toUInt8 hinv hw
  obtain ⟨d, h2, a2⟩ := writeU8_appends (ε := ε) v.toUInt8 a1.1 a1.2.2.1
  refine ⟨d, ?_, ?_⟩
  · unfold writeU16; rw [BufM.bind_ok h1, h2]
  · have := a1.trans a2
    have e : (v >>> 8).toUInt8.toNat * 2 ^ 8 + v.toUInt8.toNat = v.toNat := by
      have := v.toNat_lt
      simp [UInt16.toNat_shiftRight, Nat.shiftRight_eq_div_pow]; omega
    rwa [e] at this

theorem writeU32_appends {ε : Type} {b : BitsBuf} (v : UInt32) (hinv : b.Inv) (hw : b.wPos = b.last) :
    ∃ b', (writeU32 v : BufM ε Unit) b = (.ok (), b') ∧ Appends b b' 32 v.toNat := by
  obtain ⟨c1, h1, a1⟩ := writeU8_appends (ε := ε) (v >>> 24).toUInt8 hinv hw
  obtain ⟨c2, h2, a2⟩ := writeU8_appends (ε := ε) (v >>> 16).toUInt8 a1.1 a1.2.2.1
  obtain ⟨c3, h3, a3⟩ := writeU8_appends (ε := ε) (v >>> 8).toUInt8 a2.1 a2.2.2.1
  obtain ⟨c4, h4, a4⟩ := writeU8_appends (ε := ε) v.toUInt8 a3.1 a3.2.2.1
  refine ⟨c4, ?_, ?_⟩
  · unfold writeU32; rw [BufM.bind_ok h1, BufM.bind_ok h2, BufM.bind_ok h3, h4]
  · have := ((a1.trans a2).trans a3).trans a4
    have e : (((v >>> 24).toUInt8.toNat * 2 ^ 8 + (v >>> 16).toUInt8.toNat) * 2 ^ 8 +
        (v >>> 8).toUInt8.toNat) * 2 ^ 8 + v.toUInt8.toNat = v.toNat := by
      have := v.toNat_lt
      simp [UInt32.toNat_shiftRight, Nat.shiftRight_eq_div_pow]; omega
    rwa [e] at this

theorem writeBytes_appends {ε : Type} (l : List UInt8) : ∀ {b : BitsBuf}, b.Inv → b.wPos = b.last →
    ∃ b', (writeBytes l : BufM ε Unit) b = (.ok (), b') ∧ Appends b b' (8 * l.length) (beVal l) := by
  induction l with
  | nil =>
    intro b hinv hw
    exact ⟨b, rfl, hinv, by simp, hw, rfl, fun _ _ => rfl, fieldAt_zero _ _⟩
  | cons x xs ih =>
    intro b hinv hw
    obtain ⟨c, h1, a1⟩ := writeU8_appends (ε := ε) x hinv hw
    obtain ⟨d, h2, a2⟩ := ih a1.1 a1.2.2.1
    refine ⟨d, ?_, ?_⟩
    · unfold writeBytes writeU8; rw [BufM.bind_ok h1, h2]
    · have := a1.trans a2
      rwa [beVal_cons, show (256 : Nat) ^ xs.length = 2 ^ (8 * xs.length) by rw [Nat.pow_mul],
        show 8 * (x :: xs).length = 8 + 8 * xs.length by simp; omega]

end BitsBuf

/-! ## Fields -/

theorem field_write_appends (f : Field) (hf : f.WF) {b : BitsBuf} (hinv : b.Inv) (hw : b.wPos = b.last) :
    ∃ b', f.write b = (.ok (), b') ∧ BitsBuf.Appends b b' f.width f.value := by
  cases f with
  | bits v n => exact BitsBuf.writeBits_appends v hinv hw hf.1 hf.2
  | u8 v => exact BitsBuf.writeU8_appends v hinv hw
  | u16 v => exact BitsBuf.writeU16_appends v hinv hw
  | u32 v => exact BitsBuf.writeU32_appends v hinv hw
  | bytes l => exact BitsBuf.writeBytes_appends l hinv hw

theorem need_ok {α : Type} {m : BufM Unit (Option α)} {b b' : BitsBuf} {v : α}
    (h : m b = (.ok (some v), b')) : need m b = (.ok v, b') := by
  unfold need; rw [BufM.bind_ok h]; rfl

theorem field_read_spec (f : Field) (hf : f.WF) {b : BitsBuf} (hlen : b.last ≤ 8 * b.buf.length)
    (hr : b.rPos + f.width ≤ b.last) (hv : FieldAt b.buf b.rPos f.width f.value) :
    f.read b = (.ok f.stored, { b with rPos := b.rPos + f.width }) := by
  cases f with
  | bits v n =>
    obtain ⟨x, h1, h2⟩ := BitsBuf.readBits_spec (ε := Unit) hlen hf.1 hf.2 hr
    have e : x = UInt8.ofNat (v.toNat % 2 ^ n) := by
      apply UInt8.toNat_inj.1
      have := BitsBuf.fieldAt_unique h2 hv
      simp only [Field.value] at this
      have hlt : v.toNat % 2 ^ n < 256 := Nat.lt_of_le_of_lt (Nat.mod_le _ _) (u8_lt v)
      rw [this]; simp; omega
    subst e
    simp only [Field.read]
    rw [BufM.bind_ok (need_ok h1)]; rfl
  | u8 v =>
    obtain ⟨x, h1, h2⟩ := BitsBuf.readBits_spec (ε := Unit) (n := 8) hlen (by decide) (by decide) hr
    have e : x = v := UInt8.toNat_inj.1 (BitsBuf.fieldAt_unique h2 hv)
    subst e
    simp only [Field.read, BitsBuf.readU8]
    rw [BufM.bind_ok (need_ok h1)]; rfl
  | u16 v =>
    obtain ⟨x, h1, h2⟩ := BitsBuf.readU16_spec (ε := Unit) hlen hr
    have e : x = v := UInt16.toNat_inj.1 (BitsBuf.fieldAt_unique h2 hv)
    subst e
    simp only [Field.read]
    rw [BufM.bind_ok (need_ok h1)]; rfl
  | u32 v =>
    obtain ⟨x, h1, h2⟩ := BitsBuf.readU32_spec (ε := Unit) hlen hr
    have e : x = v := UInt32.toNat_inj.1 (BitsBuf.fieldAt_unique h2 hv)
    subst e
    simp only [Field.read]
    rw [BufM.bind_ok (need_ok h1)]; rfl
  | bytes l =>
    obtain ⟨x, h0, h1, h2⟩ := BitsBuf.readBytesVec_spec (ε := Unit) l.length hlen hr
    have e : x = l := BitsBuf.beVal_inj h0 (BitsBuf.fieldAt_unique h2 hv)
    subst e
    simp only [Field.read]
    rw [BufM.bind_ok (need_ok h1)]; rfl

/-- The fields `fs` are laid out one after the other from bit `r` on. -/
def LaidOut (bs : List UInt8) : Nat → List Field → Prop
  | _, [] => True
  | r, f :: fs => FieldAt bs r f.width f.value ∧ LaidOut bs (r + f.width) fs

def totalWidth (fs : List Field) : Nat := (fs.map Field.width).sum

theorem writeAll_spec (fs : List Field) : (∀ f ∈ fs, f.WF) → ∀ {b : BitsBuf}, b.Inv → b.wPos = b.last →
    ∃ b', writeAll fs b = (.ok (), b') ∧ b'.Inv ∧ b'.last = b.last + totalWidth fs ∧ b'.wPos = b'.last ∧
      b'.rPos = b.rPos ∧ (∀ i, i < b.last → bitAt b'.buf i = bitAt b.buf i) ∧
      LaidOut b'.buf b.last fs := by
  induction fs with
  | nil => intro _ b hinv hw; exact ⟨b, rfl, hinv, by simp [totalWidth], hw, rfl, fun _ _ => rfl, trivial⟩
  | cons f fs ih =>
    intro hf b hinv hw
    obtain ⟨c, h1, a1⟩ := field_write_appends f (hf f (by simp)) hinv hw
    obtain ⟨d, h2, i2, l2, w2, r2, p2, q2⟩ := ih (fun g hg => hf g (by simp [hg])) a1.1 a1.2.2.1
    obtain ⟨_, l1, w1, r1, p1, f1⟩ := a1
    refine ⟨d, ?_, i2, ?_, w2, by omega, ?_, ?_, ?_⟩
    · unfold writeAll; rw [BufM.bind_ok h1, h2]
    · simp [totalWidth] at *; omega
    · intro i hi; rw [p2 i (by omega), p1 i hi]
    · exact fieldAt_congr f1 (fun i _ _ => p2 i (by omega))
    · rw [l1] at q2; exact q2

theorem readAll_spec (fs : List Field) : (∀ f ∈ fs, f.WF) → ∀ {b : BitsBuf}, b.last ≤ 8 * b.buf.length →
    b.rPos + totalWidth fs ≤ b.last → LaidOut b.buf b.rPos fs →
    readAll fs b = (.ok (fs.map Field.stored), { b with rPos := b.rPos + totalWidth fs }) := by
  induction fs with
  | nil => intro _ b _ _ _; simp [readAll, totalWidth]
  | cons f fs ih =>
    intro hf b hlen hr hl
    simp only [totalWidth, List.map_cons, List.sum_cons] at hr ⊢
    unfold readAll
    rw [BufM.bind_ok (field_read_spec f (hf f (by simp)) hlen (by omega) hl.1)]
    rw [BufM.bind_ok (ih (fun g hg => hf g (by simp [hg])) (b := { b with rPos := b.rPos + f.width }) hlen
      (by simp only [totalWidth]; omega) hl.2)]
    simp [totalWidth, Nat.add_assoc]

theorem laidOut_split {bs : List UInt8} {pre : List Field} {f : Field} {post : List Field} :
    ∀ {r : Nat}, LaidOut bs r (pre ++ f :: post) → FieldAt bs (r + totalWidth pre) f.width f.value := by
  induction pre with
  | nil => intro r h; simpa [totalWidth] using h.1
  | cons g pre ih =>
    intro r h
    have := ih h.2
    simpa [totalWidth, Nat.add_assoc] using this

end Ariadne
