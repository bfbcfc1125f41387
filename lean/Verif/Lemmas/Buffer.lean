import Verif.Spec.Streams
import Verif.Lemmas.Bits

namespace Ariadne

open Spec

namespace BufM

@[simp] theorem pure_apply {ε α : Type} (a : α) (b : BitsBuf) : (pure a : BufM ε α) b = (.ok a, b) := rfl

theorem bind_apply {ε α β : Type} (m : BufM ε α) (f : α → BufM ε β) (b : BitsBuf) :
    (m >>= f) b = match m b with
      | (.ok a, b') => f a b'
      | (.err e, b') => (.err e, b')
      | (.panic k, b') => (.panic k, b')
      | (.diverge, b') => (.diverge, b') := rfl

theorem bind_ok {ε α β : Type} {m : BufM ε α} {f : α → BufM ε β} {b b' : BitsBuf} {a : α}
    (h : m b = (.ok a, b')) : (m >>= f) b = f a b' := by rw [bind_apply, h]

theorem bind_err {ε α β : Type} {m : BufM ε α} {f : α → BufM ε β} {b b' : BitsBuf} {e : ε}
    (h : m b = (.err e, b')) : (m >>= f) b = (.err e, b') := by rw [bind_apply, h]

theorem bind_panic {ε α β : Type} {m : BufM ε α} {f : α → BufM ε β} {b b' : BitsBuf} {e : Panic}
    (h : m b = (.panic e, b')) : (m >>= f) b = (.panic e, b') := by rw [bind_apply, h]

@[simp] theorem lift_apply {ε α : Type} (o : Out ε α) (b : BitsBuf) : BufM.lift o b = (o, b) := rfl
@[simp] theorem throw_apply {ε α : Type} (e : ε) (b : BitsBuf) :
    (BufM.throw e : BufM ε α) b = (.err e, b) := rfl
@[simp] theorem panic_apply {ε α : Type} (k : Panic) (b : BitsBuf) :
    (BufM.panic k : BufM ε α) b = (.panic k, b) := rfl
@[simp] theorem diverge_apply {ε α : Type} (b : BitsBuf) :
    (BufM.diverge : BufM ε α) b = (.diverge, b) := rfl
@[simp] theorem assert_true {ε : Type} (b : BitsBuf) :
    (BufM.assert true : BufM ε Unit) b = (.ok (), b) := rfl
@[simp] theorem assert_false {ε : Type} (b : BitsBuf) :
    (BufM.assert false : BufM ε Unit) b = (.panic .assert, b) := rfl

instance {ε : Type} : LawfulMonad (BufM ε) := LawfulMonad.mk'
  (id_map := by
    intro α x
    funext b
    show (x >>= fun a => pure a) b = x b
    rw [bind_apply]
    rcases x b with ⟨o, b'⟩
    cases o <;> rfl)
  (pure_bind := by intros; rfl)
  (bind_assoc := by
    intro α β γ x f g
    funext b
    simp only [bind_apply]
    rcases x b with ⟨o, b'⟩
    cases o <;> rfl)
  (bind_pure_comp := by intros; rfl)

end BufM

/-! ## Byte lists as bit strings -/

theorem bitAt_lt {l : List UInt8} {i : Nat} (h : i / 8 < l.length) :
    bitAt l i = (l[i / 8]).toNat.testBit (7 - i % 8) := by
  simp [bitAt, List.getD, h]

theorem bitAt_ge {l : List UInt8} {i : Nat} (h : l.length ≤ i / 8) : bitAt l i = false := by
  simp [bitAt, List.getD, h]

theorem bits_ext {l m : List UInt8} (hlen : l.length = m.length)
    (h : ∀ i, i < 8 * l.length → bitAt l i = bitAt m i) : l = m := by
  apply List.ext_getElem hlen
  intro k h1 h2
  apply u8_ext
  intro j hj
  have := h (8 * k + (7 - j)) (by omega)
  have e1 : (8 * k + (7 - j)) / 8 = k := by omega
  have e2 : 7 - (8 * k + (7 - j)) % 8 = j := by omega
  rw [bitAt_lt (by omega), bitAt_lt (by omega)] at this
  simpa only [e1, e2] using this

theorem bitAt_append_zero (l : List UInt8) (i : Nat) : bitAt (l ++ [0]) i = bitAt l i := by
  by_cases h : i / 8 < l.length
  · rw [bitAt_lt h, bitAt_lt (by simp; omega), List.getElem_append_left h]
  · rw [bitAt_ge (l := l) (by omega)]
    by_cases h2 : i / 8 < (l ++ [0]).length
    · rw [bitAt_lt h2, List.getElem_append_right (by omega)]
      simp
    · exact bitAt_ge (by omega)

theorem bitAt_append_left {l m : List UInt8} {i : Nat} (h : i < 8 * l.length) :
    bitAt (l ++ m) i = bitAt l i := by
  rw [bitAt_lt (l := l) (by omega), bitAt_lt (by simp; omega), List.getElem_append_left (by omega)]

theorem bitAt_append_right (l m : List UInt8) (i : Nat) :
    bitAt (l ++ m) (8 * l.length + i) = bitAt m i := by
  unfold bitAt
  have e1 : (8 * l.length + i) / 8 = l.length + i / 8 := by omega
  have e2 : (8 * l.length + i) % 8 = i % 8 := by omega
  rw [e1, e2]
  congr 2
  simp [List.getD, List.getElem?_append_right]

theorem bitAt_set {l : List UInt8} {k : Nat} {x : UInt8} (hk : k < l.length) (i : Nat) :
    bitAt (l.set k x) i = if i / 8 = k then x.toNat.testBit (7 - i % 8) else bitAt l i := by
  unfold bitAt
  by_cases h : i / 8 = k
  · subst h
    simp [List.getD, hk]
  · have h' : ¬ k = i / 8 := fun e => h e.symm
    simp [List.getD, h, h']

/-! ## Invariant -/

/-- Representation invariant of the buffer. -/
structure BitsBuf.Inv (b : BitsBuf) : Prop where
  len : b.buf.length = (b.last + 7) / 8
  r : b.rPos ≤ b.last
  w : b.wPos ≤ b.last
  pad : ∀ i, b.last ≤ i → bitAt b.buf i = false

namespace BitsBuf

theorem inv_new : Inv new := ⟨rfl, Nat.le_refl _, Nat.le_refl _, fun i _ => by simp [new, bitAt]⟩

theorem inv_fromRaw (bytes : List UInt8) : Inv (fromRawBytes bytes) where
  len := by simp [fromRawBytes]; omega
  r := by simp [fromRawBytes]
  w := by simp [fromRawBytes]
  pad := by
    intro i hi
    apply bitAt_ge
    simp [fromRawBytes] at *; omega

theorem readBits_spec {ε : Type} {b : BitsBuf} {n : Nat} (hlen : b.last ≤ 8 * b.buf.length)
    (hn0 : 0 < n) (hn : n ≤ 8) (hr : b.rPos + n ≤ b.last) :
    ∃ v : UInt8, (readBits n : BufM ε (Option UInt8)) b = (.ok (some v), { b with rPos := b.rPos + n }) ∧
      FieldAt b.buf b.rPos n v.toNat := by
  have hr' : ¬ b.rPos + n > b.last := by omega
  have hi : b.rPos / 8 < b.buf.length := by omega
  have hne : ¬ n = 0 := by omega
  by_cases hc : n ≤ 8 - b.rPos % 8
  · refine ⟨(b.buf[b.rPos / 8] &&& mask (8 - b.rPos % 8)) >>> (8 - b.rPos % 8 - n).toUInt8, ?_, ?_, ?_⟩
    · simp [readBits, hn, hne, hr', hc, List.getElem?_eq_getElem hi]
    · apply Nat.lt_pow_two_of_testBit
      intro k hk
      rw [read_one_spec _ hn0 (by omega) hc]
      simp; omega
    · intro j hj
      rw [read_one_spec _ hn0 (by omega) hc]
      have e1 : (b.rPos + j) / 8 = b.rPos / 8 := by omega
      rw [bitAt_lt (by omega)]
      simp only [e1]
      have e2 : 8 - b.rPos % 8 - n + (n - 1 - j) = 7 - (b.rPos + j) % 8 := by omega
      have e3 : n - 1 - j < n := by omega
      rw [e2]; simp [e3]
  · have hi2 : b.rPos / 8 + 1 < b.buf.length := by omega
    refine ⟨((b.buf[b.rPos / 8] &&& mask (8 - b.rPos % 8)) <<< (n - (8 - b.rPos % 8)).toUInt8) |||
      (b.buf[b.rPos / 8 + 1] >>> (8 - (n - (8 - b.rPos % 8))).toUInt8), ?_, ?_, ?_⟩
    · simp [readBits, hn, hne, hr', hc, List.getElem?_eq_getElem hi, List.getElem?_eq_getElem hi2]
    · apply Nat.lt_pow_two_of_testBit
      intro k hk
      rw [read_two_spec _ _ (by omega) hn hc]
      simp; omega
    · intro j hj
      rw [read_two_spec _ _ (by omega) hn hc]
      have e3 : n - 1 - j < n := by omega
      by_cases h4 : n - 1 - j < n - (8 - b.rPos % 8)
      · have e1 : (b.rPos + j) / 8 = b.rPos / 8 + 1 := by omega
        rw [bitAt_lt (by omega)]
        simp only [e1]
        have e2 : 8 - (n - (8 - b.rPos % 8)) + (n - 1 - j) = 7 - (b.rPos + j) % 8 := by omega
        rw [e2]; simp [h4, e3]
      · have e1 : (b.rPos + j) / 8 = b.rPos / 8 := by omega
        rw [bitAt_lt (by omega)]
        simp only [e1]
        have e2 : n - 1 - j - (n - (8 - b.rPos % 8)) = 7 - (b.rPos + j) % 8 := by omega
        rw [e2]; simp [h4, e3]

theorem readBits_none {ε : Type} {b : BitsBuf} {n : Nat}
    (hn0 : 0 < n) (hn : n ≤ 8) (hr : b.last < b.rPos + n) :
    (readBits n : BufM ε (Option UInt8)) b = (.ok none, b) := by
  have : ¬ n = 0 := by omega
  simp [readBits, hn, this, hr]

/-- Everything `write_bits` does, bit by bit. -/
theorem writeBits_spec {ε : Type} {b : BitsBuf} {n : Nat} (v : UInt8) (hinv : b.Inv)
    (hn0 : 0 < n) (hn : n ≤ 8) :
    ∃ buf', (writeBits v n : BufM ε Unit) b =
        (.ok (), { buf := buf', last := max b.last (b.wPos + n), wPos := b.wPos + n, rPos := b.rPos }) ∧
      buf'.length = (max b.last (b.wPos + n) + 7) / 8 ∧
      ∀ i, bitAt buf' i =
        if b.wPos ≤ i ∧ i < b.wPos + n then v.toNat.testBit (n - 1 - (i - b.wPos)) else bitAt b.buf i := by
  obtain ⟨hlen, hr, hw, hpad⟩ := hinv
  have hlast : (if b.wPos + n > b.last then b.wPos + n else b.last) = max b.last (b.wPos + n) := by
    split <;> omega
  have hw8 : ¬ b.buf.length * 8 < b.wPos := by omega
  have hcond : n ≤ 8 ∧ n > 0 := ⟨hn, hn0⟩
  obtain ⟨B, hB⟩ : ∃ B, B = (if b.buf.length * 8 - b.wPos < n then b.buf ++ [0] else b.buf) := ⟨_, rfl⟩
  have hBbit : ∀ i, bitAt B i = bitAt b.buf i := by
    intro i; rw [hB]; split
    · exact bitAt_append_zero _ _
    · rfl
  have hBlen : B.length = (max b.last (b.wPos + n) + 7) / 8 := by
    rw [hB]; split
    · simp; omega
    · omega
  have hBi : b.wPos / 8 < B.length := by omega
  by_cases hc : n ≤ 8 - b.wPos % 8
  · refine ⟨B.set (b.wPos / 8) ((B[b.wPos / 8] &&& ~~~ (mask n <<< (8 - b.wPos % 8 - n).toUInt8)) |||
      ((v &&& mask n) <<< (8 - b.wPos % 8 - n).toUInt8)), ?_, ?_, ?_⟩
    · simp only [writeBits, hcond, hw8, ← hB, hlast, hc]
      simp [List.getElem?_eq_getElem hBi]
    · simp [hBlen]
    · intro i
      rw [bitAt_set hBi]
      by_cases hi : i / 8 = b.wPos / 8
      · rw [if_pos hi, write_one_spec _ _ (by omega) (by omega)]
        by_cases h1 : b.wPos ≤ i ∧ i < b.wPos + n
        · rw [if_pos h1, if_pos (by omega)]
          congr 1; omega
        · rw [if_neg h1, if_neg (by omega), ← hBbit, bitAt_lt (by omega)]
          simp only [hi]
      · rw [if_neg hi, if_neg (by omega), hBbit]
  · have hBi2 : b.wPos / 8 + 1 < B.length := by omega
    refine ⟨(B.set (b.wPos / 8) ((B[b.wPos / 8] &&& ~~~ (mask (8 - b.wPos % 8))) |||
        ((v &&& mask n) >>> (n - (8 - b.wPos % 8)).toUInt8))).set (b.wPos / 8 + 1)
        ((B[b.wPos / 8 + 1] &&& ~~~ (mask (n - (8 - b.wPos % 8)) <<< (8 - (n - (8 - b.wPos % 8))).toUInt8)) |||
        (((v &&& mask n) &&& mask (n - (8 - b.wPos % 8))) <<< (8 - (n - (8 - b.wPos % 8))).toUInt8)), ?_, ?_, ?_⟩
    · simp only [writeBits, hcond, hw8, ← hB, hlast, hc]
      simp [List.getElem?_eq_getElem hBi, List.getElem?_eq_getElem hBi2]
    · simp [hBlen]
    · intro i
      rw [bitAt_set (by simpa using hBi2), bitAt_set hBi]
      by_cases hi2 : i / 8 = b.wPos / 8 + 1
      · rw [if_pos hi2, write_second_spec _ _ (by omega) hn hc]
        by_cases h1 : b.wPos ≤ i ∧ i < b.wPos + n
        · rw [if_pos h1, if_pos (by omega)]
          congr 1; omega
        · rw [if_neg h1, if_neg (by omega), ← hBbit, bitAt_lt (by omega)]
          simp only [hi2]
      · rw [if_neg hi2]
        by_cases hi : i / 8 = b.wPos / 8
        · rw [if_pos hi, write_first_spec _ _ (by omega) hn hc]
          by_cases h1 : b.wPos ≤ i ∧ i < b.wPos + n
          · rw [if_pos h1, if_pos (by omega)]
            congr 1; omega
          · rw [if_neg h1, if_neg (by omega), ← hBbit, bitAt_lt (by omega)]
            simp only [hi]
        · rw [if_neg hi, if_neg (by omega), hBbit]

theorem writeBits_inv {ε : Type} {b b' : BitsBuf} {n : Nat} {v : UInt8} (hinv : b.Inv)
    (hn0 : 0 < n) (hn : n ≤ 8) (h : (writeBits v n : BufM ε Unit) b = (.ok (), b')) : b'.Inv := by
  obtain ⟨buf', h1, h2, h3⟩ := writeBits_spec (ε := ε) v hinv hn0 hn
  rw [h] at h1
  obtain ⟨_, rfl⟩ := Prod.mk.inj h1
  have := hinv.r; have := hinv.w
  refine ⟨h2, by simp only; omega, by simp only; omega, ?_⟩
  intro i hi
  simp only at hi ⊢
  rw [h3, if_neg (by omega)]
  exact hinv.pad i (by omega)

theorem getLast?_take_eq {l : List UInt8} {k : Nat} (hk : k < l.length) :
    (l.take (k + 1)).getLast? = some l[k] := by
  rw [List.getLast?_eq_getElem?]
  simp [List.length_take]
  have : min (k + 1) l.length - 1 = k := by omega
  rw [this, List.getElem?_take_of_lt (by omega), List.getElem?_eq_getElem hk]

theorem dropLast_take {l : List UInt8} {k : Nat} (hk : k < l.length) :
    (l.take (k + 1)).dropLast = l.take k := by
  rw [List.take_succ_eq_append_getElem hk, List.dropLast_concat]

theorem truncate_spec {b : BitsBuf} (len : Nat) (hinv : b.Inv) :
    (truncate b len).Inv ∧
    (truncate b len).last = min len b.last ∧
    (truncate b len).rPos = min b.rPos (min len b.last) ∧
    (truncate b len).wPos = min b.wPos (min len b.last) ∧
    ∀ i, i < min len b.last → bitAt (truncate b len).buf i = bitAt b.buf i := by
  have hinv0 := hinv
  obtain ⟨hlen, hr, hw, hpad⟩ := hinv
  by_cases hc : len ≥ b.last
  · have e : truncate b len = b := by simp [truncate, hc]
    rw [e]
    exact ⟨hinv0, by omega, by omega, by omega, fun _ _ => rfl⟩
  · have hmin : min len b.last = len := by omega
    have hrr : (if len < b.rPos then len else b.rPos) = min b.rPos len := by split <;> omega
    have hww : (if len < b.wPos then len else b.wPos) = min b.wPos len := by split <;> omega
    rw [hmin]
    by_cases h8 : len % 8 = 0
    · have e : truncate b len = BitsBuf.mk (b.buf.take ((len + 7) / 8)) len (min b.wPos len) (min b.rPos len) := by
        simp [truncate, hc, h8, hrr, hww]
      have hbit : ∀ i, bitAt (b.buf.take ((len + 7) / 8)) i = if i < len then bitAt b.buf i else false := by
        intro i
        split
        · next h => rw [bitAt_lt (by simp; omega), bitAt_lt (by omega)]; simp
        · next h => exact bitAt_ge (by simp; omega)
      rw [e]
      refine ⟨⟨by simp; omega, by simp only; omega, by simp only; omega, ?_⟩, rfl, rfl, rfl, ?_⟩
      · intro i hi
        simp only at hi ⊢
        rw [hbit, if_neg (by omega)]
      · intro i hi
        simp only
        rw [hbit, if_pos hi]
    · obtain ⟨k, hk⟩ : ∃ k, (len + 7) / 8 = k + 1 := ⟨len / 8, by omega⟩
      have hkl : k = len / 8 := by omega
      have hkb : k < b.buf.length := by omega
      have e : truncate b len = BitsBuf.mk (b.buf.take k ++ [b.buf[k] &&& ~~~ (mask (8 - len % 8))]) len
          (min b.wPos len) (min b.rPos len) := by
        simp only [truncate, hc, hrr, hww, hk]
        rw [getLast?_take_eq hkb, dropLast_take hkb]
        simp [h8]
      have hbit : ∀ i, bitAt (b.buf.take k ++ [b.buf[k] &&& ~~~ (mask (8 - len % 8))]) i =
          if i < len then bitAt b.buf i else false := by
        intro i
        have htl : (b.buf.take k).length = k := by simp; omega
        by_cases h1 : i < 8 * k
        · rw [bitAt_append_left (by omega), if_pos (by omega), bitAt_lt (by omega), bitAt_lt (by omega)]
          simp
        · obtain ⟨j, rfl⟩ : ∃ j, i = 8 * (b.buf.take k).length + j := ⟨i - 8 * k, by omega⟩
          rw [bitAt_append_right]
          rw [htl] at *
          by_cases hj : j < 8
          · have : bitAt [b.buf[k] &&& ~~~ (mask (8 - len % 8))] j =
                (b.buf[k] &&& ~~~ (mask (8 - len % 8))).toNat.testBit (7 - j) := by
              have e1 : j / 8 = 0 := by omega
              have e2 : j % 8 = j := by omega
              simp [bitAt, e1, e2]
            rw [this, tb_and, tb_not, tb_mask (by omega)]
            by_cases hl : 8 * k + j < len
            · rw [if_pos hl, bitAt_lt (by omega)]
              have e1 : (8 * k + j) / 8 = k := by omega
              have e2 : 7 - (8 * k + j) % 8 = 7 - j := by omega
              have e3 : ¬ (7 - j < 8 - len % 8) := by omega
              have e4 : 7 - j < 8 := by omega
              simp only [e1, e2]
              simp [e3, e4]
            · rw [if_neg hl]
              have e3 : (7 - j < 8 - len % 8) := by omega
              simp [e3]
          · rw [if_neg (by omega)]
            exact bitAt_ge (by simp; omega)
      rw [e]
      refine ⟨⟨by simp; omega, by simp only; omega, by simp only; omega, ?_⟩, rfl, rfl, rfl, ?_⟩
      · intro i hi
        simp only at hi ⊢
        rw [hbit, if_neg (by omega)]
      · intro i hi
        simp only
        rw [hbit, if_pos hi]

/-! ## Byte-aligned reading -/

theorem rd_zero (bs : List UInt8) : fromRawBytes bs = rd bs 0 := rfl

theorem field8_unique {bs : List UInt8} {i : Nat} {v : UInt8} (hi : i < bs.length)
    (h : FieldAt bs (8 * i) 8 v.toNat) : v = bs[i] := by
  apply u8_ext
  intro k hk
  have := h.2 (7 - k) (by omega)
  rw [bitAt_lt (by omega)] at this
  have e1 : (8 * i + (7 - k)) / 8 = i := by omega
  have e2 : 7 - (8 * i + (7 - k)) % 8 = k := by omega
  have e3 : 8 - 1 - (7 - k) = k := by omega
  simpa only [e1, e2, e3] using this

theorem fieldAt_unique {bs : List UInt8} {r n v v' : Nat} (h : FieldAt bs r n v) (h' : FieldAt bs r n v') :
    v = v' := by
  apply Nat.eq_of_testBit_eq
  intro k
  by_cases hk : k < n
  · have h1 := h.2 (n - 1 - k) (by omega)
    have h2 := h'.2 (n - 1 - k) (by omega)
    have e : n - 1 - (n - 1 - k) = k := by omega
    rw [e] at h1 h2
    rw [h1, h2]
  · have hp : 2 ^ n ≤ 2 ^ k := Nat.pow_le_pow_right (by decide) (by omega)
    rw [Nat.testBit_lt_two_pow (Nat.lt_of_lt_of_le h.1 hp), Nat.testBit_lt_two_pow (Nat.lt_of_lt_of_le h'.1 hp)]

theorem readU8_rd {ε : Type} {bs : List UInt8} {i : Nat} (h : i < bs.length) :
    (readU8 : BufM ε (Option UInt8)) (rd bs i) = (.ok (some bs[i]), rd bs (i + 1)) := by
  obtain ⟨v, h1, h2⟩ := readBits_spec (ε := ε) (b := rd bs i) (n := 8) (by simp [rd, rdBit]; omega)
    (by decide) (by decide) (by simp [rd, rdBit]; omega)
  have := field8_unique h h2
  subst this
  exact h1

theorem readU8_rd_none {ε : Type} {bs : List UInt8} {i : Nat} (h : bs.length ≤ i) :
    (readU8 : BufM ε (Option UInt8)) (rd bs i) = (.ok none, rd bs i) :=
  readBits_none (by decide) (by decide) (by simp [rd, rdBit]; omega)

theorem readU8Unwrap_rd {ε : Type} {bs : List UInt8} {i : Nat} (h : i < bs.length) :
    (readU8Unwrap : BufM ε UInt8) (rd bs i) = (.ok bs[i], rd bs (i + 1)) := by
  unfold readU8Unwrap
  rw [BufM.bind_ok (readU8_rd h)]
  rfl

theorem readBytesLoop_rd {ε : Type} {bs : List UInt8} (n : Nat) :
    ∀ {i : Nat}, i + n ≤ bs.length →
    (readBytesLoop n : BufM ε (List UInt8)) (rd bs i) = (.ok ((bs.drop i).take n), rd bs (i + n)) := by
  induction n with
  | zero => intro i h; simp [readBytesLoop]
  | succ n ih =>
    intro i h
    unfold readBytesLoop
    rw [BufM.bind_ok (readU8Unwrap_rd (by omega)), BufM.bind_ok (ih (by omega))]
    rw [BufM.pure_apply, show List.drop i bs = bs[i] :: List.drop (i + 1) bs from
      List.drop_eq_getElem_cons (by omega), List.take_succ_cons, show i + 1 + n = i + (n + 1) by omega]

theorem readBytesVec_rd {ε : Type} {bs : List UInt8} {n i : Nat} (h : i + n ≤ bs.length) :
    (readBytesVec n : BufM ε (Option (List UInt8))) (rd bs i) =
      (.ok (some ((bs.drop i).take n)), rd bs (i + n)) := by
  unfold readBytesVec
  have : ¬ (rd bs i).rPos + n * 8 > (rd bs i).last := by simp [rd, rdBit]; omega
  rw [if_neg this, BufM.bind_ok (readBytesLoop_rd n h)]
  rfl

theorem readBytesVec_rd_none {ε : Type} {bs : List UInt8} {n i : Nat} (h : bs.length < i + n) :
    (readBytesVec n : BufM ε (Option (List UInt8))) (rd bs i) = (.ok none, rd bs i) := by
  unfold readBytesVec
  have : (rd bs i).rPos + n * 8 > (rd bs i).last := by simp [rd, rdBit]; omega
  rw [if_pos this]

theorem readU16_rd {ε : Type} {bs : List UInt8} {i : Nat} (h : i + 1 < bs.length) :
    (readU16 : BufM ε (Option UInt16)) (rd bs i) =
      (.ok (some ((bs[i].toUInt16 <<< 8) ||| bs[i + 1].toUInt16)), rd bs (i + 2)) := by
  unfold readU16
  have : ¬ (rd bs i).rPos + 16 > (rd bs i).last := by simp [rd, rdBit]; omega
  rw [if_neg this, BufM.bind_ok (readU8Unwrap_rd (by omega)), BufM.bind_ok (readU8Unwrap_rd h)]
  rfl

theorem readU16_rd_none {ε : Type} {bs : List UInt8} {i : Nat} (h : bs.length ≤ i + 1) :
    (readU16 : BufM ε (Option UInt16)) (rd bs i) = (.ok none, rd bs i) := by
  unfold readU16
  have : (rd bs i).rPos + 16 > (rd bs i).last := by simp [rd, rdBit]; omega
  rw [if_pos this]

theorem readU32_rd {ε : Type} {bs : List UInt8} {i : Nat} (h : i + 3 < bs.length) :
    (readU32 : BufM ε (Option UInt32)) (rd bs i) =
      (.ok (some ((bs[i].toUInt32 <<< 24) ||| (bs[i + 1].toUInt32 <<< 16) |||
        (bs[i + 2].toUInt32 <<< 8) ||| bs[i + 3].toUInt32)), rd bs (i + 4)) := by
  unfold readU32
  have : ¬ (rd bs i).rPos + 32 > (rd bs i).last := by simp [rd, rdBit]; omega
  rw [if_neg this, BufM.bind_ok (readU8Unwrap_rd (by omega)), BufM.bind_ok (readU8Unwrap_rd (by omega)),
    BufM.bind_ok (readU8Unwrap_rd (by omega)), BufM.bind_ok (readU8Unwrap_rd h)]
  rfl

theorem readU32_rd_none {ε : Type} {bs : List UInt8} {i : Nat} (h : bs.length ≤ i + 3) :
    (readU32 : BufM ε (Option UInt32)) (rd bs i) = (.ok none, rd bs i) := by
  unfold readU32
  have : (rd bs i).rPos + 32 > (rd bs i).last := by simp [rd, rdBit]; omega
  rw [if_pos this]

/-! ## Byte-aligned writing -/

theorem app_nil : new = app [] := rfl

theorem inv_app (bs : List UInt8) : Inv (app bs) where
  len := by simp [app]; omega
  r := by simp [app]
  w := by simp [app]
  pad := by intro i hi; apply bitAt_ge; simp [app] at *; omega

theorem writeU8_app {ε : Type} (bs : List UInt8) (v : UInt8) :
    (writeU8 v : BufM ε Unit) (app bs) = (.ok (), app (bs ++ [v])) := by
  obtain ⟨buf', h1, h2, h3⟩ := writeBits_spec (ε := ε) (n := 8) v (inv_app bs) (by decide) (by decide)
  have e : buf' = bs ++ [v] := by
    have h3 : ∀ i, bitAt buf' i = if 8 * bs.length ≤ i ∧ i < 8 * bs.length + 8 then
        v.toNat.testBit (8 - 1 - (i - 8 * bs.length)) else bitAt bs i := h3
    simp only [app] at h2
    apply bits_ext
    · simp; omega
    · intro i hi
      rw [h3]
      by_cases h : 8 * bs.length ≤ i ∧ i < 8 * bs.length + 8
      · rw [if_pos h]
        obtain ⟨j, rfl⟩ : ∃ j, i = 8 * bs.length + j := ⟨i - 8 * bs.length, by omega⟩
        rw [bitAt_append_right]
        have e1 : j / 8 = 0 := by omega
        have e2 : j % 8 = j := by omega
        simp only [bitAt, e1, e2]
        simp
      · rw [if_neg h, bitAt_append_left (by omega)]
  subst e
  unfold writeU8
  rw [h1]
  simp only [app, List.length_append, List.length_singleton, Prod.mk.injEq, BitsBuf.mk.injEq, true_and,
    and_true]
  omega

theorem writeU16_app {ε : Type} (bs : List UInt8) (v : UInt16) :
    (writeU16 v : BufM ε Unit) (app bs) = (.ok (), app (bs ++ [(v >>> 8).toUInt8, v.toUInt8])) := by
  unfold writeU16
  have h := writeU8_app (ε := ε) bs (v >>> 8).toUInt8
  unfold writeU8 at h
  rw [BufM.bind_ok h]
  have h := writeU8_app (ε := ε) (bs ++ [(v >>> 8).toUInt8]) v.toUInt8
  unfold writeU8 at h
  rw [h]; simp

theorem writeU32_app {ε : Type} (bs : List UInt8) (v : UInt32) :
    (writeU32 v : BufM ε Unit) (app bs) =
      (.ok (), app (bs ++ [(v >>> 24).toUInt8, (v >>> 16).toUInt8, (v >>> 8).toUInt8, v.toUInt8])) := by
  unfold writeU32
  have h := fun bs v => writeU8_app (ε := ε) bs v
  unfold writeU8 at h
  rw [BufM.bind_ok (h _ _), BufM.bind_ok (h _ _), BufM.bind_ok (h _ _), h]
  simp

theorem writeBytes_app {ε : Type} (l : List UInt8) : ∀ bs : List UInt8,
    (writeBytes l : BufM ε Unit) (app bs) = (.ok (), app (bs ++ l)) := by
  induction l with
  | nil => intro bs; simp [writeBytes]
  | cons x xs ih =>
    intro bs
    unfold writeBytes
    rw [BufM.bind_ok (writeU8_app _ _), ih]
    simp

end BitsBuf

end Ariadne
