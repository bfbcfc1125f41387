import Verif.Model.RString
import Verif.Lemmas.Bits

namespace Ariadne

theorem strBytes_nil : strBytes [] = [] := rfl
theorem strBytes_cons (c : Char) (s : Str) : strBytes (c :: s) = String.utf8EncodeChar c ++ strBytes s := rfl
theorem strBytes_append (s t : Str) : strBytes (s ++ t) = strBytes s ++ strBytes t := by
  simp [strBytes]

theorem strLen_append (s t : Str) : strLen (s ++ t) = strLen s + strLen t := by
  simp [strLen, strBytes_append]

theorem strLen_cons (c : Char) (s : Str) : strLen (c :: s) = c.utf8Size + strLen s := by
  simp [strLen, strBytes_cons]

theorem utf8Encode_eq (s : Str) : s.utf8Encode = ByteArray.mk (strBytes s).toArray := by
  show (s.flatMap String.utf8EncodeChar).toByteArray = _
  apply ByteArray.ext
  simp [strBytes]

theorem utf8Decode_iff (bs : List UInt8) (s : Str) :
    (ByteArray.mk bs.toArray).utf8Decode?.map Array.toList = some s ↔ strBytes s = bs := by
  constructor
  · intro h
    rw [Option.map_eq_some_iff] at h
    obtain ⟨a, h1, h2⟩ := h
    have hs : ((ByteArray.mk bs.toArray).utf8Decode?).isSome := by rw [h1]; rfl
    have := ByteArray.utf8Encode_get_utf8Decode? (b := ByteArray.mk bs.toArray) (h := hs)
    simp only [h1, Option.get_some] at this
    rw [h2, utf8Encode_eq] at this
    have := congrArg (fun b => b.data.toList) this
    simpa using this
  · rintro rfl
    rw [← utf8Encode_eq, List.utf8Decode?_utf8Encode]
    simp

/-- A character below 128 is encoded as itself. -/
theorem utf8EncodeChar_ascii {c : Char} (h : c.toNat < 128) : String.utf8EncodeChar c = [UInt8.ofNat c.toNat] := by
  have hs : c.utf8Size = 1 := by
    unfold Char.utf8Size
    have : c.val ≤ 0x7f := by
      rw [UInt32.le_iff_toNat_le]
      show c.toNat ≤ 127
      omega
    simp [this]
  rw [String.utf8EncodeChar_eq_singleton hs]
  rfl

theorem ofNat_toNat_ascii {c : Char} (h : c.toNat < 128) : Char.ofNat (UInt8.ofNat c.toNat).toNat = c := by
  have e : (UInt8.ofNat c.toNat).toNat = c.toNat := by simp; omega
  rw [e, Char.ofNat_toNat]

theorem toNat_ofNat_lt {n : Nat} (h : n < 128) : (Char.ofNat n).toNat = n := by
  have hv : n.isValidChar := Or.inl (by omega)
  unfold Char.ofNat
  rw [dif_pos hv]
  show (Char.ofNatAux n hv).val.toNat = n
  rfl

theorem strBytes_ascii {s : Str} (h : ∀ c ∈ s, c.toNat < 128) : strBytes s = s.map fun c => UInt8.ofNat c.toNat := by
  induction s with
  | nil => rfl
  | cons c s ih =>
    rw [strBytes_cons, utf8EncodeChar_ascii (h c (by simp)), ih (fun x hx => h x (by simp [hx]))]
    simp

theorem strLen_ascii {s : Str} (h : ∀ c ∈ s, c.toNat < 128) : strLen s = s.length := by
  simp [strLen, strBytes_ascii h]

theorem strBytes_map_ofNat {bs : List UInt8} (h : ∀ b ∈ bs, b < 128) :
    strBytes (bs.map fun b => Char.ofNat b.toNat) = bs := by
  induction bs with
  | nil => rfl
  | cons b bs ih =>
    have hb : b.toNat < 128 := UInt8.lt_iff_toNat_lt.1 (h b (by simp))
    rw [List.map_cons, strBytes_cons, utf8EncodeChar_ascii (by rw [toNat_ofNat_lt hb]; exact hb),
      ih (fun x hx => h x (by simp [hx])), toNat_ofNat_lt hb]
    simp

theorem strBytes_injective {s t : Str} (h : strBytes s = strBytes t) : s = t := by
  have h1 := (utf8Decode_iff (strBytes s) s).2 rfl
  have h2 := (utf8Decode_iff (strBytes s) t).2 h.symm
  rw [h1] at h2
  exact Option.some.inj h2

/-- `from_utf8` is the inverse of `as_bytes`. -/
theorem fromUtf8_iff (bs : List UInt8) (s : Str) : fromUtf8 bs = some s ↔ strBytes s = bs := by
  unfold fromUtf8
  split
  · next h =>
    have h' : ∀ b ∈ bs, b < 128 := by simpa using h
    constructor
    · intro e
      rw [← Option.some.inj e]
      exact strBytes_map_ofNat h'
    · intro e
      congr 1
      apply strBytes_injective
      rw [e, strBytes_map_ofNat h']
  · exact utf8Decode_iff bs s

theorem fromUtf8_strBytes (s : Str) : fromUtf8 (strBytes s) = some s := (fromUtf8_iff _ _).2 rfl

/-! ## Splitting -/

theorem splitOn_ne_nil (c : Char) (s : Str) : splitOn c s ≠ [] := by
  induction s with
  | nil => simp [splitOn]
  | cons x xs ih =>
    unfold splitOn
    split
    · simp
    · split <;> simp

/-- Splitting `l ++ c :: rest` where `l` has no separator. -/
theorem splitOn_append_sep {c : Char} {l : Str} (h : c ∉ l) (rest : Str) :
    splitOn c (l ++ c :: rest) = l :: splitOn c rest := by
  induction l with
  | nil => simp [splitOn]
  | cons x l ih =>
    have hx : ¬ x = c := fun e => h (by simp [e])
    rw [List.cons_append, splitOn, if_neg hx, ih (fun hc => h (by simp [hc]))]

theorem splitOn_no_sep {c : Char} {l : Str} (h : c ∉ l) : splitOn c l = [l] := by
  induction l with
  | nil => rfl
  | cons x l ih =>
    have hx : ¬ x = c := fun e => h (by simp [e])
    rw [splitOn, if_neg hx, ih (fun hc => h (by simp [hc]))]

/-- Splitting never leaves a separator inside a piece. -/
theorem splitOn_pieces_no_sep (c : Char) (s : Str) : ∀ l ∈ splitOn c s, c ∉ l := by
  induction s with
  | nil => simp [splitOn]
  | cons x xs ih =>
    unfold splitOn
    split
    · intro l hl
      simp only [List.mem_cons] at hl
      rcases hl with rfl | hl
      · simp
      · exact ih l hl
    · next hx =>
      split
      · next h => exact absurd h (splitOn_ne_nil c xs)
      · next l ls h =>
        rw [h] at ih
        intro m hm
        simp only [List.mem_cons] at hm
        rcases hm with rfl | hm
        · intro hc
          simp only [List.mem_cons] at hc
          rcases hc with e | hc
          · exact hx e.symm
          · exact ih l (by simp) hc
        · exact ih m (by simp [hm])

/-- Joining the pieces with the separator gives the string back. -/
theorem splitOn_join (c : Char) (s : Str) : ((splitOn c s).intersperse [c]).flatten = s := by
  induction s with
  | nil => simp [splitOn]
  | cons x xs ih =>
    unfold splitOn
    split
    · next h =>
      subst h
      cases hs : splitOn x xs with
      | nil => exact absurd hs (splitOn_ne_nil x xs)
      | cons l ls => rw [hs] at ih; simpa using ih
    · split
      · next h => exact absurd h (splitOn_ne_nil c xs)
      · next l ls h =>
        rw [h] at ih
        cases ls with
        | nil => simpa using ih
        | cons m ms => simpa using ih

end Ariadne
