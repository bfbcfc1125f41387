import Verif.Lemmas.NameValid
import Verif.Lemmas.BufFields
import Verif.Spec.Names

namespace Ariadne

open Spec BitsBuf

/-! ## Bit-level reads from a raw message -/

theorem readU8_bit {ε : Type} {msg : List UInt8} {r : Nat} (h : r + 8 ≤ 8 * msg.length) :
    ∃ v : UInt8, (readU8 : BufM ε (Option UInt8)) (rdBit msg r) = (.ok (some v), rdBit msg (r + 8)) ∧
      FieldAt msg r 8 v.toNat := by
  obtain ⟨v, h1, h2⟩ := readBits_spec (ε := ε) (b := rdBit msg r) (n := 8) (by simp [rdBit]; omega)
    (by decide) (by decide) (by simp [rdBit]; omega)
  exact ⟨v, h1, h2⟩

theorem readU8_bit_none {ε : Type} {msg : List UInt8} {r : Nat} (h : 8 * msg.length < r + 8) :
    (readU8 : BufM ε (Option UInt8)) (rdBit msg r) = (.ok none, rdBit msg r) :=
  readBits_none (by decide) (by decide) (by simp [rdBit]; omega)

theorem readU8_bit_of {ε : Type} {msg : List UInt8} {r : Nat} {v : UInt8} (h : r + 8 ≤ 8 * msg.length)
    (hf : FieldAt msg r 8 v.toNat) :
    (readU8 : BufM ε (Option UInt8)) (rdBit msg r) = (.ok (some v), rdBit msg (r + 8)) := by
  obtain ⟨w, h1, h2⟩ := readU8_bit (ε := ε) h
  have := fieldAt_unique hf h2
  have : v = w := UInt8.toNat_inj.1 this
  subst this; exact h1

theorem readBytesLoop_bit {ε : Type} {msg : List UInt8} (n : Nat) : ∀ {r : Nat}, r + 8 * n ≤ 8 * msg.length →
    ∃ l, (readBytesLoop n : BufM ε (List UInt8)) (rdBit msg r) = (.ok l, rdBit msg (r + 8 * n)) ∧
      l.length = n ∧ BytesAt msg r l := by
  induction n with
  | zero => intro r _; exact ⟨[], rfl, rfl, fun i h => by simp at h⟩
  | succ n ih =>
    intro r h
    obtain ⟨v, h1, h2⟩ := readU8_bit (ε := ε) (msg := msg) (r := r) (by omega)
    obtain ⟨l, h3, h4, h5⟩ := ih (r := r + 8) (by omega)
    have hu : (readU8Unwrap : BufM ε UInt8) (rdBit msg r) = (.ok v, rdBit msg (r + 8)) := by
      unfold readU8Unwrap; rw [BufM.bind_ok h1]; rfl
    refine ⟨v :: l, ?_, by simp [h4], ?_⟩
    · unfold readBytesLoop
      rw [BufM.bind_ok hu, BufM.bind_ok h3, BufM.pure_apply]
      congr 2; omega
    · intro i hi
      cases i with
      | zero => simpa using h2
      | succ i =>
        have := h5 i (by simpa using hi)
        simp only [List.getElem_cons_succ]
        rwa [show r + 8 * (i + 1) = r + 8 + 8 * i by omega]

theorem readBytesVec_bit {ε : Type} {msg : List UInt8} (n : Nat) {r : Nat} (h : r + 8 * n ≤ 8 * msg.length) :
    ∃ l, (readBytesVec n : BufM ε (Option (List UInt8))) (rdBit msg r) = (.ok (some l), rdBit msg (r + 8 * n)) ∧
      l.length = n ∧ BytesAt msg r l := by
  obtain ⟨l, h1, h2⟩ := readBytesLoop_bit (ε := ε) n h
  refine ⟨l, ?_, h2⟩
  unfold readBytesVec
  have : ¬ (rdBit msg r).rPos + n * 8 > (rdBit msg r).last := by simp [rdBit]; omega
  rw [if_neg this, BufM.bind_ok h1]; rfl

theorem readBytesVec_bit_none {ε : Type} {msg : List UInt8} (n : Nat) {r : Nat} (h : 8 * msg.length < r + 8 * n) :
    (readBytesVec n : BufM ε (Option (List UInt8))) (rdBit msg r) = (.ok none, rdBit msg r) := by
  unfold readBytesVec
  have : (rdBit msg r).rPos + n * 8 > (rdBit msg r).last := by simp [rdBit]; omega
  rw [if_pos this]

theorem bytesAt_unique {msg : List UInt8} {r : Nat} {l m : List UInt8} (hl : l.length = m.length)
    (h1 : BytesAt msg r l) (h2 : BytesAt msg r m) : l = m := by
  apply List.ext_getElem hl
  intro i hi hj
  exact UInt8.toNat_inj.1 (fieldAt_unique (h1 i hi) (h2 i hj))

theorem readBytesVec_bit_of {ε : Type} {msg : List UInt8} {n r : Nat} {l : List UInt8} (hl : l.length = n)
    (h : r + 8 * n ≤ 8 * msg.length) (hb : BytesAt msg r l) :
    (readBytesVec n : BufM ε (Option (List UInt8))) (rdBit msg r) = (.ok (some l), rdBit msg (r + 8 * n)) := by
  obtain ⟨m, h1, h2, h3⟩ := readBytesVec_bit (ε := ε) n h
  have := bytesAt_unique (by omega) hb h3
  subst this; exact h1

theorem setReadPos_bit {ε : Type} {msg : List UInt8} {r r' : Nat} (h : r' ≤ 8 * msg.length) :
    (setReadPos r' : BufM ε Unit) (rdBit msg r) = (.ok (), rdBit msg r') := by
  unfold setReadPos
  have : ¬ r' > (rdBit msg r).last := by simp [rdBit]; omega
  rw [if_neg this]; rfl

theorem setReadPos_bit_panic {ε : Type} {msg : List UInt8} {r r' : Nat} (h : 8 * msg.length < r') :
    (setReadPos r' : BufM ε Unit) (rdBit msg r) = (.panic .explicit, rdBit msg r) := by
  unfold setReadPos
  have : r' > (rdBit msg r).last := by simp [rdBit]; omega
  rw [if_pos this]

/-! ## The decoding loop of names -/

set_option maxRecDepth 8000 in
theorem labelMask_ptr (x : UInt8) : x &&& Name.LABEL_MASK = 0b11000000 ↔ 192 ≤ x.toNat := by
  have h : ∀ n < 256, (UInt8.ofNat n &&& Name.LABEL_MASK = 0b11000000 ↔ 192 ≤ n) := by decide
  have := h x.toNat x.toNat_lt
  simpa using this

set_option maxRecDepth 8000 in
theorem labelMask_zero (x : UInt8) : x &&& Name.LABEL_MASK = 0 ↔ x.toNat < 64 := by
  have h : ∀ n < 256, (UInt8.ofNat n &&& Name.LABEL_MASK = 0 ↔ n < 64) := by decide
  have := h x.toNat x.toNat_lt
  simpa using this

/-- Offset held by a pointer. -/
theorem ptr_value (x y : UInt8) (hx : 192 ≤ x.toNat) :
    (((x.toUInt16 <<< 8) ||| y.toUInt16) &&& Name.POINTER_MASK).toNat = (x.toNat - 192) * 256 + y.toNat := by
  have h := u16_combine x y
  have hx2 := x.toNat_lt
  have hy2 := y.toNat_lt
  have e : Name.POINTER_MASK.toNat = 2 ^ 14 - 1 := by decide
  rw [UInt16.toNat_and, h, e, Nat.and_two_pow_sub_one_eq_mod]
  omega

theorem mul8_spec (p : Profile) (j : UInt16) (hj : j.toNat < 2 ^ 14) :
    (∃ a : UInt16, (mulU16 p j 8 : Out NameErr UInt16) = .ok a ∧ codeAddr p j.toNat = some a.toNat) ∨
    ((mulU16 p j 8 : Out NameErr UInt16) = .panic .overflow ∧ codeAddr p j.toNat = none) := by
  have e8 : (8 : UInt16).toNat = 8 := rfl
  by_cases h : j.toNat < 8192
  · left
    refine ⟨j * 8, ?_, ?_⟩
    · unfold mulU16; rw [if_pos (by rw [e8]; omega)]
    · have : (j * 8).toNat = 8 * j.toNat := by rw [UInt16.toNat_mul, e8]; omega
      rw [this]
      cases p
      · simp [codeAddr, h]
      · simp only [codeAddr]; congr 2; omega
  · cases p
    · right
      refine ⟨?_, by simp [codeAddr, h]⟩
      unfold mulU16; rw [if_neg (by rw [e8]; omega)]
    · left
      refine ⟨j * 8, ?_, ?_⟩
      · unfold mulU16; rw [if_neg (by rw [e8]; omega)]
      · simp only [codeAddr, Option.some.injEq]
        rw [UInt16.toNat_mul, e8]; omega

/-- `name_bytes` after reading further labels. -/
def glue : List UInt8 → List (List UInt8) → List UInt8
  | nb, [] => nb ++ [46]
  | nb, l :: ls => glue ((if nb.isEmpty then nb else nb ++ [46]) ++ l) ls

theorem glue_append (ls : List (List UInt8)) : ∀ nb : List UInt8, nb ≠ [] →
    glue nb ls = nb ++ [46] ++ ls.flatMap fun l => l ++ [46] := by
  induction ls with
  | nil => intro nb _; simp [glue]
  | cons l ls ih =>
    intro nb h
    unfold glue
    rw [ih _ (by simp [h])]
    simp [h]

theorem glue_dotted (ls : List (List UInt8)) (h : ∀ l ∈ ls, l ≠ []) : glue [] ls = dotted ls := by
  cases ls with
  | nil => rfl
  | cons l ls =>
    unfold glue
    rw [glue_append _ _ (by simpa using h l (by simp))]
    simp [dotted]

namespace Name

theorem checkEnd_none {α : Type} (b : BitsBuf) : (checkEnd (none : Option α)) b = (.err .bytesEnd, b) := rfl
theorem checkEnd_some {α : Type} (a : α) (b : BitsBuf) : (checkEnd (some a)) b = (.ok a, b) := rfl

section steps
variable (p : Profile) {msg : List UInt8} {r f : Nat} (nb : List UInt8) (af nj : Nat)

theorem loop_end (h : 8 * msg.length < r + 8) :
    fromBytesLoop p (f + 1) nb af nj (rdBit msg r) = (.err .bytesEnd, rdBit msg r) := by
  unfold fromBytesLoop
  rw [BufM.bind_ok (readU8_bit_none h), BufM.bind_err (checkEnd_none _)]

theorem loop_root (h : r + 8 ≤ 8 * msg.length) (hf : FieldAt msg r 8 0) :
    fromBytesLoop p (f + 1) nb af nj (rdBit msg r) = (.ok (nb ++ [46], af), rdBit msg (r + 8)) := by
  unfold fromBytesLoop
  rw [BufM.bind_ok (readU8_bit_of (v := 0) h hf), BufM.bind_ok (checkEnd_some _ _)]
  rfl

theorem loop_badmask {x : UInt8} (h : r + 8 ≤ 8 * msg.length) (hf : FieldAt msg r 8 x.toNat)
    (h1 : 64 ≤ x.toNat) (h2 : x.toNat < 192) :
    fromBytesLoop p (f + 1) nb af nj (rdBit msg r) = (.err .malformedLabel, rdBit msg (r + 8)) := by
  unfold fromBytesLoop
  rw [BufM.bind_ok (readU8_bit_of h hf), BufM.bind_ok (checkEnd_some _ _)]
  rw [if_neg (by rw [labelMask_ptr]; omega), if_neg (by rw [labelMask_zero]; omega)]
  rfl

theorem loop_label_short {x : UInt8} (h : r + 8 ≤ 8 * msg.length) (hf : FieldAt msg r 8 x.toNat)
    (h1 : 1 ≤ x.toNat) (h2 : x.toNat ≤ 63) (h3 : 8 * msg.length < r + 8 + 8 * x.toNat) :
    fromBytesLoop p (f + 1) nb af nj (rdBit msg r) = (.err .bytesEnd, rdBit msg (r + 8)) := by
  unfold fromBytesLoop
  rw [BufM.bind_ok (readU8_bit_of h hf), BufM.bind_ok (checkEnd_some _ _)]
  rw [if_neg (by rw [labelMask_ptr]; omega), if_pos (by rw [labelMask_zero]; omega),
    if_neg (by rw [gt_iff_lt, UInt8.lt_iff_toNat_lt]; have : (63 : UInt8).toNat = 63 := rfl; omega),
    if_neg (by rw [← UInt8.toNat_inj]; have : (0 : UInt8).toNat = 0 := rfl; omega)]
  rw [BufM.bind_ok (readBytesVec_bit_none _ h3), BufM.bind_err (checkEnd_none _)]

theorem loop_label {x : UInt8} {l : List UInt8} (h : r + 8 ≤ 8 * msg.length) (hf : FieldAt msg r 8 x.toNat)
    (h1 : 1 ≤ x.toNat) (h2 : x.toNat ≤ 63) (h3 : r + 8 + 8 * x.toNat ≤ 8 * msg.length)
    (hl : l.length = x.toNat) (hb : BytesAt msg (r + 8) l) :
    fromBytesLoop p (f + 1) nb af nj (rdBit msg r) =
      if ((if nb.isEmpty then nb else nb ++ [46]) ++ l).length > 255 then (.err .longName, rdBit msg (r + 8 + 8 * x.toNat))
      else fromBytesLoop p f ((if nb.isEmpty then nb else nb ++ [46]) ++ l) af nj (rdBit msg (r + 8 + 8 * x.toNat)) := by
  conv => lhs; unfold fromBytesLoop
  rw [BufM.bind_ok (readU8_bit_of h hf), BufM.bind_ok (checkEnd_some _ _)]
  rw [if_neg (by rw [labelMask_ptr]; omega), if_pos (by rw [labelMask_zero]; omega),
    if_neg (by rw [gt_iff_lt, UInt8.lt_iff_toNat_lt]; have : (63 : UInt8).toNat = 63 := rfl; omega),
    if_neg (by rw [← UInt8.toNat_inj]; have : (0 : UInt8).toNat = 0 := rfl; omega)]
  rw [BufM.bind_ok (readBytesVec_bit_of hl h3 hb), BufM.bind_ok (checkEnd_some _ _)]
  have e : '.'.toUInt8 = 46 := rfl
  simp only [e]
  generalize ((if nb.isEmpty then nb else nb ++ [46]) ++ l) = m
  by_cases hm : m.length > 255
  · rw [if_pos hm, if_pos hm]; rfl
  · rw [if_neg hm, if_neg hm]

theorem loop_ptr_max {x : UInt8} (h : r + 8 ≤ 8 * msg.length) (hf : FieldAt msg r 8 x.toNat)
    (h1 : 192 ≤ x.toNat) (h2 : nj > 15) :
    fromBytesLoop p (f + 1) nb af nj (rdBit msg r) = (.err .maxRedir, rdBit msg (r + 8)) := by
  unfold fromBytesLoop
  rw [BufM.bind_ok (readU8_bit_of h hf), BufM.bind_ok (checkEnd_some _ _)]
  rw [if_pos (by rw [labelMask_ptr]; omega), if_pos (show nj > MAX_REDIR from h2)]
  rfl

theorem loop_ptr_short {x : UInt8} (h : r + 8 ≤ 8 * msg.length) (hf : FieldAt msg r 8 x.toNat)
    (h1 : 192 ≤ x.toNat) (h2 : nj ≤ 15) (h3 : 8 * msg.length < r + 16) :
    fromBytesLoop p (f + 1) nb af nj (rdBit msg r) = (.err .bytesEnd, rdBit msg (r + 8)) := by
  unfold fromBytesLoop
  rw [BufM.bind_ok (readU8_bit_of h hf), BufM.bind_ok (checkEnd_some _ _)]
  rw [if_pos (by rw [labelMask_ptr]; omega), if_neg (show ¬ nj > MAX_REDIR from Nat.not_lt.2 h2)]
  rw [BufM.bind_ok (rfl : readPos (rdBit msg (r + 8)) = (.ok (r + 8), rdBit msg (r + 8)))]
  rw [BufM.bind_ok (readU8_bit_none (by omega)), BufM.bind_err (checkEnd_none _)]

theorem loop_ptr {x y : UInt8} (h : r + 16 ≤ 8 * msg.length) (hf : FieldAt msg r 8 x.toNat)
    (hf2 : FieldAt msg (r + 8) 8 y.toNat) (h1 : 192 ≤ x.toNat) (h2 : nj ≤ 15) :
    fromBytesLoop p (f + 1) nb af nj (rdBit msg r) =
      match codeAddr p ((x.toNat - 192) * 256 + y.toNat) with
      | none => (.panic .overflow, rdBit msg (r + 16))
      | some a =>
        if 8 * msg.length < a then (.panic .explicit, rdBit msg (r + 16))
        else fromBytesLoop p f nb (if nj = 0 then r + 16 else af) (nj + 1) (rdBit msg a) := by
  conv => lhs; unfold fromBytesLoop
  rw [BufM.bind_ok (readU8_bit_of (by omega) hf), BufM.bind_ok (checkEnd_some _ _)]
  rw [if_pos (by rw [labelMask_ptr]; omega), if_neg (show ¬ nj > MAX_REDIR from Nat.not_lt.2 h2)]
  rw [BufM.bind_ok (rfl : readPos (rdBit msg (r + 8)) = (.ok (r + 8), rdBit msg (r + 8)))]
  rw [BufM.bind_ok (readU8_bit_of (by omega) hf2), BufM.bind_ok (checkEnd_some _ _)]
  have hv := ptr_value x y h1
  have hx := x.toNat_lt
  have hy := y.toNat_lt
  have hj : (((x.toUInt16 <<< 8) ||| y.toUInt16) &&& Name.POINTER_MASK).toNat < 2 ^ 14 := by rw [hv]; omega
  rw [← hv]
  rcases mul8_spec p _ hj with ⟨a, ha, hc⟩ | ⟨ha, hc⟩
  · rw [hc]
    have hl : (BufM.lift (mulU16 p (((x.toUInt16 <<< 8) ||| y.toUInt16) &&& Name.POINTER_MASK) 8) : BufM NameErr UInt16)
      (rdBit msg (r + 8 + 8)) = (.ok a, rdBit msg (r + 16)) := by rw [ha]; rfl
    rw [BufM.bind_ok hl]
    by_cases hlt : 8 * msg.length < a.toNat
    · rw [BufM.bind_panic (setReadPos_bit_panic hlt)]; simp only; rw [if_pos hlt]
    · rw [BufM.bind_ok (setReadPos_bit (by omega))]; simp only; rw [if_neg hlt]; rfl
  · rw [hc]
    have hl : (BufM.lift (mulU16 p (((x.toUInt16 <<< 8) ||| y.toUInt16) &&& Name.POINTER_MASK) 8) : BufM NameErr UInt16)
      (rdBit msg (r + 8 + 8)) = (.panic .overflow, rdBit msg (r + 16)) := by rw [ha]; rfl
    rw [BufM.bind_panic hl]

end steps

/-- More fuel does not change a result. -/
theorem loop_mono (p : Profile) : ∀ (f nb) (af nj : Nat) (b : BitsBuf) (o) (b' : BitsBuf),
    fromBytesLoop p f nb af nj b = (o, b') → o ≠ .diverge → fromBytesLoop p (f + 1) nb af nj b = (o, b') := by
  intro f
  induction f with
  | zero =>
    intro nb af nj b o b' h hne
    unfold fromBytesLoop at h
    simp at h
    exact absurd h.1.symm hne
  | succ f ih =>
    intro nb af nj b o b' h hne
    rw [fromBytesLoop] at h ⊢
    rw [BufM.bind_apply] at h ⊢
    revert h
    rcases readU8 (ε := NameErr) b with ⟨o1, b1⟩
    cases o1 with
    | ok v =>
      simp only
      rw [BufM.bind_apply, BufM.bind_apply]
      rcases checkEnd v b1 with ⟨o2, b2⟩
      cases o2 with
      | ok x =>
        simp only
        split
        · split
          · exact id
          · simp only [BufM.bind_apply]
            rcases readPos (ε := NameErr) b2 with ⟨o3, b3⟩
            cases o3 with
            | ok pos =>
              simp only
              generalize (if nj = 0 then pos + 8 else af) = af'
              rcases readU8 (ε := NameErr) b3 with ⟨o4, b4⟩
              cases o4 with
              | ok v2 =>
                simp only
                rcases checkEnd v2 b4 with ⟨o5, b5⟩
                cases o5 with
                | ok y =>
                  simp only
                  rcases (BufM.lift (mulU16 p _ 8) : BufM NameErr UInt16) b5 with ⟨o6, b6⟩
                  cases o6 with
                  | ok j =>
                    simp only
                    rcases (setReadPos j.toNat : BufM NameErr Unit) b6 with ⟨o7, b7⟩
                    cases o7 with
                    | ok _ => exact fun h => ih _ _ _ _ _ _ h hne
                    | _ => exact id
                  | _ => exact id
                | _ => exact id
              | _ => exact id
            | _ => exact id
        · split
          · split
            · exact id
            · split
              · exact id
              · simp only [BufM.bind_apply]
                intro h
                revert h
                rcases readBytesVec (ε := NameErr) x.toNat b2 with ⟨o3, b3⟩
                cases o3 with
                | ok w =>
                  simp only
                  rcases checkEnd w b3 with ⟨o4, b4⟩
                  cases o4 with
                  | ok z =>
                    simp only
                    generalize ((if nb.isEmpty then nb else nb ++ ['.'.toUInt8]) ++ z) = m
                    by_cases hm : m.length > 255
                    · rw [if_pos hm, if_pos hm]; exact id
                    · rw [if_neg hm, if_neg hm]; exact fun h => ih _ _ _ _ _ _ h hne
                  | _ => exact id
                | _ => exact id
          · exact id
      | _ => exact id
    | _ => exact id

theorem loop_mono_le (p : Profile) {f f' : Nat} (hf : f ≤ f') {nb} {af nj : Nat} {b : BitsBuf} {o} {b' : BitsBuf}
    (h : fromBytesLoop p f nb af nj b = (o, b')) (hne : o ≠ .diverge) :
    fromBytesLoop p f' nb af nj b = (o, b') := by
  induction hf with
  | refl => exact h
  | step _ ih => exact loop_mono p _ _ _ _ _ _ _ ih hne

set_option maxRecDepth 4000 in
/-- Everything the loop can do, on any input. -/
theorem loop_spec (p : Profile) (msg : List UInt8) : ∀ (f : Nat) (nb : List UInt8) (af nj r : Nat),
    r ≤ 8 * msg.length → nb.length ≤ 255 → nj ≤ 16 → (16 - nj) + (255 - nb.length) < f →
    ∃ o r', fromBytesLoop p f nb af nj (rdBit msg r) = (o, rdBit msg r') ∧ r' ≤ 8 * msg.length ∧
      match o with
      | .ok (nb', af') => ∃ ls next k, WireName (codeAddr p) msg r ls next k ∧ nj + k ≤ 16 ∧ nb' = glue nb ls ∧
          next ≤ 8 * msg.length ∧ (if k = 0 then af' = af ∧ r' = next else af' = if nj = 0 then next else af)
      | .err _ => True
      | .panic _ => ∃ r₁, Visits (codeAddr p) msg r r₁ ∧ BadPointer (codeAddr p) msg r₁
      | .diverge => False := by
  intro f
  induction f with
  | zero => intro nb af nj r _ _ _ h; omega
  | succ f ih =>
    intro nb af nj r hr hnb hnj hf
    by_cases h8 : 8 * msg.length < r + 8
    · exact ⟨_, _, loop_end p nb af nj h8, hr, trivial⟩
    have h8 : r + 8 ≤ 8 * msg.length := by omega
    obtain ⟨x, -, hx⟩ := readU8_bit (ε := NameErr) h8
    have hx256 := x.toNat_lt
    by_cases hp : 192 ≤ x.toNat
    · by_cases hmax : nj > 15
      · exact ⟨_, _, loop_ptr_max p nb af nj h8 hx hp hmax, by omega, trivial⟩
      by_cases h16 : 8 * msg.length < r + 16
      · exact ⟨_, _, loop_ptr_short p nb af nj h8 hx hp (by omega) h16, by omega, trivial⟩
      obtain ⟨y, -, hy⟩ := readU8_bit (ε := NameErr) (msg := msg) (r := r + 8) (by omega)
      have hstep := loop_ptr p (f := f) nb af nj (by omega) hx hy hp (by omega)
      have hy256 := y.toNat_lt
      generalize hoff : (x.toNat - 192) * 256 + y.toNat = off at *
      have hoff14 : off < 0x4000 := by omega
      have hfield : FieldAt msg r 16 (0xC000 + off) := by
        have := fieldAt_concat hx hy
        have e : x.toNat * 2 ^ 8 + y.toNat = 0xC000 + off := by omega
        rw [← e]; exact this
      cases hc : codeAddr p off with
      | none =>
        rw [hc] at hstep
        exact ⟨_, _, hstep, by omega, r, .refl, ⟨off, by omega, hoff14, hfield, fun a ha => by simp [hc] at ha⟩⟩
      | some a =>
        rw [hc] at hstep
        simp only at hstep
        by_cases ha : 8 * msg.length < a
        · rw [if_pos ha] at hstep
          refine ⟨_, _, hstep, by omega, r, .refl, ⟨off, by omega, hoff14, hfield, fun a' ha' => ?_⟩⟩
          rw [hc] at ha'; cases ha'; exact ha
        · rw [if_neg ha] at hstep
          obtain ⟨o, r', h1, h2, h3⟩ := ih nb (if nj = 0 then r + 16 else af) (nj + 1) a (by omega) hnb (by omega) (by omega)
          refine ⟨o, r', hstep.trans h1, h2, ?_⟩
          match o, h3 with
          | .ok (nb', af'), ⟨ls, next, k, hw, hk, hg, hn, hcur⟩ =>
            refine ⟨ls, r + 16, k + 1, .pointer (by omega) hoff14 hfield hc (by omega) hw, by omega, hg, by omega, ?_⟩
            rw [if_neg (by omega)]
            have e1 : ¬ nj + 1 = 0 := by omega
            rw [if_neg e1] at hcur
            by_cases hk0 : k = 0
            · rw [if_pos hk0] at hcur; exact hcur.1
            · rw [if_neg hk0] at hcur; exact hcur
          | .err _, _ => trivial
          | .panic _, ⟨r₁, hv, hb⟩ =>
            exact ⟨r₁, .pointer (by omega) hoff14 hfield hc (by omega) hv, hb⟩
    by_cases hm : 64 ≤ x.toNat
    · exact ⟨_, _, loop_badmask p nb af nj h8 hx hm (by omega), by omega, trivial⟩
    by_cases h0 : x.toNat = 0
    · rw [h0] at hx
      refine ⟨_, _, loop_root p nb af nj h8 hx, by omega, [], r + 8, 0, .root h8 hx, hnj, rfl, h8, ?_⟩
      rw [if_pos rfl]; exact ⟨rfl, rfl⟩
    by_cases hs : 8 * msg.length < r + 8 + 8 * x.toNat
    · exact ⟨_, _, loop_label_short p nb af nj h8 hx (by omega) (by omega) hs, by omega, trivial⟩
    obtain ⟨l, -, hl, hb⟩ := readBytesVec_bit (ε := NameErr) (msg := msg) x.toNat (r := r + 8) (by omega)
    have hstep := loop_label p (f := f) nb af nj h8 hx (by omega) (by omega) (by omega) hl hb
    by_cases hlen : ((if nb.isEmpty then nb else nb ++ [46]) ++ l).length > 255
    · rw [if_pos hlen] at hstep
      exact ⟨_, _, hstep, by omega, trivial⟩
    rw [if_neg hlen] at hstep
    have hgrow : nb.length < ((if nb.isEmpty then nb else nb ++ [46]) ++ l).length := by
      split <;> simp
      omega
    obtain ⟨o, r', h1, h2, h3⟩ := ih ((if nb.isEmpty then nb else nb ++ [46]) ++ l) af nj (r + 8 + 8 * x.toNat)
      (by omega) (by omega) hnj (by omega)
    refine ⟨o, r', hstep.trans h1, h2, ?_⟩
    match o, h3 with
    | .ok (nb', af'), ⟨ls, next, k, hw, hk, hg, hn, hcur⟩ =>
      exact ⟨l :: ls, next, k, .label h8 hx (by omega) (by omega) hl (by omega) hb hw, hk, hg, hn, hcur⟩
    | .err _, _ => trivial
    | .panic _, ⟨r₁, hv, hb'⟩ =>
      exact ⟨r₁, .label h8 hx (by omega) (by omega) (by omega) hv, hb'⟩

theorem glue_length_le (ls : List (List UInt8)) : ∀ nb, nb.length ≤ (glue nb ls).length - 1 := by
  induction ls with
  | nil => intro nb; simp [glue]
  | cons l ls ih =>
    intro nb
    unfold glue
    have := ih ((if nb.isEmpty then nb else nb ++ [46]) ++ l)
    refine Nat.le_trans ?_ this
    split <;> simp

set_option maxRecDepth 4000 in
/-- The loop decodes every compressed name that is short enough and has few enough pointers. -/
theorem loop_complete (p : Profile) (msg : List UInt8) {r : Nat} {ls : List (List UInt8)} {next k : Nat}
    (hw : WireName (codeAddr p) msg r ls next k) : ∀ (nb : List UInt8) (af nj : Nat), nj + k ≤ 16 →
    (glue nb ls).length ≤ 256 →
    ∃ f r', fromBytesLoop p f nb af nj (rdBit msg r) =
      (.ok (glue nb ls, if k = 0 then af else if nj = 0 then next else af), rdBit msg r') ∧ (k = 0 → r' = next) := by
  induction hw with
  | root h hf =>
    intro nb af nj _ _
    exact ⟨1, _, loop_root p nb af nj h hf, fun _ => rfl⟩
  | @label r n l ls next k h hf h1 h2 hl h3 hb _ ih =>
    intro nb af nj hk hg
    have hn : n < 256 := by omega
    obtain ⟨x, rfl⟩ : ∃ x : UInt8, x.toNat = n := ⟨UInt8.ofNat n, by simp; omega⟩
    have hg' : glue nb (l :: ls) = glue ((if nb.isEmpty then nb else nb ++ [46]) ++ l) ls := rfl
    rw [hg'] at hg ⊢
    obtain ⟨f, r', h4, h5⟩ := ih _ af nj hk hg
    refine ⟨f + 1, r', ?_, h5⟩
    rw [loop_label p nb af nj h hf h1 h2 h3 hl hb, if_neg ?_]
    · exact h4
    · have := glue_length_le ls ((if nb.isEmpty then nb else nb ++ [46]) ++ l)
      omega
  | @pointer r off a ls next k h ho hf ha hal _ ih =>
    intro nb af nj hk hg
    obtain ⟨f, r', h4, -⟩ := ih nb (if nj = 0 then r + 16 else af) (nj + 1) (by omega) hg
    refine ⟨f + 1, r', ?_, fun h => by omega⟩
    obtain ⟨x, -, hx⟩ := readU8_bit (ε := NameErr) (msg := msg) (r := r) (by omega)
    obtain ⟨y, -, hy⟩ := readU8_bit (ε := NameErr) (msg := msg) (r := r + 8) (by omega)
    have hc := fieldAt_unique hf (fieldAt_concat hx hy)
    have hx256 := x.toNat_lt
    have hy256 := y.toNat_lt
    have hoff : (x.toNat - 192) * 256 + y.toNat = off := by omega
    rw [loop_ptr p nb af nj h hx hy (by omega) (by omega), hoff, ha]
    simp only
    rw [if_neg (by omega), h4]
    simp

end Name

end Ariadne
