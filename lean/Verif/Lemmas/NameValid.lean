import Verif.Lemmas.RString
import Verif.Model.Name
import Verif.Spec.Names

namespace Ariadne

open Spec

theorem letDig_iff (c : Char) : LetDig c ↔ isAsciiAlphanumeric c = true := by
  unfold LetDig isAsciiAlphanumeric Char.isAlphanum Char.isAlpha Char.isUpper Char.isLower Char.isDigit
  simp only [Char.le_def, Bool.or_eq_true, Bool.and_eq_true, decide_eq_true_eq, ge_iff_le]
  constructor
  · rintro (h | h | h)
    · exact Or.inl (Or.inr h)
    · exact Or.inl (Or.inl h)
    · exact Or.inr h
  · rintro ((h | h) | h)
    · exact Or.inr (Or.inl h)
    · exact Or.inl h
    · exact Or.inr (Or.inr h)

theorem letDig_ascii {c : Char} (h : LetDig c) : c.toNat < 128 := by
  unfold LetDig at h
  simp only [Char.le_def, UInt32.le_iff_toNat_le] at h
  show c.val.toNat < 128
  have e1 : ('a' : Char).val.toNat = 97 := rfl
  have e2 : ('z' : Char).val.toNat = 122 := rfl
  have e3 : ('A' : Char).val.toNat = 65 := rfl
  have e4 : ('Z' : Char).val.toNat = 90 := rfl
  have e5 : ('0' : Char).val.toNat = 48 := rfl
  have e6 : ('9' : Char).val.toNat = 57 := rfl
  omega

theorem letDig_ne_dot {c : Char} (h : LetDig c) : c ≠ '.' := by
  rintro rfl
  exact absurd ((letDig_iff _).1 h) (by decide)

theorem Spec.ValidLabel.ascii {l : Str} (h : ValidLabel l) : ∀ c ∈ l, c.toNat < 128 := by
  intro c hc
  rcases h.1 c hc with h | rfl
  · exact letDig_ascii h
  · decide

theorem Spec.ValidLabel.no_dot {l : Str} (h : ValidLabel l) : '.' ∉ l := by
  intro hc
  rcases h.1 _ hc with h | h
  · exact letDig_ne_dot h rfl
  · exact absurd h (by decide)

theorem Spec.ValidLabel.ne_nil {l : Str} (h : ValidLabel l) : l ≠ [] := by
  rintro rfl
  obtain ⟨a, z, h, _⟩ := h.2
  simp at h

theorem strLen_eq_zero {l : Str} : strLen l = 0 ↔ l = [] := by
  constructor
  · intro h
    cases l with
    | nil => rfl
    | cons c s =>
      rw [strLen_cons] at h
      have := Char.utf8Size_pos c
      omega
  · rintro rfl; rfl

theorem validateLabel_iff (l : Str) : Name.validateLabel l = .ok () ↔ ValidLabel l := by
  unfold Name.validateLabel
  by_cases h0 : l = []
  · subst h0
    simp [strLen, strBytes, ValidLabel]
  · rw [if_neg (fun h => h0 (strLen_eq_zero.1 h))]
    cases l with
    | nil => exact absurd rfl h0
    | cons x xs =>
      obtain ⟨z, hz⟩ : ∃ z, (x :: xs).getLast? = some z := by
        simp [List.getLast?_cons]
      simp only [hz, List.head?_cons, ValidLabel]
      by_cases h1 : isAsciiAlphanumeric x
      · by_cases h2 : isAsciiAlphanumeric z
        · by_cases h3 : ((x :: xs).all fun ch => isAsciiAlphanumeric ch || ch == '-') = true
          · simp only [h1, h2, h3]
            simp only [Bool.not_true, Bool.false_eq_true, if_false, true_iff]
            refine ⟨?_, x, z, rfl, rfl, (letDig_iff _).2 h1, (letDig_iff _).2 h2⟩
            intro c hc
            have := List.all_eq_true.1 h3 c hc
            simp only [Bool.or_eq_true, beq_iff_eq] at this
            rcases this with h | h
            · exact Or.inl ((letDig_iff _).2 h)
            · exact Or.inr h
          · simp only [h1, h2]
            simp only [Bool.not_true, Bool.false_eq_true, if_false, Bool.not_eq_true] at h3 ⊢
            simp only [h3, Bool.not_false, if_true]
            constructor
            · intro h; simp at h
            · rintro ⟨ha, _⟩
              exfalso
              have : ((x :: xs).all fun ch => isAsciiAlphanumeric ch || ch == '-') = true := by
                rw [List.all_eq_true]
                intro c hc
                rcases ha c hc with h | h
                · simp [(letDig_iff _).1 h]
                · simp [h]
              rw [this] at h3
              exact absurd h3 (by decide)
        · simp only [h1, h2]
          constructor
          · intro h; simp at h
          · rintro ⟨_, a, y, e1, e2, _, h⟩
            exact absurd ((letDig_iff _).1 (Option.some.inj e2 ▸ h)) h2
      · simp only [h1]
        constructor
        · intro h; simp at h
        · rintro ⟨_, a, y, e1, _, h, _⟩
          exact absurd ((letDig_iff _).1 (Option.some.inj e1 ▸ h)) h1

theorem validateLabel_returns (l : Str) : (Name.validateLabel l).Returns := by
  unfold Name.validateLabel
  by_cases h0 : l = []
  · subst h0; simp [strLen, strBytes, Out.Returns]
  · rw [if_neg (fun h => h0 (strLen_eq_zero.1 h))]
    cases l with
    | nil => exact absurd rfl h0
    | cons x xs =>
      obtain ⟨z, hz⟩ : ∃ z, (x :: xs).getLast? = some z := by
        simp [List.getLast?_cons]
      simp only [hz, List.head?_cons]
      repeat' split
      all_goals trivial

theorem validateLabels_iff (ls : List Str) : Name.validateLabels ls = .ok () ↔ ∀ l ∈ ls, ValidLabel l := by
  induction ls with
  | nil => simp [Name.validateLabels]
  | cons l ls ih =>
    unfold Name.validateLabels
    by_cases h0 : strLen l = 0
    · rw [if_pos h0]
      constructor
      · intro h; simp at h
      · intro h
        exact absurd (strLen_eq_zero.1 h0) (h l (by simp)).ne_nil
    · rw [if_neg h0]
      have hr := validateLabel_returns l
      rcases hv : Name.validateLabel l with _ | e | k | _
      · have hl := (validateLabel_iff l).1 hv
        simp only [Out.bind_ok, ih, List.mem_cons, forall_eq_or_imp, hl, true_and]
      · simp only [Out.bind_err]
        constructor
        · intro h; simp at h
        · intro h
          have := (validateLabel_iff l).2 (h l (by simp))
          rw [hv] at this; simp at this
      · rw [hv] at hr; exact hr.elim
      · rw [hv] at hr; exact hr.elim

theorem validateLabels_returns (ls : List Str) : (Name.validateLabels ls).Returns := by
  induction ls with
  | nil => trivial
  | cons l ls ih =>
    unfold Name.validateLabels
    split
    · trivial
    · have hr := validateLabel_returns l
      rcases hv : Name.validateLabel l with _ | e | k | _
      · exact ih
      · trivial
      · rw [hv] at hr; exact hr.elim
      · rw [hv] at hr; exact hr.elim

theorem validateName_returns (s : Str) : (Name.validateName s).Returns := by
  unfold Name.validateName
  repeat' split
  all_goals first | trivial | exact validateLabels_returns _

theorem eq_dropLast_append {α : Type} : ∀ {l : List α} {a : α}, l.getLast? = some a → l = l.dropLast ++ [a]
  | [], _, h => by simp at h
  | [x], a, h => by simpa using h
  | x :: y :: l, a, h => by
    have h' : (y :: l).getLast? = some a := by simpa [List.getLast?_cons_cons] using h
    have := eq_dropLast_append h'
    rw [List.dropLast_cons_cons, List.cons_append, ← this]

/-! ## Label lists and their presentation -/

theorem join_dot (c : Char) (L : List Str) (h : L ≠ []) :
    (L.intersperse [c]).flatten ++ [c] = L.flatMap fun l => l ++ [c] := by
  induction L with
  | nil => exact absurd rfl h
  | cons l ls ih =>
    cases ls with
    | nil => simp
    | cons m ms =>
      have := ih (by simp)
      simp only [List.intersperse_cons_cons, List.flatten_cons, List.flatMap_cons] at this ⊢
      rw [List.append_assoc, List.append_assoc, this]
      simp

theorem splitOn_flatMap {L : List Str} (h : ∀ l ∈ L, '.' ∉ l) :
    splitOn '.' (L.flatMap fun l => l ++ ['.']) = L ++ [[]] := by
  induction L with
  | nil => simp [splitOn]
  | cons l ls ih =>
    simp only [List.flatMap_cons, List.append_assoc, List.singleton_append]
    rw [splitOn_append_sep (h l (by simp)), ih (fun m hm => h m (by simp [hm]))]
    rfl

theorem splitOn_snoc_sep {s : Str} {L : List Str} (h : splitOn '.' (s ++ ['.']) = L ++ [[]]) :
    splitOn '.' s = L := by
  induction s generalizing L with
  | nil =>
    simp only [List.nil_append, splitOn, if_true] at h
    cases L with
    | nil => simp at h
    | cons l L =>
      cases L with
      | nil => simp at h; simp [splitOn, h]
      | cons m L => simp at h
  | cons x xs ih =>
    rw [List.cons_append] at h
    unfold splitOn at h ⊢
    by_cases hx : x = '.'
    · rw [if_pos hx] at h ⊢
      cases L with
      | nil =>
        simp only [List.nil_append, List.cons.injEq, true_and] at h
        exact absurd h (splitOn_ne_nil _ _)
      | cons l L =>
        simp only [List.cons_append, List.cons.injEq] at h
        rw [ih h.2, ← h.1]
    · rw [if_neg hx] at h ⊢
      cases hs : splitOn '.' (xs ++ ['.']) with
      | nil => exact absurd hs (splitOn_ne_nil _ _)
      | cons m M =>
        rw [hs] at h
        cases L with
        | nil => simp at h
        | cons l L =>
          simp only [List.cons_append, List.cons.injEq] at h
          have : splitOn '.' xs = m :: L := ih (by rw [hs, h.2]; rfl)
          rw [this]
          simp [h.1]

theorem containsDoubleDot_label {l : Str} (h : '.' ∉ l) (rest : Str) (hr : rest.head? ≠ some '.') :
    containsDoubleDot (l ++ '.' :: rest) = containsDoubleDot rest := by
  induction l with
  | nil =>
    cases rest with
    | nil => rfl
    | cons b r =>
      have : (b == '.') = false := by simpa using hr
      simp [containsDoubleDot, this]
  | cons x l ih =>
    have hx : (x == '.') = false := by simp; exact fun e => h (by simp [e])
    rw [← ih (fun hc => h (by simp [hc]))]
    cases l with
    | nil => simp [containsDoubleDot, hx]
    | cons y l => simp [containsDoubleDot, hx]

theorem head_flatMap {L : List Str} (h : ∀ l ∈ L, ValidLabel l) :
    (L.flatMap fun l => l ++ ['.']).head? ≠ some '.' := by
  cases L with
  | nil => simp
  | cons l L =>
    have hl := h l (by simp)
    cases l with
    | nil => exact absurd rfl hl.ne_nil
    | cons x xs =>
      simp only [List.flatMap_cons, List.cons_append, List.head?_cons, ne_eq, Option.some.injEq]
      exact fun e => hl.no_dot (by simp [e])

theorem containsDoubleDot_flatMap {L : List Str} (h : ∀ l ∈ L, ValidLabel l) :
    containsDoubleDot (L.flatMap fun l => l ++ ['.']) = false := by
  induction L with
  | nil => rfl
  | cons l L ih =>
    simp only [List.flatMap_cons, List.append_assoc, List.singleton_append]
    rw [containsDoubleDot_label (h l (by simp)).no_dot _ (head_flatMap fun m hm => h m (by simp [hm]))]
    exact ih fun m hm => h m (by simp [hm])

theorem flatMap_snoc {L : List Str} (h : L ≠ []) :
    ∃ t, (L.flatMap fun l => l ++ ['.']) = t ++ ['.'] :=
  ⟨_, (join_dot '.' L h).symm⟩

theorem flatMap_ascii {L : List Str} (h : ∀ l ∈ L, ValidLabel l) :
    ∀ c ∈ (L.flatMap fun l => l ++ ['.']), c.toNat < 128 := by
  intro c hc
  simp only [List.mem_flatMap, List.mem_append, List.mem_singleton] at hc
  obtain ⟨l, hl, hc | rfl⟩ := hc
  · exact (h l hl).ascii c hc
  · decide

theorem render_ascii {L : List Str} (h : ∀ l ∈ L, ValidLabel l) : ∀ c ∈ render L, c.toNat < 128 := by
  unfold render
  split
  · simp
  · exact flatMap_ascii h

theorem Spec.NameOf.ascii {s : Str} {L : List Str} (h : NameOf s L) : ∀ c ∈ s, c.toNat < 128 := by
  rw [h.2]; exact render_ascii h.1

theorem flatMap_ne_dot {L : List Str} (h : ∀ l ∈ L, ValidLabel l) :
    (L.flatMap fun l => l ++ ['.']) ≠ ['.'] := by
  cases L with
  | nil => simp
  | cons l L =>
    have hl := h l (by simp)
    cases l with
    | nil => exact absurd rfl hl.ne_nil
    | cons x xs => simp

/-- `validate_name` accepts exactly the valid names. -/
theorem validateName_iff (s : Str) : Name.validateName s = .ok () ↔ ValidName s := by
  unfold Name.validateName
  by_cases h1 : s = ['.']
  · subst h1
    simp only [if_true, true_iff]
    exact ⟨by decide, [], by simp, by simp [render]⟩
  · rw [if_neg h1]
    constructor
    · intro h
      by_cases h2 : strLen s > 255
      · rw [if_pos h2] at h; simp at h
      · rw [if_neg h2] at h
        by_cases h3 : ¬ s.getLast? = some '.'
        · rw [if_pos h3] at h; simp at h
        · rw [if_neg h3] at h
          by_cases h4 : s.head? = some '.'
          · rw [if_pos h4] at h; simp at h
          · rw [if_neg h4] at h
            by_cases h5 : containsDoubleDot s = true
            · rw [if_pos h5] at h; simp at h
            · rw [if_neg h5, validateLabels_iff] at h
              have h3' : s.getLast? = some '.' := by simpa using h3
              have hs : s = s.dropLast ++ ['.'] := eq_dropLast_append h3'
              have hn := splitOn_ne_nil '.' s.dropLast
              have hname : NameOf s (splitOn '.' s.dropLast) := by
                refine ⟨h, ?_⟩
                unfold render
                rw [if_neg hn, ← join_dot '.' _ hn, splitOn_join]
                exact hs
              refine ⟨?_, _, hname⟩
              rw [← strLen_ascii hname.ascii]
              omega
    · rintro ⟨hlen, L, hL⟩
      have hn : L ≠ [] := by
        rintro rfl
        exact h1 (by rw [hL.2]; simp [render])
      have hs : s = L.flatMap fun l => l ++ ['.'] := by rw [hL.2]; simp [render, hn]
      have hlen' : ¬ strLen s > 255 := by rw [strLen_ascii hL.ascii]; omega
      obtain ⟨t, ht⟩ := flatMap_snoc hn
      have hlast : ¬ ¬ s.getLast? = some '.' := by rw [hs, ht]; simp
      rw [if_neg hlen', if_neg hlast, if_neg (by rw [hs]; exact head_flatMap hL.1),
        if_neg (by rw [hs, containsDoubleDot_flatMap hL.1]; decide), validateLabels_iff]
      have : splitOn '.' s.dropLast = L := by
        apply splitOn_snoc_sep
        rw [hs, ht, List.dropLast_concat, ← ht]
        exact splitOn_flatMap fun l hl => (hL.1 l hl).no_dot
      rw [this]
      exact hL.1

theorem fromString_iff (s : Str) (n : Name) : Name.fromString s = .ok n ↔ n.s = s ∧ ValidName s := by
  unfold Name.fromString
  have hr := validateName_returns s
  rcases hv : Name.validateName s with _ | e | k | _
  · have := (validateName_iff s).1 hv
    simp only [Out.bind_ok, Out.pure_eq, Out.ok.injEq, this, and_true]
    constructor
    · rintro rfl; rfl
    · rintro rfl; rfl
  · simp only [Out.bind_err]
    constructor
    · intro h; simp at h
    · rintro ⟨_, h⟩
      have := (validateName_iff s).2 h
      rw [hv] at this; simp at this
  · rw [hv] at hr; exact hr.elim
  · rw [hv] at hr; exact hr.elim

end Ariadne
