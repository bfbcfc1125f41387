import Verif.Lemmas.ZoneText6

/-! # Reading entries of concrete files, for examples -/

namespace Ariadne.ZoneParser

open Spec Tokenizer

/-- The characters of a word at the beginning of the text. -/
def solidPart : Str → Str × Str
  | [] => ([], [])
  | c :: l => if isWhitespace c = true ∨ c = '(' ∨ c = ')' ∨ c = ';' ∨ c = '\\' then ([], c :: l)
    else ((c :: (solidPart l).1), (solidPart l).2)

theorem solidPart_eq : ∀ l, (solidPart l).1 ++ (solidPart l).2 = l ∧ ∀ c ∈ (solidPart l).1, ¬ Separates c ∧ c ≠ '\\'
  | [] => ⟨rfl, by simp [solidPart]⟩
  | c :: l => by
    unfold solidPart
    by_cases h : isWhitespace c = true ∨ c = '(' ∨ c = ')' ∨ c = ';' ∨ c = '\\'
    · rw [if_pos h]; exact ⟨rfl, by simp⟩
    · rw [if_neg h]
      refine ⟨by rw [List.cons_append, (solidPart_eq l).1], fun c' hc => ?_⟩
      rcases List.mem_cons.1 hc with rfl | hc
      · refine ⟨fun hs => h ?_, fun e => h ?_⟩
        · rcases hs with h1 | h1 | h1 | h1
          · exact .inl h1
          · exact .inr (.inl h1)
          · exact .inr (.inr (.inl h1))
          · exact .inr (.inr (.inr (.inl h1)))
        · exact .inr (.inr (.inr (.inr e)))
      · exact (solidPart_eq l).2 _ hc

/-- `Boundary`, decided. -/
def boundaryB : Str → Bool
  | [] => true
  | c :: _ => c = ' ' ∨ c = '\t' ∨ c = '(' ∨ c = ')' ∨ c = ';'

theorem boundaryB_sound {l : Str} (h : boundaryB l = true) : Boundary l := by
  intro c hc
  cases l with
  | nil => cases hc
  | cons d l =>
    obtain rfl := Option.some.inj hc
    simpa [boundaryB] using h

/-- Reads a quoted string, after its first quote: the string, and what follows the closing quote. -/
def unquote : Str → Option (Str × Str)
  | [] => none
  | c :: l =>
    if c = '"' then some ([], l)
    else if c = '\\' then
      match l with
      | [] => none
      | d :: l => if '0' ≤ d ∧ d ≤ '9' then none else (unquote l).map fun r => (d :: r.1, r.2)
    else (unquote l).map fun r => (c :: r.1, r.2)

theorem unquote_sound : ∀ (n : Nat) (l s l' : Str), l.length ≤ n → unquote l = some (s, l') →
    ∃ text, l = text ++ '"' :: l' ∧ Quotes s text
  | _, [], _, _, _, h => by rw [unquote] at h; cases h
  | 0, _ :: _, _, _, hn, _ => by simp at hn
  | n + 1, c :: l, s, l', hn, h => by
    rw [unquote.eq_def] at h
    simp only at h
    by_cases h1 : c = '"'
    · rw [if_pos h1] at h
      obtain ⟨rfl, rfl⟩ := Prod.mk.inj (Option.some.inj h)
      exact ⟨[], by rw [h1]; rfl, .nil⟩
    rw [if_neg h1] at h
    by_cases h2 : c = '\\'
    · rw [if_pos h2] at h
      cases l with
      | nil => cases h
      | cons d l =>
        simp only at h
        by_cases h3 : '0' ≤ d ∧ d ≤ '9'
        · rw [if_pos h3] at h; cases h
        rw [if_neg h3] at h
        obtain ⟨⟨s', r⟩, e1, e2⟩ := Option.map_eq_some_iff.1 h
        obtain ⟨rfl, rfl⟩ := Prod.mk.inj e2
        obtain ⟨text, e, hq⟩ := unquote_sound n l s' r (by simp at hn; omega) e1
        exact ⟨'\\' :: d :: text, by rw [h2, e]; rfl, .escape h3 hq⟩
    · rw [if_neg h2] at h
      obtain ⟨⟨s', r⟩, e1, e2⟩ := Option.map_eq_some_iff.1 h
      obtain ⟨rfl, rfl⟩ := Prod.mk.inj e2
      obtain ⟨text, e, hq⟩ := unquote_sound n l s' r (by simp at hn; omega) e1
      exact ⟨c :: text, by rw [e]; rfl, .char h1 h2 hq⟩

/-- Reads the words of an entry. -/
def spell : Nat → Bool → Str → List Str → Option (List Spec.Word × List Str)
  | 0, _, _, _ => none
  | _ + 1, false, [], ls => some ([], ls)
  | _ + 1, true, [], [] => none
  | n + 1, true, [], l :: ls => spell n true l ls
  | n + 1, o, c :: l, ls =>
    if c = ' ' ∨ c = '\t' then spell n o l ls
    else if c = ';' then spell n o [] ls
    else if c = '(' then (if o = false then spell n true l ls else none)
    else if c = ')' then (if o = true then spell n false l ls else none)
    else if c = '"' then
      (match unquote l with
        | none => none
        | some (s, l') => if boundaryB l' then (spell n o l' ls).map fun r => (.quoted s :: r.1, r.2) else none)
    else if c = '$' ∨ (solidPart (c :: l)).1 = [] then none
    else if boundaryB (solidPart (c :: l)).2 then
      (spell n o (solidPart (c :: l)).2 ls).map fun r => (.plain (solidPart (c :: l)).1 :: r.1, r.2)
    else none

theorem solidPart_head {c : Char} {l : Str} (h : (solidPart (c :: l)).1 ≠ []) : (solidPart (c :: l)).1.head? = some c := by
  unfold solidPart at h ⊢
  by_cases hc : isWhitespace c = true ∨ c = '(' ∨ c = ')' ∨ c = ';' ∨ c = '\\'
  · rw [if_pos hc] at h; exact absurd rfl h
  · rw [if_neg hc]; rfl

theorem spell_sound : ∀ (n : Nat) (o : Bool) (l : Str) (ls : List Str) (ws : List Spec.Word) (left : List Str),
    spell n o l ls = some (ws, left) → Spells o ws l ls left
  | 0, _, _, _, _, _, h => by cases h
  | _ + 1, false, [], ls, ws, left, h => by
    simp only [spell, Option.some.injEq, Prod.mk.injEq] at h
    obtain ⟨rfl, rfl⟩ := h
    exact .done
  | _ + 1, true, [], [], _, _, h => by cases h
  | n + 1, true, [], l :: ls, ws, left, h => .newline (spell_sound n _ _ _ _ _ h)
  | n + 1, o, c :: l, ls, ws, left, h => by
    rw [spell] at h
    by_cases h1 : c = ' ' ∨ c = '\t'
    · rw [if_pos h1] at h; exact .blank h1 (spell_sound n _ _ _ _ _ h)
    rw [if_neg h1] at h
    by_cases h2 : c = ';'
    · rw [if_pos h2] at h; subst h2; exact .comment (spell_sound n _ _ _ _ _ h)
    rw [if_neg h2] at h
    by_cases h3 : c = '('
    · rw [if_pos h3] at h; subst h3
      by_cases ho : o = false
      · rw [if_pos ho] at h; subst ho; exact .opening (spell_sound n _ _ _ _ _ h)
      · rw [if_neg ho] at h; cases h
    rw [if_neg h3] at h
    by_cases h4 : c = ')'
    · rw [if_pos h4] at h; subst h4
      by_cases ho : o = true
      · rw [if_pos ho] at h; subst ho; exact .closing (spell_sound n _ _ _ _ _ h)
      · rw [if_neg ho] at h; cases h
    rw [if_neg h4] at h
    by_cases h5 : c = '"'
    · rw [if_pos h5] at h; subst h5
      cases hd : unquote l with
      | none => rw [hd] at h; cases h
      | some r =>
        obtain ⟨s, l'⟩ := r
        rw [hd] at h
        simp only at h
        by_cases hl : boundaryB l' = true
        · rw [if_pos hl] at h
          obtain ⟨⟨ws', left'⟩, e1, e2⟩ := Option.map_eq_some_iff.1 h
          simp only [Prod.mk.injEq] at e2
          obtain ⟨rfl, rfl⟩ := e2
          obtain ⟨text, e, hq⟩ := unquote_sound _ _ _ _ (Nat.le_refl _) hd
          rw [e]
          exact .quoted hq (boundaryB_sound hl) (spell_sound n _ _ _ _ _ e1)
        · rw [if_neg hl] at h; cases h
    rw [if_neg h5] at h
    by_cases h6 : c = '$' ∨ (solidPart (c :: l)).1 = []
    · rw [if_pos h6] at h; cases h
    rw [if_neg h6] at h
    by_cases h7 : boundaryB (solidPart (c :: l)).2 = true
    · rw [if_pos h7] at h
      obtain ⟨⟨ws', left'⟩, e1, e2⟩ := Option.map_eq_some_iff.1 h
      simp only [Prod.mk.injEq] at e2
      obtain ⟨rfl, rfl⟩ := e2
      have hne : (solidPart (c :: l)).1 ≠ [] := fun e => h6 (.inr e)
      have hh := solidPart_head hne
      have := Spells.word (o := o) (ls := ls) ⟨hne, (solidPart_eq (c :: l)).2, by rw [hh]; simpa using h5⟩
        (by rw [hh]; simpa using fun e => h6 (.inl e)) (boundaryB_sound h7) (spell_sound n _ _ _ _ _ e1)
      rwa [(solidPart_eq (c :: l)).1] at this
    · rw [if_neg h7] at h; cases h

/-- Reads an entry. -/
def entryOf (n : Nat) : List Str → Option (Str × List Spec.Word × List Str)
  | [] => none
  | [] :: _ => none
  | (c :: l) :: ls =>
    if c = ' ' ∨ c = '\t' then
      match spell n false l ls with
      | some (ws, left) => if ws = [] then none else some ([], ws, left)
      | none => none
    else if c = '"' ∨ (solidPart (c :: l)).1 = [] then none
    else if boundaryB (solidPart (c :: l)).2 then
      (spell n false (solidPart (c :: l)).2 ls).map fun r => ((solidPart (c :: l)).1, r.1, r.2)
    else none

theorem entryOf_sound {n : Nat} {ls : List Str} {head : Str} {ws : List Spec.Word} {left : List Str}
    (h : entryOf n ls = some (head, ws, left)) : Spec.Entry head ws ls left := by
  match ls, h with
  | (c :: l) :: ls, h =>
    rw [entryOf] at h
    by_cases h1 : c = ' ' ∨ c = '\t'
    · rw [if_pos h1] at h
      cases hs : spell n false l ls with
      | none => rw [hs] at h; cases h
      | some r =>
        obtain ⟨ws', left'⟩ := r
        rw [hs] at h
        simp only at h
        by_cases hw : ws' = []
        · rw [if_pos hw] at h; cases h
        · rw [if_neg hw] at h
          simp only [Option.some.injEq, Prod.mk.injEq] at h
          obtain ⟨rfl, rfl, rfl⟩ := h
          exact .blank h1 hw (spell_sound _ _ _ _ _ _ hs)
    rw [if_neg h1] at h
    by_cases h6 : c = '"' ∨ (solidPart (c :: l)).1 = []
    · rw [if_pos h6] at h; cases h
    rw [if_neg h6] at h
    by_cases h7 : boundaryB (solidPart (c :: l)).2 = true
    · rw [if_pos h7] at h
      obtain ⟨⟨ws', left'⟩, e1, e2⟩ := Option.map_eq_some_iff.1 h
      simp only [Prod.mk.injEq] at e2
      obtain ⟨rfl, rfl, rfl⟩ := e2
      have hne : (solidPart (c :: l)).1 ≠ [] := fun e => h6 (.inr e)
      have hh := solidPart_head hne
      have := Spec.Entry.word (ls := ls) ⟨hne, (solidPart_eq (c :: l)).2, by rw [hh]; simpa using fun e => h6 (.inl e)⟩
        (boundaryB_sound h7) (spell_sound _ _ _ _ _ _ e1)
      rwa [(solidPart_eq (c :: l)).1] at this
    · rw [if_neg h7] at h; cases h

/-! Values -/

theorem not_numeric {c : Char} {w : Str} (h : (c < '0' ∨ '9' < c) ∧ c ≠ '+') : ¬ LooksNumeric (c :: w) := by
  rintro ⟨d, n, e | e, ⟨h1, h2, h3⟩, -⟩
  · subst e
    have := h2 c List.mem_cons_self
    rcases h.1 with h' | h'
    · exact absurd this.1 (Char.not_le.2 h')
    · exact absurd this.2 (Char.not_le.2 h')
  · exact h.2 (List.cons.inj e).1

/-- `Numeral`, decided. -/
theorem numeral_of {w : Str} {n : Nat}
    (h : (w ≠ [] ∧ (∀ c ∈ w, '0' ≤ c ∧ c ≤ '9')) ∧ w.foldl (fun a c => 10 * a + (c.toNat - '0'.toNat)) 0 = n) : Numeral w n :=
  ⟨h.1.1, h.1.2, h.2⟩

/-- Letter or digit, decided. -/
def letDigB (c : Char) : Bool := ('a' ≤ c ∧ c ≤ 'z') ∨ ('A' ≤ c ∧ c ≤ 'Z') ∨ ('0' ≤ c ∧ c ≤ '9')

/-- `ValidLabel`, decided. -/
def labelB (l : Str) : Bool :=
  l.all (fun c => letDigB c || c = '-') && l.head?.any letDigB && l.getLast?.any letDigB

theorem labelB_sound {l : Str} (h : labelB l = true) : ValidLabel l := by
  simp only [labelB, Bool.and_eq_true, List.all_eq_true, Bool.or_eq_true, Option.any_eq_true, letDigB, decide_eq_true_eq] at h
  obtain ⟨⟨h1, a, h2, h3⟩, z, h4, h5⟩ := h
  exact ⟨h1, a, z, h2, h4, h3, h5⟩

theorem nameOf_of {s : Str} {labels : List Str} (h : labels.all labelB = true ∧ s = render labels) : NameOf s labels :=
  ⟨fun l hl => labelB_sound (List.all_eq_true.1 h.1 l hl), h.2⟩

/-- A relative name. -/
theorem nameText_rel {origin : Name} {w : Str} {n : Name} (K O : List Str)
    (h : (w.head?.any fun c => (c < '0' ∨ '9' < c) ∧ c ≠ '+') = true ∧ n.s.length ≤ 255 ∧ K ≠ [] ∧
      ((K ++ O).all labelB = true ∧ n.s = render (K ++ O)) ∧ (K.all labelB = true ∧ w ++ ['.'] = render K) ∧
      (O.all labelB = true ∧ origin.s = render O)) : NameText true origin w n := by
  obtain ⟨h1, h2, h3, h4, h5, h6⟩ := h
  refine ⟨fun _ => ?_, h2, K ++ O, nameOf_of h4, .inr ⟨K, O, h3, nameOf_of h5, nameOf_of h6, rfl⟩⟩
  cases w with
  | nil => cases h1
  | cons c w => exact not_numeric (by simpa using h1)

/-- An absolute name. -/
theorem nameText_abs {origin : Name} {w : Str} {n : Name} (L : List Str)
    (h : (w.head?.any fun c => (c < '0' ∨ '9' < c) ∧ c ≠ '+') = true ∧ n.s.length ≤ 255 ∧
      (L.all labelB = true ∧ n.s = render L) ∧ w = n.s) : NameText true origin w n := by
  obtain ⟨h1, h2, h3, h4⟩ := h
  refine ⟨fun _ => ?_, h2, L, nameOf_of h3, .inl (by rw [h4]; exact nameOf_of h3)⟩
  cases w with
  | nil => cases h1
  | cons c w => exact not_numeric (by simpa using h1)

theorem nameText_weak {strict : Bool} {origin : Name} {w : Str} {n : Name} (h : NameText true origin w n) :
    NameText strict origin w n := ⟨fun _ => h.1 rfl, h.2⟩

end Ariadne.ZoneParser
