import Verif.Spec.Tokens
import Mathlib.Data.List.Basic

/-! # Places in a line -/

namespace Ariadne.Tokenizer

open Spec

theorem modeAfter_cons (m : Mode) (ch : Char) (l : Str) : modeAfter m (ch :: l) = modeAfter (m.step ch) l := rfl

theorem delim_step {ch : Char} (h : ch = '(' ∨ ch = ')' ∨ ch = ';' ∨ isWhitespace ch = true) (e : Bool) :
    (Mode.word e).step ch = Mode.between.step ch := by
  have hq : ch ≠ '"' := by
    rintro rfl
    rcases h with h | h | h | h
    · exact absurd h (by decide)
    · exact absurd h (by decide)
    · exact absurd h (by decide)
    · exact absurd h (by decide)
  have hb : ch ≠ '\\' := by
    rintro rfl
    rcases h with h | h | h | h
    · exact absurd h (by decide)
    · exact absurd h (by decide)
    · exact absurd h (by decide)
    · exact absurd h (by decide)
  simp only [Mode.step]
  by_cases h1 : ch = ';'
  · rw [if_pos h1, if_pos h1]
  · have h2 : ch = '(' ∨ ch = ')' ∨ isWhitespace ch = true := by tauto
    rw [if_neg h1, if_neg h1, if_neg hq, if_neg hb, if_neg hb, if_pos h2, if_pos h2]

theorem word_step {ch : Char} (h1 : ch ≠ '\\') (h2 : ¬ (ch = '(' ∨ ch = ')' ∨ ch = ';')) (h3 : isWhitespace ch ≠ true) (e : Bool) :
    (Mode.word e).step ch = .word e := by
  simp only [Mode.step]
  rw [if_neg (by tauto), if_neg h1, if_neg (by tauto)]

theorem first_step {ch : Char} (hq : ch ≠ '"') : Mode.between.step ch = (Mode.word false).step ch := by
  simp only [Mode.step]
  rw [if_neg (c := ch = '"') hq]

theorem white_step {ch : Char} (h : isWhitespace ch = true) : Mode.between.step ch = .between := by
  have h1 : ch ≠ ';' := by rintro rfl; exact absurd h (by decide)
  have h2 : ch ≠ '"' := by rintro rfl; exact absurd h (by decide)
  have h3 : ch ≠ '\\' := by rintro rfl; exact absurd h (by decide)
  simp only [Mode.step]
  rw [if_neg h1, if_neg h2, if_neg h3, if_pos (by tauto)]

/-- After a backslash. -/
def Mode.Escape (m : Mode) : Prop := m = .backslash ∨ m = .quotedBackslash

/-- From this place on, a word or quoted string ends. -/
def Stops (m : Mode) (l : Str) : Prop := ∃ q r, l = q ++ r ∧ (modeAfter m q = .between ∨ modeAfter m q = .comment)

/-- From this place on, words and quoted strings with escapes end. -/
def Tidy (m : Mode) (l : Str) : Prop :=
  ∀ pre c post, l = pre ++ c :: post → Mode.Escape (modeAfter m pre) → Stops (modeAfter m (pre ++ [c])) post

theorem modeAfter_append (m : Mode) (l l' : Str) : modeAfter m (l ++ l') = modeAfter (modeAfter m l) l' := List.foldl_append

theorem tidy_of_ends {l : Str} (h : EscapesEnd l) : Tidy .between l := by
  intro pre c post e hm
  obtain ⟨q, r, h1, h2⟩ := h pre c post e hm
  refine ⟨q, r, h1, ?_⟩
  rw [← modeAfter_append]
  simpa using h2

theorem tidy_nil (m : Mode) : Tidy m [] := fun pre c post h => by simp at h

theorem Tidy.step {m : Mode} {ch : Char} {l : Str} (h : Tidy m (ch :: l)) : Tidy (m.step ch) l :=
  fun pre c post e hm => h (ch :: pre) c post (by rw [e]; rfl) hm

theorem Tidy.escape {m : Mode} {ch : Char} {l : Str} (h : Tidy m (ch :: l)) (hm : Mode.Escape m) : Stops (m.step ch) l :=
  h [] ch l rfl hm

theorem Tidy.change {m m' : Mode} {ch : Char} {l : Str} (h : Tidy m (ch :: l)) (e : m.step ch = m'.step ch) (hm : ¬ Mode.Escape m') :
    Tidy m' (ch :: l) := by
  intro pre c post he hp
  cases pre with
  | nil => exact absurd hp hm
  | cons x pre =>
    rw [List.cons_append] at he
    injection he with e1 e2
    subst e1
    have := h (ch :: pre) c post (by rw [e2]; rfl)
    simp only [List.cons_append, modeAfter_cons, e] at this hp ⊢
    exact this hp

theorem Tidy.white : ∀ {l : Str}, Tidy .between l → Tidy .between (l.dropWhile isWhitespace)
  | [], h => h
  | ch :: l, h => by
    rw [List.dropWhile_cons]
    by_cases hw : isWhitespace ch = true
    · rw [if_pos hw]
      have := h.step
      rw [white_step hw] at this
      exact this.white
    · rw [if_neg hw]; exact h

theorem stops_cons {m : Mode} {ch : Char} {l : Str} (h : Stops m (ch :: l)) (hm : m ≠ .between ∧ m ≠ .comment) : Stops (m.step ch) l := by
  obtain ⟨q, r, h1, h2⟩ := h
  cases q with
  | nil => exact absurd h2 (by rintro (h | h); exacts [hm.1 h, hm.2 h])
  | cons x q =>
    rw [List.cons_append] at h1
    injection h1 with e1 e2
    subst e1
    exact ⟨q, r, e2, h2⟩

theorem not_stops_nil {m : Mode} (hm : m ≠ .between ∧ m ≠ .comment) : ¬ Stops m [] := by
  rintro ⟨q, r, h1, h2⟩
  obtain ⟨rfl, rfl⟩ := List.append_eq_nil_iff.1 h1.symm
  rcases h2 with h | h
  · exact hm.1 h
  · exact hm.2 h

/-! ### Runs of blanks -/

/-- In a word or between words, where white space separates. -/
def Mode.Open (m : Mode) : Prop := m = .between ∨ ∃ e, m = .word e

theorem runs_nil (m : Mode) (r : Bool) : BlankRuns m r [] := trivial

theorem runs_step {m : Mode} {r : Bool} {ch : Char} {l : Str} (h : BlankRuns m r (ch :: l)) (hn : ¬ Mode.Open m ∨ isWhitespace ch = false) :
    BlankRuns (m.step ch) false l := by
  unfold BlankRuns at h
  rw [if_neg] at h
  · exact h
  · rintro ⟨h1, h2⟩
    rcases hn with hn | hn
    · exact hn h1
    · rw [hn] at h2; cases h2

theorem runs_change {m m' : Mode} {r : Bool} {ch : Char} {l : Str} (h : BlankRuns m r (ch :: l)) (e : m.step ch = m'.step ch)
    (hm : Mode.Open m) (hm' : Mode.Open m') : BlankRuns m' r (ch :: l) := by
  unfold BlankRuns at h ⊢
  rw [← e]
  by_cases hw : isWhitespace ch = true
  · rw [if_pos ⟨hm, hw⟩] at h
    rw [if_pos ⟨hm', hw⟩]
    exact h
  · rw [if_neg fun x => hw x.2] at h ⊢
    exact h

theorem runs_head {ch : Char} {l : Str} (h : BlankRuns .between false (ch :: l)) (hw : isWhitespace ch = true) : ch = ' ' ∨ ch = '\t' := by
  unfold BlankRuns at h
  rw [if_pos ⟨.inl rfl, hw⟩] at h
  simpa using h.1

theorem runs_true : ∀ {l : Str} {r : Bool}, BlankRuns .between r l → BlankRuns .between false (l.dropWhile isWhitespace)
  | [], _, _ => trivial
  | ch :: l, r, h => by
    rw [List.dropWhile_cons]
    by_cases hw : isWhitespace ch = true
    · rw [if_pos hw]
      unfold BlankRuns at h
      rw [if_pos ⟨.inl rfl, hw⟩, white_step hw] at h
      exact runs_true h.2
    · rw [if_neg hw]
      unfold BlankRuns at h ⊢
      rw [if_neg fun x => hw x.2] at h ⊢
      exact h

end Ariadne.Tokenizer
