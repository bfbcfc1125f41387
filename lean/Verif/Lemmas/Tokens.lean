import Verif.Model.Tokens
import Verif.Lemmas.Sat
import Verif.Lemmas.Modes
import Mathlib.Data.List.Basic
import Mathlib.Data.List.Infix

/-! # The tokenizer: panics, progress -/

namespace Ariadne

namespace Tokenizer

open Spec (Mode modeAfter BlankRuns)

/-- In what is left of the input, words and quoted strings with escapes end before the end of the line. -/
def Clean (t : Tokenizer) : Prop := Tidy .between t.rest ∧ ∀ l, some l ∈ t.file → Tidy .between l

/-- In what is left of the input, runs of white space begin with spaces and tabs. -/
def Plain (t : Tokenizer) : Prop :=
  BlankRuns .between false t.rest ∧ ∀ l, some l ∈ t.file → skippable l = true ∨ BlankRuns .between false l

theorem parseEscape_sat {np nd : Prop} (s : Str) :
    Sat np nd (parseEscape s) fun r => r.2 <:+ s ∧ r.2.length + 2 = s.length := by
  match s with
  | [] => trivial
  | [_] => trivial
  | a :: c :: rest => exact ⟨⟨[a, c], rfl⟩, by simp⟩

theorem not_open_quoted : ¬ Mode.Open .quoted := by rintro (h | ⟨e, h⟩) <;> cases h

theorem escape_runs {e : Bool} {c : Char} {l : Str} (h : BlankRuns (.word e) false ('\\' :: c :: l)) : BlankRuns (.word true) false l := by
  have h1 := runs_step h (.inr (by decide))
  have hs : (Mode.word e).step '\\' = .backslash := by cases e <;> decide
  rw [hs] at h1
  exact runs_step h1 (.inl (by rintro (h | ⟨e, h⟩) <;> cases h))

theorem quotedEscape_runs {c : Char} {l : Str} (h : BlankRuns .quoted false ('\\' :: c :: l)) : BlankRuns .quoted false l := by
  have h1 := runs_step h (.inl not_open_quoted)
  have hs : Mode.quoted.step '\\' = .quotedBackslash := by decide
  rw [hs] at h1
  exact runs_step h1 (.inl (by rintro (h | ⟨e, h⟩) <;> cases h))

/-- What the loops share: they go on to a suffix, which is shorter if the first character belongs to the token. -/
theorem stringLoop_sat {np nd : Prop} : ∀ (n : Nat) (acc rest : Str) (e : Bool), rest.length ≤ n →
    (np → Tidy (.word e) rest ∧ (n ≤ rest.length ∨ Stops (.word e) rest)) →
    Sat np nd (stringLoop n acc rest) fun r => r.2 <:+ rest ∧ (Tidy (.word e) rest → Tidy .between r.2) ∧
      (BlankRuns (.word e) false rest → BlankRuns .between false r.2) ∧ (0 < n → ∀ c cs, rest = c :: cs →
      ¬ (c = '(' ∨ c = ')' ∨ c = ';') → isWhitespace c = false → r.2.length < rest.length)
  | 0, acc, rest, e, hn, _ => by
    obtain rfl : rest = [] := List.length_eq_zero_iff.1 (Nat.le_zero.1 hn)
    exact ⟨List.suffix_refl _, fun _ => tidy_nil _, fun _ => runs_nil _ _, by omega⟩
  | n + 1, acc, [], e, _, h => fun hp => by
    rcases (h hp).2 with h | h
    · simp at h
    · exact not_stops_nil (by simp) h
  | n + 1, acc, ch :: rest, e, hn, h => by
    unfold stringLoop
    refine Sat.ite (fun hc => ?_) fun hc => ?_
    · subst hc
      match rest with
      | [] => exact trivial
      | c :: rest' =>
        show Sat np nd (stringLoop n (acc ++ [c]) rest') _
        have hs : (Mode.word e).step '\\' = .backslash := by cases e <;> decide
        have ht : Tidy (.word e) ('\\' :: c :: rest') → Tidy (.word true) rest' ∧ Stops (.word true) rest' := fun h => by
          have := h.step
          rw [hs] at this
          exact ⟨this.step, this.escape (.inl rfl)⟩
        simp only [List.length_cons] at hn
        refine (stringLoop_sat n (acc ++ [c]) rest' true (by omega) fun hp => ⟨(ht (h hp).1).1, .inr (ht (h hp).1).2⟩).mono fun r _ hr => ?_
        refine ⟨hr.1.trans ⟨['\\', c], rfl⟩, fun h => hr.2.1 (ht h).1, fun h => hr.2.2.1 (escape_runs h), fun _ _ _ _ _ _ => ?_⟩
        have := hr.1.length_le
        simp only [List.length_cons]; omega
    · refine Sat.ite (fun hc2 => ?_) fun hc2 => Sat.ite (fun hw => ?_) fun hw => ?_
      · exact ⟨List.suffix_refl _, fun h => h.change (delim_step (by tauto) e) (by rintro (h | h) <;> cases h),
          fun h => runs_change h (delim_step (by tauto) e) (.inr ⟨e, rfl⟩) (.inl rfl),
          fun _ c cs e h1 => by cases e; exact absurd hc2 h1⟩
      · exact ⟨List.suffix_refl _, fun h => h.change (delim_step (by tauto) e) (by rintro (h | h) <;> cases h),
          fun h => runs_change h (delim_step (by tauto) e) (.inr ⟨e, rfl⟩) (.inl rfl),
          fun _ c cs e _ h2 => by cases e; rw [hw] at h2; cases h2⟩
      · have hs : (Mode.word e).step ch = .word e := word_step hc hc2 hw e
        simp only [List.length_cons] at hn
        refine (stringLoop_sat n (acc ++ [ch]) rest e (by omega) fun hp => ?_).mono fun r _ hr => ?_
        · obtain ⟨h1, h2⟩ := h hp
          refine ⟨hs ▸ h1.step, ?_⟩
          rcases h2 with h2 | h2
          · exact .inl (by simp only [List.length_cons] at h2; omega)
          · exact .inr (hs ▸ stops_cons h2 (by simp))
        · refine ⟨hr.1.trans (List.suffix_cons _ _), fun h => hr.2.1 (hs ▸ h.step),
            fun h => hr.2.2.1 (hs ▸ runs_step h (.inr (by simpa using hw))), fun _ _ _ _ _ _ => ?_⟩
          have := hr.1.length_le
          simp; omega

theorem directiveLoop_sat {np nd : Prop} : ∀ (n : Nat) (acc rest : Str) (e : Bool), rest.length ≤ n →
    (np → Tidy (.word e) rest ∧ (n ≤ rest.length ∨ Stops (.word e) rest)) →
    Sat np nd (directiveLoop n acc rest) fun r => r.2 <:+ rest ∧ (Tidy (.word e) rest → Tidy .between r.2) ∧
      (BlankRuns (.word e) false rest → BlankRuns .between false r.2)
  | 0, acc, rest, e, hn, _ => by
    obtain rfl : rest = [] := List.length_eq_zero_iff.1 (Nat.le_zero.1 hn)
    exact ⟨List.suffix_refl _, fun _ => tidy_nil _, fun _ => runs_nil _ _⟩
  | n + 1, acc, [], e, _, h => fun hp => by
    rcases (h hp).2 with h | h
    · simp at h
    · exact not_stops_nil (by simp) h
  | n + 1, acc, ch :: rest, e, hn, h => by
    unfold directiveLoop
    refine Sat.ite (fun hc => ?_) fun hc => ?_
    · subst hc
      match rest with
      | [] => exact trivial
      | c :: rest' =>
        show Sat np nd (directiveLoop n (acc ++ [c]) rest') _
        have hs : (Mode.word e).step '\\' = .backslash := by cases e <;> decide
        have ht : Tidy (.word e) ('\\' :: c :: rest') → Tidy (.word true) rest' ∧ Stops (.word true) rest' := fun h => by
          have := h.step
          rw [hs] at this
          exact ⟨this.step, this.escape (.inl rfl)⟩
        simp only [List.length_cons] at hn
        refine (directiveLoop_sat n (acc ++ [c]) rest' true (by omega) fun hp => ⟨(ht (h hp).1).1, .inr (ht (h hp).1).2⟩).mono fun r _ hr => ?_
        exact ⟨hr.1.trans ⟨['\\', c], rfl⟩, fun h => hr.2.1 (ht h).1, fun h => hr.2.2 (escape_runs h)⟩
    · refine Sat.ite (fun hc2 => ?_) fun hc2 => Sat.ite (fun hw => ?_) fun hw => ?_
      · exact ⟨List.suffix_refl _, fun h => h.change (delim_step (by tauto) e) (by rintro (h | h) <;> cases h),
          fun h => runs_change h (delim_step (by tauto) e) (.inr ⟨e, rfl⟩) (.inl rfl)⟩
      · exact ⟨List.suffix_refl _, fun h => h.change (delim_step (by tauto) e) (by rintro (h | h) <;> cases h),
          fun h => runs_change h (delim_step (by tauto) e) (.inr ⟨e, rfl⟩) (.inl rfl)⟩
      · have hs : (Mode.word e).step ch = .word e := word_step hc (by tauto) hw e
        simp only [List.length_cons] at hn
        refine (directiveLoop_sat n (acc ++ [ch]) rest e (by omega) fun hp => ?_).mono fun r _ hr => ?_
        · obtain ⟨h1, h2⟩ := h hp
          refine ⟨hs ▸ h1.step, ?_⟩
          rcases h2 with h2 | h2
          · exact .inl (by simp only [List.length_cons] at h2; omega)
          · exact .inr (hs ▸ stops_cons h2 (by simp))
        · exact ⟨hr.1.trans (List.suffix_cons _ _), fun h => hr.2.1 (hs ▸ h.step),
            fun h => hr.2.2 (hs ▸ runs_step h (.inr (by simpa using hw)))⟩

theorem quotedLoop_sat {np nd : Prop} : ∀ (n : Nat) (acc rest : Str), rest.length ≤ n →
    (np → Tidy .quoted rest ∧ (n ≤ rest.length ∨ Stops .quoted rest)) →
    Sat np nd (quotedLoop n acc rest) fun r => r.2.2 <:+ rest ∧ (Tidy .quoted rest → Tidy .between r.2.2) ∧
      (BlankRuns .quoted false rest → BlankRuns .between false r.2.2)
  | 0, acc, rest, hn, _ => by
    obtain rfl : rest = [] := List.length_eq_zero_iff.1 (Nat.le_zero.1 hn)
    exact ⟨List.suffix_refl _, fun _ => tidy_nil _, fun _ => runs_nil _ _⟩
  | n + 1, acc, [], _, h => fun hp => by
    rcases (h hp).2 with h | h
    · simp at h
    · exact not_stops_nil (by simp) h
  | n + 1, acc, ch :: rest, hn, h => by
    unfold quotedLoop
    refine Sat.ite (fun hc => ?_) fun hc => ?_
    · subst hc
      match rest with
      | [] => exact trivial
      | c :: rest' =>
        show Sat np nd (quotedLoop n (acc ++ [c]) rest') _
        have hs : Mode.quoted.step '\\' = .quotedBackslash := by decide
        have ht : Tidy .quoted ('\\' :: c :: rest') → Tidy .quoted rest' ∧ Stops .quoted rest' := fun h => by
          have := h.step
          rw [hs] at this
          exact ⟨this.step, this.escape (.inr rfl)⟩
        simp only [List.length_cons] at hn
        refine (quotedLoop_sat n (acc ++ [c]) rest' (by omega) fun hp => ⟨(ht (h hp).1).1, .inr (ht (h hp).1).2⟩).mono fun r _ hr => ?_
        exact ⟨hr.1.trans ⟨['\\', c], rfl⟩, fun h => hr.2.1 (ht h).1, fun h => hr.2.2 (quotedEscape_runs h)⟩
    · refine Sat.ite (fun hc2 => ?_) fun hc2 => ?_
      · subst hc2
        exact ⟨List.suffix_cons _ _, fun h => h.step, fun h => runs_step h (.inl not_open_quoted)⟩
      · have hs : Mode.quoted.step ch = .quoted := by
          simp only [Mode.step]
          rw [if_neg hc2, if_neg hc]
        simp only [List.length_cons] at hn
        refine (quotedLoop_sat n (acc ++ [ch]) rest (by omega) fun hp => ?_).mono fun r _ hr => ?_
        · obtain ⟨h1, h2⟩ := h hp
          refine ⟨hs ▸ h1.step, ?_⟩
          rcases h2 with h2 | h2
          · exact .inl (by simp only [List.length_cons] at h2; omega)
          · exact .inr (hs ▸ stops_cons h2 (by simp))
        · exact ⟨hr.1.trans (List.suffix_cons _ _), fun h => hr.2.1 (hs ▸ h.step),
            fun h => hr.2.2 (hs ▸ runs_step h (.inl not_open_quoted))⟩

/-- What is left of `t'` is part of what is left of `t`. -/
structure After (t t' : Tokenizer) : Prop where
  runs : t.Plain → BlankRuns .between false t'.rest
  file : t'.file <:+ t.file
  size : t'.size ≤ t.size
  line : t.line ≤ t'.line
  tidy : t.Clean → Tidy .between t'.rest

theorem After.refl (t : Tokenizer) : After t t := ⟨fun h => h.1, List.suffix_refl _, le_refl _, le_refl _, fun h => h.1⟩

theorem After.trans {a b c : Tokenizer} (h : After a b) (h' : After b c) : After a c where
  runs := fun hc => h'.runs ⟨h.runs hc, fun l hl => hc.2 l (h.file.subset hl)⟩
  file := h'.file.trans h.file
  size := le_trans h'.size h.size
  line := le_trans h.line h'.line
  tidy := fun hc => h'.tidy ⟨h.tidy hc, fun l hl => hc.2 l (h.file.subset hl)⟩

theorem After.clean {t t' : Tokenizer} (h : After t t') (hc : t.Clean) : t'.Clean :=
  ⟨h.tidy hc, fun l hl => hc.2 l (h.file.subset hl)⟩

theorem After.plain {t t' : Tokenizer} (h : After t t') (hc : t.Plain) : t'.Plain :=
  ⟨h.runs hc, fun l hl => hc.2 l (h.file.subset hl)⟩

theorem After.of_suffix {t : Tokenizer} {rest : Str} {p : List Token} {m : Bool} (h : rest <:+ t.rest)
    (ht : Tidy .between t.rest → Tidy .between rest) (hb : BlankRuns .between false t.rest → BlankRuns .between false rest) :
    After t { t with rest := rest, peeked := p, multiline := m } where
  runs := fun h => hb h.1
  file := List.suffix_refl _
  size := by have := h.length_le; simp only [Tokenizer.size]; omega
  line := le_refl _
  tidy := fun h => ht h.1

/-- Loading a line. -/
theorem loadFrom_sat {np nd : Prop} : ∀ (file : List (Option Str)) (t : Tokenizer), t.rest = [] → t.file = file →
    Sat np nd (loadFrom file t) fun r => After t r.2 ∧ r.2.peeked = t.peeked ∧ r.2.multiline = t.multiline ∧
      (r.1 = true → r.2.line ≠ 0 ∧ r.2.rest ≠ [] ∧ r.2.size < t.size) ∧ (r.1 = false → r.2.rest = [] ∧ r.2.file = [])
  | [], t, hr, hf => by
    refine ⟨⟨fun h => h.1, by simp [hf], ?_, le_refl _, fun h => h.1⟩, rfl, rfl, fun h => (by cases h), fun _ => ⟨hr, rfl⟩⟩
    simp [Tokenizer.size, hf]
  | none :: ls, t, _, _ => trivial
  | some l :: ls, t, hr, hf => by
    unfold loadFrom
    refine Sat.ite (fun _ => ?_) fun hs => ?_
    · have key := loadFrom_sat (np := np) (nd := nd) ls { t with file := ls, line := t.line + 1 } hr rfl
      have e : loadFrom ls { t with line := t.line + 1 } = loadFrom ls { t with file := ls, line := t.line + 1 } := by
        cases ls with
        | nil => rfl
        | cons x xs =>
          cases x with
          | none => rfl
          | some y =>
            unfold loadFrom
            by_cases hy : skippable y = true
            · rw [if_pos hy, if_pos hy]
              exact loadFrom_file_irrel _ _ _
            · rw [if_neg hy, if_neg hy]
      rw [e]
      have hsize : ({ t with file := ls, line := t.line + 1 } : Tokenizer).size < t.size := by
        simp [Tokenizer.size, hf]
      have ha : After t { t with file := ls, line := t.line + 1 } :=
        ⟨fun h => h.1, by rw [hf]; exact List.suffix_cons _ _, le_of_lt hsize, by simp, fun h => h.1⟩
      refine key.mono fun r _ h => ⟨ha.trans h.1, h.2.1, h.2.2.1, fun hb => ⟨(h.2.2.2.1 hb).1, (h.2.2.2.1 hb).2.1, ?_⟩,
        h.2.2.2.2⟩
      have := (h.2.2.2.1 hb).2.2; omega
    · refine ⟨⟨fun h => (h.2 l (by simp [hf])).resolve_left hs, by simp [hf], ?_, by simp, fun h => h.2 l (by simp [hf])⟩, rfl, rfl, fun _ => ⟨by simp, ?_, ?_⟩,
        fun h => by cases h⟩
      · simp [Tokenizer.size, hf, hr]
      · intro e
        simp only at e
        subst e
        exact hs rfl
      · simp [Tokenizer.size, hf, hr]
where
  loadFrom_file_irrel : ∀ (file : List (Option Str)) (t : Tokenizer) (f : List (Option Str)),
      loadFrom file t = loadFrom file { t with file := f }
    | [], t, f => rfl
    | none :: _, t, f => rfl
    | some l :: ls, t, f => by
      unfold loadFrom
      by_cases hy : skippable l = true
      · rw [if_pos hy, if_pos hy]
        exact loadFrom_file_irrel ls { t with line := t.line + 1 } f
      · rw [if_neg hy, if_neg hy]

/-- What a token taken from the input (not from the peeked ones) leaves. -/
structure Took (pl : Prop) (t : Tokenizer) (tok : Token) (t' : Tokenizer) : Prop where
  after : After t t'
  peeked : t'.peeked = []
  live : tok ≠ .end → t'.line ≠ 0
  shrink : pl → tok ≠ .end → t'.size < t.size
  blank : tok = .blank → t'.size < t.size

theorem Took.of_after {pl : Prop} {t t1 t' : Tokenizer} {tok : Token} (h : After t t1) (k : Took pl t1 tok t') :
    Took pl t tok t' where
  after := h.trans k.after
  peeked := k.peeked
  live := k.live
  shrink := fun a b => lt_of_lt_of_le (k.shrink a b) h.size
  blank := fun a => lt_of_lt_of_le (k.blank a) h.size

theorem nextChar_sat {np nd pl : Prop} {recur : Tokenizer → Out TokenErr (Token × Tokenizer)} {t : Tokenizer}
    (hp : t.peeked = []) (hl : t.line ≠ 0) (hr : t.rest ≠ []) (hc : np → t.Clean) (hpl : pl → t.Plain)
    (ih : ∀ t1 : Tokenizer, t1.size < t.size → t1.peeked = [] → t1.line ≠ 0 → (np → t1.Clean) → (pl → t1.Plain) →
      Sat np nd (recur t1) fun r => Took pl t1 r.1 r.2) :
    Sat np nd (nextChar recur t) fun r => Took pl t r.1 r.2 := by
  obtain ⟨ch, rest, hrest⟩ : ∃ ch rest, t.rest = ch :: rest := by
    cases h : t.rest with
    | nil => exact absurd h hr
    | cons a b => exact ⟨a, b, rfl⟩
  have hsz : t.size = rest.length + 1 + (t.file.map fun l => (l.getD []).length + 1).sum := by
    simp [Tokenizer.size, hrest]
  have sub : ∀ (r : Str) (m : Bool), r <:+ rest → (Tidy .between t.rest → Tidy .between r) →
      (BlankRuns .between false t.rest → BlankRuns .between false r) →
      After t { t with rest := r, multiline := m } ∧ ({ t with rest := r, multiline := m } : Tokenizer).size < t.size :=
    fun r m h ht hb => by
      have hs : r <:+ t.rest := by rw [hrest]; exact h.trans (List.suffix_cons _ _)
      have := After.of_suffix (t := t) (p := t.peeked) (m := m) hs ht hb
      refine ⟨this, ?_⟩
      rw [hsz]
      have := h.length_le
      simp only [Tokenizer.size]; omega
  have step : ∀ (r : Str) (m : Bool), r <:+ rest → (Tidy .between t.rest → Tidy .between r) →
      (BlankRuns .between false t.rest → BlankRuns .between false r) →
      Sat np nd (recur { t with rest := r, multiline := m }) fun x => Took pl t x.1 x.2 := fun r m h ht hb => by
    obtain ⟨ha, hs⟩ := sub r m h ht hb
    exact (ih _ hs hp hl (fun x => ha.clean (hc x)) (fun x => ha.plain (hpl x))).mono fun x _ k => Took.of_after ha k
  unfold nextChar
  rw [hrest]
  simp only
  refine Sat.ite (fun hch => ?_) fun hch => Sat.ite (fun h2 => ?_) fun h2 => Sat.ite (fun h3 => ?_) fun h3 =>
    Sat.ite (fun h4 => ?_) fun h4 => Sat.ite (fun h5 => ?_) fun h5 => Sat.ite (fun h6 => ?_) fun h6 => ?_
  · have hw : isWhitespace ch = true := by rcases hch with rfl | rfl <;> decide
    have e : t.rest.dropWhile isWhitespace = rest.dropWhile isWhitespace := by
      rw [hrest, List.dropWhile_cons, if_pos hw]
    have hs := sub (rest.dropWhile isWhitespace) t.multiline (List.dropWhile_suffix _) (fun h => e ▸ h.white) (fun h => e ▸ runs_true h)
    show Took pl t .blank { t with rest := t.rest.dropWhile isWhitespace }
    rw [e]
    exact ⟨hs.1, hp, fun _ => hl, fun _ _ => hs.2, fun _ => hs.2⟩
  · have inner : Tidy .between t.rest → Tidy (.word false) rest := fun h => by
      rw [hrest, h2] at h
      exact h.step
    have inner' : BlankRuns .between false t.rest → BlankRuns (.word false) false rest := fun h => by
      rw [hrest, h2] at h
      exact runs_step h (.inr (by decide))
    unfold processDirective
    rw [hrest]
    refine Sat.bind (directiveLoop_sat (np := np) (nd := nd) rest.length ['$'] rest false (le_refl _) fun x => ⟨inner (hc x).1, .inl (le_refl _)⟩)
      fun r _ hr => ?_
    have hs := sub r.2 t.multiline hr.1 (fun h => hr.2.1 (inner h)) fun h => hr.2.2 (inner' h)
    have tk : ∀ tok : Token, tok ≠ .end → Took pl t tok { t with rest := r.2 } :=
      fun tok he => ⟨hs.1, hp, fun _ => hl, fun _ _ => hs.2, fun _ => hs.2⟩
    refine Sat.ite (fun _ => ?_) fun _ => Sat.ite (fun _ => ?_) fun _ => trivial
    · exact tk _ (by simp)
    · exact tk _ (by simp)
  · have inner : Tidy .between t.rest → Tidy .quoted rest := fun h => by
      rw [hrest, h3] at h
      exact h.step
    have inner' : BlankRuns .between false t.rest → BlankRuns .quoted false rest := fun h => by
      rw [hrest, h3] at h
      exact runs_step h (.inr (by decide))
    unfold processQuotedString
    rw [hrest]
    refine Sat.bind (quotedLoop_sat (np := np) (nd := nd) rest.length [] rest (le_refl _) fun x => ⟨inner (hc x).1, .inl (le_refl _)⟩) fun r _ hr => ?_
    have hs := sub r.2.2 t.multiline hr.1 (fun h => hr.2.1 (inner h)) fun h => hr.2.2 (inner' h)
    refine Sat.ite (fun _ => ?_) fun _ => trivial
    exact ⟨hs.1, hp, fun _ => hl, fun _ _ => hs.2, fun _ => hs.2⟩
  · refine Sat.ite (fun _ => trivial) fun _ => step rest true (List.suffix_refl _) (fun h => by rw [hrest, h4] at h; exact h.step)
      fun h => by rw [hrest, h4] at h; exact runs_step h (.inr (by decide))
  · refine Sat.ite (fun _ => trivial) fun _ => step rest false (List.suffix_refl _) (fun h => by rw [hrest, h5] at h; exact h.step)
      fun h => by rw [hrest, h5] at h; exact runs_step h (.inr (by decide))
  · have : [] <:+ rest := List.nil_suffix
    exact step [] t.multiline this (fun _ => tidy_nil _) fun _ => runs_nil _ _
  · have inner : Tidy .between t.rest → Tidy (.word false) t.rest := fun h => by
      rw [hrest] at h ⊢
      exact h.change (first_step h3) (by rintro (h | h) <;> cases h)
    have inner' : BlankRuns .between false t.rest → BlankRuns (.word false) false t.rest := fun h => by
      rw [hrest] at h ⊢
      exact runs_change h (first_step h3) (.inl rfl) (.inr ⟨_, rfl⟩)
    unfold processStringOrNumber
    refine Sat.bind (stringLoop_sat (np := np) (nd := nd) t.rest.length [] t.rest false (le_refl _) fun x => ⟨inner (hc x).1, .inl (le_refl _)⟩)
      fun r _ hr => ?_
    have ha : After t { t with rest := r.2 } := After.of_suffix (t := t) (p := t.peeked) (m := t.multiline) hr.1 (fun h => hr.2.1 (inner h))
      fun h => hr.2.2.1 (inner' h)
    refine ⟨ha, hp, fun _ => hl, fun x _ => ?_, fun hb => ?_⟩
    · have hw : isWhitespace ch = false := by
        cases hw : isWhitespace ch with
        | false => rfl
        | true => exact absurd (runs_head (hrest ▸ (hpl x).1) hw) hch
      have := hr.2.2.2 (by rw [hrest]; simp) ch rest hrest (by tauto) hw
      simp only [Tokenizer.size]; omega
    · exfalso
      simp only [wordToken] at hb
      split at hb
      · cases hb
      · split at hb <;> cases hb

theorem nextLoaded_sat {np nd pl : Prop} {recur : Tokenizer → Out TokenErr (Token × Tokenizer)} {t : Tokenizer}
    (hp : t.peeked = []) (hl : t.line ≠ 0) (hc : np → t.Clean) (hpl : pl → t.Plain)
    (ih : ∀ t1 : Tokenizer, t1.size < t.size → t1.peeked = [] → t1.line ≠ 0 → (np → t1.Clean) → (pl → t1.Plain) →
      Sat np nd (recur t1) fun r => Took pl t1 r.1 r.2) :
    Sat np nd (nextLoaded recur t) fun r => Took pl t r.1 r.2 := by
  unfold nextLoaded
  rw [hp]
  simp only
  refine Sat.ite (fun he => ?_) fun he => nextChar_sat hp hl he hc hpl ih
  refine Sat.bind (loadFrom_sat (np := np) (nd := nd) t.file t he rfl) fun r _ hr => ?_
  obtain ⟨b, t1⟩ := r
  obtain ⟨ha, h1, h2, h3, h4⟩ := hr
  simp only at ha h1 h2 h3 h4 ⊢
  have hp1 : t1.peeked = [] := by rw [h1, hp]
  cases b with
  | false =>
    simp only [Bool.not_false, if_true]
    unfold atEnd
    refine Sat.ite (fun _ => trivial) fun _ => ?_
    exact ⟨ha, hp1, fun h => absurd rfl h, fun _ h => absurd rfl h, fun h => by cases h⟩
  | true =>
    have h3 := h3 rfl
    simp only [Bool.not_true, if_neg Bool.false_ne_true]
    refine Sat.ite (fun _ => ?_) fun _ => ?_
    · exact ⟨ha, hp1, fun _ => h3.1, fun _ _ => h3.2.2, fun h => by cases h⟩
    · exact (nextChar_sat hp1 h3.1 h3.2.1 (fun x => ha.clean (hc x)) (fun x => ha.plain (hpl x))
        fun t2 hs => ih t2 (lt_trans hs h3.2.2)).mono fun x _ k => Took.of_after ha k

theorem nextF_sat {np nd pl : Prop} : ∀ (fuel : Nat) (t : Tokenizer), t.size < fuel → t.peeked = [] →
    (t.line = 0 → t.rest = []) → (np → t.Clean) → (pl → t.Plain) →
    Sat np nd (nextF fuel t) fun r => Took pl t r.1 r.2
  | 0, t, h, _, _, _, _ => by omega
  | fuel + 1, t, h, hp, hl, hc, hpl => by
    unfold nextF
    have ih : ∀ t1 : Tokenizer, t1.size < t.size → t1.peeked = [] → t1.line ≠ 0 → (np → t1.Clean) → (pl → t1.Plain) →
      Sat np nd (nextF fuel t1) fun r => Took pl t1 r.1 r.2 := fun t1 hs h1 h2 h3 h4 =>
        nextF_sat fuel t1 (by omega) h1 (fun e => absurd e h2) h3 h4
    refine Sat.ite (fun he => ?_) fun he => nextLoaded_sat hp he hc hpl ih
    refine Sat.bind (loadFrom_sat (np := np) (nd := nd) t.file t (hl he) rfl) fun r _ hr => ?_
    obtain ⟨b, t1⟩ := r
    obtain ⟨ha, h1, h2, h3, h4⟩ := hr
    simp only at ha h1 h2 h3 h4 ⊢
    have hp1 : t1.peeked = [] := by rw [h1, hp]
    cases b with
    | false =>
      rw [if_neg Bool.false_ne_true]
      unfold atEnd
      refine Sat.ite (fun _ => trivial) fun _ => ?_
      exact ⟨ha, hp1, fun h => absurd rfl h, fun _ h => absurd rfl h, fun h => by cases h⟩
    | true =>
      have h3 := h3 rfl
      rw [if_pos rfl]
      exact (nextLoaded_sat hp1 h3.1 (fun x => ha.clean (hc x)) (fun x => ha.plain (hpl x))
        fun t2 hs => ih t2 (lt_trans hs h3.2.2)).mono fun x _ k => Took.of_after ha k

/-- The state between entries: nothing peeked. -/
structure Fresh (t : Tokenizer) : Prop where
  peeked : t.peeked = []
  boot : t.line = 0 → t.rest = []

theorem Took.fresh {pl : Prop} {t : Tokenizer} {tok : Token} {t' : Tokenizer} (h : Took pl t tok t') (he : tok ≠ .end) :
    Fresh t' := ⟨h.peeked, fun e => absurd e (h.live he)⟩

theorem start_fresh (file : List (Option Str)) : Fresh (start file) := ⟨rfl, fun _ => rfl⟩

theorem next_sat {np nd pl : Prop} {t : Tokenizer} (h : Fresh t) (hc : np → t.Clean) (hpl : pl → t.Plain) :
    Sat np nd t.next fun r => Took pl t r.1 r.2 :=
  nextF_sat _ t (Nat.lt_succ_self _) h.peeked h.boot hc hpl

theorem next_peeked {t : Tokenizer} {tok : Token} {more : List Token} (hp : t.peeked = tok :: more) (hl : t.line ≠ 0) :
    t.next = .ok (tok, { t with peeked := more }) := by
  unfold next nextF
  rw [if_neg hl]
  unfold nextLoaded
  rw [hp]

end Tokenizer

end Ariadne
