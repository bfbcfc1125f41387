import Verif.Lemmas.Tokens7
import Verif.Spec.ZoneText

/-! # Reading the words of entries -/

namespace Ariadne.Tokenizer

open Spec

/-- A state in the middle of a file. -/
def T (o : Bool) (l : Str) (ls : List Str) (n : Nat) : Tokenizer :=
  { file := ls.map some, rest := l, peeked := [], multiline := o, line := n + 1 }

theorem T_wf (o : Bool) (l : Str) (ls : List Str) (n : Nat) : Wf (T o l ls n) := fresh_live rfl (Nat.succ_ne_zero _)

/-- The token of a word. -/
def token : Word → Token
  | .plain w => wordToken w
  | .quoted s => .qString s

theorem token_ne_blank (w : Word) : token w ≠ .blank := by
  cases w with
  | plain w => exact wordToken_ne_blank w
  | quoted s => simp [token]

theorem comment_next (o : Bool) (text : Str) (ls : List Str) (n : Nat) :
    (T o (';' :: text) ls n).next = (T o [] ls n).next := by
  rw [next_char rfl (Nat.succ_ne_zero _) (by simp [T]), nextChar]
  simp only [T, show ¬ (';' = ' ' ∨ ';' = '\t') by decide, show ¬ (';' = '$') by decide, show ¬ (';' = '"') by decide,
    show ¬ (';' = '(') by decide, show ¬ (';' = ')') by decide, if_false, if_true]

theorem stringLoop_solid {l : Str} (hb : Boundary l) : ∀ (w acc : Str) (k : Nat), (∀ c ∈ w, ¬ Separates c ∧ c ≠ '\\') → (l = [] → k = 0) → k ≤ l.length →
    (l ≠ [] → 0 < k) → stringLoop (w.length + k) acc (w ++ l) = .ok (acc ++ w, l)
  | [], acc, k, _, h0, _, h1 => by
    cases l with
    | nil => rw [h0 rfl]; simp [stringLoop]
    | cons c l =>
      obtain ⟨k, rfl⟩ : ∃ j, k = j + 1 := ⟨k - 1, by have := h1 (by simp); omega⟩
      have hc := hb c rfl
      rw [List.length_nil, Nat.zero_add, List.nil_append, stringLoop]
      have hne : c ≠ '\\' := by rcases hc with rfl | rfl | rfl | rfl | rfl <;> decide
      rw [if_neg hne, List.append_nil]
      by_cases hp : c = '(' ∨ c = ')' ∨ c = ';'
      · rw [if_pos hp]
      · rw [if_neg hp, if_pos (by rcases hc with rfl | rfl | h | h | h; decide; decide; all_goals tauto)]
  | c :: w, acc, k, hw, h0, hk, h1 => by
    have hc := hw c List.mem_cons_self
    have ih := stringLoop_solid hb w (acc ++ [c]) k (fun x hx => hw x (List.mem_cons_of_mem _ hx)) h0 hk h1
    rw [List.length_cons, show w.length + 1 + k = (w.length + k) + 1 by omega, List.cons_append, stringLoop, if_neg hc.2]
    unfold Separates at hc
    rw [if_neg (by tauto), if_neg (by tauto), ih, List.append_assoc]
    rfl

theorem directiveLoop_solid {l : Str} (hb : Boundary l) : ∀ (w acc : Str) (k : Nat), (∀ c ∈ w, ¬ Separates c ∧ c ≠ '\\') → (l = [] → k = 0) → k ≤ l.length →
    (l ≠ [] → 0 < k) → directiveLoop (w.length + k) acc (w ++ l) = .ok (acc ++ w, l)
  | [], acc, k, _, h0, _, h1 => by
    cases l with
    | nil => rw [h0 rfl]; simp [directiveLoop]
    | cons c l =>
      obtain ⟨k, rfl⟩ : ∃ j, k = j + 1 := ⟨k - 1, by have := h1 (by simp); omega⟩
      have hc := hb c rfl
      rw [List.length_nil, Nat.zero_add, List.nil_append, directiveLoop]
      have hne : c ≠ '\\' := by rcases hc with rfl | rfl | rfl | rfl | rfl <;> decide
      rw [if_neg hne, List.append_nil]
      by_cases hp : c = ';' ∨ c = '(' ∨ c = ')'
      · rw [if_pos hp]
      · rw [if_neg hp, if_pos (by rcases hc with rfl | rfl | h | h | h; decide; decide; all_goals tauto)]
  | c :: w, acc, k, hw, h0, hk, h1 => by
    have hc := hw c List.mem_cons_self
    have ih := directiveLoop_solid hb w (acc ++ [c]) k (fun x hx => hw x (List.mem_cons_of_mem _ hx)) h0 hk h1
    rw [List.length_cons, show w.length + 1 + k = (w.length + k) + 1 by omega, List.cons_append, directiveLoop, if_neg hc.2]
    unfold Separates at hc
    rw [if_neg (by tauto), if_neg (by tauto), ih, List.append_assoc]
    rfl

theorem quotedLoop_quotes (l : Str) {s text : Str} (h : Quotes s text) : ∀ (n : Nat) (acc : Str), (text ++ '"' :: l).length ≤ n →
    quotedLoop n acc (text ++ '"' :: l) = .ok (true, acc ++ s, l) := by
  induction h with
  | nil =>
    intro n acc hn
    obtain ⟨n, rfl⟩ : ∃ m, n = m + 1 := ⟨n - 1, by simp at hn; omega⟩
    rw [List.nil_append, quotedLoop, if_neg (by decide), if_pos rfl, List.append_nil]
  | @char c s text h1 h2 _ ih =>
    intro n acc hn
    obtain ⟨n, rfl⟩ : ∃ m, n = m + 1 := ⟨n - 1, by simp at hn; omega⟩
    rw [List.cons_append, quotedLoop, if_neg h2, if_neg h1, ih n _ (by simp at hn ⊢; omega), List.append_assoc]
    rfl
  | @escape c s text _ _ ih =>
    intro n acc hn
    obtain ⟨n, rfl⟩ : ∃ m, n = m + 1 := ⟨n - 1, by simp at hn; omega⟩
    rw [List.cons_append, List.cons_append, quotedLoop, if_pos rfl, parseEscape]
    simp only
    rw [ih n _ (by simp at hn ⊢; omega), List.append_assoc]
    rfl

theorem word_T {o : Bool} {w l : Str} {ls : List Str} {n : Nat} (hw : Solid w) (h1 : w.head? ≠ some '$') (hb : Boundary l) :
    (T o (w ++ l) ls n).next = .ok (wordToken w, T o l ls n) := by
  obtain ⟨hne, hall, hq⟩ := hw
  cases w with
  | nil => exact absurd rfl hne
  | cons c w =>
    have hc := hall c List.mem_cons_self
    have e := stringLoop_solid hb (c :: w) [] l.length hall (fun e => by rw [e]; rfl) (Nat.le_refl _)
      (fun h => List.length_pos_iff.2 h)
    rw [← List.length_append, List.nil_append] at e
    unfold Separates at hc
    have hsp : ¬ (c = ' ' ∨ c = '\t') := fun h => hc.1 (.inl (blank_ws h))
    rw [word_next (t := T o (c :: w ++ l) ls n) (ch := c) (r := w ++ l) rfl (Nat.succ_ne_zero _) rfl hsp
      (fun h => h1 (by rw [h]; rfl)) (fun h => hq (by rw [h]; rfl)) (by tauto) (by tauto) (by tauto), processStringOrNumber]
    show (do let (s, rest) ← stringLoop (c :: w ++ l).length [] (c :: w ++ l); _) = _
    rw [e]
    rfl

theorem quoted_T {o : Bool} {s text l : Str} {ls : List Str} {n : Nat} (h : Quotes s text) :
    (T o ('"' :: text ++ '"' :: l) ls n).next = .ok (.qString s, T o l ls n) := by
  have e := quotedLoop_quotes l h _ [] (Nat.le_refl _)
  rw [quoted_next (t := T o ('"' :: text ++ '"' :: l) ls n) (r := text ++ '"' :: l) rfl (Nat.succ_ne_zero _) rfl, processQuotedString]
  show (do let (closed, string, rest) ← quotedLoop (text ++ '"' :: l).length [] (text ++ '"' :: l); _) = _
  rw [e]
  rfl

theorem spells_head {o : Bool} {ws : List Word} {l : Str} {ls left : List Str} (h : Spells o ws l ls left) :
    ∀ c, l.head? = some c → isWhitespace c = true → c = ' ' ∨ c = '\t' := by
  cases h with
  | done => intro c h; cases h
  | newline => intro c h; cases h
  | blank hc => intro c h; rw [← Option.some.inj h]; intro _; exact hc
  | opening => intro c h; rw [← Option.some.inj h]; intro h; revert h; decide
  | closing => intro c h; rw [← Option.some.inj h]; intro h; revert h; decide
  | comment => intro c h; rw [← Option.some.inj h]; intro h; revert h; decide
  | quoted => intro c h; rw [← Option.some.inj h]; intro h; revert h; decide
  | @word _ _ w l _ _ hw =>
    intro c h hc
    obtain ⟨hne, hall, -⟩ := hw
    cases w with
    | nil => exact absurd rfl hne
    | cons x w =>
      rw [List.cons_append, List.head?_cons, Option.some.injEq] at h
      exact absurd (.inl (h ▸ hc)) (hall x List.mem_cons_self).1

/-- Blanks and a comment at the end of a line do not matter. -/
theorem nab_noCode {o : Bool} {l : Str} {ls : List Str} {n : Nat} (hs : skippable l = true)
    (hh : ∀ c, l.head? = some c → isWhitespace c = true → c = ' ' ∨ c = '\t') :
    (T o l ls n).nextAfterBlanks = (T o [] ls n).nextAfterBlanks := by
  have e := nab_drop (t := T o l ls n) rfl (Nat.succ_ne_zero _) hh
  rw [e]
  unfold skippable trimStart at hs
  show (T o (l.dropWhile isWhitespace) ls n).nextAfterBlanks = _
  cases hd : l.dropWhile isWhitespace with
  | nil => rfl
  | cons c r =>
    rw [hd] at hs
    simp only [beq_iff_eq] at hs
    subst hs
    exact nab_of_next (T_wf ..) (T_wf ..) (comment_next ..)

/-- What `next` finds at the beginning of the lines `ls`. -/
inductive Opens (ls : List Str) (t : Tokenizer) : Prop
  | line (pre : List Str) (l : Str) (rest : List Str) (n : Nat) : ls = pre ++ l :: rest → (∀ x ∈ pre, NoCode x) → ¬ NoCode l →
      t.next = (T false l rest n).next → Opens ls t
  | end (t' : Tokenizer) : (∀ x ∈ ls, NoCode x) → t.next = .ok (.end, t') → Opens ls t

/-- What loading a line does. -/
theorem loadFrom_lines : ∀ (ls : List Str) (t : Tokenizer),
    (∃ pre l rest k, ls = pre ++ l :: rest ∧ (∀ x ∈ pre, NoCode x) ∧ ¬ NoCode l ∧
      loadFrom (ls.map some) t = .ok (true, { t with file := rest.map some, rest := l, line := t.line + k + 1 })) ∨
    ((∀ x ∈ ls, NoCode x) ∧ ∃ k, loadFrom (ls.map some) t = .ok (false, { t with file := [], line := t.line + k }))
  | [], t => .inr ⟨by simp, 0, rfl⟩
  | l :: ls, t => by
    by_cases hl : NoCode l
    · have e : loadFrom ((l :: ls).map some) t = loadFrom (ls.map some) { t with line := t.line + 1 } := by
        rw [List.map_cons, loadFrom, if_pos (NoCode_skippable.2 hl)]
      rcases loadFrom_lines ls { t with line := t.line + 1 } with ⟨pre, l', rest, k, rfl, hp, hl', he⟩ | ⟨ha, k, he⟩
      · left
        refine ⟨l :: pre, l', rest, k + 1, rfl, ?_, hl', ?_⟩
        · intro x hx
          rcases List.mem_cons.1 hx with rfl | hx
          · exact hl
          · exact hp x hx
        · rw [e, he]
          simp only [Out.ok.injEq, Prod.mk.injEq, true_and, Tokenizer.mk.injEq]
          omega
      · right
        refine ⟨?_, k + 1, ?_⟩
        · intro x hx
          rcases List.mem_cons.1 hx with rfl | hx
          · exact hl
          · exact ha x hx
        · rw [e, he]
          simp only [Out.ok.injEq, Prod.mk.injEq, true_and, Tokenizer.mk.injEq]
          omega
    · left
      refine ⟨[], l, ls, 0, rfl, by simp, hl, ?_⟩
      rw [List.map_cons, loadFrom, if_neg (fun h => hl (NoCode_skippable.1 h))]

theorem loadFrom_file : ∀ (f : List (Option Str)) (t : Tokenizer) (g : List (Option Str)),
    loadFrom f { t with file := g } = loadFrom f t
  | [], _, _ => rfl
  | none :: _, _, _ => rfl
  | some l :: f, t, g => by
    rw [loadFrom, loadFrom]
    by_cases h : skippable l = true
    · rw [if_pos h, if_pos h]
      exact loadFrom_file f { t with line := t.line + 1 } g
    · rw [if_neg h, if_neg h]

theorem noCode_ne {l : Str} (h : ¬ NoCode l) : l ≠ [] := by
  rintro rfl
  exact h ⟨[], [], rfl, by simp, .inl rfl⟩

/-- The first call. -/
theorem start_opens (ls : List Str) : Opens ls (start (ls.map some)) := by
  have e : (start (ls.map some)).next = _ := next_boot rfl rfl
  rcases loadFrom_lines ls (start (ls.map some)) with ⟨pre, l, rest, k, hl, hp, hn, he⟩ | ⟨ha, k, he⟩
  · refine .line pre l rest k hl hp hn ?_
    rw [e, loadNewLine]
    show (do let r ← loadFrom (ls.map some) _; _) = _
    rw [he]
    simp only [Out.bind_ok, if_true]
    rw [next_live (t := T false l rest k) (Nat.succ_ne_zero _)]
    simp only [start, T, Nat.zero_add]
  · refine .end { start (ls.map some) with file := [], line := 0 + k } ha ?_
    rw [e, loadNewLine]
    show (do let r ← loadFrom (ls.map some) _; _) = _
    rw [he]
    rfl

/-- The end of a line outside parentheses. -/
theorem done_T (ls : List Str) (n : Nat) : ∃ tk t', (T false [] ls n).next = .ok (tk, t') ∧ (tk = .newLine ∨ tk = .end) ∧
    t'.peeked = [] ∧ t'.line ≠ 0 ∧ Opens ls t' := by
  have e : (T false [] ls n).next = _ := next_live (Nat.succ_ne_zero _)
  rw [nextLoaded] at e
  simp only [T, if_true, loadNewLine] at e
  rcases loadFrom_lines ls (T false [] ls n) with ⟨pre, l, rest, k, hl, hp, hn, he⟩ | ⟨ha, k, he⟩
  · simp only [T] at he
    rw [he] at e
    simp only [Out.bind_ok, Bool.not_true, Bool.false_eq_true, if_false, Bool.not_false, if_true] at e
    refine ⟨_, _, e, .inl rfl, rfl, Nat.succ_ne_zero _, .line pre l rest (n + 1 + k) hl hp hn rfl⟩
  · simp only [T] at he
    rw [he] at e
    simp only [Out.bind_ok, Bool.not_false, if_true, atEnd, Bool.false_eq_true, if_false] at e
    refine ⟨_, _, e, .inr rfl, rfl, by simp, .end _ ha (next_live (by simp))⟩

/-- The state reads the words and then comes to the lines `left`. -/
def Sits (left : List Str) (ws : List Word) (t : Tokenizer) : Prop :=
  ∃ o l ls n, t = T o l ls n ∧ Spells o ws l ls left

theorem Sits.wf {left : List Str} {ws : List Word} {t : Tokenizer} (h : Sits left ws t) : Wf t := by
  obtain ⟨o, l, ls, n, rfl, -⟩ := h
  exact T_wf ..

/-- The result of `next_after_blanks` when the words are to be read. -/
def Reading (left : List Str) : List Word → Out TokenErr (Token × Tokenizer) → Prop
  | w :: ws, x => ∃ t', x = .ok (token w, t') ∧ Sits left ws t'
  | [], x => ∃ tk t', x = .ok (tk, t') ∧ (tk = .newLine ∨ tk = .end) ∧ t'.peeked = [] ∧ t'.line ≠ 0 ∧ Opens left t'

theorem reading {o : Bool} {ws : List Word} {l : Str} {ls left : List Str} (h : Spells o ws l ls left) :
    ∀ n, Reading left ws (T o l ls n).nextAfterBlanks := by
  induction h with
  | @done ls =>
    intro n
    obtain ⟨tk, t', e, h1, h2⟩ := done_T ls n
    refine ⟨tk, t', nab_of_word (T_wf ..) e ?_, h1, h2⟩
    rcases h1 with rfl | rfl <;> simp
  | @blank o ws c l ls left hc h ih =>
    intro n
    have e1 : (T o (c :: l) ls n).nextAfterBlanks = (T o ((c :: l).dropWhile isWhitespace) ls n).nextAfterBlanks :=
      nab_drop rfl (Nat.succ_ne_zero _) fun x hx _ => by
        simp only [T, List.head?_cons, Option.some.injEq] at hx
        rw [← hx]; exact hc
    have e2 : (T o l ls n).nextAfterBlanks = (T o (l.dropWhile isWhitespace) ls n).nextAfterBlanks :=
      nab_drop rfl (Nat.succ_ne_zero _) (spells_head h)
    rw [List.dropWhile_cons, if_pos (blank_ws hc)] at e1
    rw [e1, ← e2]
    exact ih n
  | @word o ws w l ls left hw hd hb h _ =>
    intro n
    exact ⟨_, nab_of_word (T_wf ..) (word_T hw hd hb) (wordToken_ne_blank w), o, l, ls, n, rfl, h⟩
  | @quoted o ws s text l ls left hq _ h _ =>
    intro n
    exact ⟨_, nab_of_word (T_wf ..) (quoted_T hq) Token.noConfusion, o, l, ls, n, rfl, h⟩
  | @opening ws l ls left h ih =>
    intro n
    have e : (T false ('(' :: l) ls n).nextAfterBlanks = (T true l ls n).nextAfterBlanks := by
      refine nab_of_next (T_wf ..) (T_wf ..) ?_
      rw [open_next (t := T false ('(' :: l) ls n) (r := l) rfl (Nat.succ_ne_zero _) rfl]
      rfl
    rw [e]
    exact ih n
  | @closing ws l ls left h ih =>
    intro n
    have e : (T true (')' :: l) ls n).nextAfterBlanks = (T false l ls n).nextAfterBlanks := by
      refine nab_of_next (T_wf ..) (T_wf ..) ?_
      rw [close_next (t := T true (')' :: l) ls n) (r := l) rfl (Nat.succ_ne_zero _) rfl]
      rfl
    rw [e]
    exact ih n
  | @comment o ws text ls left h ih =>
    intro n
    rw [nab_of_next (T_wf ..) (T_wf ..) (comment_next o text ls n)]
    exact ih n
  | @newline ws l ls left h ih =>
    intro n
    by_cases hs : skippable l = true
    · have e : (T true [] (l :: ls) n).next = (T true [] ls (n + 1)).next := by
        rw [next_live (t := T true [] (l :: ls) n) (Nat.succ_ne_zero _), next_live (t := T true [] ls (n + 1)) (Nat.succ_ne_zero _)]
        rw [nextLoaded, nextLoaded]
        simp only [T, if_true, loadNewLine, List.map_cons]
        rw [loadFrom, if_pos hs]
        have := loadFrom_file (ls.map some) (T true [] ls (n + 1)) (some l :: ls.map some)
        simp only [T] at this
        rw [this]
      rw [nab_of_next (T_wf ..) (T_wf ..) e, ← nab_noCode hs (spells_head h)]
      exact ih (n + 1)
    · have e : (T true [] (l :: ls) n).next = (T true l ls (n + 1)).next := by
        rw [next_live (t := T true [] (l :: ls) n) (Nat.succ_ne_zero _), nextLoaded]
        simp only [T, if_true, loadNewLine, List.map_cons]
        rw [loadFrom, if_neg hs]
        simp only [Out.bind_ok, Bool.not_true, Bool.false_eq_true, if_false]
        refine (next_char (t := T true l ls (n + 1)) rfl (Nat.succ_ne_zero _) ?_).symm
        exact noCode_ne fun h => hs (NoCode_skippable.2 h)
      rw [nab_of_next (T_wf ..) (T_wf ..) e]
      exact ih (n + 1)

end Ariadne.Tokenizer
