import Verif.Lemmas.Tokens6

/-! # The tokenizer: joining lines in parentheses -/

namespace Ariadne.Tokenizer

open Spec

/-- The lines to join. -/
structure Lines where
  l : Str
  sep : Str
  l' : Str
  after : List (Option Str)
  ends : Ends (modeAfter .between l)
  isSep : Sep sep
  code : ¬ NoCode l
  code' : ¬ NoCode l'
  plain : ∀ ch, l'.head? = some ch → isWhitespace ch = true → ch = ' ' ∨ ch = '\t'

/-- Both tokenizers are in the lines before. -/
structure Before (p : Lines) (t u : Tokenizer) (before : List (Option Str)) : Prop where
  file : t.file = before ++ some p.l :: some p.l' :: p.after
  file' : u.file = before ++ some (p.l ++ (p.sep ++ p.l')) :: p.after
  rest : t.rest = u.rest
  peeked : t.peeked = u.peeked
  multiline : t.multiline = u.multiline
  line : t.line = u.line
  opened : openAfterLines (openAfter .between t.multiline t.rest) (before ++ [some p.l]) = true

/-- Both tokenizers are in the first of the lines. -/
structure Mid (p : Lines) (t u : Tokenizer) : Prop where
  file : t.file = some p.l' :: p.after
  file' : u.file = p.after
  rest : u.rest = t.rest ++ (p.sep ++ p.l')
  peeked : t.peeked = u.peeked
  multiline : t.multiline = u.multiline
  line : t.line ≠ 0
  line' : u.line ≠ 0
  opened : openAfter .between t.multiline t.rest = true
  ends : Ends (modeAfter .between t.rest)

/-- Not yet in the second line. -/
def Early (p : Lines) (t u : Tokenizer) : Prop := (∃ before, Before p t u before) ∨ Mid p t u

/-- What the next token that is no blank can be: the same token, not yet in the second line, or a token of states that
agree on everything. -/
def Core (p : Lines) (t u : Tokenizer) : Prop :=
  (∃ t2 u2, t.nextAfterBlanks = t2.nextAfterBlanks ∧ u.nextAfterBlanks = u2.nextAfterBlanks ∧ CommentRel t2 u2) ∨
  Agree (Early p) t.nextAfterBlanks u.nextAfterBlanks

theorem Core.congr {p : Lines} {t u t1 u1 : Tokenizer} (h : Core p t1 u1) (ht : t.nextAfterBlanks = t1.nextAfterBlanks)
    (hu : u.nextAfterBlanks = u1.nextAfterBlanks) : Core p t u := by
  rcases h with ⟨t2, u2, a, b, c⟩ | h
  · exact .inl ⟨t2, u2, ht.trans a, hu.trans b, c⟩
  · exact .inr (by rw [ht, hu]; exact h)

theorem same_refl {ok : Mode → Prop} : ∀ f : List (Option Str), SameButComments ok f f
  | [] => .nil
  | none :: f => .unreadable (same_refl f)
  | some _ :: f => .same (same_refl f)

theorem dropWhile_append_all {a b : Str} (h : ∀ x ∈ a, isWhitespace x = true) :
    (a ++ b).dropWhile isWhitespace = b.dropWhile isWhitespace := by
  induction a with
  | nil => rfl
  | cons c a ih =>
    rw [List.cons_append, List.dropWhile_cons, if_pos (h c List.mem_cons_self)]
    exact ih fun x hx => h x (List.mem_cons_of_mem _ hx)

theorem dropWhile_append_some {a b : Str} (h : a.dropWhile isWhitespace ≠ []) :
    (a ++ b).dropWhile isWhitespace = a.dropWhile isWhitespace ++ b := by
  induction a with
  | nil => exact absurd rfl h
  | cons c a ih =>
    rw [List.dropWhile_cons] at h ⊢
    rw [List.cons_append, List.dropWhile_cons]
    by_cases hc : isWhitespace c = true
    · rw [if_pos hc] at h ⊢
      rw [if_pos hc]
      exact ih h
    · rw [if_neg hc, if_neg hc, List.cons_append]

/-- The line break. -/
theorem break_core {p : Lines} {t u : Tokenizer} {r : Str} (hp : t.peeked = []) (hpu : u.peeked = []) (hl : t.line ≠ 0)
    (hlu : u.line ≠ 0) (hf : t.file = some p.l' :: p.after) (hfu : u.file = p.after) (hr : t.rest = [])
    (hru : u.rest = r) (hm : t.multiline = true) (hmu : u.multiline = true)
    (hd : u.nextAfterBlanks = ({ u with rest := p.l'.dropWhile isWhitespace } : Tokenizer).nextAfterBlanks) : Core p t u := by
  left
  let t1 : Tokenizer := { t with file := p.after, rest := p.l', line := t.line + 1 }
  have hl1 : t1.line ≠ 0 := Nat.succ_ne_zero _
  have hns : ¬ skippable p.l' = true := fun h => p.code' (NoCode_skippable.1 h)
  have e1 : t.next = t1.next := by
    rw [next_live hl, nextLoaded, hp]
    simp only
    rw [if_pos hr]
    have : t.loadNewLine = .ok (true, t1) := by
      rw [loadNewLine, hf, loadFrom, if_neg hns]
    rw [this]
    simp only [Out.bind_ok, Bool.not_true, if_neg Bool.false_ne_true]
    rw [if_neg (by show ¬ (!t.multiline) = true; rw [hm]; decide), next_char (t := t1) hp hl1 (not_skippable_ne hns)]
  have w : Wf t := .fresh ⟨hp, fun e => absurd e hl⟩
  have w1 : Wf t1 := .fresh ⟨hp, fun e => absurd e hl1⟩
  have e2 := nab_of_next w w1 e1
  have e3 := nab_drop (t := t1) hp hl1 p.plain
  refine ⟨{ t1 with rest := t1.rest.dropWhile isWhitespace }, { u with rest := p.l'.dropWhile isWhitespace }, e2.trans e3, hd,
    .fresh ⟨hp, fun e => absurd e hl1⟩, .fresh ⟨hpu, fun e => absurd e hlu⟩, .inl ?_⟩
  refine ⟨?_, .same _, by simp only [t1, hp, hpu], by simp only [t1, hm, hmu], ⟨fun e => absurd e hl1, fun e => absurd e hlu⟩,
    fun e => absurd e hl1⟩
  simp only [t1, hfu]
  exact same_refl _

theorem step_space {ch : Char} (h : ch = ' ' ∨ ch = '\t') : Mode.between.step ch = .between := ws_step (blank_ws h)

theorem wordToken_ne_blank (s : Str) : wordToken s ≠ .blank := by
  unfold wordToken
  split
  · simp
  · split <;> simp

/-- The token and the rest of the line, by the first character. -/
theorem directive_next {t : Tokenizer} {r : Str} (hp : t.peeked = []) (hl : t.line ≠ 0) (hr : t.rest = '$' :: r) :
    t.next = t.processDirective := by
  rw [next_char hp hl (by rw [hr]; simp), nextChar]
  simp only [hr, show ¬ ('$' = ' ' ∨ '$' = '\t') by decide, if_false, if_true]

theorem quoted_next {t : Tokenizer} {r : Str} (hp : t.peeked = []) (hl : t.line ≠ 0) (hr : t.rest = '"' :: r) :
    t.next = t.processQuotedString := by
  rw [next_char hp hl (by rw [hr]; simp), nextChar]
  simp only [hr, show ¬ ('"' = ' ' ∨ '"' = '\t') by decide, show ¬ ('"' = '$') by decide, if_false, if_true]

theorem open_next {t : Tokenizer} {r : Str} (hp : t.peeked = []) (hl : t.line ≠ 0) (hr : t.rest = '(' :: r) :
    t.next = if t.multiline then .err .mlUnexpectedOpen else ({ t with multiline := true, rest := r } : Tokenizer).next := by
  rw [next_char hp hl (by rw [hr]; simp), nextChar]
  simp only [hr, show ¬ ('(' = ' ' ∨ '(' = '\t') by decide, show ¬ ('(' = '$') by decide, show ¬ ('(' = '"') by decide,
    if_false, if_true]

theorem close_next {t : Tokenizer} {r : Str} (hp : t.peeked = []) (hl : t.line ≠ 0) (hr : t.rest = ')' :: r) :
    t.next = if !t.multiline then .err .mlUnexpectedClose else ({ t with multiline := false, rest := r } : Tokenizer).next := by
  rw [next_char hp hl (by rw [hr]; simp), nextChar]
  simp only [hr, show ¬ (')' = ' ' ∨ ')' = '\t') by decide, show ¬ (')' = '$') by decide, show ¬ (')' = '"') by decide,
    show ¬ (')' = '(') by decide, if_false, if_true]

theorem word_next {t : Tokenizer} {ch : Char} {r : Str} (hp : t.peeked = []) (hl : t.line ≠ 0) (hr : t.rest = ch :: r)
    (h1 : ¬ (ch = ' ' ∨ ch = '\t')) (h2 : ch ≠ '$') (h3 : ch ≠ '"') (h4 : ch ≠ '(') (h5 : ch ≠ ')') (h6 : ch ≠ ';') :
    t.next = t.processStringOrNumber := by
  rw [next_char hp hl (by rw [hr]; simp), nextChar]
  simp only [hr]
  rw [if_neg h1, if_neg h2, if_neg h3, if_neg h4, if_neg h5, if_neg h6]

theorem fresh_live {t : Tokenizer} (hp : t.peeked = []) (hl : t.line ≠ 0) : Wf t := .fresh ⟨hp, fun e => absurd e hl⟩

/-- In the first of the two lines. -/
theorem mid_core {p : Lines} : ∀ (n : Nat) (t u : Tokenizer), t.size < n → Mid p t u → t.peeked = [] → Core p t u
  | 0, _, _, h, _, _ => by omega
  | n + 1, t, u, hn, h, hp => by
    have hl := h.line
    have hlu := h.line'
    have hpu : u.peeked = [] := by rw [← h.peeked, hp]
    have wt := fresh_live hp hl
    have wu := fresh_live hpu hlu
    obtain ⟨c0, ws, hsep, hc0, hws⟩ := p.isSep
    have sepdrop : ∀ x : Str, (∀ c ∈ x, isWhitespace c = true) →
        (x ++ (p.sep ++ p.l')).dropWhile isWhitespace = p.l'.dropWhile isWhitespace := fun x hx => by
      rw [dropWhile_append_all hx, dropWhile_append_all (Sep.all p.isSep)]
    cases hr : t.rest with
    | nil =>
      have hru : u.rest = p.sep ++ p.l' := by rw [h.rest, hr]; rfl
      have hm : t.multiline = true := by
        have := h.opened
        rw [hr] at this
        exact this
      refine break_core hp hpu hl hlu h.file h.file' hr hru hm (h.multiline ▸ hm) ?_
      have := nab_of_blank wu (next_blanks hpu hlu (ch := c0) (r := ws ++ p.l') (by rw [hru, hsep]; rfl) hc0)
      rw [this, hru]
      have := sepdrop [] (by simp)
      rw [List.nil_append] at this
      rw [this]
    | cons ch r =>
      have hru : u.rest = ch :: (r ++ (p.sep ++ p.l')) := by rw [h.rest, hr]; rfl
      have hends := h.ends
      have hop := h.opened
      rw [hr] at hends hop
      have szlt : ∀ (x : Str) (m : Bool), x.length ≤ r.length →
          ({ t with multiline := m, rest := x } : Tokenizer).size < n := fun x m hx => by
        simp only [Tokenizer.size, hr, List.length_cons] at hn ⊢; omega
      have ml := h.multiline
      by_cases h1 : ch = ' ' ∨ ch = '\t'
      · -- blanks
        have et := nab_of_blank wt (next_blanks hp hl hr h1)
        have eu := nab_of_blank wu (next_blanks hpu hlu hru h1)
        by_cases hd : t.rest.dropWhile isWhitespace = []
        · have hall : ∀ c ∈ t.rest, isWhitespace c = true := List.dropWhile_eq_nil_iff.1 hd
          have hm : t.multiline = true := by
            rw [← hr, ← openAfter_dropWhile, hd] at hop
            exact hop
          rw [hd] at et
          rw [h.rest, sepdrop _ hall] at eu
          refine Core.congr (break_core (p := p) (t := { t with rest := [] })
            (u := { u with rest := p.l'.dropWhile isWhitespace }) hp hpu hl hlu h.file h.file' rfl rfl hm (ml ▸ hm) rfl) et eu
        · rw [h.rest, dropWhile_append_some hd] at eu
          refine Core.congr (mid_core n { t with rest := t.rest.dropWhile isWhitespace }
            { u with rest := t.rest.dropWhile isWhitespace ++ (p.sep ++ p.l') } ?_ ?_ hp) et eu
          · have : (t.rest.dropWhile isWhitespace).length ≤ r.length := by
              rw [hr, List.dropWhile_cons, if_pos (blank_ws h1)]
              exact (List.dropWhile_suffix _).length_le
            exact szlt _ t.multiline this
          · refine ⟨h.file, h.file', rfl, h.peeked, ml, hl, hlu, ?_, ?_⟩
            · show openAfter .between t.multiline (t.rest.dropWhile isWhitespace) = true
              rw [openAfter_dropWhile, hr]; exact hop
            · show Ends (modeAfter .between (t.rest.dropWhile isWhitespace))
              rw [modeAfter_dropWhile, hr]; exact hends
      by_cases h2 : ch = '$'
      · subst h2
        rw [modeAfter_cons, step_dollar] at hends
        obtain ⟨w, l1, a, b, c⟩ := stringLoop_sep (s := p.l') p.isSep r false 0 ['$'] (fun _ => rfl) hends
        simp only [Nat.add_zero] at a b
        have o1 := stringLoop_open t.multiline _ _ _ false _ _ (le_refl _) a
        have hop' : openAfter .between t.multiline l1 = true := by
          rw [← o1]
          rw [openAfter_cons, step_dollar] at hop
          simpa using hop
        have et := directive_next hp hl hr
        have eu := directive_next hpu hlu hru
        unfold processDirective at et eu
        rw [hr] at et
        rw [hru] at eu
        simp only [List.tail_cons] at et eu
        rw [directiveLoop_eq, a] at et
        rw [directiveLoop_eq, b] at eu
        simp only [Out.bind_ok] at et eu
        have fin : ∀ tk : Token, tk ≠ .blank → t.next = .ok (tk, { t with rest := l1 }) →
            u.next = .ok (tk, { u with rest := l1 ++ (p.sep ++ p.l') }) → Core p t u := fun tk hb e1 e2 => by
          right
          rw [nab_of_word wt e1 hb, nab_of_word wu e2 hb]
          exact .ok (.inr ⟨h.file, h.file', rfl, h.peeked, ml, hl, hlu, hop', c⟩)
        by_cases hw : w = "$ORIGIN".toList
        · rw [if_pos hw] at et eu
          exact fin _ (by simp) et eu
        · rw [if_neg hw] at et eu
          by_cases hw : w = "$INCLUDE".toList
          · rw [if_pos hw] at et eu
            exact fin _ (by simp) et eu
          · rw [if_neg hw] at et eu
            right
            rw [nab_of_err wt et, nab_of_err wu eu]
            exact .err
      by_cases h3 : ch = '"'
      · subst h3
        rw [modeAfter_cons, show Mode.between.step '"' = .quoted from rfl] at hends
        obtain ⟨w, l1, a, b, c⟩ := quotedLoop_sep (s := p.sep ++ p.l') r 0 [] hends
        simp only [Nat.add_zero] at a b
        have o1 := quotedLoop_open t.multiline _ _ _ _ _ (le_refl _) a
        have hop' : openAfter .between t.multiline l1 = true := by
          rw [← o1]
          rw [openAfter_cons, show Mode.between.step '"' = .quoted from rfl] at hop
          simpa using hop
        have et := quoted_next hp hl hr
        have eu := quoted_next hpu hlu hru
        unfold processQuotedString at et eu
        rw [hr] at et
        rw [hru] at eu
        simp only [List.tail_cons] at et eu
        rw [a] at et
        rw [b] at eu
        simp only [Out.bind_ok, if_true] at et eu
        right
        rw [nab_of_word wt et (by simp), nab_of_word wu eu (by simp)]
        exact .ok (.inr ⟨h.file, h.file', rfl, h.peeked, ml, hl, hlu, hop', c⟩)
      by_cases h4 : ch = '('
      · subst h4
        have et := open_next hp hl hr
        have eu := open_next hpu hlu hru
        rw [← ml] at eu
        by_cases hm : t.multiline = true
        · rw [if_pos hm] at et eu
          right
          rw [nab_of_err wt et, nab_of_err wu eu]
          exact .err
        · rw [if_neg hm] at et eu
          refine Core.congr (mid_core n { t with multiline := true, rest := r }
            { u with multiline := true, rest := r ++ (p.sep ++ p.l') } (szlt _ _ (le_refl _)) ?_ hp)
            (nab_of_next wt (fresh_live hp hl) et) (nab_of_next wu (fresh_live hpu hlu) eu)
          exact ⟨h.file, h.file', rfl, h.peeked, rfl, hl, hlu, hop, hends⟩
      by_cases h5 : ch = ')'
      · subst h5
        have et := close_next hp hl hr
        have eu := close_next hpu hlu hru
        rw [← ml] at eu
        by_cases hm : (!t.multiline) = true
        · rw [if_pos hm] at et eu
          right
          rw [nab_of_err wt et, nab_of_err wu eu]
          exact .err
        · rw [if_neg hm] at et eu
          refine Core.congr (mid_core n { t with multiline := false, rest := r }
            { u with multiline := false, rest := r ++ (p.sep ++ p.l') } (szlt _ _ (le_refl _)) ?_ hp)
            (nab_of_next wt (fresh_live hp hl) et) (nab_of_next wu (fresh_live hpu hlu) eu)
          exact ⟨h.file, h.file', rfl, h.peeked, rfl, hl, hlu, hop, hends⟩
      by_cases h6 : ch = ';'
      · subst h6
        rw [modeAfter_cons, show Mode.between.step ';' = .comment from rfl, modeAfter_comment] at hends
        rcases hends with h | h <;> cases h
      · rw [modeAfter_cons, first_step h3, ← modeAfter_cons] at hends
        obtain ⟨w, l1, a, b, c⟩ := stringLoop_sep (s := p.l') p.isSep (ch :: r) false 0 [] (fun _ => rfl) hends
        simp only [Nat.add_zero] at a b
        have o1 := stringLoop_open t.multiline _ _ _ false _ _ (le_refl _) a
        have hop' : openAfter .between t.multiline l1 = true := by
          rw [← o1, openAfter_cons, ← first_step h3]
          exact hop
        have et := word_next hp hl hr h1 h2 h3 h4 h5 h6
        have eu := word_next hpu hlu hru h1 h2 h3 h4 h5 h6
        unfold processStringOrNumber at et eu
        rw [hr, a] at et
        rw [hru] at eu
        rw [List.cons_append] at b
        rw [b] at eu
        simp only [Out.bind_ok] at et eu
        right
        rw [nab_of_word wt et (wordToken_ne_blank _), nab_of_word wu eu (wordToken_ne_blank _)]
        exact .ok (.inr ⟨h.file, h.file', rfl, h.peeked, ml, hl, hlu, hop', c⟩)

/-- Loading the next line. -/
inductive LoadEarly (p : Lines) (t : Tokenizer) : Out TokenErr (Bool × Tokenizer) → Out TokenErr (Bool × Tokenizer) → Prop
  | loaded {t1 u1 : Tokenizer} : Early p t1 u1 → t1.peeked = t.peeked → t1.line ≠ 0 → u1.line ≠ 0 → t1.rest ≠ [] → u1.rest ≠ [] →
      t1.multiline = u1.multiline → LoadEarly p t (.ok (true, t1)) (.ok (true, u1))
  | err {e : TokenErr} : LoadEarly p t (.err e) (.err e)

theorem not_noCode_append {l x : Str} (h : ¬ NoCode l) : ¬ skippable (l ++ x) = true := by
  rw [← NoCode_skippable] at h
  unfold skippable trimStart at h ⊢
  cases hd : l.dropWhile isWhitespace with
  | nil => rw [hd] at h; exact absurd rfl h
  | cons c r =>
    rw [dropWhile_append_some (by rw [hd]; simp), hd]
    rw [hd] at h
    exact h

theorem load_early {p : Lines} : ∀ (b : List (Option Str)) (t u : Tokenizer), t.rest = u.rest → t.peeked = u.peeked →
    t.multiline = u.multiline → t.line = u.line → openAfterLines t.multiline (b ++ [some p.l]) = true →
    LoadEarly p t (loadFrom (b ++ some p.l :: some p.l' :: p.after) t)
      (loadFrom (b ++ some (p.l ++ (p.sep ++ p.l')) :: p.after) u)
  | [], t, u, hr, hp, hm, hl, ho => by
    have h1 : ¬ skippable p.l = true := fun h => p.code (NoCode_skippable.1 h)
    have h2 := not_noCode_append (x := p.sep ++ p.l') p.code
    rw [List.nil_append, List.nil_append, loadFrom, if_neg h1, loadFrom, if_neg h2]
    exact .loaded (.inr ⟨rfl, rfl, rfl, hp, hm, Nat.succ_ne_zero _, Nat.succ_ne_zero _, ho, p.ends⟩) rfl
      (Nat.succ_ne_zero _) (Nat.succ_ne_zero _) (not_skippable_ne h1) (not_skippable_ne h2) hm
  | none :: b, t, u, hr, hp, hm, hl, ho => .err
  | some x :: b, t, u, hr, hp, hm, hl, ho => by
    rw [List.cons_append, List.cons_append, loadFrom, loadFrom]
    by_cases hs : skippable x = true
    · rw [if_pos hs, if_pos hs]
      have ho' : openAfterLines t.multiline (b ++ [some p.l]) = true := by
        rw [List.cons_append, openAfterLines, openAfter_noCode (NoCode_skippable.1 hs)] at ho
        exact ho
      have key := load_early b { t with line := t.line + 1 } { u with line := u.line + 1 } hr hp hm (by simp only [hl]) ho'
      generalize loadFrom (b ++ some p.l :: some p.l' :: p.after) { t with line := t.line + 1 } = xx at key
      generalize loadFrom (b ++ some (p.l ++ (p.sep ++ p.l')) :: p.after) { u with line := u.line + 1 } = yy at key
      cases key with
      | loaded a b c d e f g => exact .loaded a b c d e f g
      | err => exact .err
    · rw [if_neg hs, if_neg hs]
      refine .loaded (.inl ⟨b, rfl, rfl, rfl, hp, hm, ?_, ho⟩) rfl (Nat.succ_ne_zero _) (Nat.succ_ne_zero _)
        (not_skippable_ne hs) (not_skippable_ne hs) hm
      simp only [hl]

/-- In the lines before. -/
theorem before_core {p : Lines} : ∀ (n : Nat) (t u : Tokenizer) (b : List (Option Str)), t.size < n → Before p t u b →
    t.peeked = [] → (t.line = 0 → t.rest = []) → Core p t u
  | 0, _, _, _, h, _, _, _ => by omega
  | n + 1, t, u, b, hn, h, hp, hb => by
    have hpu : u.peeked = [] := by rw [← h.peeked, hp]
    have wt : Wf t := .fresh ⟨hp, hb⟩
    have wu : Wf u := .fresh ⟨hpu, fun e => by rw [← h.rest]; exact hb (by rw [h.line]; exact e)⟩
    have ml := h.multiline
    have core : ∀ t1 u1 : Tokenizer, t1.size < t.size → Early p t1 u1 → t1.peeked = [] → t1.line ≠ 0 → Core p t1 u1 := by
      intro t1 u1 hs he h1 h2
      rcases he with ⟨b1, he⟩ | he
      · exact before_core n t1 u1 b1 (by omega) he h1 (fun e => absurd e h2)
      · exact mid_core _ t1 u1 (Nat.lt_succ_self _) he h1
    by_cases hr : t.rest = []
    · have hru : u.rest = [] := by rw [← h.rest, hr]
      have ho := h.opened
      rw [hr] at ho
      have key := load_early b t u h.rest h.peeked ml h.line ho
      rw [← h.file, ← h.file'] at key
      have st := fun b t1 => (loadFrom_sat (np := False) (nd := False) t.file t hr rfl).of_ok (a := (b, t1))
      by_cases hl : t.line = 0
      · have et := next_boot hl hr
        have eu := next_boot (t := u) (h.line ▸ hl) hru
        unfold loadNewLine at et eu
        generalize loadFrom t.file t = xx at key st et
        generalize loadFrom u.file u = yy at key eu
        cases key with
        | loaded he hp1 hl1 hl1' hr1 hr1' hm1 =>
          rename_i t1 u1
          have st := st _ _ rfl
          simp only at st
          have hs := (st.2.2.2.1 trivial).2.2
          simp only [Out.bind_ok] at et eu
          rw [if_pos trivial, ← next_live hl1] at et
          rw [if_pos trivial, ← next_live hl1'] at eu
          have hp1' : u1.peeked = [] := by
            rcases he with ⟨b1, he⟩ | he
            · rw [← he.peeked, hp1, hp]
            · rw [← he.peeked, hp1, hp]
          exact Core.congr (core t1 u1 hs he (by rw [hp1, hp]) hl1) (nab_of_next wt (fresh_live (by rw [hp1, hp]) hl1) et)
            (nab_of_next wu (fresh_live hp1' hl1') eu)
        | err =>
          right
          rw [nab_of_err wt et, nab_of_err wu eu]
          exact .err
      · have hlu : u.line ≠ 0 := h.line ▸ hl
        have et := next_live hl
        have eu := next_live hlu
        rw [nextLoaded, hp] at et
        rw [nextLoaded, hpu] at eu
        simp only at et eu
        rw [if_pos hr] at et
        rw [if_pos hru] at eu
        unfold loadNewLine at et eu
        generalize loadFrom t.file t = xx at key st et
        generalize loadFrom u.file u = yy at key eu
        cases key with
        | loaded he hp1 hl1 hl1' hr1 hr1' hm1 =>
          rename_i t1 u1
          have st := st _ _ rfl
          simp only at st
          have hs := (st.2.2.2.1 trivial).2.2
          have hp1' : u1.peeked = [] := by
            rcases he with ⟨b1, he⟩ | he
            · rw [← he.peeked, hp1, hp]
            · rw [← he.peeked, hp1, hp]
          have hp1 : t1.peeked = [] := by rw [hp1, hp]
          simp only [Out.bind_ok, Bool.not_true, if_neg Bool.false_ne_true] at et eu
          rw [← hm1] at eu
          by_cases hm : (!t1.multiline) = true
          · rw [if_pos hm] at et eu
            right
            rw [nab_of_word wt et (by simp), nab_of_word wu eu (by simp)]
            exact .ok he
          · rw [if_neg hm, ← next_char hp1 hl1 hr1] at et
            rw [if_neg hm, ← next_char hp1' hl1' hr1'] at eu
            exact Core.congr (core t1 u1 hs he hp1 hl1) (nab_of_next wt (fresh_live hp1 hl1) et)
              (nab_of_next wu (fresh_live hp1' hl1') eu)
        | err =>
          right
          rw [nab_of_err wt et, nab_of_err wu eu]
          exact .err
    · have hl : t.line ≠ 0 := fun e => hr (hb e)
      have hlu : u.line ≠ 0 := h.line ▸ hl
      obtain ⟨ch, r, hr⟩ := List.exists_cons_of_ne_nil hr
      have hru : u.rest = ch :: r := by rw [← h.rest, hr]
      have szlt : ∀ (x : Str) (m : Bool), x.length ≤ r.length →
          ({ t with multiline := m, rest := x } : Tokenizer).size < t.size := fun x m hx => by
        simp only [Tokenizer.size, hr, List.length_cons] at hn ⊢; omega
      have ho := h.opened
      rw [hr] at ho
      have bef : ∀ (x : Str) (m : Bool), openAfter .between m x = openAfter .between t.multiline (ch :: r) →
          Before p { t with multiline := m, rest := x } { u with multiline := m, rest := x } b := fun x m hx =>
        ⟨h.file, h.file', rfl, h.peeked, rfl, h.line, by simp only [hx]; exact ho⟩
      have bef' : ∀ (x : Str), openAfter .between t.multiline x = openAfter .between t.multiline (ch :: r) →
          Before p { t with rest := x } { u with rest := x } b := fun x hx =>
        ⟨h.file, h.file', rfl, h.peeked, ml, h.line, by simp only [hx]; exact ho⟩
      have tok : ∀ (tk : Token) (x : Str), tk ≠ .blank → openAfter .between t.multiline x = openAfter .between t.multiline (ch :: r) →
          t.next = .ok (tk, { t with rest := x }) → u.next = .ok (tk, { u with rest := x }) → Core p t u :=
        fun tk x hb hx e1 e2 => by
          right
          rw [nab_of_word wt e1 hb, nab_of_word wu e2 hb]
          exact .ok (.inl ⟨b, bef' x hx⟩)
      by_cases h1 : ch = ' ' ∨ ch = '\t'
      · have et := nab_of_blank wt (next_blanks hp hl hr h1)
        have eu := nab_of_blank wu (next_blanks hpu hlu hru h1)
        rw [← h.rest] at eu
        refine Core.congr (core { t with rest := t.rest.dropWhile isWhitespace } { u with rest := t.rest.dropWhile isWhitespace }
          ?_ (.inl ⟨b, bef' _ ?_⟩) hp hl) et eu
        · have : (t.rest.dropWhile isWhitespace).length ≤ r.length := by
            rw [hr, List.dropWhile_cons, if_pos (blank_ws h1)]
            exact (List.dropWhile_suffix _).length_le
          exact szlt _ t.multiline this
        · rw [openAfter_dropWhile, hr]
      by_cases h2 : ch = '$'
      · subst h2
        have et := directive_next hp hl hr
        have eu := directive_next hpu hlu hru
        unfold processDirective at et eu
        rw [hr] at et
        rw [hru] at eu
        simp only [List.tail_cons, directiveLoop_eq] at et eu
        have key := fun w r1 => stringLoop_open t.multiline r.length r ['$'] false w r1 (le_refl _)
        match hx : stringLoop r.length ['$'] r, key, et, eu with
        | .ok (w, r1), key, et, eu =>
          have o1 := key w r1 rfl
          have o2 : openAfter .between t.multiline r1 = openAfter .between t.multiline ('$' :: r) := by
            rw [← o1, openAfter_cons, step_dollar]
            simp
          simp only [Out.bind_ok] at et eu
          by_cases hw : w = "$ORIGIN".toList
          · rw [if_pos hw] at et eu
            exact tok _ r1 (by simp) o2 et eu
          · rw [if_neg hw] at et eu
            by_cases hw : w = "$INCLUDE".toList
            · rw [if_pos hw] at et eu
              exact tok _ r1 (by simp) o2 et eu
            · rw [if_neg hw] at et eu
              right
              rw [nab_of_err wt et, nab_of_err wu eu]
              exact .err
        | .err e, _, et, eu =>
          right
          rw [nab_of_err wt et, nab_of_err wu eu]
          exact .err
        | .panic e, _, et, eu =>
          right
          rw [nab_of_panic wt et, nab_of_panic wu eu]
          exact .panic
        | .diverge, _, et, eu =>
          right
          rw [nextAfterBlanks_wf wt, nextAfterBlanks_wf wu, et, eu]
          exact .diverge
      by_cases h3 : ch = '"'
      · subst h3
        have et := quoted_next hp hl hr
        have eu := quoted_next hpu hlu hru
        unfold processQuotedString at et eu
        rw [hr] at et
        rw [hru] at eu
        simp only [List.tail_cons] at et eu
        have key := fun w r1 => quotedLoop_open t.multiline r.length r [] w r1 (le_refl _)
        match hx : quotedLoop r.length [] r, key, et, eu with
        | .ok (cl, w, r1), key, et, eu =>
          simp only [Out.bind_ok] at et eu
          cases cl with
          | false =>
            rw [if_neg Bool.false_ne_true] at et eu
            right
            rw [nab_of_err wt et, nab_of_err wu eu]
            exact .err
          | true =>
            rw [if_pos rfl] at et eu
            have o1 := key w r1 rfl
            refine tok _ r1 (by simp) ?_ et eu
            rw [← o1, openAfter_cons, show Mode.between.step '"' = .quoted from rfl]
            simp
        | .err e, _, et, eu =>
          right
          rw [nab_of_err wt et, nab_of_err wu eu]
          exact .err
        | .panic e, _, et, eu =>
          right
          rw [nab_of_panic wt et, nab_of_panic wu eu]
          exact .panic
        | .diverge, _, et, eu =>
          right
          rw [nextAfterBlanks_wf wt, nextAfterBlanks_wf wu, et, eu]
          exact .diverge
      by_cases h4 : ch = '('
      · subst h4
        have et := open_next hp hl hr
        have eu := open_next hpu hlu hru
        rw [← ml] at eu
        by_cases hm : t.multiline = true
        · rw [if_pos hm] at et eu
          right
          rw [nab_of_err wt et, nab_of_err wu eu]
          exact .err
        · rw [if_neg hm] at et eu
          exact Core.congr (core _ _ (szlt r true (le_refl _)) (.inl ⟨b, bef r true rfl⟩) hp hl)
            (nab_of_next wt (fresh_live hp hl) et) (nab_of_next wu (fresh_live hpu hlu) eu)
      by_cases h5 : ch = ')'
      · subst h5
        have et := close_next hp hl hr
        have eu := close_next hpu hlu hru
        rw [← ml] at eu
        by_cases hm : (!t.multiline) = true
        · rw [if_pos hm] at et eu
          right
          rw [nab_of_err wt et, nab_of_err wu eu]
          exact .err
        · rw [if_neg hm] at et eu
          exact Core.congr (core _ _ (szlt r false (le_refl _)) (.inl ⟨b, bef r false rfl⟩) hp hl)
            (nab_of_next wt (fresh_live hp hl) et) (nab_of_next wu (fresh_live hpu hlu) eu)
      by_cases h6 : ch = ';'
      · subst h6
        have et := next_semicolon hp hl hr
        have eu := next_semicolon hpu hlu hru
        have o2 : openAfter .between t.multiline [] = openAfter .between t.multiline (';' :: r) := by
          rw [openAfter_cons, show Mode.between.step ';' = .comment from rfl, openAfter_comment]
          simp [openAfter]
        exact Core.congr (core { t with rest := [] } { u with rest := [] } (szlt [] t.multiline (by simp)) (.inl ⟨b, bef' [] o2⟩) hp hl)
          (nab_of_next wt (fresh_live hp hl) et) (nab_of_next wu (fresh_live hpu hlu) eu)
      · have et := word_next hp hl hr h1 h2 h3 h4 h5 h6
        have eu := word_next hpu hlu hru h1 h2 h3 h4 h5 h6
        unfold processStringOrNumber at et eu
        rw [hr] at et
        rw [hru] at eu
        have key := fun w r1 => stringLoop_open t.multiline (ch :: r).length (ch :: r) [] false w r1 (le_refl _)
        match hx : stringLoop (ch :: r).length [] (ch :: r), key, et, eu with
        | .ok (w, r1), key, et, eu =>
          have o1 := key w r1 rfl
          simp only [Out.bind_ok] at et eu
          refine tok _ r1 (wordToken_ne_blank _) ?_ et eu
          rw [← o1, openAfter_cons, openAfter_cons, ← first_step h3]
        | .err e, _, et, eu =>
          right
          rw [nab_of_err wt et, nab_of_err wu eu]
          exact .err
        | .panic e, _, et, eu =>
          right
          rw [nab_of_panic wt et, nab_of_panic wu eu]
          exact .panic
        | .diverge, _, et, eu =>
          right
          rw [nextAfterBlanks_wf wt, nextAfterBlanks_wf wu, et, eu]
          exact .diverge

/-- States of the tokenizers of the two files. -/
def JoinRel (p : Lines) (t u : Tokenizer) : Prop := Wf t ∧ Wf u ∧ (Early p t u ∨ CommentRel t u)

theorem Early.peeked {p : Lines} {t u : Tokenizer} (h : Early p t u) : t.peeked = u.peeked := by
  rcases h with ⟨b, h⟩ | h
  · exact h.peeked
  · exact h.peeked

theorem Early.line {p : Lines} {t u : Tokenizer} (h : Early p t u) : t.line = 0 ↔ u.line = 0 := by
  rcases h with ⟨b, h⟩ | h
  · rw [h.line]
  · exact ⟨fun e => absurd e h.line, fun e => absurd e h.line'⟩

theorem Early.push {p : Lines} {t u : Tokenizer} (h : Early p t u) (x y : List Token) (e : x = y) :
    Early p { t with peeked := x } { u with peeked := y } := by
  rcases h with ⟨b, h⟩ | h
  · exact .inl ⟨b, h.file, h.file', h.rest, e, h.multiline, h.line, h.opened⟩
  · exact .inr ⟨h.file, h.file', h.rest, e, h.multiline, h.line, h.line', h.opened, h.ends⟩

theorem Early.file_ne {p : Lines} {t u : Tokenizer} (h : Early p t u) : t.file ≠ [] := by
  rcases h with ⟨b, h⟩ | h
  · rw [h.file]; simp
  · rw [h.file]; simp

theorem early_core {p : Lines} {t u : Tokenizer} (h : Early p t u) (hf : Fresh t) : Core p t u := by
  rcases h with ⟨b, h⟩ | h
  · exact before_core _ t u b (Nat.lt_succ_self _) h hf.peeked hf.boot
  · exact mid_core _ t u (Nat.lt_succ_self _) h hf.peeked

theorem early_core' {p : Lines} {t u : Tokenizer} (hw : Wf t) (hw' : Wf u) (h : Early p t u) : Core p t u := by
  cases hw with
  | fresh hf => exact early_core h hf
  | held tk hp hl he =>
    have hlu : u.line ≠ 0 := fun e => hl (h.line.2 e)
    have e1 := nextAfterBlanks_held hp hl
    have e2 := nextAfterBlanks_held (h.peeked ▸ hp) hlu
    have h0 := h.push [] [] rfl
    by_cases hb : tk = .blank
    · rw [if_pos hb] at e1 e2
      exact Core.congr (early_core h0 ⟨rfl, fun e => absurd e hl⟩) e1 e2
    · rw [if_neg hb] at e1 e2
      right
      rw [e1, e2]
      exact .ok h0
  | dead hl ha => exact absurd ha.file h.file_ne

theorem join_run {p : Lines} {t u : Tokenizer} (h : JoinRel p t u) {c : Call} (hc : c.SkipsBlanks) :
    Agree (JoinRel p) (c.run t) (c.run u) := by
  obtain ⟨hw, hw', h⟩ := h
  have com : ∀ {t2 u2 : Tokenizer}, CommentRel t2 u2 → Agree (JoinRel p) (c.run t2) (c.run u2) := fun h2 =>
    (comment_bisim.run h2 c).mono fun a b hab => ⟨hab.1, hab.2.1, .inr hab⟩
  rcases h with h | h
  · rcases early_core' hw hw' h with ⟨t2, u2, e1, e2, h2⟩ | h2
    · have e1' : c.run t = c.run t2 := by
        rcases hc with rfl | rfl
        · exact e1
        · simp only [Call.run, peekAfterBlanks, e1]
      have e2' : c.run u = c.run u2 := by
        rcases hc with rfl | rfl
        · exact e2
        · simp only [Call.run, peekAfterBlanks, e2]
      rw [e1', e2']
      exact com h2
    · rcases hc with rfl | rfl
      · have kt := fun tk t1 => nextAfterBlanks_ok _ (t := t) (t' := t1) (tk := tk) (Nat.lt_succ_self _) hw
        have ku := fun tk t1 => nextAfterBlanks_ok _ (t := u) (t' := t1) (tk := tk) (Nat.lt_succ_self _) hw'
        simp only [Call.run]
        generalize t.nextAfterBlanks = x at h2 kt
        generalize u.nextAfterBlanks = y at h2 ku
        cases h2 with
        | ok h => exact .ok ⟨wf_of_next (kt _ _ rfl).1, wf_of_next (ku _ _ rfl).1, .inl h⟩
        | err => exact .err
        | panic => exact .panic
        | diverge => exact .diverge
      · refine h2.bind fun tk t1 u1 et eu h => ?_
        have kt := nextAfterBlanks_ok _ (Nat.lt_succ_self _) hw et
        have ku := nextAfterBlanks_ok _ (Nat.lt_succ_self _) hw' eu
        exact .ok ⟨push_wf (t := t) kt.1 kt.2.1 kt.2.2.1, push_wf (t := u) ku.1 ku.2.1 ku.2.2.1,
          .inl (h.push _ _ (by rw [h.peeked]))⟩
  · exact com h

theorem join_replies {p : Lines} : ∀ (cs : List Call) {t u : Tokenizer}, (∀ c ∈ cs, c.SkipsBlanks) → JoinRel p t u →
    replies cs t = replies cs u
  | [], _, _, _, _ => rfl
  | c :: cs, t, u, hcs, hr => by
    have h := join_run hr (hcs c List.mem_cons_self)
    rw [replies, replies]
    generalize c.run t = x at h
    generalize c.run u = y at h
    cases h with
    | ok h => simp only [join_replies cs (fun c hc => hcs c (List.mem_cons_of_mem _ hc)) h]
    | err => rfl
    | panic => rfl
    | diverge => rfl

theorem replies_joined {f f' : List (Option Str)} (h : Joined NotEscaped f f') {cs : List Call} (hcs : ∀ c ∈ cs, c.SkipsBlanks) :
    replies cs (start f) = replies cs (start f') := by
  cases h with
  | join before after l sep l' opened ends okay sepBlank code code' plain =>
    have ends : Ends (modeAfter .between l) := by
      rcases ends with h | ⟨e, h⟩
      · exact .inl h
      · cases e with
        | false => exact .inr h
        | true => exact absurd h okay
    let p : Lines := ⟨l, sep, l', after, ends, sepBlank, code, code', plain⟩
    refine join_replies (p := p) cs hcs ⟨.fresh (start_fresh _), .fresh (start_fresh _), .inl (.inl ⟨before, ?_⟩)⟩
    exact ⟨rfl, by simp [start, p], rfl, rfl, rfl, rfl, opened⟩

end Ariadne.Tokenizer
