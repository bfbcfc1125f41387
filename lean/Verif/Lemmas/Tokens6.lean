import Verif.Lemmas.Tokens5

/-! # The tokenizer: lines in parentheses -/

namespace Ariadne.Tokenizer

open Spec

/-- The effect of a character on the open parenthesis. -/
theorem openAfter_cons (m : Mode) (o : Bool) (ch : Char) (l : Str) :
    openAfter m o (ch :: l) = openAfter (m.step ch) (match m with
      | .between | .word _ => if ch = '(' then true else if ch = ')' then false else o
      | _ => o) l := rfl

theorem openAfter_comment : ∀ (o : Bool) (l : Str), openAfter .comment o l = o
  | _, [] => rfl
  | o, _ :: l => openAfter_comment o l

theorem modeAfter_comment : ∀ l : Str, modeAfter .comment l = .comment
  | [] => rfl
  | _ :: l => modeAfter_comment l

theorem ws_step {ch : Char} (h : isWhitespace ch = true) : Mode.between.step ch = .between := by
  have : ∀ x : Char, isWhitespace x = false → ch ≠ x := fun x hx e => by rw [e, hx] at h; cases h
  simp only [Mode.step]
  rw [if_neg (this _ (by decide)), if_neg (this _ (by decide)), if_neg (this _ (by decide)), if_pos (by tauto)]

theorem ws_open {ch : Char} (h : isWhitespace ch = true) (o : Bool) (l : Str) :
    openAfter .between o (ch :: l) = openAfter .between o l := by
  have : ∀ x : Char, isWhitespace x = false → ch ≠ x := fun x hx e => by rw [e, hx] at h; cases h
  rw [openAfter_cons, ws_step h]
  simp only
  rw [if_neg (this _ (by decide)), if_neg (this _ (by decide))]

theorem openAfter_dropWhile (o : Bool) : ∀ l : Str, openAfter .between o (l.dropWhile isWhitespace) = openAfter .between o l
  | [] => rfl
  | ch :: l => by
    rw [List.dropWhile_cons]
    by_cases h : isWhitespace ch = true
    · rw [if_pos h, ws_open h, openAfter_dropWhile o l]
    · rw [if_neg h]

theorem openAfter_noCode {l : Str} (h : NoCode l) (o : Bool) : openAfter .between o l = o := by
  obtain ⟨ws, c, rfl, hws, hc⟩ := h
  rw [← openAfter_dropWhile, dropWhile_ws hc, List.dropWhile_eq_nil_iff.2 hws, List.nil_append]
  rcases hc with rfl | ⟨x, rfl⟩
  · rfl
  · exact openAfter_comment o x

theorem delim_open {ch : Char} (h : ch = '(' ∨ ch = ')' ∨ ch = ';' ∨ isWhitespace ch = true) (e : Bool) (o : Bool) (l : Str) :
    openAfter (.word e) o (ch :: l) = openAfter .between o (ch :: l) := by
  rw [openAfter_cons, openAfter_cons, delim_step h e]

theorem word_open {ch : Char} (h1 : ch ≠ '\\') (h2 : ¬ (ch = '(' ∨ ch = ')' ∨ ch = ';')) (h3 : isWhitespace ch ≠ true) (e : Bool)
    (o : Bool) (l : Str) : openAfter (.word e) o (ch :: l) = openAfter (.word e) o l := by
  rw [openAfter_cons, word_step h1 h2 h3]
  simp only
  rw [if_neg (by tauto), if_neg (by tauto)]

/-- A word leaves the parentheses as they are. -/
theorem stringLoop_open (o : Bool) : ∀ (n : Nat) (r acc : Str) (e : Bool) (w r1 : Str), r.length ≤ n →
    stringLoop n acc r = .ok (w, r1) → openAfter (.word e) o r = openAfter .between o r1
  | 0, r, acc, e, w, r1, hn, h => by
    have : r = [] := List.eq_nil_of_length_eq_zero (by omega)
    subst this
    simp only [stringLoop, Out.ok.injEq, Prod.mk.injEq] at h
    rw [← h.2]
    rfl
  | n + 1, [], acc, e, w, r1, _, h => by simp [stringLoop] at h
  | n + 1, ch :: r, acc, e, w, r1, hn, h => by
    simp only [List.length_cons] at hn
    rw [stringLoop] at h
    by_cases h1 : ch = '\\'
    · rw [if_pos h1] at h
      subst h1
      cases r with
      | nil => simp [parseEscape] at h
      | cons d r =>
        simp only [parseEscape] at h
        simp only [List.length_cons] at hn
        exact stringLoop_open o n r _ true w r1 (by omega) h
    · rw [if_neg h1] at h
      by_cases h2 : ch = '(' ∨ ch = ')' ∨ ch = ';'
      · rw [if_pos h2] at h
        simp only [Out.ok.injEq, Prod.mk.injEq] at h
        rw [← h.2, delim_open (by tauto)]
      · rw [if_neg h2] at h
        by_cases h3 : isWhitespace ch = true
        · rw [if_pos h3] at h
          simp only [Out.ok.injEq, Prod.mk.injEq] at h
          rw [← h.2, delim_open (by tauto)]
        · rw [if_neg h3] at h
          rw [word_open h1 h2 h3]
          exact stringLoop_open o n r _ e w r1 (by omega) h

theorem quotedLoop_open (o : Bool) : ∀ (n : Nat) (r acc : Str) (w r1 : Str), r.length ≤ n →
    quotedLoop n acc r = .ok (true, w, r1) → openAfter .quoted o r = openAfter .between o r1
  | 0, r, acc, w, r1, hn, h => by simp [quotedLoop] at h
  | n + 1, [], acc, w, r1, _, h => by simp [quotedLoop] at h
  | n + 1, ch :: r, acc, w, r1, hn, h => by
    simp only [List.length_cons] at hn
    rw [quotedLoop] at h
    by_cases h1 : ch = '\\'
    · rw [if_pos h1] at h
      subst h1
      cases r with
      | nil => simp [parseEscape] at h
      | cons d r =>
        simp only [parseEscape] at h
        simp only [List.length_cons] at hn
        exact quotedLoop_open o n r _ w r1 (by omega) h
    · rw [if_neg h1] at h
      by_cases h2 : ch = '"'
      · rw [if_pos h2] at h
        simp only [Out.ok.injEq, Prod.mk.injEq] at h
        rw [← h.2.2, openAfter_cons]
        simp only [Mode.step, if_pos h2]
      · rw [if_neg h2] at h
        have hs : Mode.quoted.step ch = .quoted := by simp only [Mode.step]; rw [if_neg h2, if_neg h1]
        rw [openAfter_cons, hs]
        exact quotedLoop_open o n r _ w r1 (by omega) h

/-- The place at the end of the part of a line before a line break. -/
def Ends (m : Mode) : Prop := m = .between ∨ m = .word false

/-- What stands instead of the line break: white space that starts with a space or a tab, and the line. -/
def Sep (sep : Str) : Prop := ∃ ch ws, sep = ch :: ws ∧ (ch = ' ' ∨ ch = '\t') ∧ ∀ x ∈ ws, isWhitespace x = true

theorem blank_ws {ch : Char} (h : ch = ' ' ∨ ch = '\t') : isWhitespace ch = true := by rcases h with rfl | rfl <;> decide

theorem Sep.all {sep : Str} (h : Sep sep) : ∀ x ∈ sep, isWhitespace x = true := by
  obtain ⟨ch, ws, rfl, h, hw⟩ := h
  intro x hx
  rcases List.mem_cons.1 hx with rfl | hx
  · exact blank_ws h
  · exact hw x hx

theorem stringLoop_sep {sep s : Str} (hsep : Sep sep) : ∀ (l : Str) (e : Bool) (k : Nat) (acc : Str), (e = false → k = 0) →
    Ends (modeAfter (.word e) l) →
    ∃ w l1, stringLoop (l.length + k) acc l = .ok (w, l1) ∧
      stringLoop ((l ++ (sep ++ s)).length + k) acc (l ++ (sep ++ s)) = .ok (w, l1 ++ (sep ++ s)) ∧
      Ends (modeAfter .between l1)
  | [], e, k, acc, hk, hm => by
    have he : e = false := by
      rcases hm with hm | hm
      · cases hm
      · cases e with
        | false => rfl
        | true => cases hm
    obtain ⟨ch, ws, rfl, hb, hw⟩ := hsep
    refine ⟨acc, [], by rw [hk he]; rfl, ?_, .inl rfl⟩
    rw [List.nil_append, List.cons_append, List.length_cons, show (ws ++ s).length + 1 + k = ((ws ++ s).length + k) + 1 by omega,
      stringLoop]
    have hne : ∀ x : Char, x ≠ ' ' → x ≠ '\t' → ch ≠ x := fun x h1 h2 e => by
      subst e
      rcases hb with h | h
      · exact h1 h
      · exact h2 h
    rw [if_neg (hne _ (by decide) (by decide)), if_neg ?_, if_pos (blank_ws hb)]
    · intro h
      rcases h with h | h | h
      · exact hne _ (by decide) (by decide) h
      · exact hne _ (by decide) (by decide) h
      · exact hne _ (by decide) (by decide) h
  | ch :: l, e, k, acc, hk, hm => by
    have len : (ch :: l ++ (sep ++ s)).length + k = ((l ++ (sep ++ s)).length + k) + 1 := by
      simp only [List.cons_append, List.length_cons]; omega
    have len0 : (ch :: l).length + k = (l.length + k) + 1 := by simp only [List.length_cons]; omega
    rw [len, len0]
    rw [modeAfter_cons] at hm
    by_cases h1 : ch = '\\'
    · subst h1
      have hs : (Mode.word e).step '\\' = .backslash := by
        simp only [Mode.step]
        rw [if_neg (by decide), if_pos trivial]
      rw [hs] at hm
      cases l with
      | nil => rcases hm with h | h <;> cases h
      | cons d l =>
        rw [modeAfter_cons] at hm
        obtain ⟨w, l1, a, b, c⟩ := stringLoop_sep hsep l true (k + 1) (acc ++ [d]) (by simp) hm
        have step : ∀ x : Str, stringLoop ((d :: x).length + k + 1) acc ('\\' :: d :: x) =
            stringLoop (x.length + (k + 1)) (acc ++ [d]) x := fun x => by
          rw [stringLoop.eq_def]
          simp only [if_pos, parseEscape]
          rw [show (d :: x).length + k = x.length + (k + 1) by simp only [List.length_cons]; omega]
        refine ⟨w, l1, by rw [step]; exact a, ?_, c⟩
        simp only [List.cons_append]
        rw [step]; exact b
    · by_cases h2 : (ch = '(' ∨ ch = ')' ∨ ch = ';') ∨ isWhitespace ch = true
      · have stop : ∀ (n : Nat) (x : Str), stringLoop (n + 1) acc (ch :: x) = .ok (acc, ch :: x) := fun n x => by
          rw [stringLoop, if_neg h1]
          by_cases h3 : ch = '(' ∨ ch = ')' ∨ ch = ';'
          · rw [if_pos h3]
          · rw [if_neg h3, if_pos (by tauto)]
        rw [delim_step (by tauto) e] at hm
        exact ⟨acc, ch :: l, stop _ _, stop _ _, hm⟩
      · have h3 : ¬ (ch = '(' ∨ ch = ')' ∨ ch = ';') := fun h => h2 (.inl h)
        have h4 : ¬ isWhitespace ch = true := fun h => h2 (.inr h)
        rw [word_step h1 h3 h4] at hm
        obtain ⟨w, l1, a, b, r⟩ := stringLoop_sep hsep l e k (acc ++ [ch]) hk hm
        have step : ∀ (n : Nat) (x : Str), stringLoop (n + 1) acc (ch :: x) = stringLoop n (acc ++ [ch]) x := fun n x => by
          rw [stringLoop, if_neg h1, if_neg h3, if_neg h4]
        exact ⟨w, l1, by rw [step]; exact a, by rw [List.cons_append, step]; exact b, r⟩

theorem quotedLoop_sep {s : Str} : ∀ (l : Str) (k : Nat) (acc : Str), Ends (modeAfter .quoted l) →
    ∃ w l1, quotedLoop (l.length + k) acc l = .ok (true, w, l1) ∧
      quotedLoop ((l ++ s).length + k) acc (l ++ s) = .ok (true, w, l1 ++ s) ∧ Ends (modeAfter .between l1)
  | [], _, _, hm => by rcases hm with h | h <;> cases h
  | ch :: l, k, acc, hm => by
    have len : (ch :: l ++ s).length + k = ((l ++ s).length + k) + 1 := by
      simp only [List.cons_append, List.length_cons]; omega
    have len0 : (ch :: l).length + k = (l.length + k) + 1 := by simp only [List.length_cons]; omega
    rw [len, len0]
    rw [modeAfter_cons] at hm
    by_cases h1 : ch = '\\'
    · subst h1
      have hs : Mode.quoted.step '\\' = .quotedBackslash := by
        simp only [Mode.step]
        rw [if_neg (by decide), if_pos trivial]
      rw [hs] at hm
      cases l with
      | nil => rcases hm with h | h <;> cases h
      | cons d l =>
        rw [modeAfter_cons] at hm
        obtain ⟨w, l1, a, b, c⟩ := quotedLoop_sep l (k + 1) (acc ++ [d]) hm
        have step : ∀ x : Str, quotedLoop ((d :: x).length + k + 1) acc ('\\' :: d :: x) =
            quotedLoop (x.length + (k + 1)) (acc ++ [d]) x := fun x => by
          rw [quotedLoop.eq_def]
          simp only [if_pos, parseEscape]
          rw [show (d :: x).length + k = x.length + (k + 1) by simp only [List.length_cons]; omega]
        refine ⟨w, l1, by rw [step]; exact a, ?_, c⟩
        simp only [List.cons_append]
        rw [step]; exact b
    · by_cases h2 : ch = '"'
      · have stop : ∀ (n : Nat) (x : Str), quotedLoop (n + 1) acc (ch :: x) = .ok (true, acc, x) := fun n x => by
          rw [quotedLoop, if_neg h1, if_pos h2]
        have hs : Mode.quoted.step ch = .between := by simp only [Mode.step]; rw [if_pos h2]
        rw [hs] at hm
        exact ⟨acc, l, stop _ _, stop _ _, hm⟩
      · have hs : Mode.quoted.step ch = .quoted := by simp only [Mode.step]; rw [if_neg h2, if_neg h1]
        rw [hs] at hm
        obtain ⟨w, l1, a, b, r⟩ := quotedLoop_sep l k (acc ++ [ch]) hm
        have step : ∀ (n : Nat) (x : Str), quotedLoop (n + 1) acc (ch :: x) = quotedLoop n (acc ++ [ch]) x := fun n x => by
          rw [quotedLoop, if_neg h1, if_neg h2]
        exact ⟨w, l1, by rw [step]; exact a, by rw [List.cons_append, step]; exact b, r⟩

theorem nab_of_next {t t1 : Tokenizer} (hw : Wf t) (hw1 : Wf t1) (h : t.next = t1.next) :
    t.nextAfterBlanks = t1.nextAfterBlanks := by
  rw [nextAfterBlanks_wf hw, nextAfterBlanks_wf hw1, h]

theorem nab_of_blank {t t1 : Tokenizer} (hw : Wf t) (h : t.next = .ok (.blank, t1)) :
    t.nextAfterBlanks = t1.nextAfterBlanks := by
  rw [nextAfterBlanks_wf hw, h]
  simp

theorem nab_of_word {t t1 : Tokenizer} {tk : Token} (hw : Wf t) (h : t.next = .ok (tk, t1)) (hb : tk ≠ .blank) :
    t.nextAfterBlanks = .ok (tk, t1) := by
  rw [nextAfterBlanks_wf hw, h]
  simp only [Out.bind_ok, if_neg hb]

theorem nab_of_err {t : Tokenizer} {e : TokenErr} (hw : Wf t) (h : t.next = .err e) : t.nextAfterBlanks = .err e := by
  rw [nextAfterBlanks_wf hw, h]
  rfl

theorem nab_of_panic {t : Tokenizer} {e : Panic} (hw : Wf t) (h : t.next = .panic e) : t.nextAfterBlanks = .panic e := by
  rw [nextAfterBlanks_wf hw, h]
  rfl

theorem next_char {t : Tokenizer} (hp : t.peeked = []) (hl : t.line ≠ 0) (hr : t.rest ≠ []) : t.next = nextChar next t := by
  rw [next_live hl, nextLoaded, hp]
  simp only
  rw [if_neg hr]

theorem next_blanks {t : Tokenizer} {ch : Char} {r : Str} (hp : t.peeked = []) (hl : t.line ≠ 0) (hr : t.rest = ch :: r)
    (hc : ch = ' ' ∨ ch = '\t') : t.next = .ok (.blank, { t with rest := t.rest.dropWhile isWhitespace }) := by
  rw [next_char hp hl (by rw [hr]; simp), nextChar]
  simp only [hr, if_pos hc, processWhitespace]

/-- Blanks at the beginning do not matter. -/
theorem nab_drop {t : Tokenizer} (hp : t.peeked = []) (hl : t.line ≠ 0)
    (hpl : ∀ ch, t.rest.head? = some ch → isWhitespace ch = true → ch = ' ' ∨ ch = '\t') :
    t.nextAfterBlanks = ({ t with rest := t.rest.dropWhile isWhitespace } : Tokenizer).nextAfterBlanks := by
  cases hr : t.rest with
  | nil =>
    rw [List.dropWhile_nil]
    have : t = { t with rest := [] } := by rw [← hr]
    rw [← this]
  | cons ch r =>
    by_cases hw : isWhitespace ch = true
    · have hc := hpl ch (by rw [hr]; rfl) hw
      rw [← hr]
      exact nab_of_blank (.fresh ⟨hp, fun e => absurd e hl⟩) (next_blanks hp hl hr hc)
    · rw [List.dropWhile_cons, if_neg hw]
      have : t = { t with rest := ch :: r } := by rw [← hr]
      rw [← this]

end Ariadne.Tokenizer
