import Verif.Lemmas.Tokens3
import Mathlib.Data.List.TakeWhile

/-! # The tokenizer: comments -/

namespace Ariadne.Tokenizer

open Spec

/-- Not in a word with a backslash. -/
def NotEscaped (m : Mode) : Prop := m ≠ .word true

/-- The end of a word before one of two comments. -/
theorem stringLoop_comment {c c' : Str} : ∀ (l : Str) (e : Bool) (k : Nat) (acc : Str), (e = false → k = 0) →
    (modeAfter (.word e) l).Complete → Comment c → Comment c' → (c = [] ∨ c' = [] → NotEscaped (modeAfter (.word e) l)) →
    ∃ w l1, stringLoop ((l ++ c).length + k) acc (l ++ c) = .ok (w, l1 ++ c) ∧
      stringLoop ((l ++ c').length + k) acc (l ++ c') = .ok (w, l1 ++ c') ∧ Either NotEscaped l1 c c'
  | [], e, k, acc, hk, _, hc, hc', ho => by
    have base : ∀ x : Str, Comment x → (x = [] → e = false) → stringLoop (x.length + k) acc x = .ok (acc, x) := by
      intro x hx hxe
      rcases hx with rfl | ⟨text, rfl⟩
      · rw [hk (hxe rfl)]
        rfl
      · rw [show (';' :: text).length + k = (text.length + k) + 1 by simp; omega]
        unfold stringLoop
        rw [if_neg (by decide), if_pos (by decide)]
    have he : c = [] ∨ c' = [] → e = false := fun h => by
      have := ho h
      cases e with
      | false => rfl
      | true => exact absurd rfl this
    refine ⟨acc, [], base c hc fun h => he (.inl h), base c' hc' fun h => he (.inr h), ?_, hc, hc', fun _ => ?_⟩
    · exact ⟨by simp [modeAfter], by simp [modeAfter], by simp [modeAfter]⟩
    · simp [modeAfter, NotEscaped]
  | ch :: l, e, k, acc, hk, hm, hc, hc', ho => by
    have len : ∀ x : Str, (ch :: l ++ x).length + k = ((l ++ x).length + k) + 1 := fun x => by
      simp only [List.cons_append, List.length_cons]; omega
    rw [len c, len c']
    rw [modeAfter_cons] at hm ho
    by_cases h1 : ch = '\\'
    · subst h1
      have hs : (Mode.word e).step '\\' = .backslash := by
        simp only [Mode.step]
        rw [if_neg (by decide), if_pos trivial]
      rw [hs] at hm ho
      cases l with
      | nil => exact absurd rfl hm.1
      | cons d l =>
        rw [modeAfter_cons] at hm ho
        obtain ⟨w, l1, a, b, c⟩ := stringLoop_comment l true (k + 1) (acc ++ [d]) (by simp) hm hc hc' ho
        have step : ∀ x : Str, stringLoop ((d :: l ++ x).length + k + 1) acc ('\\' :: d :: l ++ x) =
            stringLoop ((l ++ x).length + (k + 1)) (acc ++ [d]) (l ++ x) := fun x => by
          rw [stringLoop.eq_def]
          simp only [List.cons_append, if_pos, parseEscape]
          rw [show (d :: (l ++ x)).length + k = (l ++ x).length + (k + 1) by simp only [List.length_cons]; omega]
        exact ⟨w, l1, by rw [step]; exact a, by rw [step]; exact b, c⟩
    · by_cases h2 : ch = '(' ∨ ch = ')' ∨ ch = ';'
      · have stop : ∀ x : Str, stringLoop ((l ++ x).length + k + 1) acc (ch :: l ++ x) = .ok (acc, ch :: l ++ x) := fun x => by
          rw [List.cons_append, stringLoop, if_neg h1, if_pos h2]
        rw [delim_step (by tauto) e] at hm ho
        exact ⟨acc, ch :: l, stop c, stop c', hm, hc, hc', ho⟩
      · by_cases h3 : isWhitespace ch = true
        · have stop : ∀ x : Str, stringLoop ((l ++ x).length + k + 1) acc (ch :: l ++ x) = .ok (acc, ch :: l ++ x) := fun x => by
            rw [List.cons_append, stringLoop, if_neg h1, if_neg h2, if_pos h3]
          rw [delim_step (by tauto) e] at hm ho
          exact ⟨acc, ch :: l, stop c, stop c', hm, hc, hc', ho⟩
        · rw [word_step h1 h2 h3] at hm ho
          obtain ⟨w, l1, a, b, r⟩ := stringLoop_comment l e k (acc ++ [ch]) hk hm hc hc' ho
          have step : ∀ x : Str, stringLoop ((l ++ x).length + k + 1) acc (ch :: l ++ x) =
              stringLoop ((l ++ x).length + k) (acc ++ [ch]) (l ++ x) := fun x => by
            rw [List.cons_append, stringLoop, if_neg h1, if_neg h2, if_neg h3]
          exact ⟨w, l1, by rw [step]; exact a, by rw [step]; exact b, r⟩

theorem directiveLoop_eq : ∀ (n : Nat) (acc rest : Str), directiveLoop n acc rest = stringLoop n acc rest
  | 0, _, _ => rfl
  | _ + 1, _, [] => rfl
  | n + 1, acc, ch :: rest => by
    rw [directiveLoop, stringLoop]
    by_cases h1 : ch = '\\'
    · rw [if_pos h1, if_pos h1]
      match parseEscape (ch :: rest) with
      | .ok (c, r) => exact directiveLoop_eq n _ _
      | .err e => rfl
      | .panic k => rfl
      | .diverge => rfl
    · rw [if_neg h1, if_neg h1]
      by_cases h2 : ch = ';' ∨ ch = '(' ∨ ch = ')'
      · rw [if_pos h2, if_pos (by tauto)]
      · rw [if_neg h2, if_neg (c := ch = '(' ∨ ch = ')' ∨ ch = ';') (by tauto)]
        by_cases h3 : isWhitespace ch = true
        · rw [if_pos h3, if_pos h3]
        · rw [if_neg h3, if_neg h3]
          exact directiveLoop_eq n _ _

theorem quotedLoop_comment {c c' : Str} : ∀ (l : Str) (k : Nat) (acc : Str),
    (modeAfter .quoted l).Complete → Comment c → Comment c' → (c = [] ∨ c' = [] → NotEscaped (modeAfter .quoted l)) →
    ∃ w l1, quotedLoop ((l ++ c).length + k) acc (l ++ c) = .ok (true, w, l1 ++ c) ∧
      quotedLoop ((l ++ c').length + k) acc (l ++ c') = .ok (true, w, l1 ++ c') ∧ Either NotEscaped l1 c c'
  | [], _, _, hm, _, _, _ => absurd rfl hm.2.1
  | ch :: l, k, acc, hm, hc, hc', ho => by
    have len : ∀ x : Str, (ch :: l ++ x).length + k = ((l ++ x).length + k) + 1 := fun x => by
      simp only [List.cons_append, List.length_cons]; omega
    rw [len c, len c']
    rw [modeAfter_cons] at hm ho
    by_cases h1 : ch = '\\'
    · subst h1
      have hs : Mode.quoted.step '\\' = .quotedBackslash := by
        simp only [Mode.step]
        rw [if_neg (by decide), if_pos trivial]
      rw [hs] at hm ho
      cases l with
      | nil => exact absurd rfl hm.2.2
      | cons d l =>
        rw [modeAfter_cons] at hm ho
        obtain ⟨w, l1, a, b, c⟩ := quotedLoop_comment l (k + 1) (acc ++ [d]) hm hc hc' ho
        have step : ∀ x : Str, quotedLoop ((d :: l ++ x).length + k + 1) acc ('\\' :: d :: l ++ x) =
            quotedLoop ((l ++ x).length + (k + 1)) (acc ++ [d]) (l ++ x) := fun x => by
          rw [quotedLoop.eq_def]
          simp only [List.cons_append, if_pos, parseEscape]
          rw [show (d :: (l ++ x)).length + k = (l ++ x).length + (k + 1) by simp only [List.length_cons]; omega]
        exact ⟨w, l1, by rw [step]; exact a, by rw [step]; exact b, c⟩
    · by_cases h2 : ch = '"'
      · have stop : ∀ x : Str, quotedLoop ((l ++ x).length + k + 1) acc (ch :: l ++ x) = .ok (true, acc, l ++ x) := fun x => by
          rw [List.cons_append, quotedLoop, if_neg h1, if_pos h2]
        have hs : Mode.quoted.step ch = .between := by simp only [Mode.step]; rw [if_pos h2]
        rw [hs] at hm ho
        exact ⟨acc, l, stop c, stop c', hm, hc, hc', ho⟩
      · have hs : Mode.quoted.step ch = .quoted := by simp only [Mode.step]; rw [if_neg h2, if_neg h1]
        rw [hs] at hm ho
        obtain ⟨w, l1, a, b, r⟩ := quotedLoop_comment l k (acc ++ [ch]) hm hc hc' ho
        have step : ∀ x : Str, quotedLoop ((l ++ x).length + k + 1) acc (ch :: l ++ x) =
            quotedLoop ((l ++ x).length + k) (acc ++ [ch]) (l ++ x) := fun x => by
          rw [List.cons_append, quotedLoop, if_neg h1, if_neg h2]
        exact ⟨w, l1, by rw [step]; exact a, by rw [step]; exact b, r⟩

/-- The rests of two lines that differ in a comment. -/
inductive RestRel : Str → Str → Prop
  | same (r : Str) : RestRel r r
  | comment {l c c' : Str} : Either NotEscaped l c c' → RestRel (l ++ c) (l ++ c')

theorem dropWhile_ws {c : Str} (hc : Comment c) : ∀ l : Str, (l ++ c).dropWhile isWhitespace = l.dropWhile isWhitespace ++ c
  | [] => by
    rcases hc with rfl | ⟨text, rfl⟩
    · rfl
    · rw [List.nil_append, List.dropWhile_nil, List.nil_append, List.dropWhile_cons, if_neg (by decide)]
  | ch :: l => by
    rw [List.cons_append, List.dropWhile_cons, List.dropWhile_cons]
    by_cases h : isWhitespace ch = true
    · rw [if_pos h, if_pos h, dropWhile_ws hc l]
    · rw [if_neg h, if_neg h, List.cons_append]

theorem modeAfter_dropWhile : ∀ l : Str, modeAfter .between (l.dropWhile isWhitespace) = modeAfter .between l
  | [] => rfl
  | ch :: l => by
    rw [List.dropWhile_cons]
    by_cases h : isWhitespace ch = true
    · rw [if_pos h, modeAfter_cons, modeAfter_dropWhile l]
      have hs : Mode.between.step ch = .between := by
        simp only [Mode.step]
        have : ∀ x : Char, isWhitespace x = false → ch ≠ x := fun x hx e => by rw [e, hx] at h; cases h
        rw [if_neg (this _ (by decide)), if_neg (this _ (by decide)), if_neg (this _ (by decide)), if_pos (by tauto)]
      rw [hs]
    · rw [if_neg h]

theorem NoCode_skippable {l : Str} : skippable l = true ↔ NoCode l := by
  unfold skippable trimStart
  constructor
  · intro h
    refine ⟨l.takeWhile isWhitespace, l.dropWhile isWhitespace, (List.takeWhile_append_dropWhile).symm,
      fun ch hch => List.mem_takeWhile_imp hch, ?_⟩
    cases hd : l.dropWhile isWhitespace with
    | nil => exact .inl rfl
    | cons c r =>
      rw [hd] at h
      simp only [beq_iff_eq] at h
      exact .inr ⟨r, by rw [h]⟩
  · rintro ⟨ws, c, rfl, hws, hc⟩
    rw [dropWhile_ws hc, List.dropWhile_eq_nil_iff.2 hws, List.nil_append]
    rcases hc with rfl | ⟨text, rfl⟩
    · rfl
    · rfl

theorem skippable_comment {l c c' : Str} (hc : Comment c) (hc' : Comment c') : skippable (l ++ c) = skippable (l ++ c') := by
  unfold skippable trimStart
  rw [dropWhile_ws hc, dropWhile_ws hc']
  cases l.dropWhile isWhitespace with
  | nil =>
    rcases hc with rfl | ⟨_, rfl⟩ <;> rcases hc' with rfl | ⟨_, rfl⟩ <;> rfl
  | cons a b => rfl

/-- All that is left is white space and comments. -/
structure Over (t : Tokenizer) : Prop where
  rest : t.rest = []
  file : ∀ l ∈ t.file, ∃ s, l = some s ∧ NoCode s
  multiline : t.multiline = false
  held : ∀ tk, t.peeked = [tk] → t.line ≠ 0 → tk = .end

/-- Related states. -/
structure CRel (t u : Tokenizer) : Prop where
  file : SameButComments NotEscaped t.file u.file
  rest : RestRel t.rest u.rest
  peeked : t.peeked = u.peeked
  multiline : t.multiline = u.multiline
  line : t.line = 0 ↔ u.line = 0
  boot : t.line = 0 → t.rest = [] ∧ u.rest = [] ∧ t.peeked = []

inductive LoadRel : Out TokenErr (Bool × Tokenizer) → Out TokenErr (Bool × Tokenizer) → Prop
  | loaded {t u : Tokenizer} : CRel t u → t.line ≠ 0 → t.rest ≠ [] → u.rest ≠ [] → LoadRel (.ok (true, t)) (.ok (true, u))
  | finished {t u : Tokenizer} : t.file = [] → u.file = [] → LoadRel (.ok (false, t)) (.ok (false, u))
  | err {e : TokenErr} : LoadRel (.err e) (.err e)

theorem not_skippable_ne {l : Str} (h : ¬ skippable l = true) : l ≠ [] := by
  rintro rfl
  exact h rfl

theorem loadFrom_rel {f f' : List (Option Str)} (h : SameButComments NotEscaped f f') : ∀ (t u : Tokenizer),
    t.peeked = u.peeked → t.multiline = u.multiline → LoadRel (loadFrom f t) (loadFrom f' u) := by
  induction h with
  | nil => exact fun t u _ _ => .finished rfl rfl
  | unreadable _ _ => exact fun t u _ _ => .err
  | same hf ih =>
    rename_i l f f'
    intro t u hp hm
    rw [loadFrom, loadFrom]
    by_cases hs : skippable l = true
    · rw [if_pos hs, if_pos hs]
      exact ih _ _ hp hm
    · rw [if_neg hs, if_neg hs]
      exact .loaded ⟨hf, .same _, hp, hm, by simp, fun h => by simp at h⟩ (by simp) (not_skippable_ne hs) (not_skippable_ne hs)
  | comment he hf ih =>
    rename_i l c c' f f'
    intro t u hp hm
    rw [loadFrom, loadFrom]
    have e := skippable_comment (l := l) he.2.1 he.2.2.1
    by_cases hs : skippable (l ++ c) = true
    · rw [if_pos hs, if_pos (e ▸ hs)]
      exact ih _ _ hp hm
    · rw [if_neg hs, if_neg (e ▸ hs)]
      exact .loaded ⟨hf, .comment he, hp, hm, by simp, fun h => by simp at h⟩ (by simp) (not_skippable_ne hs)
        (not_skippable_ne (e ▸ hs))
  | more hn _ ih =>
    intro t u hp hm
    rw [loadFrom, if_pos (NoCode_skippable.2 hn)]
    exact ih _ _ hp hm
  | less hn _ ih =>
    intro t u hp hm
    rw [loadFrom.eq_def (some _ :: _)]
    simp only [if_pos (NoCode_skippable.2 hn)]
    exact ih _ _ hp hm

theorem loadFrom_over : ∀ (f : List (Option Str)) (t : Tokenizer), (∀ l ∈ f, ∃ s, l = some s ∧ NoCode s) →
    ∃ n, loadFrom f t = .ok (false, { t with file := [], line := n })
  | [], t, _ => ⟨t.line, rfl⟩
  | x :: f, t, h => by
    obtain ⟨s, rfl, hs⟩ := h x (List.mem_cons_self)
    rw [loadFrom, if_pos (NoCode_skippable.2 hs)]
    exact loadFrom_over f _ fun l hl => h l (List.mem_cons_of_mem _ hl)

theorem next_over {t : Tokenizer} (hw : Wf t) (ho : Over t) : ∃ t', t.next = .ok (.end, t') ∧ Over t' := by
  cases hw with
  | fresh hf =>
    obtain ⟨n, hn⟩ := loadFrom_over t.file t ho.file
    have fin : atEnd { t with file := [], line := n } = .ok (.end, { t with file := [], line := n }) := by
      unfold atEnd
      rw [if_neg (by rw [ho.multiline]; exact Bool.false_ne_true)]
    have hov : Over { t with file := [], line := n } :=
      ⟨ho.rest, by simp, ho.multiline, fun tk h => by simp [hf.peeked] at h⟩
    refine ⟨_, ?_, hov⟩
    by_cases hl : t.line = 0
    · rw [next_boot hl ho.rest]
      simp only [loadNewLine, hn, Out.bind_ok]
      rw [if_neg Bool.false_ne_true]
      exact fin
    · rw [next_live hl, nextLoaded]
      simp only [hf.peeked]
      rw [if_pos ho.rest]
      simp only [loadNewLine, hn, Out.bind_ok, Bool.not_false, if_true]
      simp only [hf.peeked] at fin ⊢
      exact fin
  | held tk hp hl he =>
    refine ⟨{ t with peeked := [] }, ?_, ho.rest, ho.file, ho.multiline, fun tk h => by simp at h⟩
    rw [next_peeked hp hl, ho.held tk hp hl]
  | dead hl ha =>
    exact ⟨t, next_dead hl ha, ho⟩

/-- Related, or both at the end. -/
def CQ (t u : Tokenizer) : Prop := CRel t u ∨ (Over t ∧ Over u)

theorem CRel.step {t u : Tokenizer} {r r' : Str} (m : Bool) (h : CRel t u) (hr : RestRel r r') (hl : t.line ≠ 0) :
    CRel { t with multiline := m, rest := r } { u with multiline := m, rest := r' } :=
  ⟨h.file, hr, h.peeked, rfl, h.line, fun e => absurd e hl⟩

theorem CRel.token {t u : Tokenizer} {r r' : Str} (tk : Token) (h : CRel t u) (hr : RestRel r r') (hl : t.line ≠ 0) :
    Agree CQ (.ok (tk, { t with rest := r })) (.ok (tk, { u with rest := r' })) :=
  .ok (.inl ⟨h.file, hr, h.peeked, h.multiline, h.line, fun e => absurd e hl⟩)

theorem Either.tail {l c c' : Str} {ch : Char} (h : Either NotEscaped (ch :: l) c c') (hs : Mode.between.step ch = .between) :
    Either NotEscaped l c c' := by
  obtain ⟨a, b, c, d⟩ := h
  rw [modeAfter_cons, hs] at a d
  exact ⟨a, b, c, d⟩

/-- Results of the loops that agree. -/
inductive LoopRel {α : Type} : Out TokenErr (α × Str) → Out TokenErr (α × Str) → Prop
  | ok {w : α} {r r' : Str} : RestRel r r' → LoopRel (.ok (w, r)) (.ok (w, r'))
  | err {e : TokenErr} : LoopRel (.err e) (.err e)
  | panic {k : Panic} : LoopRel (.panic k) (.panic k)
  | diverge : LoopRel .diverge .diverge

theorem LoopRel.refl {α : Type} (x : Out TokenErr (α × Str)) : LoopRel x x := by
  match x with
  | .ok (w, r) => exact .ok (.same r)
  | .err e => exact .err
  | .panic k => exact .panic
  | .diverge => exact .diverge

theorem RestRel.drop {r r' : Str} (h : RestRel r r') : RestRel (r.dropWhile isWhitespace) (r'.dropWhile isWhitespace) := by
  cases h with
  | same => exact .same _
  | comment he =>
    rename_i l c c'
    rw [dropWhile_ws he.2.1, dropWhile_ws he.2.2.1]
    refine .comment ⟨?_, he.2.1, he.2.2.1, ?_⟩
    · rw [modeAfter_dropWhile]; exact he.1
    · rw [modeAfter_dropWhile]; exact he.2.2.2

theorem step_paren {ch : Char} (h : ch = '(' ∨ ch = ')') : Mode.between.step ch = .between := by
  rcases h with rfl | rfl <;> rfl

theorem step_dollar : Mode.between.step '$' = .word false := by decide

theorem RestRel.uncons {ch ch' : Char} {r r' : Str} (h : RestRel (ch :: r) (ch' :: r')) :
    (ch = ';' ∧ ch' = ';') ∨ (ch = ch' ∧ (ch = '(' ∨ ch = ')' → RestRel r r') ∧
      (ch = '$' → LoopRel (directiveLoop r.length ['$'] r) (directiveLoop r'.length ['$'] r')) ∧
      (ch = '"' → LoopRel ((quotedLoop r.length [] r) >>= fun x => .ok ((x.1, x.2.1), x.2.2))
        ((quotedLoop r'.length [] r') >>= fun x => .ok ((x.1, x.2.1), x.2.2))) ∧
      (ch ≠ '"' → LoopRel (stringLoop (ch :: r).length [] (ch :: r)) (stringLoop (ch' :: r').length [] (ch' :: r')))) := by
  generalize e1 : ch :: r = x at h
  generalize e2 : ch' :: r' = y at h
  cases h with
  | same =>
    obtain ⟨rfl, rfl⟩ := List.cons.inj (e1.trans e2.symm)
    exact .inr ⟨rfl, fun _ => .same _, fun _ => .refl _, fun _ => .refl _, fun _ => e1 ▸ .refl _⟩
  | comment he =>
    rename_i l c c'
    cases l with
    | nil =>
      simp only [List.nil_append] at e1 e2
      left
      constructor
      · rcases he.2.1 with h | ⟨_, h⟩
        · rw [← e1] at h; cases h
        · rw [← e1] at h; exact (List.cons.inj h).1
      · rcases he.2.2.1 with h | ⟨_, h⟩
        · rw [← e2] at h; cases h
        · rw [← e2] at h; exact (List.cons.inj h).1
    | cons d l =>
      rw [List.cons_append] at e1 e2
      obtain ⟨rfl, rfl⟩ := List.cons.inj e1
      obtain ⟨rfl, rfl⟩ := List.cons.inj e2
      refine .inr ⟨rfl, fun hp => .comment (Either.tail he (step_paren hp)), fun hd => ?_, fun hq => ?_, fun hq => ?_⟩
      · obtain ⟨a, b, b', d⟩ := he
        rw [modeAfter_cons, hd, step_dollar] at a d
        obtain ⟨w, l1, h1, h2, h3⟩ := stringLoop_comment l false 0 ['$'] (fun _ => rfl) a b b' d
        rw [directiveLoop_eq, directiveLoop_eq]
        simp only [Nat.add_zero] at h1 h2
        rw [h1, h2]
        exact .ok (.comment h3)
      · obtain ⟨a, b, b', d⟩ := he
        rw [modeAfter_cons, hq, show Mode.between.step '"' = .quoted from rfl] at a d
        obtain ⟨w, l1, h1, h2, h3⟩ := quotedLoop_comment l 0 [] a b b' d
        simp only [Nat.add_zero] at h1 h2
        rw [h1, h2]
        exact .ok (.comment h3)
      · obtain ⟨a, b, b', dd⟩ := he
        rw [modeAfter_cons, first_step hq, ← modeAfter_cons] at a dd
        obtain ⟨w, l1, h1, h2, h3⟩ := stringLoop_comment (ch' :: l) false 0 [] (fun _ => rfl) a b b' dd
        simp only [Nat.add_zero] at h1 h2
        rw [h1, h2]
        exact .ok (.comment h3)

theorem nextChar_rel {t u : Tokenizer} (h : CRel t u) (hp : t.peeked = []) (hl : t.line ≠ 0) (hrt : t.rest ≠ [])
    (hru : u.rest ≠ [])
    (ih : ∀ t1 u1 : Tokenizer, t1.size + u1.size < t.size + u.size → CRel t1 u1 → t1.peeked = [] → t1.line ≠ 0 →
      Agree CQ t1.next u1.next) : Agree CQ (nextChar next t) (nextChar next u) := by
  have stp : ∀ (r r' : Str) (m : Bool), r.length < t.rest.length → r'.length ≤ u.rest.length → RestRel r r' →
      Agree CQ (next { t with multiline := m, rest := r }) (next { u with multiline := m, rest := r' }) := fun r r' m h1 h2 hr =>
    ih _ _ (by simp only [Tokenizer.size]; omega) (h.step m hr hl) hp hl
  have hr := h.rest
  obtain ⟨ch, r, et⟩ := List.exists_cons_of_ne_nil hrt
  obtain ⟨ch', r', eu⟩ := List.exists_cons_of_ne_nil hru
  have lt : ∀ x : Str, x.length ≤ r.length → x.length < t.rest.length := fun x hx => by rw [et]; simp; omega
  have lu : ∀ x : Str, x.length ≤ r'.length → x.length ≤ u.rest.length := fun x hx => by rw [eu]; simp; omega
  have sc : Agree CQ (next { t with rest := [] }) (next { u with rest := [] }) := by
    have := stp [] [] t.multiline (lt _ (by simp)) (lu _ (by simp)) (.same [])
    have e : ({ u with multiline := t.multiline, rest := [] } : Tokenizer) = { u with rest := [] } := by rw [h.multiline]
    rw [e] at this
    exact this
  have hr0 := hr
  rw [et, eu] at hr
  rw [nextChar, nextChar, et, eu]
  simp only
  rcases hr.uncons with ⟨rfl, rfl⟩ | ⟨rfl, hpar, hdir, hquo, hstr⟩
  · simp only [show ¬ (';' = ' ' ∨ ';' = '\t') by decide, show ¬ (';' = '$') by decide, show ¬ (';' = '"') by decide,
      show ¬ (';' = '(') by decide, show ¬ (';' = ')') by decide, if_false, if_true]
    exact sc
  · rw [← h.multiline]
    by_cases h1 : ch = ' ' ∨ ch = '\t'
    · rw [if_pos h1, if_pos h1]
      exact h.token _ hr0.drop hl
    rw [if_neg h1, if_neg h1]
    by_cases h2 : ch = '$'
    · rw [if_pos h2, if_pos h2]
      unfold processDirective
      rw [et, eu]
      simp only [List.tail_cons]
      have hd := hdir h2
      generalize directiveLoop r.length ['$'] r = x at hd
      generalize directiveLoop r'.length ['$'] r' = y at hd
      cases hd with
      | ok hr1 =>
        rename_i w _ _
        simp only [Out.bind_ok]
        by_cases hw : w = "$ORIGIN".toList
        · rw [if_pos hw, if_pos hw]; exact h.token _ hr1 hl
        · rw [if_neg hw, if_neg hw]
          by_cases hw : w = "$INCLUDE".toList
          · rw [if_pos hw, if_pos hw]; exact h.token _ hr1 hl
          · rw [if_neg hw, if_neg hw]; exact .err
      | err => exact .err
      | panic => exact .panic
      | diverge => exact .diverge
    rw [if_neg h2, if_neg h2]
    by_cases h3 : ch = '"'
    · rw [if_pos h3, if_pos h3]
      unfold processQuotedString
      rw [et, eu]
      simp only [List.tail_cons]
      have hd := hquo h3
      generalize quotedLoop r.length [] r = x at hd
      generalize quotedLoop r'.length [] r' = y at hd
      match x, y, hd with
      | .ok (cl, w, r1), .ok (cl', w', r1'), hd =>
        simp only [Out.bind_ok] at hd ⊢
        cases hd with
        | ok hr1 =>
          by_cases hc : cl = true
          · rw [if_pos hc, if_pos hc]; exact h.token _ hr1 hl
          · rw [if_neg hc, if_neg hc]; exact .err
      | .err _, .err _, .err => exact .err
      | .panic _, .panic _, .panic => exact .panic
      | .diverge, .diverge, _ => exact .diverge
    rw [if_neg h3, if_neg h3]
    by_cases h4 : ch = '('
    · rw [if_pos h4, if_pos h4]
      by_cases hm : t.multiline = true
      · rw [if_pos hm, if_pos hm]; exact .err
      · rw [if_neg hm, if_neg hm]
        exact stp r r' true (lt _ (le_refl _)) (lu _ (le_refl _)) (hpar (.inl h4))
    rw [if_neg h4, if_neg h4]
    by_cases h5 : ch = ')'
    · rw [if_pos h5, if_pos h5]
      by_cases hm : (!t.multiline) = true
      · rw [if_pos hm, if_pos hm]; exact .err
      · rw [if_neg hm, if_neg hm]
        exact stp r r' false (lt _ (le_refl _)) (lu _ (le_refl _)) (hpar (.inr h5))
    rw [if_neg h5, if_neg h5]
    by_cases h6 : ch = ';'
    · rw [if_pos h6, if_pos h6]
      have e : ({ u with rest := [] } : Tokenizer) = { u with rest := [], multiline := t.multiline } := by rw [h.multiline]
      rw [e] at sc
      exact sc
    rw [if_neg h6, if_neg h6]
    unfold processStringOrNumber
    rw [et, eu]
    have hd := hstr h3
    generalize stringLoop (ch :: r).length [] (ch :: r) = x at hd
    generalize stringLoop (ch :: r').length [] (ch :: r') = y at hd
    cases hd with
    | ok hr1 => exact h.token _ hr1 hl
    | err => exact .err
    | panic => exact .panic
    | diverge => exact .diverge

theorem next_semicolon {u : Tokenizer} {x : Str} (hp : u.peeked = []) (hl : u.line ≠ 0) (hr : u.rest = ';' :: x) :
    u.next = ({ u with rest := [] } : Tokenizer).next := by
  rw [next_live hl, nextLoaded, hp]
  simp only
  rw [if_neg (by rw [hr]; simp), nextChar, hr]
  simp only [show ¬ (';' = ' ' ∨ ';' = '\t') by decide, show ¬ (';' = '$') by decide, show ¬ (';' = '"') by decide,
    show ¬ (';' = '(') by decide, show ¬ (';' = ')') by decide, if_false, if_true, hp]

theorem crel_next : ∀ (n : Nat) (t u : Tokenizer), t.size + u.size < n → CRel t u → t.peeked = [] → t.line ≠ 0 →
    Agree CQ t.next u.next
  | 0, _, _, h, _, _, _ => by omega
  | n + 1, t, u, hn, h, hp, hl => by
    have hpu : u.peeked = [] := by rw [← h.peeked, hp]
    have hlu : u.line ≠ 0 := fun e => hl (h.line.2 e)
    have ih : ∀ t1 u1 : Tokenizer, t1.size + u1.size < t.size + u.size → CRel t1 u1 → t1.peeked = [] → t1.line ≠ 0 →
      Agree CQ t1.next u1.next := fun t1 u1 hs h1 h2 h3 => crel_next n t1 u1 (by omega) h1 h2 h3
    by_cases hrt : t.rest = []
    · by_cases hru : u.rest = []
      · rw [next_live hl, next_live hlu, nextLoaded, nextLoaded, hp, hpu]
        simp only
        rw [if_pos hrt, if_pos hru]
        have key := loadFrom_rel h.file t u h.peeked h.multiline
        have st := fun b t1 => (loadFrom_sat (np := False) (nd := False) t.file t hrt rfl).of_ok (a := (b, t1))
        have su := fun b t1 => (loadFrom_sat (np := False) (nd := False) u.file u hru rfl).of_ok (a := (b, t1))
        unfold loadNewLine
        generalize loadFrom t.file t = x at key st
        generalize loadFrom u.file u = y at key su
        cases key with
        | loaded hr h0 ht hu =>
          rename_i t1 u1
          have st := st _ _ rfl
          have su := su _ _ rfl
          simp only at st su
          simp only [Out.bind_ok, Bool.not_true, if_neg Bool.false_ne_true]
          rw [← hr.multiline]
          by_cases hm : (!t1.multiline) = true
          · rw [if_pos hm, if_pos hm]
            exact .ok (.inl hr)
          · rw [if_neg hm, if_neg hm]
            have h1 := (st.2.2.2.1 trivial).2.2
            have h2 := (su.2.2.2.1 trivial).2.2
            exact nextChar_rel hr (by rw [st.2.1, hp]) h0 ht hu fun t2 u2 hs => ih t2 u2 (by omega)
        | finished ft fu =>
          rename_i t1 u1
          have st := st _ _ rfl
          have su := su _ _ rfl
          simp only at st su
          simp only [Out.bind_ok, Bool.not_false, if_true]
          unfold atEnd
          have em : t1.multiline = u1.multiline := by rw [st.2.2.1, su.2.2.1, h.multiline]
          rw [← em]
          by_cases hm : t1.multiline = true
          · rw [if_pos hm, if_pos hm]; exact .err
          · rw [if_neg hm, if_neg hm]
            have hm : t1.multiline = false := by simpa using hm
            refine .ok (.inr ⟨⟨(st.2.2.2.2 trivial).1, by simp [ft], hm, fun tk h => ?_⟩,
              ⟨(su.2.2.2.2 trivial).1, by simp [fu], em ▸ hm, fun tk h => ?_⟩⟩)
            · rw [st.2.1, hp] at h; cases h
            · rw [su.2.1, hpu] at h; cases h
        | err => exact .err
      · -- a comment on one side only
        obtain ⟨x, hx⟩ : ∃ x, u.rest = ';' :: x := by
          have hr := h.rest
          rw [hrt] at hr
          generalize eu : u.rest = ru at hr hru
          generalize e : ([] : Str) = z at hr
          cases hr with
          | same => exact absurd e.symm hru
          | comment he =>
            rename_i l c c'
            obtain ⟨rfl, rfl⟩ := List.append_eq_nil_iff.1 e.symm
            rcases he.2.2.1 with h | h
            · rw [h] at hru; exact absurd rfl hru
            · exact h
        rw [next_semicolon hpu hlu hx]
        refine ih _ _ ?_ ⟨h.file, ?_, h.peeked, h.multiline, h.line, fun e => absurd e hl⟩ hp hl
        · simp only [Tokenizer.size, hx, List.length_cons, List.length_nil]; omega
        · rw [hrt]; exact .same []
    · by_cases hru : u.rest = []
      · obtain ⟨x, hx⟩ : ∃ x, t.rest = ';' :: x := by
          have hr := h.rest
          rw [hru] at hr
          generalize eu : t.rest = ru at hr hrt
          generalize e : ([] : Str) = z at hr
          cases hr with
          | same => exact absurd e.symm hrt
          | comment he =>
            rename_i l c c'
            obtain ⟨rfl, rfl⟩ := List.append_eq_nil_iff.1 e.symm
            rcases he.2.1 with h | h
            · rw [h] at hrt; exact absurd rfl hrt
            · exact h
        rw [next_semicolon hp hl hx]
        refine ih _ _ ?_ ⟨h.file, ?_, h.peeked, h.multiline, h.line, fun e => absurd e hl⟩ hp hl
        · simp only [Tokenizer.size, hx, List.length_cons, List.length_nil]; omega
        · rw [hru]; exact .same []
      · rw [next_live hl, next_live hlu, nextLoaded, nextLoaded, hp, hpu]
        simp only
        rw [if_neg hrt, if_neg hru]
        exact nextChar_rel h hp hl hrt hru ih

/-- Files that differ in comments. -/
def CommentRel (t u : Tokenizer) : Prop := Wf t ∧ Wf u ∧ CQ t u

theorem crel_next_any {t u : Tokenizer} (hw : Wf t) (hw' : Wf u) (h : CRel t u) : Agree CQ t.next u.next := by
  by_cases hl : t.line = 0
  · obtain ⟨hrt, hru, hp⟩ := h.boot hl
    have hpu : u.peeked = [] := by rw [← h.peeked, hp]
    rw [next_boot hl hrt, next_boot (h.line.1 hl) hru]
    have key := loadFrom_rel h.file t u h.peeked h.multiline
    have st := fun b t1 => (loadFrom_sat (np := False) (nd := False) t.file t hrt rfl).of_ok (a := (b, t1))
    have su := fun b t1 => (loadFrom_sat (np := False) (nd := False) u.file u hru rfl).of_ok (a := (b, t1))
    unfold loadNewLine
    generalize loadFrom t.file t = x at key st
    generalize loadFrom u.file u = y at key su
    cases key with
    | loaded hr h0 ht hu =>
      rename_i t1 u1
      have st := st _ _ rfl
      simp only at st
      simp only [Out.bind_ok]
      rw [if_pos trivial, if_pos trivial, ← next_live h0, ← next_live fun e => h0 (hr.line.2 e)]
      exact crel_next _ t1 u1 (Nat.lt_succ_self _) hr (by rw [st.2.1, hp]) h0
    | finished ft fu =>
      rename_i t1 u1
      have st := st _ _ rfl
      have su := su _ _ rfl
      simp only at st su
      simp only [Out.bind_ok]
      rw [if_neg Bool.false_ne_true, if_neg Bool.false_ne_true]
      unfold atEnd
      have em : t1.multiline = u1.multiline := by rw [st.2.2.1, su.2.2.1, h.multiline]
      rw [← em]
      by_cases hm : t1.multiline = true
      · rw [if_pos hm, if_pos hm]; exact .err
      · rw [if_neg hm, if_neg hm]
        have hm : t1.multiline = false := by simpa using hm
        refine .ok (.inr ⟨⟨(st.2.2.2.2 trivial).1, by simp [ft], hm, fun tk h => ?_⟩,
          ⟨(su.2.2.2.2 trivial).1, by simp [fu], em ▸ hm, fun tk h => ?_⟩⟩)
        · rw [st.2.1, hp] at h; cases h
        · rw [su.2.1, hpu] at h; cases h
    | err => exact .err
  · have hlu : u.line ≠ 0 := fun e => hl (h.line.2 e)
    cases hw with
    | fresh hf => exact crel_next _ t u (Nat.lt_succ_self _) h hf.peeked hl
    | held tk hp _ _ =>
      rw [next_peeked hp hl, next_peeked (h.peeked ▸ hp) hlu]
      exact .ok (.inl ⟨h.file, h.rest, rfl, h.multiline, h.line, fun e => absurd e hl⟩)
    | dead h0 _ => exact absurd h0 hl

theorem same_of_over {ok : Mode → Prop} : ∀ {f f' : List (Option Str)}, (∀ l ∈ f, ∃ s, l = some s ∧ NoCode s) →
    (∀ l ∈ f', ∃ s, l = some s ∧ NoCode s) → SameButComments ok f f'
  | [], [], _, _ => .nil
  | x :: f, f', h, h' => by
    obtain ⟨s, rfl, hs⟩ := h x List.mem_cons_self
    exact .more hs (same_of_over (fun l hl => h l (List.mem_cons_of_mem _ hl)) h')
  | [], y :: f', h, h' => by
    obtain ⟨s, rfl, hs⟩ := h' y List.mem_cons_self
    exact .less hs (same_of_over h fun l hl => h' l (List.mem_cons_of_mem _ hl))

theorem comment_bisim : Bisim CommentRel where
  left _ _ h := h.1
  right _ _ h := h.2.1
  next t u h := by
    obtain ⟨hw, hw', h⟩ := h
    have key : Agree CQ t.next u.next := by
      rcases h with h | ⟨h, h'⟩
      · exact crel_next_any hw hw' h
      · obtain ⟨t', e, ho⟩ := next_over hw h
        obtain ⟨u', e', ho'⟩ := next_over hw' h'
        rw [e, e']
        exact .ok (.inr ⟨ho, ho'⟩)
    have kt := fun tk t1 => next_wf (t := t) (t' := t1) (tk := tk) hw
    have ku := fun tk t1 => next_wf (t := u) (t' := t1) (tk := tk) hw'
    generalize t.next = x at key kt
    generalize u.next = y at key ku
    cases key with
    | ok h => exact .ok ⟨wf_of_next (kt _ _ rfl).1, wf_of_next (ku _ _ rfl).1, h⟩
    | err => exact .err
    | panic => exact .panic
    | diverge => exact .diverge
  push t u t' u' tk h et eu h' := by
    obtain ⟨hw, hw', h⟩ := h
    obtain ⟨hw1, hw1', h'⟩ := h'
    have k := next_wf hw et
    have k' := next_wf hw' eu
    refine ⟨push_wf (t := t) k.1 k.2 (next_line hw et), push_wf (t := u) k'.1 k'.2 (next_line hw' eu), ?_⟩
    have over : ∀ x : Tokenizer, Over x → tk = .end → Over { x with peeked := x.peeked ++ [tk] } := fun x ho he =>
      ⟨ho.rest, ho.file, ho.multiline, fun tk' h _ => by
        simp only at h
        cases hx : x.peeked with
        | nil =>
          rw [hx] at h
          simp only [List.nil_append, List.cons.injEq, and_true] at h
          rw [← h, he]
        | cons a b =>
          rw [hx] at h
          have := congrArg List.length h
          simp at this⟩
    by_cases he : tk = .end
    · refine .inr ⟨over t' ?_ he, over u' ?_ he⟩
      · have a := k.2 he
        refine ⟨a.rest, by simp [a.file], a.multiline, fun tk' h h0 => ?_⟩
        rcases k.1 with hf | hd
        · rw [hf.peeked] at h; cases h
        · exact absurd hd.1 h0
      · have a := k'.2 he
        refine ⟨a.rest, by simp [a.file], a.multiline, fun tk' h h0 => ?_⟩
        rcases k'.1 with hf | hd
        · rw [hf.peeked] at h; cases h
        · exact absurd hd.1 h0
    · rcases h' with h' | ⟨ho, ho'⟩
      · have l1 := next_line hw et he
        refine .inl ⟨h'.file, h'.rest, ?_, h'.multiline, h'.line, fun e => absurd e l1⟩
        simp only [h'.peeked]
      · have pe : ∀ x : Tokenizer, (Fresh x ∨ (x.line = 0 ∧ AtEnd x)) → x.line ≠ 0 → x.peeked = [] := fun x hx h0 => by
          rcases hx with hx | hx
          · exact hx.peeked
          · exact absurd hx.1 h0
        have l1 := next_line hw et he
        have l2 := next_line hw' eu he
        refine .inl ⟨same_of_over ho.file ho'.file, ?_, ?_, ?_, ⟨fun e => absurd e l1, fun e => absurd e l2⟩,
          fun e => absurd e l1⟩
        · simp only [ho.rest, ho'.rest]; exact .same []
        · simp only [pe t' k.1 l1, pe u' k'.1 l2]
        · simp only [ho.multiline, ho'.multiline]

theorem replies_comments {f f' : List (Option Str)} (h : SameButComments NotEscaped f f') (cs : List Call) :
    replies cs (start f) = replies cs (start f') :=
  comment_bisim.replies cs ⟨.fresh (start_fresh f), .fresh (start_fresh f'),
    .inl ⟨h, .same [], rfl, rfl, Iff.rfl, fun _ => ⟨rfl, rfl, rfl⟩⟩⟩

end Ariadne.Tokenizer
