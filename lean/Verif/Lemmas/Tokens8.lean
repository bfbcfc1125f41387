import Verif.Lemmas.Tokens7
import Verif.Lemmas.ZoneSame

/-! # The loader: joining lines in parentheses -/

namespace Ariadne.Tokenizer

open Spec

theorem processDirective_ne {tk : Token} (h1 : tk ≠ .originDir) (h2 : tk ≠ .includeDir) (t : Tokenizer) :
    Sat False False t.processDirective fun r => r.1 ≠ tk := by
  unfold processDirective
  refine Sat.bind (sat_any _) fun r _ _ => ?_
  exact Sat.ite (fun _ => h1.symm) fun _ => Sat.ite (fun _ => h2.symm) fun _ => trivial

theorem processQuotedString_ne {tk : Token} (h : ∀ s, tk ≠ .qString s) (t : Tokenizer) : Sat False False t.processQuotedString fun r => r.1 ≠ tk := by
  unfold processQuotedString
  refine Sat.bind (sat_any _) fun r _ _ => ?_
  exact Sat.ite (fun _ => (h _).symm) fun _ => trivial

theorem processStringOrNumber_ne {tk : Token} (h : ∀ s, wordToken s ≠ tk) (t : Tokenizer) :
    Sat False False t.processStringOrNumber fun r => r.1 ≠ tk := by
  unfold processStringOrNumber
  exact Sat.bind (sat_any _) fun r _ _ => h _

theorem wordToken_ne_newLine (s : Str) : wordToken s ≠ .newLine := by
  unfold wordToken
  split
  · simp
  · split <;> simp

theorem nextChar_newLine {recur : Tokenizer → Out TokenErr (Token × Tokenizer)} {t t' : Tokenizer}
    (h : nextChar recur t = .ok (.newLine, t')) (hr : t.rest ≠ []) :
    ∃ t1 : Tokenizer, t1.size < t.size ∧ t1.peeked = t.peeked ∧ t1.line = t.line ∧ t1.file = t.file ∧ recur t1 = .ok (.newLine, t') := by
  obtain ⟨ch, rest, hrest⟩ : ∃ ch rest, t.rest = ch :: rest := by
    cases h : t.rest with
    | nil => exact absurd h hr
    | cons a b => exact ⟨a, b, rfl⟩
  have sz : ∀ (r : Str) (m : Bool), r.length ≤ rest.length →
      ({ t with multiline := m, rest := r } : Tokenizer).size < t.size := fun r m hle => by
    simp only [Tokenizer.size, hrest, List.length_cons]; omega
  rw [nextChar, hrest] at h
  simp only at h
  split at h
  · simp [processWhitespace] at h
  · split at h
    · exact absurd rfl ((processDirective_ne (by simp) (by simp) t).of_ok h)
    · split at h
      · exact absurd rfl ((processQuotedString_ne (by simp) t).of_ok h)
      · split at h
        · split at h
          · simp at h
          · exact ⟨_, sz rest true (le_refl _), rfl, rfl, rfl, h⟩
        · split at h
          · split at h
            · simp at h
            · exact ⟨_, sz rest false (le_refl _), rfl, rfl, rfl, h⟩
          · split at h
            · exact ⟨_, sz [] t.multiline (by simp), rfl, rfl, rfl, h⟩
            · exact absurd rfl ((processStringOrNumber_ne wordToken_ne_newLine t).of_ok h)

/-- At the beginning of a line of the file. -/
structure AtLine (f : List (Option Str)) (t : Tokenizer) : Prop where
  mem : some t.rest ∈ f
  code : ¬ skippable t.rest = true
  closed : t.multiline = false

theorem loadFrom_line : ∀ (f : List (Option Str)) (t t1 : Tokenizer), loadFrom f t = .ok (true, t1) →
    some t1.rest ∈ f ∧ ¬ skippable t1.rest = true ∧ t1.file <:+ f ∧ t1.multiline = t.multiline
  | [], t, t1, h => by simp [loadFrom] at h
  | none :: f, t, t1, h => by simp [loadFrom] at h
  | some l :: f, t, t1, h => by
    rw [loadFrom] at h
    by_cases hs : skippable l = true
    · rw [if_pos hs] at h
      have k := loadFrom_line f _ t1 h
      exact ⟨List.mem_cons_of_mem _ k.1, k.2.1, k.2.2.1.trans (List.suffix_cons _ _), k.2.2.2⟩
    · rw [if_neg hs] at h
      simp only [Out.ok.injEq, Prod.mk.injEq, true_and] at h
      subst h
      exact ⟨List.mem_cons_self, hs, List.suffix_cons _ _, rfl⟩

theorem next_newLine_live : ∀ (n : Nat) {t t' : Tokenizer}, t.size < n → t.peeked = [] → t.line ≠ 0 →
    t.next = .ok (.newLine, t') → AtLine t.file t'
  | 0, t, t', h, _, _, _ => by omega
  | n + 1, t, t', hn, hp, hl, h => by
    rw [next_live hl] at h
    unfold nextLoaded at h
    rw [hp] at h
    simp only at h
    by_cases hr : t.rest = []
    · rw [if_pos hr] at h
      cases hload : t.loadNewLine with
      | ok r =>
        obtain ⟨b, t1⟩ := r
        have hs := (loadFrom_sat (np := False) (nd := False) t.file t hr rfl).of_ok hload
        simp only at hs
        rw [hload] at h
        simp only [Out.bind_ok] at h
        cases b with
        | false =>
          simp only [Bool.not_false, if_true] at h
          exact absurd (atEnd_ok h).1 (by simp)
        | true =>
          have hline := loadFrom_line _ _ _ hload
          simp only [Bool.not_true, if_neg Bool.false_ne_true] at h
          split at h
          · rename_i hm
            simp only [Out.ok.injEq, Prod.mk.injEq, true_and] at h
            subst h
            exact ⟨hline.1, hline.2.1, by simpa using hm⟩
          · have h3 := hs.2.2.2.1 rfl
            obtain ⟨t2, h2, hp2, hl2, hf2, e⟩ := nextChar_newLine h h3.2.1
            have k := next_newLine_live n (by omega) (by rw [hp2, hs.2.1, hp]) (by rw [hl2]; exact h3.1) e
            exact ⟨hline.2.2.1.subset (hf2 ▸ k.mem), k.code, k.closed⟩
      | err e => rw [hload] at h; simp at h
      | panic e => rw [hload] at h; simp at h
      | diverge => rw [hload] at h; simp at h
    · rw [if_neg hr] at h
      obtain ⟨t2, h2, hp2, hl2, hf2, e⟩ := nextChar_newLine h hr
      have k := next_newLine_live n (by omega) (by rw [hp2, hp]) (by rw [hl2]; exact hl) e
      exact ⟨hf2 ▸ k.mem, k.code, k.closed⟩

theorem next_newLine {t t' : Tokenizer} (hf : Fresh t) (h : t.next = .ok (.newLine, t')) : AtLine t.file t' := by
  by_cases hl : t.line = 0
  · rw [next_boot hl (hf.boot hl)] at h
    cases hload : t.loadNewLine with
    | ok r =>
      obtain ⟨b, t1⟩ := r
      have hs := (loadFrom_sat (np := False) (nd := False) t.file t (hf.boot hl) rfl).of_ok hload
      simp only at hs
      rw [hload] at h
      simp only [Out.bind_ok] at h
      cases b with
      | false =>
        rw [if_neg Bool.false_ne_true] at h
        exact absurd (atEnd_ok h).1 (by simp)
      | true =>
        have hline := loadFrom_line _ _ _ hload
        rw [if_pos rfl] at h
        have h3 := hs.2.2.2.1 rfl
        rw [← next_live h3.1] at h
        have k := next_newLine_live _ (Nat.lt_succ_self _) (by rw [hs.2.1, hf.peeked]) h3.1 h
        exact ⟨hline.2.2.1.subset k.mem, k.code, k.closed⟩
    | err e => rw [hload] at h; simp at h
    | panic e => rw [hload] at h; simp at h
    | diverge => rw [hload] at h; simp at h
  · exact next_newLine_live _ (Nat.lt_succ_self _) hf.peeked hl h

theorem next_file {t t' : Tokenizer} {tk : Token} (hf : Fresh t) (h : t.next = .ok (tk, t')) : t'.file <:+ t.file :=
  ((next_sat (np := False) (nd := False) (pl := False) hf (fun h => h.elim) (fun h => h.elim)).of_ok h).after.file

theorem nab_fresh : ∀ (n : Nat) {t t' : Tokenizer} {tk : Token}, t.size < n → Fresh t → t.nextAfterBlanks = .ok (tk, t') →
    t'.file <:+ t.file ∧ (tk = .newLine → AtLine t.file t')
  | 0, t, t', tk, h, _, _ => by omega
  | n + 1, t, t', tk, hn, hf, h => by
    rw [nextAfterBlanks_fresh hf] at h
    match hx : t.next with
    | .ok (tk1, t1) =>
      rw [hx] at h
      simp only [Out.bind_ok] at h
      have k := (next_sat (np := False) (nd := False) (pl := False) hf (fun h => h.elim) (fun h => h.elim)).of_ok hx
      by_cases hb : tk1 = .blank
      · rw [if_pos hb] at h
        have := k.blank hb
        simp only at this
        have ih := nab_fresh n (t := t1) (by omega) (k.fresh (by rw [hb]; simp)) h
        exact ⟨ih.1.trans k.after.file, fun e => ⟨k.after.file.subset (ih.2 e).mem, (ih.2 e).code, (ih.2 e).closed⟩⟩
      · rw [if_neg hb] at h
        simp only [Out.ok.injEq, Prod.mk.injEq] at h
        obtain ⟨rfl, rfl⟩ := h
        exact ⟨k.after.file, fun e => next_newLine hf (e ▸ hx)⟩
    | .err e => rw [hx] at h; simp at h
    | .panic e => rw [hx] at h; simp at h
    | .diverge => rw [hx] at h; simp at h

/-- No line of the file begins with an opening parenthesis. -/
def NoLead (f : List (Option Str)) : Prop := ∀ l, some l ∈ f → l.head? ≠ some '('

/-- At the beginning of a line. -/
def Begins (t : Tokenizer) : Prop := ¬ skippable t.rest = true ∧ t.rest.head? ≠ some '(' ∧ t.multiline = false

theorem AtLine.begins {f : List (Option Str)} {t : Tokenizer} (h : AtLine f t) (hf : NoLead f) : Begins t := ⟨h.code, hf _ h.mem, h.closed⟩

/-- Within entries, not yet in the second line. -/
structure Inside (p : Lines) (t u : Tokenizer) : Prop where
  left : Wf t
  right : Wf u
  early : Early p t u
  lead : NoLead t.file
  held : t.peeked = [.newLine] → Begins t

/-- At the beginning of an entry, not yet in the second line. -/
structure Ahead (p : Lines) (t u : Tokenizer) : Prop where
  left : Wf t
  right : Wf u
  early : Early p t u
  lead : NoLead t.file
  peeked : t.peeked = []
  begins : (t.line = 0 ∧ t.multiline = false) ∨ Begins t

theorem Ahead.inside {p : Lines} {t u : Tokenizer} (h : Ahead p t u) : Inside p t u :=
  ⟨h.left, h.right, h.early, h.lead, fun e => by rw [h.peeked] at e; cases e⟩

/-- Within entries. -/
def JM (p : Lines) (t u : Tokenizer) : Prop := CommentRel t u ∨ Inside p t u

/-- At the beginning of entries. -/
def JE (p : Lines) (t u : Tokenizer) : Prop := CommentRel t u ∨ Ahead p t u

theorem early_not_atEnd {p : Lines} {t u : Tokenizer} (h : Early p t u) (a : AtEnd t) : False := h.file_ne a.file

/-- The next token that is no blank, not yet in the second line. -/
theorem inside_nab {p : Lines} {t u t1 u1 : Tokenizer} {tk : Token} (h : Inside p t u) (et : t.nextAfterBlanks = .ok (tk, t1))
    (eu : u.nextAfterBlanks = .ok (tk, u1)) (he : Early p t1 u1) :
    Inside p t1 u1 ∧ Fresh t1 ∧ (tk = .newLine → Ahead p t1 u1) ∧ tk ≠ .end ∧ tk ≠ .blank ∧ t1.line ≠ 0 := by
  have kt := nextAfterBlanks_ok _ (Nat.lt_succ_self _) h.left et
  have ku := nextAfterBlanks_ok _ (Nat.lt_succ_self _) h.right eu
  have hne : tk ≠ .end := fun e => early_not_atEnd he (kt.2.1 e)
  have hf : Fresh t1 := by
    rcases kt.1 with hf | hd
    · exact hf
    · exact (early_not_atEnd he hd.2).elim
  have key : NoLead t1.file ∧ (tk = .newLine → Begins t1) := by
    cases h.left with
    | fresh hft =>
      have k := nab_fresh _ (Nat.lt_succ_self _) hft et
      exact ⟨fun l hl => h.lead l (k.1.subset hl), fun e => (k.2 e).begins h.lead⟩
    | held tk0 hp hl0 he0 =>
      rw [nextAfterBlanks_held hp hl0] at et
      by_cases hb : tk0 = .blank
      · rw [if_pos hb] at et
        have k := nab_fresh _ (t := { t with peeked := [] }) (Nat.lt_succ_self _) ⟨rfl, fun e => absurd e hl0⟩ et
        exact ⟨fun l hl => h.lead l (k.1.subset hl), fun e => (k.2 e).begins h.lead⟩
      · rw [if_neg hb] at et
        simp only [Out.ok.injEq, Prod.mk.injEq] at et
        obtain ⟨rfl, rfl⟩ := et
        exact ⟨h.lead, fun e => h.held (by rw [hp, e])⟩
    | dead hl ha => exact (early_not_atEnd h.early ha).elim
  exact ⟨⟨wf_of_next kt.1, wf_of_next ku.1, he, key.1, fun e => by rw [hf.peeked] at e; cases e⟩, hf,
    fun e => ⟨wf_of_next kt.1, wf_of_next ku.1, he, key.1, hf.peeked, .inr (key.2 e)⟩, hne, kt.2.2.2, kt.2.2.1 hne⟩

open ZoneParser (Val Held Sim)

theorem agree_of {R : Tokenizer → Tokenizer → Prop} {x y : Out TokenErr (Token × Tokenizer)} (h : Agree R x y) : ZoneParser.Agree (Val R) x y := by
  cases h with
  | ok h => exact ⟨rfl, h⟩
  | err => rfl
  | panic => rfl
  | diverge => trivial

theorem comment_held {p : Lines} {t u : Tokenizer} (h : CommentRel t u) : Held (JM p) t u :=
  ⟨.inl h, agree_of ((comment_bisim.next t u h).mono fun _ _ h => .inl h)⟩

/-- Putting back a token. -/
theorem push_held {p : Lines} {t u : Tokenizer} {tk : Token} (h : Inside p t u) (hf : Fresh t) (hl : t.line ≠ 0) (hn : tk ≠ .end)
    (hb : tk = .newLine → Begins t) :
    Held (JM p) { t with peeked := t.peeked ++ [tk] } { u with peeked := u.peeked ++ [tk] } := by
  have hlu : u.line ≠ 0 := fun e => hl (h.early.line.2 e)
  have hpu : u.peeked = [] := by rw [← h.early.peeked, hf.peeked]
  have et : ({ t with peeked := t.peeked ++ [tk] } : Tokenizer).peeked = [tk] := by simp [hf.peeked]
  have eu : ({ u with peeked := u.peeked ++ [tk] } : Tokenizer).peeked = [tk] := by simp [hpu]
  refine ⟨.inr ⟨.held tk et hl fun e => absurd e hn, .held tk eu hlu fun e => absurd e hn, h.early.push _ _ (by rw [h.early.peeked]), h.lead, ?_⟩, ?_⟩
  · intro e
    rw [et] at e
    simp only [List.cons.injEq, and_true] at e
    exact hb e
  · rw [next_peeked et hl, next_peeked eu hlu]
    refine ⟨rfl, .inr ?_⟩
    have e1 : ({ t with peeked := [] } : Tokenizer) = t := by
      have := hf.peeked
      cases t
      simp only at this
      subst this
      rfl
    have e2 : ({ u with peeked := [] } : Tokenizer) = u := by
      cases u
      simp only at hpu
      subst hpu
      rfl
    simp only
    rw [e1, e2]
    exact h

theorem jm_nab {p : Lines} {t u : Tokenizer} (h : JM p t u) :
    ZoneParser.Agree (fun x y => x.1 = y.1 ∧ JM p x.2 y.2 ∧ (x.1 = .newLine ∨ x.1 = .end → JE p x.2 y.2)) t.nextAfterBlanks u.nextAfterBlanks := by
  have com : ∀ {t2 u2 : Tokenizer}, CommentRel t2 u2 →
      ZoneParser.Agree (fun x y => x.1 = y.1 ∧ JM p x.2 y.2 ∧ (x.1 = .newLine ∨ x.1 = .end → JE p x.2 y.2)) t2.nextAfterBlanks u2.nextAfterBlanks :=
    fun h2 => (agree_of (comment_bisim.run h2 .nextAfterBlanks)).mono fun _ _ h => ⟨h.1, .inl h.2, fun _ => .inl h.2⟩
  rcases h with h | h
  · exact com h
  · rcases early_core' h.left h.right h.early with ⟨t2, u2, e1, e2, h2⟩ | h2
    · rw [e1, e2]
      exact com h2
    · have key := fun tk t1 u1 => inside_nab (tk := tk) (t1 := t1) (u1 := u1) h
      generalize t.nextAfterBlanks = x at h2 key
      generalize u.nextAfterBlanks = y at h2 key
      cases h2 with
      | ok h2 =>
        have k := key _ _ _ rfl rfl h2
        refine ⟨rfl, .inr k.1, fun e => ?_⟩
        rcases e with e | e
        · exact .inr (k.2.2.1 e)
        · exact absurd e k.2.2.2.1
      | err => rfl
      | panic => rfl
      | diverge => trivial

theorem jm_pab {p : Lines} {t u : Tokenizer} (h : JM p t u) :
    ZoneParser.Agree (Val (Held (JM p))) t.peekAfterBlanks u.peekAfterBlanks := by
  have com : ∀ {t2 u2 : Tokenizer}, CommentRel t2 u2 → ZoneParser.Agree (Val (Held (JM p))) t2.peekAfterBlanks u2.peekAfterBlanks :=
    fun h2 => (agree_of (comment_bisim.run h2 .peekAfterBlanks)).mono fun _ _ h => ⟨h.1, comment_held h.2⟩
  rcases h with h | h
  · exact com h
  · rcases early_core' h.left h.right h.early with ⟨t2, u2, e1, e2, h2⟩ | h2
    · have e1' : t.peekAfterBlanks = t2.peekAfterBlanks := by simp only [peekAfterBlanks, e1]
      have e2' : u.peekAfterBlanks = u2.peekAfterBlanks := by simp only [peekAfterBlanks, e2]
      rw [e1', e2']
      exact com h2
    · have key := fun tk t1 u1 => inside_nab (tk := tk) (t1 := t1) (u1 := u1) h
      unfold peekAfterBlanks
      generalize t.nextAfterBlanks = x at h2 key
      generalize u.nextAfterBlanks = y at h2 key
      cases h2 with
      | ok h2 =>
        have k := key _ _ _ rfl rfl h2
        refine ⟨rfl, push_held k.1 k.2.1 k.2.2.2.2.2 k.2.2.2.1 fun e => ?_⟩
        rcases (k.2.2.1 e).begins with ⟨hl, _⟩ | hb
        · exact absurd hl k.2.2.2.2.2
        · exact hb
      | err => rfl
      | panic => rfl
      | diverge => trivial

/-- Within a line, before a token other than a blank, skipping blanks makes no difference. -/
theorem next_word {t : Tokenizer} {ch : Char} {r : Str} (hp : t.peeked = []) (hl : t.line ≠ 0) (hr : t.rest = ch :: r)
    (h1 : ¬ (ch = ' ' ∨ ch = '\t')) (h4 : ch ≠ '(') (h5 : ch ≠ ')') (h6 : ch ≠ ';') : t.nextAfterBlanks = t.next := by
  have w := fresh_live hp hl
  have key : ∀ x, x = t.next → Sat False False x (fun r => r.1 ≠ .blank) → t.nextAfterBlanks = t.next := fun x e hs => by
    rw [nextAfterBlanks_wf w, ← e]
    match x, hs with
    | .ok (tk, t1), hs =>
      simp only [Out.bind_ok]
      rw [if_neg hs]
    | .err _, _ => rfl
    | .panic _, _ => rfl
    | .diverge, _ => rfl
  by_cases h2 : ch = '$'
  · subst h2
    exact key _ (directive_next hp hl hr).symm (processDirective_ne (by simp) (by simp) t)
  by_cases h3 : ch = '"'
  · subst h3
    exact key _ (quoted_next hp hl hr).symm (processQuotedString_ne (by simp) t)
  exact key _ (word_next hp hl hr h1 h2 h3 h4 h5 h6).symm (processStringOrNumber_ne wordToken_ne_blank t)

/-- The first token of an entry, in a line. -/
theorem ahead_next {p : Lines} {t u : Tokenizer} (h : Ahead p t u) (hl : t.line ≠ 0) :
    ZoneParser.Agree (Val (JM p)) t.next u.next ∧ ZoneParser.Agree (Val (Held (JM p))) t.peek u.peek := by
  obtain ⟨hs, hh, hm⟩ : Begins t := by
    rcases h.begins with h | h
    · exact absurd h.1 hl
    · exact h
  have hp := h.peeked
  have hlu : u.line ≠ 0 := fun e => hl (h.early.line.2 e)
  have hpu : u.peeked = [] := by rw [← h.early.peeked, hp]
  obtain ⟨ch, r, hr⟩ := List.exists_cons_of_ne_nil (not_skippable_ne hs)
  have hdrop : t.rest.dropWhile isWhitespace ≠ [] := fun e => hs (by unfold skippable trimStart; rw [e])
  have h4 : ch ≠ '(' := fun e => hh (by rw [hr, e]; rfl)
  have h6 : ch ≠ ';' := fun e => hs (by
    unfold skippable trimStart
    rw [hr, e, List.dropWhile_cons, if_neg (by decide)]
    rfl)
  obtain ⟨r', hru⟩ : ∃ r', u.rest = ch :: r' := by
    rcases h.early with ⟨b, he⟩ | he
    · exact ⟨r, by rw [← he.rest, hr]⟩
    · exact ⟨_, by rw [he.rest, hr]; rfl⟩
  by_cases h1 : ch = ' ' ∨ ch = '\t'
  · have et := next_blanks hp hl hr h1
    have eu := next_blanks hpu hlu hru h1
    have he : Early p { t with rest := t.rest.dropWhile isWhitespace } { u with rest := u.rest.dropWhile isWhitespace } := by
      rcases h.early with ⟨b, he⟩ | he
      · left
        refine ⟨b, he.file, he.file', by simp only [he.rest], he.peeked, he.multiline, he.line, ?_⟩
        simp only [openAfter_dropWhile]
        exact he.opened
      · right
        refine ⟨he.file, he.file', ?_, he.peeked, he.multiline, hl, hlu, ?_, ?_⟩
        · simp only [he.rest]
          exact dropWhile_append_some hdrop
        · simp only [openAfter_dropWhile]
          exact he.opened
        · simp only [modeAfter_dropWhile]
          exact he.ends
    have hi : Inside p { t with rest := t.rest.dropWhile isWhitespace } { u with rest := u.rest.dropWhile isWhitespace } :=
      ⟨fresh_live hp hl, fresh_live hpu hlu, he, h.lead, fun e => by simp only [hp] at e; cases e⟩
    unfold peek
    rw [et, eu]
    exact ⟨⟨rfl, .inr hi⟩, rfl, push_held hi ⟨hp, fun e => absurd e hl⟩ hl (by simp) (by simp)⟩
  · by_cases h5 : ch = ')'
    · subst h5
      have ml : u.multiline = false := by
        rcases h.early with ⟨b, he⟩ | he
        · rw [← he.multiline, hm]
        · rw [← he.multiline, hm]
      have et := close_next hp hl hr
      have eu := close_next hpu hlu hru
      rw [hm] at et
      rw [ml] at eu
      simp only [Bool.not_false, if_true] at et eu
      unfold peek
      rw [et, eu]
      exact ⟨rfl, rfl⟩
    · have et := next_word hp hl hr h1 h4 h5 h6
      have eu := next_word hpu hlu hru h1 h4 h5 h6
      have k1 := jm_nab (.inr h.inside : JM p t u)
      have k2 := jm_pab (.inr h.inside : JM p t u)
      have et' : t.peek = t.peekAfterBlanks := by unfold peek peekAfterBlanks; rw [et]
      have eu' : u.peek = u.peekAfterBlanks := by unfold peek peekAfterBlanks; rw [eu]
      rw [et', eu', ← et, ← eu]
      exact ⟨k1.mono fun _ _ h => ⟨h.1, h.2.1⟩, k2⟩

theorem je_next {p : Lines} {t u : Tokenizer} (h : JE p t u) :
    ZoneParser.Agree (Val (JM p)) t.next u.next ∧ ZoneParser.Agree (Val (Held (JM p))) t.peek u.peek := by
  rcases h with h | h
  · exact ⟨(comment_held h).2, (agree_of (comment_bisim.run h .peek)).mono fun _ _ h => ⟨h.1, comment_held h.2⟩⟩
  · by_cases hl : t.line = 0
    · have hr : t.rest = [] := by
        cases h.left with
        | fresh hf => exact hf.boot hl
        | held _ hp _ _ => rw [h.peeked] at hp; cases hp
        | dead _ ha => exact ha.rest
      obtain ⟨b, he⟩ : ∃ b, Before p t u b := by
        rcases h.early with h | h
        · exact h
        · exact absurd hl h.line
      have hm : t.multiline = false := by
        rcases h.begins with h | h
        · exact h.2
        · exact h.2.2
      have hru : u.rest = [] := by rw [← he.rest, hr]
      have hlu : u.line = 0 := by rw [← he.line, hl]
      have ho := he.opened
      rw [hr] at ho
      have key := load_early b t u he.rest he.peeked he.multiline he.line ho
      rw [← he.file, ← he.file'] at key
      have et := next_boot hl hr
      have eu := next_boot hlu hru
      have ln := fun t1 => loadFrom_line t.file t t1
      unfold loadNewLine at et eu
      have hpk : t.peek = t.next >>= fun x => .ok (x.1, { x.2 with peeked := x.2.peeked ++ [x.1] }) := rfl
      have hpku : u.peek = u.next >>= fun x => .ok (x.1, { x.2 with peeked := x.2.peeked ++ [x.1] }) := rfl
      rw [hpk, hpku]
      generalize loadFrom t.file t = xx at key ln et
      generalize loadFrom u.file u = yy at key eu
      cases key with
      | loaded he1 hp1 hl1 hl1' hr1 hr1' hm1 =>
        rename_i t1 u1
        have l1 := ln t1 rfl
        have hp1' : t1.peeked = [] := by rw [hp1, h.peeked]
        have hpu1 : u1.peeked = [] := by rw [← he1.peeked, hp1']
        have ha : Ahead p t1 u1 := ⟨fresh_live hp1' hl1, fresh_live hpu1 hl1', he1, fun l hl => h.lead l (l1.2.2.1.subset hl), hp1',
          .inr ⟨l1.2.1, h.lead _ l1.1, by rw [l1.2.2.2, hm]⟩⟩
        simp only [Out.bind_ok] at et eu
        rw [if_pos trivial, ← next_live hl1] at et
        rw [if_pos trivial, ← next_live hl1'] at eu
        rw [et, eu]
        exact ahead_next ha hl1
      | err =>
        rw [et, eu]
        exact ⟨rfl, rfl⟩
    · exact ahead_next h hl

/-- Line breaks in parentheses make no difference to the loader, if no line begins with a parenthesis. -/
theorem join_sim (p : Lines) : Sim (JE p) (JM p) where
  first h := (je_next h).1
  peek h := (je_next h).2
  nab := jm_nab
  pab := jm_pab

theorem joined_same {f f' : List (Option Str)} (h : Joined NotEscaped f f') (hf : NoLead f) :
    ∃ E M, Sim E M ∧ E (start f) (start f') := by
  cases h with
  | join before after l sep l' opened ends okay sepBlank code code' plain =>
    have ends : Ends (modeAfter .between l) := by
      rcases ends with h | ⟨e, h⟩
      · exact .inl h
      · cases e with
        | false => exact .inr h
        | true => exact absurd h okay
    let p : Lines := ⟨l, sep, l', after, ends, sepBlank, code, code', plain⟩
    exact ⟨JE p, JM p, join_sim p, .inr ⟨.fresh (start_fresh _), .fresh (start_fresh _),
      .inl ⟨before, rfl, by simp [start, p], rfl, rfl, rfl, rfl, opened⟩, hf, rfl, .inl ⟨rfl, rfl⟩⟩⟩

theorem comments_same {f f' : List (Option Str)} (h : SameButComments NotEscaped f f') : ∃ E M, Sim E M ∧ E (start f) (start f') :=
  ⟨_, _, ZoneParser.alike_sim, replies_comments h⟩

end Ariadne.Tokenizer
