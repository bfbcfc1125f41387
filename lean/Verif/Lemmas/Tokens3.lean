import Verif.Lemmas.Tokens2
import Verif.Spec.Tokens

/-! # The tokenizer: states that return the same -/

namespace Ariadne.Tokenizer

open Spec

/-- What `next` yields at the end. -/
structure AtEnd (t : Tokenizer) : Prop where
  rest : t.rest = []
  file : t.file = []
  multiline : t.multiline = false

theorem wordToken_ne_end (s : Str) : wordToken s ≠ .end := by
  unfold wordToken
  split
  · simp
  · split <;> simp

theorem sat_any {α : Type} (x : Out TokenErr α) : Sat False False x fun _ => True := by
  cases x <;> simp [Sat]

theorem processDirective_ne_end (t : Tokenizer) : Sat False False t.processDirective fun r => r.1 ≠ .end := by
  unfold processDirective
  refine Sat.bind (sat_any _) fun r _ _ => ?_
  exact Sat.ite (fun _ => Token.noConfusion) fun _ => Sat.ite (fun _ => Token.noConfusion) fun _ => trivial

theorem processQuotedString_ne_end (t : Tokenizer) : Sat False False t.processQuotedString fun r => r.1 ≠ .end := by
  unfold processQuotedString
  refine Sat.bind (sat_any _) fun r _ _ => ?_
  exact Sat.ite (fun _ => Token.noConfusion) fun _ => trivial

theorem processStringOrNumber_ne_end (t : Tokenizer) : Sat False False t.processStringOrNumber fun r => r.1 ≠ .end := by
  unfold processStringOrNumber
  exact Sat.bind (sat_any _) fun r _ _ => wordToken_ne_end _

theorem nextChar_end {recur : Tokenizer → Out TokenErr (Token × Tokenizer)} {t t' : Tokenizer}
    (h : nextChar recur t = .ok (.end, t')) (hr : t.rest ≠ []) :
    ∃ t1 : Tokenizer, t1.size < t.size ∧ t1.peeked = t.peeked ∧ t1.line = t.line ∧ recur t1 = .ok (.end, t') := by
  obtain ⟨ch, rest, hrest⟩ : ∃ ch rest, t.rest = ch :: rest := by
    cases h : t.rest with
    | nil => exact absurd h hr
    | cons a b => exact ⟨a, b, rfl⟩
  have sz : ∀ (r : Str) (m : Bool), r.length ≤ rest.length →
      ({ t with multiline := m, rest := r } : Tokenizer).size < t.size := fun r m hle => by
    simp only [Tokenizer.size, hrest, List.length_cons]; omega
  rw [nextChar, hrest] at h
  simp only at h
  split at h
  · simp [processWhitespace] at h
  · split at h
    · exact absurd rfl ((processDirective_ne_end t).of_ok h)
    · split at h
      · exact absurd rfl ((processQuotedString_ne_end t).of_ok h)
      · split at h
        · split at h
          · simp at h
          · exact ⟨_, sz rest true (le_refl _), rfl, rfl, h⟩
        · split at h
          · split at h
            · simp at h
            · exact ⟨_, sz rest false (le_refl _), rfl, rfl, h⟩
          · split at h
            · exact ⟨_, sz [] t.multiline (by simp), rfl, rfl, h⟩
            · exact absurd rfl ((processStringOrNumber_ne_end t).of_ok h)

theorem atEnd_ok {t t' : Tokenizer} {tk : Token} (h : atEnd t = .ok (tk, t')) : tk = .end ∧ t' = t ∧ t.multiline = false := by
  unfold atEnd at h
  split at h
  · simp at h
  · rename_i hm
    simp only [Out.ok.injEq, Prod.mk.injEq] at h
    exact ⟨h.1.symm, h.2.symm, by simpa using hm⟩

theorem next_end_live : ∀ (n : Nat) {t t' : Tokenizer}, t.size < n → t.peeked = [] → t.line ≠ 0 →
    t.next = .ok (.end, t') → AtEnd t'
  | 0, t, t', h, _, _, _ => by omega
  | n + 1, t, t', hn, hp, hl, h => by
    rw [next_live hl] at h
    unfold nextLoaded at h
    rw [hp] at h
    simp only at h
    by_cases hr : t.rest = []
    · rw [if_pos hr] at h
      cases hload : t.loadNewLine with
      | ok r =>
        obtain ⟨b, t1⟩ := r
        have hs := (loadFrom_sat (np := False) (nd := False) t.file t hr rfl).of_ok hload
        simp only at hs
        rw [hload] at h
        simp only [Out.bind_ok] at h
        cases b with
        | false =>
          simp only [Bool.not_false, if_true] at h
          obtain ⟨_, rfl, hm⟩ := atEnd_ok h
          exact ⟨(hs.2.2.2.2 rfl).1, (hs.2.2.2.2 rfl).2, hm⟩
        | true =>
          simp only [Bool.not_true, if_neg Bool.false_ne_true] at h
          split at h
          · simp at h
          · have h3 := hs.2.2.2.1 rfl
            obtain ⟨t2, h2, hp2, hl2, e⟩ := nextChar_end h h3.2.1
            refine next_end_live n (by omega) ?_ ?_ e
            · rw [hp2, hs.2.1, hp]
            · rw [hl2]; exact h3.1
      | err e => rw [hload] at h; simp at h
      | panic e => rw [hload] at h; simp at h
      | diverge => rw [hload] at h; simp at h
    · rw [if_neg hr] at h
      obtain ⟨t2, h2, hp2, hl2, e⟩ := nextChar_end h hr
      exact next_end_live n (by omega) (by rw [hp2, hp]) (by rw [hl2]; exact hl) e

theorem next_end {t t' : Tokenizer} (hf : Fresh t) (h : t.next = .ok (.end, t')) : AtEnd t' := by
  by_cases hl : t.line = 0
  · rw [next_boot hl (hf.boot hl)] at h
    cases hload : t.loadNewLine with
    | ok r =>
      obtain ⟨b, t1⟩ := r
      have hs := (loadFrom_sat (np := False) (nd := False) t.file t (hf.boot hl) rfl).of_ok hload
      simp only at hs
      rw [hload] at h
      simp only [Out.bind_ok] at h
      cases b with
      | false =>
        rw [if_neg Bool.false_ne_true] at h
        obtain ⟨_, rfl, hm⟩ := atEnd_ok h
        exact ⟨(hs.2.2.2.2 rfl).1, (hs.2.2.2.2 rfl).2, hm⟩
      | true =>
        rw [if_pos rfl] at h
        have h3 := hs.2.2.2.1 rfl
        rw [← next_live h3.1] at h
        exact next_end_live _ (Nat.lt_succ_self _) (by rw [hs.2.1, hf.peeked]) h3.1 h
    | err e => rw [hload] at h; simp at h
    | panic e => rw [hload] at h; simp at h
    | diverge => rw [hload] at h; simp at h
  · exact next_end_live _ (Nat.lt_succ_self _) hf.peeked hl h

/-- The states calls lead to. -/
inductive Wf (t : Tokenizer) : Prop
  | fresh (h : Fresh t)
  | held (tk : Token) (h : t.peeked = [tk]) (line : t.line ≠ 0) (e : tk = .end → AtEnd t)
  | dead (line : t.line = 0) (h : AtEnd t)

theorem next_dead {t : Tokenizer} (hl : t.line = 0) (h : AtEnd t) : t.next = .ok (.end, t) := by
  rw [next_boot hl h.rest]
  have : t.loadNewLine = .ok (false, t) := by
    unfold loadNewLine
    rw [h.file]
    show Out.ok (false, { t with file := [] }) = _
    rw [← h.file]
  rw [this]
  simp only [Out.bind_ok]
  rw [if_neg Bool.false_ne_true]
  unfold atEnd
  rw [h.multiline, if_neg Bool.false_ne_true]

theorem next_wf {t t' : Tokenizer} {tk : Token} (hw : Wf t) (h : t.next = .ok (tk, t')) :
    (Fresh t' ∨ (t'.line = 0 ∧ AtEnd t')) ∧ (tk = .end → AtEnd t') := by
  cases hw with
  | fresh hf =>
    have k := (next_sat (np := False) (nd := False) (pl := False) hf (fun h => h.elim) (fun h => h.elim)).of_ok h
    simp only at k
    by_cases he : tk = .end
    · rw [he] at h
      have a := next_end hf h
      exact ⟨.inl ⟨k.peeked, fun _ => a.rest⟩, fun _ => a⟩
    · exact ⟨.inl (k.fresh he), fun e => absurd e he⟩
  | held tk' hp hl he =>
    rw [next_peeked hp hl] at h
    simp only [Out.ok.injEq, Prod.mk.injEq] at h
    obtain ⟨rfl, rfl⟩ := h
    exact ⟨.inl ⟨rfl, fun e => absurd e hl⟩, fun e => ⟨(he e).rest, (he e).file, (he e).multiline⟩⟩
  | dead hl ha =>
    rw [next_dead hl ha] at h
    simp only [Out.ok.injEq, Prod.mk.injEq] at h
    obtain ⟨rfl, rfl⟩ := h
    exact ⟨.inr ⟨hl, ha⟩, fun _ => ha⟩

theorem wf_of_next {t : Tokenizer} (h : Fresh t ∨ (t.line = 0 ∧ AtEnd t)) : Wf t := by
  rcases h with h | ⟨h, a⟩
  · exact .fresh h
  · exact .dead h a

theorem next_line {t t' : Tokenizer} {tk : Token} (hw : Wf t) (h : t.next = .ok (tk, t')) (he : tk ≠ .end) : t'.line ≠ 0 := by
  cases hw with
  | fresh hf =>
    have k := (next_sat (np := False) (nd := False) (pl := False) hf (fun h => h.elim) (fun h => h.elim)).of_ok h
    exact k.live he
  | held tk' hp hl _ =>
    rw [next_peeked hp hl] at h
    simp only [Out.ok.injEq, Prod.mk.injEq] at h
    obtain ⟨rfl, rfl⟩ := h
    exact hl
  | dead hl ha =>
    rw [next_dead hl ha] at h
    simp only [Out.ok.injEq, Prod.mk.injEq] at h
    exact absurd h.1.symm he

/-- Putting back the token `next` returned. -/
theorem push_wf {t t' : Tokenizer} {tk : Token} (h : Fresh t' ∨ (t'.line = 0 ∧ AtEnd t')) (he : tk = .end → AtEnd t')
    (hl : tk ≠ .end → t'.line ≠ 0) : Wf { t' with peeked := t'.peeked ++ [tk] } := by
  have a : AtEnd t' → AtEnd { t' with peeked := t'.peeked ++ [tk] } := fun a => ⟨a.rest, a.file, a.multiline⟩
  by_cases h0 : t'.line = 0
  · have : tk = .end := by
      by_contra hn
      exact hl hn h0
    exact .dead h0 (a (he this))
  · rcases h with h | h
    · exact .held tk (by rw [h.peeked]; rfl) h0 fun e => a (he e)
    · exact absurd h.1 h0

/-- The recursion equation of `next_after_blanks`. -/
theorem nextAfterBlanks_wf {t : Tokenizer} (hw : Wf t) :
    t.nextAfterBlanks = (do let r ← t.next; if r.1 = .blank then r.2.nextAfterBlanks else .ok r) := by
  cases hw with
  | fresh hf => exact nextAfterBlanks_fresh hf
  | held tk hp hl _ =>
    rw [nextAfterBlanks_held hp hl, next_peeked hp hl]
    rfl
  | dead hl ha =>
    rw [nextAfterBlanks, nextAfterBlanksF, next_dead hl ha]
    rfl

/-- Decreases with every blank. -/
def steps (t : Tokenizer) : Nat := t.size + t.peeked.length

theorem next_blank_steps {t t' : Tokenizer} (hw : Wf t) (h : t.next = .ok (.blank, t')) : t'.steps < t.steps := by
  cases hw with
  | fresh hf =>
    have k := (next_sat (np := False) (nd := False) (pl := False) hf (fun h => h.elim) (fun h => h.elim)).of_ok h
    simp only at k
    have := k.blank rfl
    simp only [steps, k.peeked, List.length_nil]
    omega
  | held tk hp hl _ =>
    rw [next_peeked hp hl] at h
    simp only [Out.ok.injEq, Prod.mk.injEq] at h
    obtain ⟨rfl, rfl⟩ := h
    simp [steps, hp, Tokenizer.size]
  | dead hl ha =>
    rw [next_dead hl ha] at h
    simp at h

theorem nextAfterBlanks_ok : ∀ (n : Nat) {t t' : Tokenizer} {tk : Token}, t.steps < n → Wf t → t.nextAfterBlanks = .ok (tk, t') →
    (Fresh t' ∨ (t'.line = 0 ∧ AtEnd t')) ∧ (tk = .end → AtEnd t') ∧ (tk ≠ .end → t'.line ≠ 0) ∧ tk ≠ .blank
  | 0, t, t', tk, h, _, _ => by omega
  | n + 1, t, t', tk, hn, hw, h => by
    rw [nextAfterBlanks_wf hw] at h
    cases hx : t.next with
    | ok r =>
      obtain ⟨tk1, t1⟩ := r
      rw [hx] at h
      simp only [Out.bind_ok] at h
      have k := next_wf hw hx
      by_cases hb : tk1 = .blank
      · rw [if_pos hb] at h
        rw [hb] at hx
        exact nextAfterBlanks_ok n (by have := next_blank_steps hw hx; omega) (wf_of_next k.1) h
      · rw [if_neg hb] at h
        simp only [Out.ok.injEq, Prod.mk.injEq] at h
        obtain ⟨rfl, rfl⟩ := h
        exact ⟨k.1, k.2, next_line hw hx, hb⟩
    | err e => rw [hx] at h; simp at h
    | panic e => rw [hx] at h; simp at h
    | diverge => rw [hx] at h; simp at h

theorem run_wf {t t' : Tokenizer} {tk : Token} {c : Call} (hw : Wf t) (h : c.run t = .ok (tk, t')) : Wf t' := by
  cases c with
  | next => exact wf_of_next (next_wf hw h).1
  | nextAfterBlanks => exact wf_of_next (nextAfterBlanks_ok _ (Nat.lt_succ_self _) hw h).1
  | peek =>
    simp only [Call.run, peek] at h
    cases hx : t.next with
    | ok r =>
      obtain ⟨tk1, t1⟩ := r
      rw [hx] at h
      simp only [Out.bind_ok, Out.ok.injEq, Prod.mk.injEq] at h
      obtain ⟨rfl, rfl⟩ := h
      exact push_wf (t := t) (next_wf hw hx).1 (next_wf hw hx).2 (next_line hw hx)
    | err e => rw [hx] at h; simp at h
    | panic e => rw [hx] at h; simp at h
    | diverge => rw [hx] at h; simp at h
  | peekAfterBlanks =>
    simp only [Call.run, peekAfterBlanks] at h
    cases hx : t.nextAfterBlanks with
    | ok r =>
      obtain ⟨tk1, t1⟩ := r
      rw [hx] at h
      simp only [Out.bind_ok, Out.ok.injEq, Prod.mk.injEq] at h
      obtain ⟨rfl, rfl⟩ := h
      have k := nextAfterBlanks_ok _ (Nat.lt_succ_self _) hw hx
      exact push_wf (t := t) k.1 k.2.1 k.2.2.1
    | err e => rw [hx] at h; simp at h
    | panic e => rw [hx] at h; simp at h
    | diverge => rw [hx] at h; simp at h

theorem consulted_wf {file : List (Option Str)} {t : Tokenizer} (h : Consulted file t) : Wf t := by
  induction h with
  | start => exact .fresh (start_fresh file)
  | call c _ e ih => exact run_wf ih e

/-- Outcomes that agree, in states related by `R`. -/
inductive Agree (R : Tokenizer → Tokenizer → Prop) :
    Out TokenErr (Token × Tokenizer) → Out TokenErr (Token × Tokenizer) → Prop
  | ok {tk : Token} {t u : Tokenizer} : R t u → Agree R (.ok (tk, t)) (.ok (tk, u))
  | err {e : TokenErr} : Agree R (.err e) (.err e)
  | panic {k : Panic} : Agree R (.panic k) (.panic k)
  | diverge : Agree R .diverge .diverge

theorem Agree.mono {R S : Tokenizer → Tokenizer → Prop} {x y : Out TokenErr (Token × Tokenizer)} (h : Agree R x y)
    (hrs : ∀ t u, R t u → S t u) : Agree S x y := by
  cases h with
  | ok h => exact .ok (hrs _ _ h)
  | err => exact .err
  | panic => exact .panic
  | diverge => exact .diverge

theorem Agree.symm {R S : Tokenizer → Tokenizer → Prop} {x y : Out TokenErr (Token × Tokenizer)} (h : Agree R x y)
    (hrs : ∀ t u, R t u → S u t) : Agree S y x := by
  cases h with
  | ok h => exact .ok (hrs _ _ h)
  | err => exact .err
  | panic => exact .panic
  | diverge => exact .diverge

theorem Agree.refl {R : Tokenizer → Tokenizer → Prop} (hr : ∀ t, R t t) (x : Out TokenErr (Token × Tokenizer)) : Agree R x x := by
  match x with
  | .ok (_, t) => exact .ok (hr t)
  | .err e => exact .err
  | .panic k => exact .panic
  | .diverge => exact .diverge

/-- Continuing after `x` and `y` agree. -/
theorem Agree.bind {R S : Tokenizer → Tokenizer → Prop} {x y : Out TokenErr (Token × Tokenizer)}
    {f g : Token × Tokenizer → Out TokenErr (Token × Tokenizer)} (h : Agree R x y)
    (hf : ∀ tk t u, x = .ok (tk, t) → y = .ok (tk, u) → R t u → Agree S (f (tk, t)) (g (tk, u))) :
    Agree S (x >>= f) (y >>= g) := by
  cases h with
  | ok h => exact hf _ _ _ rfl rfl h
  | err => exact .err
  | panic => exact .panic
  | diverge => exact .diverge

/-- States that agree on every call of `next` and stay so when a token is put back. -/
structure Bisim (R : Tokenizer → Tokenizer → Prop) : Prop where
  left : ∀ t u, R t u → Wf t
  right : ∀ t u, R t u → Wf u
  next : ∀ t u, R t u → Agree R t.next u.next
  push : ∀ t u t' u' tk, R t u → t.next = .ok (tk, t') → u.next = .ok (tk, u') → R t' u' →
    R { t' with peeked := t'.peeked ++ [tk] } { u' with peeked := u'.peeked ++ [tk] }

/-- Skipping blanks in related states; the states before the last token, as `push` wants them. -/
theorem Bisim.blanks {R : Tokenizer → Tokenizer → Prop} (hb : Bisim R) : ∀ (n : Nat) (t u : Tokenizer), t.steps < n → R t u →
    Agree (fun _ _ => True) t.nextAfterBlanks u.nextAfterBlanks ∧
    ∀ tk t' u', t.nextAfterBlanks = .ok (tk, t') → u.nextAfterBlanks = .ok (tk, u') → R t' u' ∧
      ∃ t0 u0, R t0 u0 ∧ t0.next = .ok (tk, t') ∧ u0.next = .ok (tk, u')
  | 0, t, u, h, _ => by omega
  | n + 1, t, u, hn, hr => by
    have hwt := hb.left t u hr
    have hwu := hb.right t u hr
    rw [nextAfterBlanks_wf hwt, nextAfterBlanks_wf hwu]
    have hx := hb.next t u hr
    generalize et : t.next = x at hx
    generalize eu : u.next = y at hx
    cases hx with
    | ok h =>
      rename_i tk1 t1 u1
      simp only [Out.bind_ok]
      by_cases hbl : tk1 = .blank
      · rw [if_pos hbl, if_pos hbl]
        rw [hbl] at et
        exact hb.blanks n t1 u1 (by have := next_blank_steps hwt et; omega) h
      · rw [if_neg hbl, if_neg hbl]
        refine ⟨.ok trivial, fun tk t' u' e1 e2 => ?_⟩
        simp only [Out.ok.injEq, Prod.mk.injEq] at e1 e2
        obtain ⟨rfl, rfl⟩ := e1
        obtain ⟨-, rfl⟩ := e2
        exact ⟨h, t, u, hr, et, eu⟩
    | err => exact ⟨.err, fun _ _ _ e => by simp at e⟩
    | panic => exact ⟨.panic, fun _ _ _ e => by simp at e⟩
    | diverge => exact ⟨.diverge, fun _ _ _ e => by simp at e⟩

theorem Bisim.run {R : Tokenizer → Tokenizer → Prop} (hb : Bisim R) {t u : Tokenizer} (hr : R t u) (c : Call) :
    Agree R (c.run t) (c.run u) := by
  cases c with
  | next => exact hb.next t u hr
  | nextAfterBlanks =>
    obtain ⟨ha, hk⟩ := hb.blanks _ t u (Nat.lt_succ_self _) hr
    simp only [Call.run]
    generalize et : t.nextAfterBlanks = x at ha hk
    generalize eu : u.nextAfterBlanks = y at ha hk
    cases ha with
    | ok h => exact .ok (hk _ _ _ rfl rfl).1
    | err => exact .err
    | panic => exact .panic
    | diverge => exact .diverge
  | peek =>
    exact (hb.next t u hr).bind fun tk t' u' et eu h => .ok (hb.push t u t' u' tk hr et eu h)
  | peekAfterBlanks =>
    obtain ⟨ha, hk⟩ := hb.blanks _ t u (Nat.lt_succ_self _) hr
    refine ha.bind fun tk t' u' et eu _ => ?_
    obtain ⟨h, t0, u0, h0, e1, e2⟩ := hk tk t' u' et eu
    exact .ok (hb.push t0 u0 t' u' tk h0 e1 e2 h)

theorem Bisim.replies {R : Tokenizer → Tokenizer → Prop} (hb : Bisim R) : ∀ (cs : List Call) {t u : Tokenizer}, R t u →
    Spec.replies cs t = Spec.replies cs u
  | [], _, _, _ => rfl
  | c :: cs, t, u, hr => by
    have h := hb.run hr c
    rw [Spec.replies, Spec.replies]
    generalize c.run t = x at h
    generalize c.run u = y at h
    cases h with
    | ok h => simp only [hb.replies cs h]
    | err => rfl
    | panic => rfl
    | diverge => rfl

end Ariadne.Tokenizer
