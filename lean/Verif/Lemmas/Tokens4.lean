import Verif.Lemmas.Tokens3

/-! # The tokenizer: peeking -/

namespace Ariadne.Tokenizer

open Spec

/-- No token left, before the first line was read. -/
def Dead (t : Tokenizer) : Prop := t.line = 0 ∧ AtEnd t

/-- `u` is `t` after peeking, or both are the same. -/
inductive Peeked (t u : Tokenizer) : Prop
  | same (h : t = u)
  | peek (tk : Token) (t' : Tokenizer) (h : t.next = .ok (tk, t')) (e : u = { t' with peeked := t'.peeked ++ [tk] })
  | dead (h : Dead t) (h' : Dead u)

def PeekedWf (t u : Tokenizer) : Prop := Wf t ∧ Wf u ∧ Peeked t u

/-- What `next` returns first after `peek` is what it returns without. -/
theorem next_push {t t' : Tokenizer} {tk : Token} (hw : Wf t) (h : t.next = .ok (tk, t')) :
    ({ t' with peeked := t'.peeked ++ [tk] } : Tokenizer).next = .ok (tk, t') ∨
    (tk = .end ∧ Dead t' ∧ Dead { t' with peeked := t'.peeked ++ [tk] }) := by
  have k := next_wf hw h
  by_cases h0 : t'.line = 0
  · have he : tk = .end := by
      by_contra hn
      exact next_line hw h hn h0
    have a := k.2 he
    exact .inr ⟨he, ⟨h0, a⟩, h0, a.rest, a.file, a.multiline⟩
  · rcases k.1 with hf | hd
    · left
      have e : ({ t' with peeked := t'.peeked ++ [tk] } : Tokenizer).peeked = [tk] := by simp [hf.peeked]
      rw [next_peeked e h0]
      have := hf.peeked
      cases t'
      simp only at this
      subst this
      rfl
    · exact absurd hd.1 h0

theorem peeked_bisim : Bisim PeekedWf where
  left _ _ h := h.1
  right _ _ h := h.2.1
  next t u h := by
    obtain ⟨hwt, hwu, h⟩ := h
    cases h with
    | same e =>
      subst e
      match hx : t.next with
      | .ok (tk, t1) => exact .ok ⟨wf_of_next (next_wf hwt hx).1, wf_of_next (next_wf hwt hx).1, .same rfl⟩
      | .err e => exact .err
      | .panic k => exact .panic
      | .diverge => exact .diverge
    | peek tk t' e eu =>
      have k := wf_of_next (next_wf hwt e).1
      rw [e]
      rcases next_push hwt e with h | ⟨h1, h2, h3⟩
      · rw [eu, h]
        exact .ok ⟨k, k, .same rfl⟩
      · rw [← eu] at h3
        rw [next_dead h3.1 h3.2, h1]
        exact .ok ⟨k, hwu, .dead h2 h3⟩
    | dead h h' =>
      rw [next_dead h.1 h.2, next_dead h'.1 h'.2]
      exact .ok ⟨hwt, hwu, .dead h h'⟩
  push t u t' u' tk h et eu h' := by
    obtain ⟨hwt, hwu, h⟩ := h
    have k := next_wf hwt et
    have k' := next_wf hwu eu
    refine ⟨push_wf (t := t) k.1 k.2 (next_line hwt et), push_wf (t := u) k'.1 k'.2 (next_line hwu eu), ?_⟩
    have dd : Dead t' → Dead u' → Peeked { t' with peeked := t'.peeked ++ [tk] } { u' with peeked := u'.peeked ++ [tk] } :=
      fun a b => .dead ⟨a.1, a.2.rest, a.2.file, a.2.multiline⟩ ⟨b.1, b.2.rest, b.2.file, b.2.multiline⟩
    cases h with
    | same e =>
      subst e
      rw [et] at eu
      simp only [Out.ok.injEq, Prod.mk.injEq] at eu
      rw [eu.2]
      exact .same rfl
    | peek tk1 t1 e e2 =>
      rw [e] at et
      simp only [Out.ok.injEq, Prod.mk.injEq] at et
      obtain ⟨rfl, rfl⟩ := et
      rcases next_push hwt e with h | ⟨h1, h2, h3⟩
      · rw [e2, h] at eu
        simp only [Out.ok.injEq, Prod.mk.injEq] at eu
        rw [eu.2]
        exact .same rfl
      · rw [← e2] at h3
        rw [next_dead h3.1 h3.2] at eu
        simp only [Out.ok.injEq, Prod.mk.injEq] at eu
        rw [← eu.2]
        exact .dead ⟨h2.1, h2.2.rest, h2.2.file, h2.2.multiline⟩ ⟨h3.1, h3.2.rest, h3.2.file, h3.2.multiline⟩
    | dead h h'' =>
      rw [next_dead h.1 h.2] at et
      rw [next_dead h''.1 h''.2] at eu
      simp only [Out.ok.injEq, Prod.mk.injEq] at et eu
      exact dd (et.2 ▸ h) (eu.2 ▸ h'')

theorem replies_peek {t t' : Tokenizer} {tk : Token} (hw : Wf t) (h : t.peek = .ok (tk, t')) (cs : List Call) :
    replies cs t' = replies cs t := by
  have hw' : Wf t' := run_wf (c := .peek) hw h
  unfold peek at h
  match hx : t.next with
  | .ok (tk1, t1) =>
    rw [hx] at h
    simp only [Out.bind_ok, Out.ok.injEq, Prod.mk.injEq] at h
    obtain ⟨rfl, rfl⟩ := h
    exact (peeked_bisim.replies cs ⟨hw, hw', .peek _ _ hx rfl⟩).symm
  | .err e => rw [hx] at h; simp at h
  | .panic e => rw [hx] at h; simp at h
  | .diverge => rw [hx] at h; simp at h

/-- The states when a token after blanks was returned. -/
theorem nextAfterBlanks_last : ∀ (n : Nat) {t t' : Tokenizer} {tk : Token}, t.steps < n → Wf t → t.nextAfterBlanks = .ok (tk, t') →
    ∃ t0, Wf t0 ∧ t0.next = .ok (tk, t') ∧ tk ≠ .blank
  | 0, t, t', tk, h, _, _ => by omega
  | n + 1, t, t', tk, hn, hw, h => by
    rw [nextAfterBlanks_wf hw] at h
    match hx : t.next with
    | .ok (tk1, t1) =>
      rw [hx] at h
      simp only [Out.bind_ok] at h
      have k := next_wf hw hx
      by_cases hb : tk1 = .blank
      · rw [if_pos hb] at h
        rw [hb] at hx
        exact nextAfterBlanks_last n (by have := next_blank_steps hw hx; omega) (wf_of_next k.1) h
      · rw [if_neg hb] at h
        simp only [Out.ok.injEq, Prod.mk.injEq] at h
        obtain ⟨rfl, rfl⟩ := h
        exact ⟨t, hw, hx, hb⟩
    | .err e => rw [hx] at h; simp at h
    | .panic e => rw [hx] at h; simp at h
    | .diverge => rw [hx] at h; simp at h

theorem replies_peekAfterBlanks {t t' : Tokenizer} {tk : Token} (hw : Wf t) (h : t.peekAfterBlanks = .ok (tk, t')) (c : Call)
    (hc : c.SkipsBlanks) (cs : List Call) : replies (c :: cs) t' = replies (c :: cs) t := by
  have hw' : Wf t' := run_wf (c := .peekAfterBlanks) hw h
  unfold peekAfterBlanks at h
  match hx : t.nextAfterBlanks with
  | .ok (tk1, t1) =>
    rw [hx] at h
    simp only [Out.bind_ok, Out.ok.injEq, Prod.mk.injEq] at h
    obtain ⟨rfl, e⟩ := h
    obtain ⟨t0, hw0, e0, hb⟩ := nextAfterBlanks_last _ (Nat.lt_succ_self _) hw hx
    have k := wf_of_next (next_wf hw0 e0).1
    -- `next_after_blanks` on the peeked state
    obtain ⟨t2, e2, hr⟩ : ∃ t2, t'.nextAfterBlanks = .ok (tk1, t2) ∧ PeekedWf t1 t2 := by
      rw [nextAfterBlanks_wf hw']
      rcases next_push hw0 e0 with h | ⟨h1, h2, h3⟩
      · rw [e] at h
        rw [h]
        exact ⟨t1, by simp [if_neg hb], k, k, .same rfl⟩
      · rw [e] at h3
        rw [next_dead h3.1 h3.2]
        subst h1
        exact ⟨t', by simp, k, hw', .dead h2 h3⟩
    rcases hc with rfl | rfl
    · simp only [replies, Call.run, e2, hx]
      rw [peeked_bisim.replies cs hr]
    · simp only [replies, Call.run, peekAfterBlanks, e2, hx, Out.bind_ok]
      have hnd : Dead t1 → Dead t2 → Wf { t1 with peeked := t1.peeked ++ [tk1] } ∧ Wf { t2 with peeked := t2.peeked ++ [tk1] } ∧
          Peeked { t1 with peeked := t1.peeked ++ [tk1] } { t2 with peeked := t2.peeked ++ [tk1] } := fun a b =>
        have a' : Dead { t1 with peeked := t1.peeked ++ [tk1] } := ⟨a.1, a.2.rest, a.2.file, a.2.multiline⟩
        have b' : Dead { t2 with peeked := t2.peeked ++ [tk1] } := ⟨b.1, b.2.rest, b.2.file, b.2.multiline⟩
        ⟨.dead a'.1 a'.2, .dead b'.1 b'.2, .dead a' b'⟩
      have hr2 : PeekedWf { t1 with peeked := t1.peeked ++ [tk1] } { t2 with peeked := t2.peeked ++ [tk1] } := by
        rcases next_push hw0 e0 with h | ⟨h1, h2, h3⟩
        · have : t2 = t1 := by
            rw [nextAfterBlanks_wf hw', ← e, h] at e2
            simp only [Out.bind_ok, if_neg hb, Out.ok.injEq, Prod.mk.injEq, true_and] at e2
            exact e2.symm
          rw [this, e]
          exact ⟨hw', hw', .same rfl⟩
        · have : t2 = t' := by
            rw [e] at h3
            rw [nextAfterBlanks_wf hw', next_dead h3.1 h3.2] at e2
            simp only [Out.bind_ok, reduceCtorEq, if_false, Out.ok.injEq, Prod.mk.injEq] at e2
            exact e2.2.symm
          rw [e, ← this] at h3
          exact hnd h2 h3
      rw [peeked_bisim.replies cs hr2]
  | .err e => rw [hx] at h; simp at h
  | .panic e => rw [hx] at h; simp at h
  | .diverge => rw [hx] at h; simp at h

end Ariadne.Tokenizer
