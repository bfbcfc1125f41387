import Verif.Model.Basic

/-! # Reasoning about outcomes -/

namespace Ariadne

/-- The outcome satisfies `Q` if it is a value; it is no panic if `np`, and no divergence if `nd`. -/
def Sat {ε α : Type} (np nd : Prop) (x : Out ε α) (Q : α → Prop) : Prop :=
  match x with
  | .ok a => Q a
  | .err _ => True
  | .panic _ => ¬ np
  | .diverge => ¬ nd

section
variable {ε ε' α β : Type} {np nd : Prop}

theorem Sat.ok {a : α} {Q : α → Prop} (h : Q a) : Sat (ε := ε) np nd (.ok a) Q := h
theorem Sat.err {e : ε} {Q : α → Prop} : Sat np nd (.err e : Out ε α) Q := trivial

theorem Sat.bind {x : Out ε α} {f : α → Out ε β} {P : α → Prop} {Q : β → Prop} (h : Sat np nd x P)
    (hf : ∀ a, x = .ok a → P a → Sat np nd (f a) Q) : Sat np nd (x >>= f) Q := by
  cases x with
  | ok a => exact hf a rfl h
  | err e => trivial
  | panic k => exact h
  | diverge => exact h

theorem Sat.mono {x : Out ε α} {P Q : α → Prop} (h : Sat np nd x P) (hf : ∀ a, x = .ok a → P a → Q a) :
    Sat np nd x Q := by
  cases x with
  | ok a => exact hf a rfl h
  | err e => trivial
  | panic k => exact h
  | diverge => exact h

theorem Sat.mapErr {x : Out ε α} {f : ε → ε'} {Q : α → Prop} (h : Sat np nd x Q) : Sat np nd (x.mapErr f) Q := by
  cases x with
  | ok a => exact h
  | err e => trivial
  | panic k => exact h
  | diverge => exact h

theorem Sat.of_ok {x : Out ε α} {a : α} {Q : α → Prop} (h : Sat np nd x Q) (e : x = .ok a) : Q a := by
  subst e; exact h

theorem Sat.no_panic {x : Out ε α} {Q : α → Prop} (h : Sat True nd x Q) (k : Panic) : x ≠ .panic k := by
  intro e; subst e; exact h trivial

theorem Sat.no_diverge {x : Out ε α} {Q : α → Prop} (h : Sat np True x Q) : x ≠ .diverge := by
  intro e; subst e; exact h trivial

theorem Sat.ite {c : Prop} [Decidable c] {x y : Out ε α} {Q : α → Prop} (h1 : c → Sat np nd x Q)
    (h2 : ¬ c → Sat np nd y Q) : Sat np nd (if c then x else y) Q := by
  by_cases h : c
  · rw [if_pos h]; exact h1 h
  · rw [if_neg h]; exact h2 h

/-- More fuel does not change an outcome. -/
def Mono (f : Nat → Out ε α) : Prop := ∀ n m, n ≤ m → f n ≠ .diverge → f m = f n

theorem Mono.const (x : Out ε α) : Mono fun _ => x := fun _ _ _ _ => rfl

theorem Mono.bind {f : Nat → Out ε α} {g : Nat → α → Out ε β} (hf : Mono f) (hg : ∀ a, Mono fun n => g n a) :
    Mono fun n => f n >>= g n := by
  intro n m hnm h
  simp only at h ⊢
  have hn : f n ≠ .diverge := by intro e; rw [e] at h; exact h rfl
  rw [hf n m hnm hn]
  cases hx : f n with
  | ok a => rw [hx] at h; exact hg a n m hnm h
  | err e => rfl
  | panic k => rfl
  | diverge => exact absurd hx hn

theorem Mono.ite {c : Prop} [Decidable c] {f g : Nat → Out ε α} (hf : Mono f) (hg : Mono g) :
    Mono fun n => if c then f n else g n := by
  by_cases h : c
  · simpa only [if_pos h] using hf
  · simpa only [if_neg h] using hg

end

end Ariadne
