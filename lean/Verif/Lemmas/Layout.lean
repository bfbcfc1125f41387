import Verif.Lemmas.Tokens8
import Verif.Spec.Layout

/-! # The loader: files that differ in layout -/

namespace Ariadne.ZoneParser

open Spec

theorem Agree.trans {ε α : Type} {r s q : α → α → Prop} {x y z : Out ε α} (h : Agree r x y) (h' : Agree s y z)
    (hq : ∀ a b c, r a b → s b c → q a c) : Agree q x z := by
  match x, y, z, h, h' with
  | .ok _, .ok _, .ok _, h, h' => exact hq _ _ _ h h'
  | .err _, .err _, .err _, h, h' => exact Eq.trans (h : _ = _) h'
  | .panic _, .panic _, .panic _, h, h' => exact Eq.trans (h : _ = _) h'
  | .diverge, .diverge, .diverge, _, _ => trivial

theorem Agree.swap {ε α : Type} {r s : α → α → Prop} {x y : Out ε α} (h : Agree r x y) (hs : ∀ a b, r a b → s b a) : Agree s y x := by
  match x, y, h with
  | .ok _, .ok _, h => exact hs _ _ h
  | .err _, .err _, h => exact Eq.symm (h : _ = _)
  | .panic _, .panic _, h => exact Eq.symm (h : _ = _)
  | .diverge, .diverge, _ => trivial

/-- First the one, then the other. -/
def Comp (r s : Tokenizer → Tokenizer → Prop) (t t'' : Tokenizer) : Prop := ∃ t', r t t' ∧ s t' t''

theorem held_comp {M M' : Tokenizer → Tokenizer → Prop} {a b c : Tokenizer} (h : Held M a b) (h' : Held M' b c) : Held (Comp M M') a c :=
  ⟨⟨b, h.1, h'.1⟩, h.2.trans h'.2 fun _ _ _ x y => ⟨x.1.trans y.1, _, x.2, y.2⟩⟩

theorem sim_comp {E M E' M' : Tokenizer → Tokenizer → Prop} (S : Sim E M) (S' : Sim E' M') : Sim (Comp E E') (Comp M M') where
  first := fun ⟨_, h, h'⟩ => (S.first h).trans (S'.first h') fun _ _ _ x y => ⟨x.1.trans y.1, _, x.2, y.2⟩
  peek := fun ⟨_, h, h'⟩ => (S.peek h).trans (S'.peek h') fun _ _ _ x y => ⟨x.1.trans y.1, held_comp x.2 y.2⟩
  nab := fun ⟨_, h, h'⟩ => (S.nab h).trans (S'.nab h') fun _ _ _ x y =>
    ⟨x.1.trans y.1, ⟨_, x.2.1, y.2.1⟩, fun e => ⟨_, x.2.2 e, y.2.2 (x.1 ▸ e)⟩⟩
  pab := fun ⟨_, h, h'⟩ => (S.pab h).trans (S'.pab h') fun _ _ _ x y => ⟨x.1.trans y.1, held_comp x.2 y.2⟩

theorem held_flip {M : Tokenizer → Tokenizer → Prop} {a b : Tokenizer} (h : Held M a b) : Held (fun t u => M u t) b a :=
  ⟨h.1, h.2.swap fun _ _ x => ⟨x.1.symm, x.2⟩⟩

theorem sim_flip {E M : Tokenizer → Tokenizer → Prop} (S : Sim E M) : Sim (fun t u => E u t) (fun t u => M u t) where
  first := fun h => (S.first h).swap fun _ _ x => ⟨x.1.symm, x.2⟩
  peek := fun h => (S.peek h).swap fun _ _ x => ⟨x.1.symm, held_flip x.2⟩
  nab := fun h => (S.nab h).swap fun _ _ x => ⟨x.1.symm, x.2.1, fun e => x.2.2 (x.1 ▸ e)⟩
  pab := fun h => (S.pab h).swap fun _ _ x => ⟨x.1.symm, held_flip x.2⟩

theorem same_layout {f f' : List (Option Str)} (h : SameLayout (fun m => m ≠ .word true) f f') :
    ∃ E M, Sim E M ∧ E (Tokenizer.start f) (Tokenizer.start f') := by
  induction h with
  | rel f f' h =>
    cases h with
    | comments h => exact Tokenizer.comments_same h
    | join h hf => exact Tokenizer.joined_same h hf
  | refl f => exact ⟨_, _, alike_sim, fun _ => rfl⟩
  | symm f f' _ ih =>
    obtain ⟨E, M, S, h⟩ := ih
    exact ⟨_, _, sim_flip S, h⟩
  | trans a b c _ _ ih ih' =>
    obtain ⟨E, M, S, h⟩ := ih
    obtain ⟨E', M', S', h'⟩ := ih'
    exact ⟨_, _, sim_comp S S', _, h, h'⟩

theorem same_files {fs fs' : Files} (h : SameFiles (fun m => m ≠ .word true) fs fs') : AlikeFiles fs fs' := by
  intro path
  rcases h path with ⟨e, e'⟩ | ⟨f, f', e, e', h⟩
  · rw [e, e']; trivial
  · rw [e, e']; exact same_layout h

end Ariadne.ZoneParser
