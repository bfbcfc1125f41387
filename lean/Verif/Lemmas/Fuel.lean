import Verif.Lemmas.Perform

/-! # More fuel does not change a lookup that ends -/

namespace Ariadne.Resolver

open Spec

/-- Wherever the first ends, the second does the same. -/
def Le {α : Type} (m m' : M α) : Prop := ∀ w, (m w).1 ≠ .diverge → m' w = m w

namespace Le

variable {α β : Type}

theorem refl (m : M α) : Le m m := fun _ _ => rfl

theorem bind {m m' : M α} {f f' : α → M β} (h : Le m m') (hf : ∀ a, Le (f a) (f' a)) : Le (m >>= f) (m' >>= f') := by
  intro w hd
  have e1 : (m >>= f) w = match m w with
    | (.ok a, w') => f a w'
    | (.err e, w') => (.err e, w')
    | (.panic k, w') => (.panic k, w')
    | (.diverge, w') => (.diverge, w') := rfl
  have e2 : (m' >>= f') w = match m' w with
    | (.ok a, w') => f' a w'
    | (.err e, w') => (.err e, w')
    | (.panic k, w') => (.panic k, w')
    | (.diverge, w') => (.diverge, w') := rfl
  have hm : (m w).1 ≠ .diverge := by
    intro h0
    apply hd
    rw [e1]
    generalize m w = x at h0
    obtain ⟨o, w'⟩ := x
    simp only at h0
    subst h0
    rfl
  have hw := h w hm
  rw [e2, hw, e1]
  rw [e1] at hd
  generalize m w = x at hd hm
  obtain ⟨o, w'⟩ := x
  cases o with
  | ok a => exact hf a w' hd
  | err e => rfl
  | panic k => rfl
  | diverge => rfl

theorem attempt {m m' : M α} (h : Le m m') : Le (M.attempt m) (M.attempt m') := by
  intro w hd
  have hm : (m w).1 ≠ .diverge := by
    intro h0
    apply hd
    unfold M.attempt
    generalize m w = x at h0
    obtain ⟨o, w'⟩ := x
    simp only at h0
    subst h0
    rfl
  unfold M.attempt
  rw [h w hm]

end Le

variable {env : Env} {p : Profile}

theorem tryServer_le {sub sub' : Lookup → M Response} (h : ∀ lk, Le (sub lk) (sub' lk)) (lk : Lookup) (ns : NextNs) :
    Le (tryServer env p sub lk ns) (tryServer env p sub' lk ns) := by
  unfold tryServer
  refine Le.bind ?_ fun _ => Le.refl _
  unfold resolveAddrs
  refine Le.bind (Le.refl _) fun as => ?_
  by_cases h0 : as.isEmpty
  · rw [if_pos h0, if_pos h0]
    refine Le.bind (Le.refl _) fun n => Le.bind (Le.attempt ?_) fun x => Le.refl _
    unfold resolveNsSubquery
    exact Le.bind (Le.refl _) fun _ => Le.bind (h _) fun _ => Le.refl _
  · rw [if_neg h0, if_neg h0]
    exact Le.refl _

theorem tryServers_le {sub sub' : Lookup → M Response} (h : ∀ lk, Le (sub lk) (sub' lk)) (lk : Lookup) :
    ∀ (nss : List NextNs) (e : Option LookupErr), Le (tryServers env p sub lk nss e) (tryServers env p sub' lk nss e)
  | [], some e => Le.refl _
  | [], none => Le.refl _
  | ns :: nss, e => by
    unfold tryServers
    refine Le.bind (Le.attempt (tryServer_le h lk ns)) fun x => ?_
    cases x with
    | inr r => exact Le.refl _
    | inl e' => exact tryServers_le h lk nss _

theorem query_le {sub sub' : Lookup → M Response} (h : ∀ lk, Le (sub lk) (sub' lk)) (lk : Lookup) :
    ∀ (fuel fuel' : Nat) (nss : List NextNs), fuel ≤ fuel' →
      Le (queryIteratively env p sub lk fuel nss) (queryIteratively env p sub' lk fuel' nss)
  | 0, _, nss, _ => fun w hd => absurd rfl hd
  | fuel + 1, 0, nss, hf => absurd hf (by omega)
  | fuel + 1, fuel' + 1, nss, hf => by
    unfold queryIteratively
    by_cases h0 : nss.length = 0
    · rw [if_pos h0, if_pos h0]; exact Le.refl _
    · rw [if_neg h0, if_neg h0]
      refine Le.bind (tryServers_le h lk _ _) fun r => ?_
      cases r with
      | delegation nss' => exact Le.bind (Le.refl _) fun _ => query_le h lk fuel fuel' nss' (by omega)
      | noDomain s => exact Le.refl _
      | answer a b => exact Le.refl _
      | «alias» a b => exact Le.refl _

theorem loop_le {sub sub' : Lookup → M Response} (h : ∀ lk, Le (sub lk) (sub' lk)) {fuel fuel' : Nat} (hf : fuel ≤ fuel') :
    ∀ (rounds : Nat) (lk : Lookup) (nss : List NextNs),
      Le (performLoop env p sub fuel rounds lk nss) (performLoop env p sub' fuel' rounds lk nss)
  | 0, _, _ => Le.refl _
  | rounds + 1, lk, nss => by
    unfold performLoop
    refine Le.bind (Le.refl _) fun _ => Le.bind (Le.refl _) fun cached => ?_
    by_cases h0 : cached.length > 0
    · rw [if_pos h0, if_pos h0]; exact Le.refl _
    · rw [if_neg h0, if_neg h0]
      refine Le.bind (Le.refl _) fun cn => ?_
      cases cn with
      | cons c rest => exact Le.bind (Le.refl _) fun lk' => loop_le h hf rounds lk' []
      | nil =>
        refine Le.bind (Le.refl _) fun nss' => Le.bind (query_le h lk fuel fuel' nss' hf) fun r => ?_
        cases r with
        | delegation nss' => exact Le.refl _
        | noDomain s => exact Le.refl _
        | answer a b => exact Le.refl _
        | «alias» c nss2 => exact Le.bind (Le.refl _) fun lk' => loop_le h hf rounds lk' nss2

theorem perform_le : ∀ (fuel fuel' : Nat) (lk : Lookup), fuel ≤ fuel' → Le (perform env p fuel lk) (perform env p fuel' lk)
  | 0, _, _, _ => fun w hd => absurd rfl hd
  | fuel + 1, 0, _, hf => absurd hf (by omega)
  | fuel + 1, fuel' + 1, lk, hf => by
    unfold perform
    exact loop_le (fun lk => perform_le fuel fuel' lk (by omega)) (by omega) _ _ _

end Ariadne.Resolver
