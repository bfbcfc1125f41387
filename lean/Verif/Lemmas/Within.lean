import Verif.Lemmas.NameRound
import Verif.Spec.Loader

/-! # Containment of names -/

namespace Ariadne

open Spec

theorem nameOf_unique {s : Str} {L M : List Str} (h : NameOf s L) (h' : NameOf s M) : L = M := by
  have hr : render L = render M := h.2 ▸ h'.2
  have key : ∀ {K : List Str}, (∀ l ∈ K, ValidLabel l) → K ≠ [] → splitOn '.' (render K) ≠ [[], []] := by
    intro K hK hne e
    rw [splitOn_render hK hne] at e
    cases K with
    | nil => exact hne rfl
    | cons k K =>
      simp only [List.cons_append, List.cons.injEq] at e
      obtain ⟨_, a, _, ha, _⟩ := (hK k (by simp)).2
      rw [e.1] at ha
      cases ha
  have hroot : splitOn '.' (render []) = [[], []] := by decide
  by_cases hL : L = []
  · by_cases hM : M = []
    · rw [hL, hM]
    · subst hL
      rw [hr] at hroot
      exact absurd hroot (key h'.1 hM)
  · by_cases hM : M = []
    · subst hM
      rw [← hr] at hroot
      exact absurd hroot (key h.1 hL)
    · have := congrArg (splitOn '.') hr
      rw [splitOn_render h.1 hL, splitOn_render h'.1 hM] at this
      exact List.append_cancel_right this

theorem nameOf_root {s : Str} (h : NameOf s []) : s = ['.'] := h.2

/-- Containment as the code decides it, for a zone other than the root. -/
theorem isInZone_within {n z : Name} (hn : ValidName n.s) (hz : ValidName z.s) (hr : z.s ≠ ['.']) :
    n.isInZone z = true ↔ Within n z := by
  obtain ⟨_, L, hL⟩ := hn
  obtain ⟨_, M, hM⟩ := hz
  have hM0 : M ≠ [] := by rintro rfl; exact hr (nameOf_root hM)
  rw [isInZone_iff hL hM hM0]
  constructor
  · intro h; exact ⟨L, M, hL, hM, h⟩
  · rintro ⟨L', M', hL', hM', h⟩
    rw [nameOf_unique hL hL', nameOf_unique hM hM']
    exact h

/-- For the root zone: only the root itself. -/
theorem isInZone_root {n z : Name} (hn : ValidName n.s) (hz : z.s = ['.']) : n.isInZone z = true ↔ n = z := by
  obtain ⟨_, L, hL⟩ := hn
  have hsp : splitOn '.' z.s = [[], []] := by rw [hz]; decide
  unfold Name.isInZone
  rw [inZoneLoop_iff, hsp]
  constructor
  · intro h
    by_cases hL0 : L = []
    · subst hL0
      have : n.s = z.s := by rw [hz, nameOf_root hL]
      cases n; cases z; simp_all
    · exfalso
      rw [hL.2, splitOn_render hL.1 hL0] at h
      simp only [List.reverse_append, List.reverse_cons, List.reverse_nil, List.nil_append, List.cons_append] at h
      have h2 := List.cons_prefix_cons.1 h
      have h3 : [] ∈ L.reverse := h2.2.subset (by simp)
      obtain ⟨_, a, _, ha, _⟩ := (hL.1 [] (by simpa using h3)).2
      cases ha
  · rintro rfl
    rw [hsp]
    exact List.prefix_rfl

theorem within_refl {n : Name} (h : ValidName n.s) : Within n n := by
  obtain ⟨_, L, hL⟩ := h
  exact ⟨L, L, hL, hL, List.suffix_refl _⟩

theorem within_of_isInZone {n z : Name} (hn : ValidName n.s) (hz : ValidName z.s) (h : n.isInZone z = true) :
    Within n z := by
  by_cases hr : z.s = ['.']
  · rw [isInZone_root hn hr] at h
    rw [h]; exact within_refl hz
  · exact (isInZone_within hn hz hr).1 h

theorem within_trans {a b c : Name} (h : Within a b) (h' : Within b c) : Within a c := by
  obtain ⟨L, M, hL, hM, h⟩ := h
  obtain ⟨M', N, hM', hN, h'⟩ := h'
  rw [nameOf_unique hM' hM] at h'
  exact ⟨L, N, hL, hN, h'.trans h⟩

theorem within_valid {n z : Name} (hn : n.s.length ≤ 255) (h : Within n z) : ValidName n.s := by
  obtain ⟨L, _, hL, _⟩ := h
  exact ⟨hn, L, hL⟩

theorem within_root {n z : Name} (hn : ValidName n.s) (hz : z.s = ['.']) : Within n z := by
  obtain ⟨_, L, hL⟩ := hn
  exact ⟨L, [], hL, ⟨by simp, hz⟩, List.nil_suffix⟩

end Ariadne
