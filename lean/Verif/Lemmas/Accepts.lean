import Verif.Lemmas.ZoneEntries

/-! # A consistent zone set passes the checks of the loader -/

namespace Ariadne.ZoneParser

open Spec

theorem forAll_all {ε α : Type} {f : α → Out ε Unit} : ∀ {l : List α}, (∀ x ∈ l, f x = .ok ()) → forAll f l = .ok ()
  | [], _ => rfl
  | x :: xs, h => by
    unfold forAll
    rw [h x List.mem_cons_self, Out.bind_ok]
    exact forAll_all fun y hy => h y (List.mem_cons_of_mem _ hy)

theorem anyM_any {ε α : Type} {f : α → Out ε Bool} {g : α → Bool} : ∀ {l : List α}, (∀ x ∈ l, f x = .ok (g x)) → anyM f l = .ok (l.any g)
  | [], _ => rfl
  | x :: xs, h => by
    unfold anyM
    rw [h x List.mem_cons_self, Out.bind_ok, List.any_cons]
    cases g x with
    | true => rfl
    | false => exact anyM_any fun y hy => h y (List.mem_cons_of_mem _ hy)

theorem nsData_of {r : Record} (h : r.recordType = .NS) : ∃ n, r.data = .NS n ∧ (nsData r : Out ParseErr Name) = .ok n := by
  unfold Record.recordType at h
  cases hd : r.data <;> rw [hd] at h <;> first | (refine ⟨_, rfl, ?_⟩; simp only [nsData, hd]) | cases h

/-- The record is got under its owner and type. -/
theorem holds_got {z : Zone} {log : List Record} (h : Holds z log) (o : HashOrder) (p : Profile) {r : Record} {k : RecordType}
    (hr : r ∈ z.getAllOfType o k) {ε : Type} : ∃ rs, (z.get p r.node k : Out ε _) = .ok (some rs) ∧ r ∈ rs := by
  have hm : r ∈ recordsAt log r.node k := by
    rw [← h.all_at o]
    exact List.mem_filter.2 ⟨hr, by simp⟩
  refine ⟨_, ?_, hm⟩
  rw [h.get, if_neg (List.ne_nil_of_mem hm)]

theorem searchGlue_ok {z : Zone} {log : List Record} (h : Holds z log) (o : HashOrder) (p : Profile) {a : Record} (ha : a ∈ z.getAllOfType o .A) :
    searchGlue p a.node z = .ok true := by
  obtain ⟨rs, e, hm⟩ := holds_got h o p ha (ε := ParseErr)
  unfold searchGlue
  rw [e, Out.bind_ok]
  simp only [Out.ok.injEq, List.any_eq_true]
  exact ⟨a, hm, by simp⟩

theorem searchReferred_total {z : Zone} {log : List Record} (h : Holds z log) (p : Profile) (n : Name) :
    ∃ b, searchReferredNs p n z = .ok b ∧ ((∃ r ∈ recordsAt log z.zone .NS, r.data = .NS n) → b = true) := by
  unfold searchReferredNs
  rw [h.get]
  by_cases e : recordsAt log z.zone .NS = []
  · rw [if_pos e, Out.bind_ok]
    exact ⟨false, rfl, by rw [e]; rintro ⟨r, hr, -⟩; cases hr⟩
  · rw [if_neg e, Out.bind_ok]
    refine ⟨_, anyM_any (g := fun r => decide (r.data = .NS n)) fun r hr => ?_, ?_⟩
    · obtain ⟨m, h1, h2⟩ := nsData_of (recordsAt_spec hr).2
      rw [h2, Out.bind_ok, h1]
      congr 1
      rw [Bool.eq_iff_iff]
      simp only [beq_iff_eq, decide_eq_true_eq, RData.NS.injEq]
      exact eq_comm
    · rintro ⟨r, hr, hd⟩
      exact List.any_eq_true.2 ⟨r, hr, decide_eq_true hd⟩

theorem validate_consistent {p : Profile} {o : HashOrder} {zones : ManagedZone} (hsub : ∀ z ∈ zones.subZones, ∃ log, Holds z log)
    (h : Consistent o zones) : validateAuthZone o zones = .ok () ∧ forAll (validateSubzone p o zones) zones.subZones = .ok () := by
  refine ⟨?_, forAll_all fun sub hs => ?_⟩
  · unfold validateAuthZone
    simp only
    rw [if_neg (by simpa using h.ns)]
    exact forAll_all fun r hr => by
      unfold Name.isInZoneRoot
      rw [if_pos (by simpa using h.apex r hr)]
  · obtain ⟨log, hlog⟩ := hsub sub hs
    unfold validateSubzone
    simp only
    rw [if_neg (by simpa using h.subNs sub hs)]
    rw [forAll_all (f := validateSubNs p sub zones) fun r hr => ?_, Out.bind_ok]
    · refine forAll_all fun a ha => ?_
      unfold validateSubA
      obtain ⟨sub', hs', r, hr, hd⟩ := h.used sub hs a ha
      have hex : ∃ g : Zone → Bool, (∀ z ∈ zones.subZones, searchReferredNs p a.node z = .ok (g z)) ∧ g sub' = true := by
        refine ⟨fun z => match searchReferredNs p a.node z with | .ok b => b | _ => false, fun z hz => ?_, ?_⟩
        · obtain ⟨l, hl⟩ := hsub z hz
          obtain ⟨b, hb, -⟩ := searchReferred_total hl p a.node
          simp only [hb]
        · obtain ⟨l, hl⟩ := hsub sub' hs'
          obtain ⟨b, hb, hb'⟩ := searchReferred_total hl p a.node
          simp only [hb]
          refine hb' ⟨r, ?_, hd⟩
          rw [← hl.all_at o]
          exact List.mem_filter.2 ⟨hr, by simpa using h.subApex sub' hs' r hr⟩
      obtain ⟨g, hg, hg'⟩ := hex
      rw [anyM_any hg, Out.bind_ok, if_pos (List.any_eq_true.2 ⟨sub', hs', hg'⟩)]
    · unfold validateSubNs
      rw [if_neg (by unfold Name.isInZoneRoot; simpa using h.subApex sub hs r hr)]
      obtain ⟨n, h1, h2⟩ := nsData_of (hlog.all_type o .NS r hr)
      rw [h2, Out.bind_ok]
      by_cases hin : n.isInZone zones.authZone.zone = true
      · rw [if_neg (by simp [hin])]
        refine forAll_all fun sub' hs' => ?_
        by_cases hw : n.isInZone sub'.zone = true
        · rw [if_pos hw]
          obtain ⟨a, ha, rfl⟩ := h.glue sub hs r hr n h1 hin sub' hs' hw
          obtain ⟨l, hl⟩ := hsub sub' hs'
          rw [searchGlue_ok hl o p ha, Out.bind_ok, if_pos rfl]
        · rw [if_neg hw]
      · rw [if_pos (by simpa using hin)]

end Ariadne.ZoneParser
