import Verif.Spec.Loader

/-!
# Specification: zone sets that fit together

Stated on lists of records: those of the zone, and those of each sub zone with its name.
-/

namespace Ariadne.Spec

/-- The records of the zone and of its sub zones make a delegation that can be followed. -/
structure FitTogether (zone : Name) (rs : List Record) (subs : List (Name × List Record)) : Prop where
  /-- The zone has a name server. -/
  ns : ∃ r ∈ rs, r.recordType = .NS
  /-- Name servers are stated for the zone itself only. -/
  apex : ∀ r ∈ rs, r.recordType = .NS → r.node = zone
  /-- Each sub zone has a name server. -/
  subNs : ∀ s ∈ subs, ∃ r ∈ s.2, r.recordType = .NS
  /-- Each of its name servers is stated for the sub zone itself. -/
  subApex : ∀ s ∈ subs, ∀ r ∈ s.2, r.recordType = .NS → r.node = s.1
  /-- A name server of a sub zone that lies in the zone and in a sub zone has an address among the records of the latter. -/
  glue : ∀ s ∈ subs, ∀ r ∈ s.2, ∀ n, r.data = .NS n → Within n zone → ∀ s' ∈ subs, Within n s'.1 →
    ∃ a ∈ s'.2, a.recordType = .A ∧ a.node = n
  /-- Every address is that of a name server of a sub zone. -/
  used : ∀ s ∈ subs, ∀ a ∈ s.2, a.recordType = .A → ∃ s' ∈ subs, ∃ r ∈ s'.2, r.data = .NS a.node

end Ariadne.Spec
