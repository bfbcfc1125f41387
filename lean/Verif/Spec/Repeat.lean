import Verif.Spec.Resolver

/-! # Vocabulary for repeated lookups -/

namespace Ariadne.Spec

open Resolver

/-- Where the aliases lead: nowhere else if there are none, otherwise to the target of the last one. -/
def EndsAt (node : Name) (aliases : List Record) (final : Name) : Prop :=
  (aliases = [] ∧ final = node) ∨ ∃ c, aliases.getLast? = some c ∧ c.data = .CNAME final

/-- The smallest of the TTLs. -/
def Shortest (records : List Record) (ttl : UInt32) : Prop := (∃ r ∈ records, r.ttl = ttl) ∧ ∀ r ∈ records, ttl ≤ r.ttl

end Ariadne.Spec
