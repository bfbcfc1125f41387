import Verif.Spec.Truth
import Verif.Spec.Delegation
import Verif.Spec.Client

/-! # Names without records of the type asked for -/

namespace Ariadne.Spec

open Resolver

/-- The name exists, but has no records of the type; or it is an alias of such a name, and so on. -/
def LacksType (U : Facts) (node : Name) (kind : RecordType) : Prop :=
  ∀ chain final, (∀ c ∈ chain, Factual U c) → Aliases node chain final → U final kind = [] ∧ ∃ t, U final t ≠ []

/-- The response says, with authority, that there is no error and no record to answer with, and refers to nobody else (RFC 2308, section 2.2: NODATA). -/
def SaysNoData (m : Message) : Prop :=
  m.header.respCode = .NoError ∧ m.header.authAnswer = true ∧ m.header.truncated = false ∧ m.answers = [] ∧ ∀ r ∈ m.authorities, r.recordType ≠ .NS

end Ariadne.Spec
