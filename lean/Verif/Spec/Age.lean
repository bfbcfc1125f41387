import Verif.Spec.Client

/-! # Vocabulary for the age of records -/

namespace Ariadne.Spec

open Resolver

/-- The records of the datagrams that were received. -/
def receivedBy (p : Profile) : List Event → List Record
  | [] => []
  | .exchange _ _ (some reply) :: log => (match Message.decodeFromBytes p (reply.take 512) with
    | .ok m => m.answers ++ m.authorities ++ m.additionals
    | _ => []) ++ receivedBy p log
  | _ :: log => receivedBy p log

/-- A lookup in the history of a resolver: the world before, what it returned, the world after. -/
structure Visit where
  before : World
  result : Out LookupErr Response
  after : World

/-- Lookups one after the other. -/
def visits (env : Env) (p : Profile) (conf : Params) (fuel : Nat) : List (Name × RecordType) → World → List Visit
  | [], _ => []
  | q :: qs, w => ⟨w, (lookup env p conf fuel q.1 q.2 w).1, (lookup env p conf fuel q.1 q.2 w).2⟩ ::
      visits env p conf fuel qs (lookup env p conf fuel q.1 q.2 w).2

/-- One of the lookups received a record that says the same, with at least this TTL. -/
def HasSource (p : Profile) (history : List Visit) (x : Record) : Prop :=
  ∃ v ∈ history, ∃ r ∈ receivedBy p (v.after.log.drop v.before.log.length), content r = content x ∧ x.ttl.toNat ≤ r.ttl.toNat

/-- One of the lookups received a record that says the same, with at least this TTL; and the TTL, from `now` on, ends no later than
that of the received record, from the end of that lookup on. -/
def InTime (env : Env) (p : Profile) (history : List Visit) (now : Nat) (x : Record) : Prop :=
  ∃ v ∈ history, ∃ r ∈ receivedBy p (v.after.log.drop v.before.log.length), content r = content x ∧ x.ttl.toNat ≤ r.ttl.toNat ∧
    now + x.ttl.toNat * NANOS ≤ env.clock v.after.ticks + r.ttl.toNat * NANOS

end Ariadne.Spec
