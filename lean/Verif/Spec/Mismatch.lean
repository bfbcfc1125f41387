import Verif.Spec.Resolver

/-! # Vocabulary for what is taken from a response -/

namespace Ariadne.Spec

open Resolver

/-- The last thing that happened is that this message was received in reply to a query for this name and type, with the id of the query. -/
def JustReceived (p : Profile) (node : Name) (kind : RecordType) (resp : Message) (log : List Event) : Prop :=
  ∃ before addr query reply id, log = before ++ [.exchange addr query (some reply)] ∧ QueryFor id node kind query ∧
    Message.decodeFromBytes p (reply.take 512) = .ok resp ∧ resp.header.id = id

/-- What is taken from the message for an answer, an alias, a referral, or a denial of the name, is in the message; answers and aliases belong to the
name (and type) asked for. -/
def TakenFrom (resp : Message) (node : Name) (kind : RecordType) : NsResponse → Prop
  | .answer answers additionals => resp.header.respCode = .NoError ∧ answers ≠ [] ∧
      (∀ r ∈ answers, r ∈ resp.answers ∧ r.node = node ∧ r.recordType = kind) ∧ additionals = resp.additionals
  | .alias cname _ => resp.header.respCode = .NoError ∧ cname ∈ resp.answers ∧ cname.node = node ∧ ∃ t, cname.data = .CNAME t
  | .delegation nss => resp.header.respCode = .NoError ∧ nss ≠ [] ∧ ∀ ns ∈ nss, ns.nsRecord ∈ resp.authorities ∧ (∃ t, ns.nsRecord.data = .NS t) ∧
      ns.nsRecord.node.s <:+ node.s
  | .noDomain _ => resp.header.respCode = .NxDomain ∧ resp.header.authAnswer = true

end Ariadne.Spec
