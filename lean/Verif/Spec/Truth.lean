import Verif.Spec.Resolver

/-! # Vocabulary for lookups in a world of honest servers -/

namespace Ariadne.Spec

open Resolver

/-- What is true in the DNS: the data of the record set of each name and type (empty if there is none). -/
abbrev Facts := Name → RecordType → List RData

/-- The record is part of the record set of its owner and type. -/
def Factual (U : Facts) (r : Record) : Prop := r.data ∈ U r.node r.recordType

/-- The list has the whole record set of the name and type. -/
def HasAll (U : Facts) (node : Name) (kind : RecordType) (l : List Record) : Prop :=
  ∀ d ∈ U node kind, ∃ r ∈ l, r.node = node ∧ r.recordType = kind ∧ r.data = d

/-- A response to the query for the name and type that says nothing but the truth: all records are factual, NXDOMAIN is
said only of names without records, and if a section has a record of some record set, it has all of them, unless the
response says that it is truncated (RFC 2181, section 5). -/
structure Honest (U : Facts) (node : Name) (m : Message) : Prop where
  facts : ∀ r ∈ m.answers ++ m.authorities ++ m.additionals, Factual U r
  denial : m.header.respCode = .NxDomain → ∀ t, U node t = []
  whole : m.header.truncated = false → ∀ l ∈ [m.answers, m.authorities, m.additionals], ∀ r ∈ l, HasAll U r.node r.recordType l

/-- Whatever is received in answer to a query and is a response with its id is honest. -/
def HonestWorld (U : Facts) (env : Env) (p : Profile) : Prop :=
  ∀ hist addr query reply id node kind m, env.net hist addr query = some reply → QueryFor id node kind query →
    Message.decodeFromBytes p (reply.take 512) = .ok m → m.header.id = id → Honest U node m

/-- No response ever says that it is truncated. -/
def NeverTruncated (env : Env) (p : Profile) : Prop :=
  ∀ hist addr query reply m, env.net hist addr query = some reply →
    Message.decodeFromBytes p (reply.take 512) = .ok m → m.header.truncated = false

/-- The cache says nothing but the truth, and nothing under a wrong key (except that NS records are filed under the owner of
the first). -/
def FactualCache (U : Facts) (c : RecordsCache) : Prop :=
  ∀ key exp records, c.find key = some (exp, records) → ∀ r ∈ records, Factual U r ∧ (key.2 ≠ .NS → r.node = key.1 ∧ r.recordType = key.2)

/-- All record sets in the cache, but for those of NS records, are whole. -/
def WholeCache (U : Facts) (c : RecordsCache) : Prop :=
  ∀ key exp records, c.find key = some (exp, records) → key.2 ≠ .NS → HasAll U key.1 key.2 records

end Ariadne.Spec
