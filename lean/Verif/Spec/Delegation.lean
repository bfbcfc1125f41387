import Verif.Spec.Resolver

/-! # Vocabulary for zones some of whose servers work -/

namespace Ariadne.Spec

open Resolver

section
variable (env : Env) (p : Profile) (node : Name) (kind : RecordType)

/-- Every query for the name and type sent to the address is answered, with its id, by a message with the property. -/
def Answers (P : Message → Prop) (addr : Ip4) : Prop :=
  ∀ hist id query, QueryFor id node kind query → ∃ reply m, env.net hist addr query = some reply ∧
    Message.decodeFromBytes p (reply.take 512) = .ok m ∧ m.header.id = id ∧ P m

/-- Nothing that can be taken for a response to the query with the id comes back: no datagram in time, or one that cannot be
decoded, or one with another id. -/
def Lost (id : UInt16) (reply : Option (List UInt8)) : Prop :=
  ∀ bytes, reply = some bytes → (∃ e, Message.decodeFromBytes p (bytes.take 512) = .err e) ∨
    ∃ m, Message.decodeFromBytes p (bytes.take 512) = .ok m ∧ m.header.id ≠ id

/-- Of the next `t` queries for the name and type sent to the address in a row after this history, one is answered, with
its id, by a message with the property; those before are lost. -/
def RespondsWithin (P : Message → Prop) (addr : Ip4) : (t : Nat) → (hist : List Event) → Prop
  | 0, _ => False
  | t + 1, hist => ∀ id query, QueryFor id node kind query →
    (∃ reply m, env.net hist addr query = some reply ∧ Message.decodeFromBytes p (reply.take 512) = .ok m ∧ m.header.id = id ∧ P m) ∨
    (Lost p id (env.net hist addr query) ∧ RespondsWithin P addr t (hist ++ [.exchange addr query (env.net hist addr query)]))

/-- Of any `t` queries in a row one is answered. -/
def Responds (t : Nat) (P : Message → Prop) (addr : Ip4) : Prop := ∀ hist, RespondsWithin env p node kind P addr t hist

/-- The NS records among some records. -/
def nsRecords (l : List Record) : List Record := l.filter fun r => r.recordType = .NS

/-- A response to the query with the id that is of no use: it has another id, or an error code, or denies the name without
authority, or has neither answers nor name servers. -/
def OfNoUse (id : UInt16) (m : Message) : Prop :=
  m.header.id ≠ id ∨ (m.header.respCode ≠ .NoError ∧ m.header.respCode ≠ .NxDomain) ∨
  (m.header.respCode = .NxDomain ∧ m.header.authAnswer = false) ∨
  (m.header.respCode = .NoError ∧ m.answers = [] ∧ nsRecords m.authorities = [])

/-- No query for the name and type sent to the address is answered by anything of use: there is no answer, or it cannot be
decoded, or is of no use. -/
def Useless (addr : Ip4) : Prop :=
  ∀ hist id query reply, QueryFor id node kind query → env.net hist addr query = some reply →
    (∃ e, Message.decodeFromBytes p (reply.take 512) = .err e) ∨
    ∃ m, Message.decodeFromBytes p (reply.take 512) = .ok m ∧ OfNoUse id m

/-- Of the servers, each given by its addresses, some are up and answer one of `t` queries in a row with a message with the
property; the others are down, and those are fewer than `n`. -/
def Served (t n : Nat) (P : Message → Prop) (servers : List (List Ip4)) : Prop :=
  ∃ isUp : Ip4 → Bool,
    (∀ s ∈ servers, s ≠ [] ∧ ((∀ a ∈ s, isUp a = true) ∨ ∀ a ∈ s, isUp a = false)) ∧
    (∀ s ∈ servers, ∀ a ∈ s, (isUp a = true → Responds env p node kind t P a) ∧ (isUp a = false → Useless env p node kind a)) ∧
    (∃ s ∈ servers, ∀ a ∈ s, isUp a = true) ∧
    (servers.countP fun s => s.all fun a => !isUp a) < n

/-- The addresses of a name among some records. -/
def addressesOf (n : Name) (l : List Record) : List Ip4 :=
  l.filterMap fun r => match r.data with
    | .A a => if r.node = n then some a else none
    | _ => none

/-- The addresses of each of the servers named by a message. -/
def glueOf (m : Message) : List (List Ip4) :=
  (nsRecords m.authorities).filterMap fun r => match r.data with
    | .NS t => some (addressesOf t m.additionals)
    | _ => none

/-- The message is a referral to the servers of the zone, which are different hosts, with their addresses. -/
structure IsReferral (m : Message) (zone : Name) : Prop where
  code : m.header.respCode = .NoError
  answers : m.answers = []
  some : nsRecords m.authorities ≠ []
  owner : ∀ r ∈ nsRecords m.authorities, r.node = zone
  hosts : (nsRecords m.authorities).Pairwise fun r r' => r.data ≠ r'.data
  glue : ∀ s ∈ glueOf m, s ≠ []

/-- The message is an answer with exactly these records of the name and type. -/
def IsAnswer (records : List Record) (m : Message) : Prop :=
  m.header.respCode = .NoError ∧ (m.answers.filter fun r => r.node = node ∧ r.recordType = kind).Perm records

/-- The message is an authoritative denial: the name does not exist. -/
def IsDenial (m : Message) : Prop := m.header.respCode = .NxDomain ∧ m.header.authAnswer = true

/-- All of these servers have addresses, and all are down. -/
def AllDown (servers : List (List Ip4)) : Prop := servers ≠ [] ∧ ∀ s ∈ servers, s ≠ [] ∧ ∀ a ∈ s, Useless env p node kind a

/-- From these servers of the zone `depth` referrals, each to a zone further down on the way to the name, lead to servers
of which the last statement holds; at each stage before some servers work, and fewer than `n` are down. -/
def LeadsTo (t n : Nat) (last : List (List Ip4) → Prop) : (depth : Nat) → (zone : Name) → (servers : List (List Ip4)) → Prop
  | 0, _, servers => last servers
  | depth + 1, zone, servers => Served env p node kind t n (fun m => ∃ next, IsReferral m next ∧ Under node next ∧ Below next zone ∧
      LeadsTo t n last depth next (glueOf m)) servers

/-- The cache has nothing about the name: no records of the type, no alias, and no servers of a zone it may lie in. -/
def NothingAbout (c : RecordsCache) : Prop :=
  c.find (node, kind) = none ∧ c.find (node, .CNAME) = none ∧ ∀ zone, Under node zone → c.find (zone, .NS) = none

end

end Ariadne.Spec
