import Verif.Model.Resolver
import Verif.Spec.Names
import Verif.Spec.Wire

/-! # Vocabulary for the resolver -/

namespace Ariadne.Spec

open Resolver

/-- A cache entry as lookups leave it at time `now`: records of the type of the key, owned by the name of the key (NS records
may have other owners), well-formed, all with the same TTL, which was counted from some moment in the past. -/
structure EntryOk (now : Nat) (key : Name × RecordType) (exp : Nat) (records : List Record) : Prop where
  type : ∀ r ∈ records, r.recordType = key.2
  owner : key.2 ≠ .NS → ∀ r ∈ records, r.node = key.1
  names : ∀ r ∈ records, WellFormed r
  stored : ∃ t ttl : Nat, t ≤ now ∧ ttl < 2 ^ 32 ∧ exp = t + ttl * NANOS ∧ ∀ r ∈ records, r.ttl.toNat = ttl

/-- All entries are. -/
def GoodCache (now : Nat) (c : RecordsCache) : Prop := ∀ key exp records, c.find key = some (exp, records) →
  EntryOk now key exp records

/-- No entry lives longer than 2³² seconds from `t` on. -/
def ExpiresBy (t : Nat) (c : RecordsCache) : Prop := ∀ key exp records, c.find key = some (exp, records) →
  exp < t + 2 ^ 32 * NANOS

/-- The other threads keep the cache good (they are lookups too), and do not, while this thread waits for the lock, store
records with a TTL so close to 2³² seconds that they live for more than that from the start of the waiting on. -/
structure Friendly (env : Env) : Prop where
  good : ∀ i c, GoodCache (env.clock i) c → GoodCache (env.clock i) (env.others i c)
  prompt : ∀ i c, ExpiresBy (env.clock i) c → ExpiresBy (env.clock i) (env.others (i + 1) c)

/-- The CNAME records lead from the first name to the second. -/
inductive Aliases : Name → List Record → Name → Prop
  | nil {n : Name} : Aliases n [] n
  | cons {n t m : Name} {c : Record} {cs : List Record} : c.node = n → c.data = .CNAME t → Aliases t cs m →
      Aliases n (c :: cs) m

/-- No CNAME record points back to the owner of an earlier one. -/
def NoWayBack (cs : List Record) : Prop := cs.Pairwise fun c d => d.data ≠ .CNAME c.node

/-- The datagram is the query with this id for this name and type. -/
def QueryFor (id : UInt16) (node : Name) (kind : RecordType) (bytes : List UInt8) : Prop :=
  Message.encodeToBytes ⟨⟨id, false, .STD, false, false, false, false, 0, .NoError, 1, 0, 0, 0⟩, [⟨node, kind, .IN⟩], [], [], []⟩ =
    .ok bytes

/-- A query for the name and type was answered with the id of the query, code NXDOMAIN and the AA flag. -/
def Denied (p : Profile) (node : Name) (kind : RecordType) (log : List Event) : Prop :=
  ∃ addr query reply id m, .exchange addr query (some reply) ∈ log ∧ QueryFor id node kind query ∧
    Message.decodeFromBytes p (reply.take 512) = .ok m ∧ m.header.id = id ∧ m.header.respCode = .NxDomain ∧
    m.header.authAnswer = true

/-- A query for an address was answered with the id of the query, code NXDOMAIN and the AA flag. -/
def AddrDenied (p : Profile) (log : List Event) : Prop := ∃ node, Denied p node .A log

/-- A datagram was received on which the decoder panics. -/
def PoisonedBy (p : Profile) (log : List Event) : Prop :=
  ∃ addr query reply, .exchange addr query (some reply) ∈ log ∧ (Message.decodeFromBytes p (reply.take 512)).Panics

/-- A datagram was received on which the decoder hangs. -/
def HungBy (p : Profile) (log : List Event) : Prop :=
  ∃ addr query reply, .exchange addr query (some reply) ∈ log ∧ Message.decodeFromBytes p (reply.take 512) = .diverge

/-- A packet with a query for the name and type is sent to the first address of the server. -/
def PacketTo (ns : NextNs) (node : Name) (kind : RecordType) (e : Event) : Prop :=
  ∃ r addr id query reply, ns.aRecords.head? = some r ∧ r.data = .A addr ∧ e = .exchange addr query reply ∧
    QueryFor id node kind query

/-- Packets are sent only directly after a server was chosen, at most `n` of them, all to its first address, and all for the
name and type for which it was chosen. -/
inductive Disciplined (n : Nat) : List Event → Prop
  | nil : Disciplined n []
  | start {z nf node kind l} : Disciplined n l → Disciplined n (.start z nf node kind :: l)
  | saved {node kind rs l} : Disciplined n l → Disciplined n (.saved node kind rs :: l)
  | contact {z ns node kind ps l} : ps.length ≤ n → (∀ e ∈ ps, PacketTo ns node kind e) → Disciplined n l →
      Disciplined n (.contact z ns node kind :: (ps ++ l))

/-- How many servers were contacted on behalf of exactly these zones. -/
def contactsFor (zones : List Name) (l : List Event) : Nat :=
  l.countP fun e => match e with
    | .contact z _ _ _ => z = zones
    | _ => false

/-- What a lookup needs in order to start: companions that keep the cache good, a good cache, a valid name, a type that can
be asked for, and limits that allow at least one query. -/
structure Ready (env : Env) (conf : Params) (node : Name) (kind : RecordType) (w : World) : Prop where
  friendly : Friendly env
  cache : GoodCache (env.clock w.ticks) w.cache
  log : w.log = []
  node : ValidName node.s
  kind : kind.isSupportedForQuestion = true
  nsq : conf.maxNsQueried ≠ 0
  retries : conf.maxUdpRetries ≠ 0

/-- The name is the other one or lies below it (in the tree of labels). -/
def Under (d z : Name) : Prop := ∃ M L, NameOf d.s (M ++ L) ∧ NameOf z.s L

/-- The name lies below the other one. -/
def Below (d z : Name) : Prop := ∃ M L, M ≠ [] ∧ NameOf d.s (M ++ L) ∧ NameOf z.s L

/-- The text of the second name ends the text of the first one at a label boundary. -/
def AtLabel (d z : Name) : Prop := ∃ t, d.s = t ++ z.s ∧ (t = [] ∨ t.getLast? = some '.')

/-- There is a non-empty entry of NS records for the zone that lives at time `t`. -/
def HasNs (c : RecordsCache) (t : Nat) (zone : Name) (records : List Record) : Prop :=
  ∃ exp, c.find (zone, .NS) = some (exp, records) ∧ t < exp ∧ records ≠ []

/-- What the header of a reply by the resolver has in common with that of the request, and what is fixed. -/
def Mirrors (h : Header) (m : Message) : Prop :=
  m.header.id = h.id ∧ m.header.queryResp = true ∧ m.header.recursionAvailable = true ∧ m.header.authAnswer = false ∧
  m.header.z = 0 ∧ m.header.opCode = h.opCode ∧ m.header.recursionDesired = h.recursionDesired

/-- A request with one question and, by its counts, no answers and no authorities. -/
def WellPosed (m : Message) : Prop :=
  m.header.queryResp = false ∧ m.header.questionsCount = 1 ∧ m.header.answersCount = 0 ∧ m.header.authoritiesCount = 0

/-- The resolver can start to work: friendly other threads, a good cache, nothing logged yet, limits that are not 0. -/
structure Up (env : Env) (conf : Params) (w : World) : Prop where
  friendly : Friendly env
  cache : GoodCache (env.clock w.ticks) w.cache
  log : w.log = []
  nsq : conf.maxNsQueried ≠ 0
  retries : conf.maxUdpRetries ≠ 0

end Ariadne.Spec
