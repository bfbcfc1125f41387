import Verif.Spec.Delegation

/-! # Vocabulary for name spaces that are in order -/

namespace Ariadne.Spec

open Resolver

/-- The answer to a question: there are records; the name is an alias; the name does not exist. -/
inductive Fate
  | found (records : List Record)
  | «alias» (cname : Record)
  | absent

/-- The record but for its TTL. -/
def bare (r : Record) : Record := { r with ttl := 0 }

/-- The records are the same but for TTLs and order. -/
def Same (l l' : List Record) : Prop := (l.map bare).Perm (l'.map bare)

/-- The records with the owner and type. -/
def recordsOf (n : Name) (k : RecordType) (l : List Record) : List Record := l.filter fun r => r.node = n ∧ r.recordType = k

/-- The hosts named by some NS records. -/
def targets (l : List Record) : List Name := l.filterMap fun r => match r.data with
  | .NS t => some t
  | _ => none

/-- A name space. -/
structure NameSpace where
  /-- The hosts that serve a zone; none if the name is not that of a zone. -/
  nameservers : Name → List Name
  /-- The address records of such a host. -/
  hosts : Name → List Record
  /-- The questions that are of interest. -/
  asked : Name → RecordType → Prop
  /-- What the answers are. -/
  fate : Name → RecordType → Fate
  /-- Zones ordered such that hosts whose addresses the parent zone does not give are in zones that come earlier. -/
  rank : Name → Nat
  /-- How many ranks there are. -/
  depth : Nat

namespace NameSpace

variable (N : NameSpace)

/-- The name of a zone other than the root. -/
def Zone (z : Name) : Prop := N.nameservers z ≠ []

/-- The host's addresses can be asked for, and answered, without the help of the zone: all zones it lies in come before it
in rank. (The third clause excludes hosts the text of whose name happens to end with that of the zone, at no label boundary;
see C62.) -/
def Free (t z : Name) : Prop :=
  N.asked t .A ∧ (∀ z', N.Zone z' → Under t z' → N.rank z' < N.rank z) ∧ ¬ z.s <:+ t.s

/-- The TTL is more than so many nanoseconds. -/
def Lasting (d : Nat) (r : Record) : Prop := d < r.ttl.toNat * NANOS

/-- The message names all servers of the zone, and gives, for each, either all addresses or, if it is free, none. -/
structure Describes (d : Nat) (m : Message) (z : Name) : Prop where
  owner : ∀ r ∈ nsRecords m.authorities, r.node = z
  whole : (targets (nsRecords m.authorities)).Perm (N.nameservers z)
  apart : (N.nameservers z).Nodup
  glue : ∀ t ∈ N.nameservers z, Same (recordsOf t .A m.additionals) (N.hosts t) ∨
    (recordsOf t .A m.additionals = [] ∧ N.Free t z)
  lasting : (∀ r ∈ nsRecords m.authorities, Lasting d r) ∧
    ∀ t ∈ N.nameservers z, ∀ r ∈ recordsOf t .A m.additionals, Lasting d r

/-- The message tells the answer to the question. If that is an alias, the message may describe a zone the target is in,
but names no other servers that may be taken for those of such a zone. -/
def Tells (d : Nat) (n : Name) (k : RecordType) (m : Message) : Prop :=
  match N.fate n k with
  | .found l => m.header.respCode = .NoError ∧ Same (recordsOf n k m.answers) l ∧
      (∀ z, k = .A → n ∈ N.nameservers z → ∀ r ∈ recordsOf n k m.answers, Lasting d r)
  | .alias c => m.header.respCode = .NoError ∧ recordsOf n k m.answers = [] ∧
      (∃ c', recordsOf n .CNAME m.answers = [c'] ∧ bare c' = bare c) ∧
      ∀ t, c.data = .CNAME t → (∀ r ∈ nsRecords m.authorities, ¬ r.node.s <:+ t.s) ∨
        ∃ z, N.Zone z ∧ Under t z ∧ N.Describes d m z
  | .absent => IsDenial m

/-- A server of the zone may say this in answer to the question: it refers to servers of a zone further down on the way to
the name, or tells the answer. -/
def Helps (d : Nat) (n : Name) (k : RecordType) (z : Name) (m : Message) : Prop :=
  (m.header.respCode = .NoError ∧ m.answers = [] ∧ ∃ next, N.Zone next ∧ N.Describes d m next ∧ Under n next ∧ Below next z) ∨
  N.Tells d n k m

/-- The addresses of the servers of the zone. -/
def addresses (z : Name) : List (List Ip4) := (N.nameservers z).map fun t => addressesOf t (N.hosts t)

/-- The name space is in order: of the servers of each zone on the way to a name of interest some work, and fewer than `n`
do not; those that do answer one of any `t` queries in a row as they should, and TTLs are more than `d` nanoseconds. -/
structure WellRun (env : Env) (p : Profile) (t n : Nat) (d : Nat) : Prop where
  names : ∀ {m k}, N.asked m k → ValidName m.s ∧ k.isSupportedForQuestion = true ∧ k ≠ .NS ∧ k ≠ .CNAME
  found : ∀ {m k l}, N.asked m k → N.fate m k = .found l → l ≠ [] ∧ ∀ r ∈ l, r.node = m ∧ r.recordType = k
  aliases : ∀ {m k c}, N.asked m k → N.fate m k = .alias c → c.node = m ∧ ∃ t, c.data = .CNAME t ∧ N.asked t k
  uniform : ∀ {m k k' c}, N.asked m k → N.asked m k' → N.fate m k = .alias c → N.fate m k' = .alias c
  hosts : ∀ {t z}, t ∈ N.nameservers z → N.hosts t ≠ [] ∧ ∀ r ∈ N.hosts t, r.node = t ∧ r.recordType = .A
  agree : ∀ {t z}, t ∈ N.nameservers z → N.asked t .A → N.fate t .A = .found (N.hosts t)
  ranks : ∀ {z}, N.Zone z → N.rank z < N.depth
  root : ∀ {m k}, N.asked m k → Served env p m k t n (N.Helps d m k ⟨['.']⟩) (rootServers.map fun s => [s.2])
  zones : ∀ {m k z}, N.asked m k → N.Zone z → Under m z → Served env p m k t n (N.Helps d m k z) (N.addresses z)

/-- The cache has an entry that outlives the moment. -/
def Alive (stop : Nat) (c : RecordsCache) (key : Name × RecordType) : Prop := ∃ exp records, c.find key = some (exp, records) ∧ stop < exp

/-- What the cache says at the moment `start` is in order: records have the type they are filed under, all the same TTL;
questions of interest are answered correctly; address records of servers, and NS records, live until after `stop`, and if it
has those of a zone, it has all, and also the addresses of the servers, except of those that are free. -/
structure Coherent (start stop : Nat) (c : RecordsCache) : Prop where
  uniform : ∀ {key exp rs}, c.find key = some (exp, rs) → start < exp → (∀ r ∈ rs, r.recordType = key.2) ∧ ∀ r ∈ rs, ∀ r' ∈ rs, r.ttl = r'.ttl
  answers : ∀ {n k exp rs}, N.asked n k → c.find (n, k) = some (exp, rs) → start < exp → ∃ l, N.fate n k = .found l ∧ Same rs l
  aliases : ∀ {n k exp rs}, N.asked n k → c.find (n, .CNAME) = some (exp, rs) → start < exp →
    ∃ cname, N.fate n k = .alias cname ∧ Same rs [cname]
  hosts : ∀ {t z exp rs}, t ∈ N.nameservers z → c.find (t, .A) = some (exp, rs) → start < exp → stop < exp ∧ Same rs (N.hosts t)
  zones : ∀ {n k z exp rs}, N.asked n k → Under n z → c.find (z, .NS) = some (exp, rs) → start < exp →
    stop < exp ∧ N.Zone z ∧ (∀ r ∈ rs, r.node = z) ∧ (targets rs).Perm (N.nameservers z) ∧
    ∀ t ∈ N.nameservers z, Alive stop c (t, .A) ∨ N.Free t z

/-- No entry of the cache lives longer than the greatest TTL from now on. -/
def Fresh (now : Nat) (c : RecordsCache) : Prop := ∀ key exp rs, c.find key = some (exp, rs) → exp ≤ now + (2 ^ 32 - 1) * NANOS

/-- What the other threads do to the cache leaves it in order, and the addresses of servers in it; they do not, while this
thread waits for the lock, store records with a TTL so close to 2³² seconds that they live for more than that from the start
of the waiting on. -/
structure Companions (env : Env) (start stop : Nat) : Prop where
  coherent : ∀ i c, N.Coherent start stop c → N.Coherent start stop (env.others i c)
  alive : ∀ i c t z, t ∈ N.nameservers z → N.Coherent start stop c → Alive stop c (t, .A) → Alive stop (env.others i c) (t, .A)
  fresh : ∀ i c, Fresh (env.clock i) c → Fresh (env.clock i) (env.others i c)
  prompt : ∀ i c, ExpiresBy (env.clock i) c → ExpiresBy (env.clock i) (env.others (i + 1) c)

/-- Where the aliases lead from the name: the CNAME records on the way, and what becomes of the question in the end. -/
inductive Fares (k : RecordType) : Name → List Record → Fate → Prop
  | last {n : Name} {f : Fate} : N.fate n k = f → (∀ c, f ≠ .alias c) → Fares k n [] f
  | follow {n t : Name} {c : Record} {cs : List Record} {f : Fate} : N.fate n k = .alias c → c.data = .CNAME t → Fares k t cs f →
      Fares k n (c :: cs) f

end NameSpace

/-- The response to the lookup of a name: the CNAME records on the way, in order, and then the records if there are. -/
def Response.Reports (r : Resolver.Response) (cnames : List Record) : Fate → Prop
  | .found l => r.noRecords = false ∧ ∃ cs rs, r.answers = cs ++ rs ∧ cs.map bare = cnames.map bare ∧ Same rs l
  | .absent => r.noRecords = true ∧ r.answers.map bare = cnames.map bare
  | .alias _ => False

end Ariadne.Spec
