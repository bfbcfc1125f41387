import Verif.Spec.WellRun
import Verif.Spec.Together
import Verif.Props.EndToEnd

/-! # Vocabulary for a network of name servers of this program -/

namespace Ariadne.Spec

open Resolver

/-- A name server of this program: the configuration of its zone, and what it has loaded. -/
structure Installation where
  conf : ZoneParser.Params
  zones : ManagedZone

/-- Zones run by name servers of this program. -/
structure Network where
  /-- The zones, by name. -/
  zone : Name → Option Installation
  /-- Some order of the records of the same owner (it does not matter, see C35). -/
  order : HashOrder
  /-- The zone in which the records of a name are. -/
  home : Name → Name
  /-- The questions that are of interest. -/
  asked : Name → RecordType → Prop
  /-- Zones ordered such that hosts whose addresses the parent zone does not give are in zones that come earlier. -/
  rank : Name → Nat
  /-- How many ranks there are. -/
  depth : Nat

/-- Of any `t` queries in a row sent to the address, one reaches the name server with these zones, and its reply comes
back; those before are without reply. -/
def GetsThrough (env : Env) (p : Profile) (zones : ManagedZone) (addr : Ip4) : (t : Nat) → (hist : List Event) → Prop
  | 0, _ => False
  | t + 1, hist => ∀ query, env.net hist addr query = replyOf p zones query ∨
    (env.net hist addr query = none ∧ GetsThrough env p zones addr t (hist ++ [.exchange addr query none]))

namespace Network

variable (G : Network)

/-- What the zone of the name has loaded for it. -/
def records (n : Name) (k : RecordType) : List Record :=
  match G.zone (G.home n) with
  | some i => (setAt G.order i.zones.authZone n k).map Props.received
  | none => []

/-- The hosts the zone itself names as its servers. -/
def servers (z : Name) : List Name :=
  match G.zone z with
  | some i => targets (setAt G.order i.zones.authZone z .NS)
  | none => []

open Classical in
/-- The name space the zones are: servers and their addresses, and what the answers are, are as the zones say; a name that has
no records of a type, but a CNAME record, is an alias. -/
noncomputable def space : NameSpace where
  nameservers := G.servers
  hosts t := G.records t .A
  asked := G.asked
  fate n k := if G.records n k ≠ [] then .found (G.records n k) else match G.records n .CNAME with
    | c :: _ => .alias c
    | [] => .absent
  rank := G.rank
  depth := G.depth

/-- The zone delegates the sub zone properly: that is a zone below it, the same servers are named as there, and the addresses
given for each are all, or none if that is one that can be found otherwise; TTLs are more than `d` nanoseconds, and the referral
fits in a datagram. -/
structure Delegates (d : Nat) (z : Name) (i : Installation) (sub : Zone) : Prop where
  zone : (G.zone sub.zone).isSome
  below : Below sub.zone z
  whole : (targets (setAt G.order sub sub.zone .NS)).Perm (G.servers sub.zone)
  glue : ∀ t ∈ G.servers sub.zone,
    Same (recordsOf t .A ((glueFor G.order i.zones.subZones (setAt G.order sub sub.zone .NS)).map Props.received)) (G.records t .A) ∨
    (recordsOf t .A (glueFor G.order i.zones.subZones (setAt G.order sub sub.zone .NS)) = [] ∧ G.space.Free t sub.zone)
  lasting : ∀ r ∈ setAt G.order sub sub.zone .NS ++ glueFor G.order i.zones.subZones (setAt G.order sub sub.zone .NS), NameSpace.Lasting d r
  plain : ∀ r ∈ setAt G.order sub sub.zone .NS ++ glueFor G.order i.zones.subZones (setAt G.order sub sub.zone .NS), Plain r
  fits : ∀ n k, G.asked n k → Within n sub.zone →
    Fits n (setAt G.order sub sub.zone .NS ++ glueFor G.order i.zones.subZones (setAt G.order sub sub.zone .NS))

/-- Some of the servers of the zone run, and are reached by one of any `t` queries in a row, at all their addresses; fewer than `n`
are of no use. -/
def Staffed (env : Env) (p p' : Profile) (t n : Nat) (z : Name) (i : Installation) : Prop :=
  ∃ isUp : Ip4 → Bool,
    (∀ h ∈ G.servers z, (∀ a ∈ addressesOf h (G.records h .A), isUp a = true) ∨ ∀ a ∈ addressesOf h (G.records h .A), isUp a = false) ∧
    (∀ h ∈ G.servers z, ∀ a ∈ addressesOf h (G.records h .A), (isUp a = true → ∀ hist, GetsThrough env p' i.zones a t hist) ∧
      (isUp a = false → ∀ m k, G.asked m k → Useless env p m k a)) ∧
    (∃ h ∈ G.servers z, ∀ a ∈ addressesOf h (G.records h .A), isUp a = true) ∧
    ((G.servers z).countP fun h => (addressesOf h (G.records h .A)).all fun a => !isUp a) < n

/-- The zones, and the root servers, fit together. -/
structure Sound (env : Env) (p p' : Profile) (t n d : Nat) : Prop where
  /-- The servers have loaded their zones, none of which is the root. -/
  loaded : ∀ {z i}, G.zone z = some i → Loaded i.conf i.zones ∧ i.conf.zone = z ∧ z.s ≠ ['.']
  /-- Each zone names its servers once, and for each there are addresses. -/
  hosts : ∀ {z h}, h ∈ G.servers z → G.records h .A ≠ []
  apart : ∀ z, (G.servers z).Nodup
  staffed : ∀ {z i}, G.zone z = some i → G.Staffed env p p' t n z i
  /-- Sub zones are delegated properly, and every zone inside another is in one of its sub zones. -/
  subs : ∀ {z i sub}, G.zone z = some i → sub ∈ i.zones.subZones → G.Delegates d z i sub
  delegated : ∀ {z i z'}, G.zone z = some i → (G.zone z').isSome → Below z' z → ∃ c ∈ i.conf.subZones, Within z' c.zone
  /-- Each name of interest is in its zone, and in no sub zone; what there is to answer fits in a datagram. -/
  names : ∀ {m k}, G.asked m k → Encodable m ∧ k.isSupportedForQuestion = true ∧ k ≠ .NS ∧ k ≠ .CNAME
  home : ∀ {m k}, G.asked m k → ∃ i, G.zone (G.home m) = some i ∧ Within m (G.home m) ∧ ∀ c ∈ i.conf.subZones, ¬ Within m c.zone
  fits : ∀ {m k i}, G.asked m k → G.zone (G.home m) = some i →
    ∀ l ∈ [setAt G.order i.zones.authZone m k, setAt G.order i.zones.authZone m .CNAME, i.zones.authZone.getAllOfType G.order .SOA],
      (∀ r ∈ l, Plain r) ∧ Fits m l
  /-- An alias is one, has no other records, and leads to a name of interest. -/
  aliases : ∀ {m k}, G.asked m k → G.records m .CNAME ≠ [] → G.records m k = [] ∧ ∃ c t, G.records m .CNAME = [c] ∧ c.data = .CNAME t ∧ G.asked t k
  /-- The TTLs of addresses of servers are more than `d` nanoseconds. -/
  lasting : ∀ {h z}, h ∈ G.servers z → ∀ r ∈ G.records h .A, NameSpace.Lasting d r
  ranks : ∀ {z}, (G.zone z).isSome → G.rank z < G.depth
  /-- The root servers (which are not of this program) know the way. -/
  root : ∀ {m k}, G.asked m k → Served env p m k t n (G.space.Helps d m k ⟨['.']⟩) (rootServers.map fun s => [s.2])

end Network

end Ariadne.Spec
