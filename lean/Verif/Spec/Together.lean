import Verif.Spec.Delegation
import Verif.Spec.Nameserver
import Verif.Spec.Wire

/-! # Vocabulary for a resolver whose queries go to name servers of this program -/

namespace Ariadne.Spec

/-- The size in octets of a record on the wire: owner, type, class, TTL, RDLENGTH, RDATA (names are not compressed). -/
def recordSize (r : Record) : Nat := r.node.s.length + 1 + 10 + rdLength r.data

/-- A message with the question for the name and with these records fits in one UDP datagram of 512 octets. -/
def Fits (node : Name) (rs : List Record) : Prop := 12 + (node.s.length + 1 + 4) + (rs.map recordSize).sum ≤ 512

/-- The datagram the name server with these zones sends in reply to a datagram, if it sends one (to a socket that takes
datagrams of 512 octets). -/
def replyOf (p : Profile) (zones : ManagedZone) (query : List UInt8) : Option (List UInt8) :=
  match Nameserver.serveUdp p zones query [some 512] with
  | .ok ([out], _) => some out
  | _ => none

/-- The name server with these zones runs at the address. -/
def Runs (env : Resolver.Env) (p : Profile) (zones : ManagedZone) (addr : Ip4) : Prop :=
  ∀ hist query, env.net hist addr query = replyOf p zones query

/-- The servers, each given by its addresses, all are name servers with these zones. -/
def AllRun (env : Resolver.Env) (p : Profile) (zones : ManagedZone) (servers : List (List Ip4)) : Prop :=
  servers ≠ [] ∧ ∀ s ∈ servers, s ≠ [] ∧ ∀ a ∈ s, Runs env p zones a

/-- The addresses of the targets of some NS records, among other records. -/
def hostsOf (ns glue : List Record) : List (List Ip4) :=
  ns.filterMap fun r => match r.data with
    | .NS t => some (addressesOf t glue)
    | _ => none

end Ariadne.Spec
