import Verif.Model.Tasks

/-! # Vocabulary for how much work a request causes -/

namespace Ariadne.Spec

open Resolver

/-- The number of queries sent. -/
def queriesSent (log : List Event) : Nat := log.countP fun
  | .exchange _ _ _ => true
  | _ => false

/-- The names the resolution of which was begun: for the client (depth 0), to find the address of a name server for such a resolution (depth 1), to find the address of a
name server for one of these, and so on. -/
def resolutions : List Event → List (Nat × Name)
  | [] => []
  | .start zones _ node _ :: log => (zones.length, node) :: resolutions log
  | _ :: log => resolutions log

/-- How many of them at this depth. -/
def atDepth (d : Nat) (log : List Event) : Nat := (resolutions log).countP fun r => r.1 == d

/-- The servers that may be tried for such a resolution: for each octet of the text of the name, and once more, as many as the
configuration says. -/
def mayTry (servers : Nat) (node : Name) : Nat := (strLen node.s + 1) * servers

/-- All is within limits: for the client itself, no more names than the configuration says are resolved; for every name at some depth, no more of the names of servers
than servers may be tried for it; and no more queries are sent than the configuration says to each of those servers. -/
structure Moderate (conf : Params) (log : List Event) : Prop where
  own : atDepth 0 log ≤ conf.maxCnameRedir
  servers : ∀ d, atDepth (d + 1) log ≤ (((resolutions log).filter fun r => r.1 == d).map fun r => mayTry conf.maxNsQueried r.2).sum
  queries : queriesSent log ≤ ((resolutions log).map fun r => mayTry conf.maxNsQueried r.2 * conf.maxUdpRetries).sum

end Ariadne.Spec
