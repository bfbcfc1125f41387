import Verif.Spec.AgeThreads
import Verif.Spec.Resolver
import Mathlib.Logic.Relation

/-! # Vocabulary for the queries that the resolver sends -/

namespace Ariadne.Spec

open Resolver

variable {α : Type} (S : Schedule) (net : Nat → List Event → Ip4 → List UInt8 → Option (List UInt8)) (p : Profile) (s : System α) (n : Nat)

/-- Before the event `n`, one of the threads has received such a record. -/
def Heard (P : Record → Prop) : Prop := ∃ m r, ReceivedInThread S net p s n m r ∧ P r

/-- The address is that of a root server; or records have been received, one of which names a name server, another of which gives the name this
address. -/
def KnownAddress (addr : Ip4) : Prop :=
  (∃ server ∈ rootServers, server.2 = addr) ∨
    ∃ t, Heard S net p s n (fun r => r.data = .NS t) ∧ Heard S net p s n (fun r => r.node = t ∧ r.data = .A addr)

/-- A record has been received that makes `a` an alias of `b`. -/
def KnownAlias (a b : Name) : Prop := Heard S net p s n fun r => r.node = a ∧ r.data = .CNAME b

/-- The name and type are those of the question, or can be reached from it by aliases received; or it is the address of a name server, named in a
record received. -/
def KnownSubject (question : Name × RecordType) (name : Name) (kind : RecordType) : Prop :=
  (kind = question.2 ∧ Relation.ReflTransGen (KnownAlias S net p s n) question.1 name) ∨
    (kind = .A ∧ Heard S net p s n fun r => r.data = .NS name)

/-- The datagram may be sent there for a client with this question. -/
def Justified (question : Name × RecordType) (addr : Ip4) (bytes : List UInt8) : Prop :=
  KnownAddress S net p s n addr ∧ ∃ id name kind, KnownSubject S net p s n question name kind ∧ QueryFor id name kind bytes

/-- The job brings a message, the first question of which is for this name and type. -/
def JobAsks (question : Name × RecordType) : Job → Prop
  | .udp datagram _ => ∃ req q rest, Net.udpRead p datagram = .ok (.fullMessage req) ∧ req.questions = q :: rest ∧ question = (q.node, q.recordType)
  | .tcp stream _ => ∃ req q rest unread, Net.tcpRead p stream = .ok (.fullMessage req, unread) ∧ req.questions = q :: rest ∧
      question = (q.node, q.recordType)

end Ariadne.Spec
