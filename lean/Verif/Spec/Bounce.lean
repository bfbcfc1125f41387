import Verif.Spec.Told
import Verif.Model.Nameserver

/-! # Vocabulary for replies that are received by servers -/

namespace Ariadne.Spec

open Resolver

/-- What comes is a reply: a message with the QR flag. -/
def ReplyComes (p : Profile) (job : Job) : Prop := ∃ m, Delivers p m job ∧ m.header.queryResp = true

/-- What the name server does with a datagram or a TCP connection: what it sends, and whether it could. -/
def NameserverSends (p : Profile) (zones : ManagedZone) (result : List (List UInt8) × Bool) : Job → Prop
  | .udp datagram sends => Nameserver.serveUdp p zones datagram sends = .ok result
  | .tcp stream room => ∃ out, Nameserver.serveTcp p zones stream room = .ok (out, result.2) ∧ result.1 = [out]

/-- A server that answers a datagram with a datagram. -/
def AnswersWith (p : Profile) (zones : ManagedZone) (datagram answer : List UInt8) : Prop :=
  Nameserver.serveUdp p zones datagram [some answer.length] = .ok ([answer], true)

/-- Two name servers answer this datagram, and each the answer of the other, and so on without end. -/
def Endless (p p' : Profile) (zones zones' : ManagedZone) (datagram : List UInt8) : Prop :=
  ∃ d : Nat → List UInt8, d 0 = datagram ∧ ∀ k, AnswersWith p zones (d (2 * k)) (d (2 * k + 1)) ∧ AnswersWith p' zones' (d (2 * k + 1)) (d (2 * k + 2))

end Ariadne.Spec
