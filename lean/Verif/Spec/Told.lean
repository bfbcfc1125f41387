import Verif.Spec.AgeThreads
import Verif.Spec.Nameserver

/-! # Vocabulary for what the clients of the resolver are told -/

namespace Ariadne.Spec

open Resolver

/-- What is sent to the client is all of this message, or the beginning of it: the octets that the UDP or TCP server makes of it. -/
def IsSendingOf (m : Message) (result : List (List UInt8) × Bool) : Job → Prop
  | .udp _ sends => Net.udpReply m sends = .ok result
  | .tcp _ room => ∃ out, Net.tcpReply m room = .ok (out, result.2) ∧ result.1 = [out]

/-- Nothing is sent: no datagram, or nothing on the connection before it is closed. -/
def NothingSent (result : List (List UInt8) × Bool) : Prop := ∀ out ∈ result.1, out = []

/-- No datagram is sent, or nothing on the connection. -/
def SaysNothing (result : List (List UInt8) × Bool) : Job → Prop
  | .udp _ _ => result.1 = []
  | .tcp _ _ => result.1 = [[]]

/-- The message that is read from the client. -/
def Delivers (p : Profile) (req : Message) : Job → Prop
  | .udp datagram _ => Net.udpRead p datagram = .ok (.fullMessage req)
  | .tcp stream _ => ∃ rest, Net.tcpRead p stream = .ok (.fullMessage req, rest)

/-- The message answers this question, after the exchanges in `log`, with at most `limit` - 1 aliases: NOERROR, a chain of aliases from the name in question
(without repetition, unless there is one that points to its own owner), and then at least one record of the type in question,
all of the name at the end of the chain (NS records apart, C59); or NXDOMAIN and no records, and a server that set the AA flag has denied the name to which some aliases
lead; or SERVFAIL and no records. -/
def AnswersQuestion (p : Profile) (limit : Nat) (log : List Event) (q : Question) (m : Message) : Prop :=
  (m.header.respCode = .NoError ∧ ∃ chain final recs, m.answers = chain ++ recs ∧ Aliases q.node chain final ∧ chain.length < limit ∧
    ((∀ c ∈ chain, c.data ≠ .CNAME c.node) → (chain.map Record.node ++ [final]).Nodup) ∧
    recs ≠ [] ∧ ∀ x ∈ recs, x.recordType = q.recordType ∧ (q.recordType ≠ .NS → x.node = final)) ∨
  (m.header.respCode = .NxDomain ∧ NoRecords m ∧ ∃ chain final, Aliases q.node chain final ∧ Denied p final q.recordType log) ∨
  (m.header.respCode = .ServFail ∧ NoRecords m)

/-- The reply belongs to the request: it mirrors the header and repeats the questions; a message that is not a request with one question gets FORMERR and no
records, and otherwise the question is answered. -/
def AnswersRequest (p : Profile) (limit : Nat) (log : List Event) (req m : Message) : Prop :=
  Mirrors req.header m ∧ m.questions = req.questions ∧
  (¬ WellPosed req → m.header.respCode = .FormErr ∧ NoRecords m) ∧
  (WellPosed req → ∃ q rest, req.questions = q :: rest ∧ AnswersQuestion p limit log q m)

end Ariadne.Spec
