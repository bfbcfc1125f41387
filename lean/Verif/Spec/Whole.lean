import Verif.Spec.Expected
import Verif.Spec.Wire

/-! # Vocabulary for the name server as a whole: from zone files to what goes over the network -/

namespace Ariadne.Spec

/-- The datagram `out` is a reply to the datagram `request`, which is a message; and if that is a standard query with one question, `out` is the reply that
the records in the zone files stand for, cut to 512 octets if necessary. -/
def RepliesAs (p : Profile) (zone : Name) (soa : Record) (rs : List Record) (subs : List (Name × List Record)) (request out : List UInt8) : Prop :=
  ∃ req, Net.udpRead p request = .ok (.fullMessage req) ∧
    ∀ q, Asks req q → (expectedReply zone soa rs subs req q).encodeToBytesTrunc = .ok out

/-- The octets `out` are a reply to what was read from `stream`, which is a message; and if that is a standard query with one question, and the reply that
the records in the zone files stand for has fewer than 2^16 octets, then `out` is that reply, whole and with its length before it, as far as `room` goes. -/
def RepliesOver (p : Profile) (zone : Name) (soa : Record) (rs : List Record) (subs : List (Name × List Record)) (stream : List UInt8) (room : Nat)
    (out : List UInt8) : Prop :=
  ∃ req rest, Net.tcpRead p stream = .ok (.fullMessage req, rest) ∧
    ∀ q, Asks req q → ∃ x, (expectedReply zone soa rs subs req q).encodeToBytes = .ok x ∧
      (x.length < 65536 → out = (be16 x.length ++ x).take room)

/-- None of the records in the files has a string that is too long to be sent. -/
def StringsFit (soa : Record) (rs : List Record) (subs : List (Name × List Record)) : Prop :=
  (∀ r ∈ rs ++ [soa], StringsAtMost 255 r) ∧ ∀ s ∈ subs, ∀ r ∈ s.2, StringsAtMost 255 r

end Ariadne.Spec
