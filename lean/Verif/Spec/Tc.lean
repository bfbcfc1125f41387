import Verif.Spec.UdpTcp

/-! # The TC flag of replies -/

namespace Ariadne.Spec

/-- TC is bit 22 of a message. The reply over TCP, which is whole, does not have it; the datagram has it if and only if
something is missing, that is, if the reply has more than 512 octets. -/
def TcIsTrue (full datagram : List UInt8) : Prop := bitAt full 22 = false ∧ (bitAt datagram 22 = true ↔ 512 < full.length)

end Ariadne.Spec
