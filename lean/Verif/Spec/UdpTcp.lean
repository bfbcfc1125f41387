import Verif.Spec.Bits
import Verif.Spec.Wire

/-! # The reply to one request over TCP and over UDP -/

namespace Ariadne.Spec

/-- `short` is what a datagram holds of the message `full`: at most 512 octets; the message itself if it has no more;
otherwise its first items, as many as fit, under the same header but for TC (bit 22 of the header), which is set, and the
counts, which are no greater. -/
structure Shortened (full short : List UInt8) : Prop where
  size : 12 ≤ short.length ∧ short.length ≤ 512
  whole : full.length ≤ 512 → short = full
  body : short.drop 12 <+: full.drop 12
  header : ∀ i, i < 32 → i ≠ 22 → bitAt short i = bitAt full i
  tc : 512 < full.length → bitAt short 22 = true
  counts : ∀ i a b, i = 32 ∨ i = 48 ∨ i = 64 ∨ i = 80 → FieldAt short i 16 a → FieldAt full i 16 b → a ≤ b
  items : ∃ m k, m.encodeToBytes = .ok full ∧ (cut m k).encodeToBytes = .ok short ∧
    (k < total m → ∃ more, (cut m (k + 1)).encodeToBytes = .ok more ∧ 512 < more.length)

end Ariadne.Spec
