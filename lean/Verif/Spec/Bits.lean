/-!
# Specification vocabulary for bit strings

Bits are numbered from 0, most significant bit of the first byte first (network order).
-/

namespace Ariadne.Spec

/-- Bit number `i` of a byte string (false beyond its end). -/
def bitAt (bytes : List UInt8) (i : Nat) : Bool :=
  (bytes.getD (i / 8) 0).toNat.testBit (7 - i % 8)

/-- The bits `[r, r+n)` of `bytes`, read as a big-endian unsigned number, are `v`. -/
def FieldAt (bytes : List UInt8) (r n v : Nat) : Prop :=
  v < 2 ^ n ∧ ∀ j, j < n → v.testBit (n - 1 - j) = bitAt bytes (r + j)

end Ariadne.Spec
