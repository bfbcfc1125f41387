import Verif.Spec.Wire

/-! # Octets that are no DNS message, and replies that go out in parts -/

namespace Ariadne.Spec

/-- There is no readable header: less than 12 octets, or an op code or response code that RFC 1035 reserves. -/
def NoHeader (bytes : List UInt8) : Prop :=
  bytes.length < 12 ∨ (∃ n, FieldAt bytes 17 4 n ∧ 3 ≤ n) ∨ ∃ n, FieldAt bytes 28 4 n ∧ 6 ≤ n

/-- How many octets the socket took in the first `i` calls. -/
def accepted (sends : List (Option Nat)) (i : Nat) : Nat := ((sends.take i).map fun s => s.getD 0).sum

end Ariadne.Spec
