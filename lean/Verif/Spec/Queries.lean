import Verif.Spec.Wire

/-! # Queries on the wire -/

namespace Ariadne.Spec

/-- A name within the limits of RFC 1035 2.3.4 (the root included). -/
def Wireable (n : Name) : Prop := n.s.length ≤ 255 ∧ ∃ labels, NameOf n.s labels ∧ ∀ l ∈ labels, l.length ≤ 63

/-- RFC 1035 4.1: the octets of a standard query, without recursion, with one question, of class IN. -/
def StandardQuery (bytes : List UInt8) (id : UInt16) (labels : List (List Char)) (kind : RecordType) : Prop :=
  bytes = be16 id.toNat ++ [0, 0] ++ be16 1 ++ be16 0 ++ be16 0 ++ be16 0 ++
    (rfcEncode labels ++ (be16 kind.toNum.toNat ++ be16 1))

/-- A standard query for a name of at most so many octets (RFC 1035 2.3.4: 255), each label at most 63. -/
def ProperQuery (limit : Nat) (bytes : List UInt8) : Prop :=
  ∃ (id : UInt16) (labels : List (List Char)) (kind : RecordType), StandardQuery bytes id labels kind ∧
    (∀ l ∈ labels, ValidLabel l ∧ l.length ≤ 63) ∧ (rfcEncode labels).length ≤ limit

/-- The octets this program sends in place of a query for the root: one octet too many. -/
def RootQuery (bytes : List UInt8) : Prop :=
  ∃ (id : UInt16) (kind : RecordType), bytes = be16 id.toNat ++ [0, 0] ++ be16 1 ++ be16 0 ++ be16 0 ++ be16 0 ++
    ([0, 0] ++ (be16 kind.toNum.toNat ++ be16 1))

end Ariadne.Spec
