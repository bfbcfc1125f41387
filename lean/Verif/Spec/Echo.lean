import Mathlib.Data.List.Forall2
import Verif.Spec.Wire

/-! # The question section of a request -/

namespace Ariadne.Spec

/-- The message consists of a header, these questions, whose octets (RFC 1035 4.1.2) are `x`, and anything. -/
def CarriesQuestions (bytes : List UInt8) (qs : List Question) (x : List UInt8) : Prop :=
  ∃ h header xs rest, IsHeader header h ∧ h.questionsCount.toNat = qs.length ∧ List.Forall₂ QuestionWire qs xs ∧ x = xs.flatten ∧
    bytes = header ++ (x ++ rest)

/-- A question of class IN, for a type this library knows as a type of questions. -/
def Askable (q : Question) : Prop := q.node.s.length ≤ 255 ∧ q.recordType.isSupportedForQuestion = true ∧ q.cls = .IN

/-- The octets `x` follow the header. -/
def Repeats (x bytes : List UInt8) : Prop := x <+: bytes.drop 12

end Ariadne.Spec
