import Verif.Spec.Names

/-! # Vocabulary for names on the wire that are told apart -/

namespace Ariadne.Spec

/-- No label contains the octet of a dot. -/
def DotFree (labels : List (List UInt8)) : Prop := ∀ l ∈ labels, (46 : UInt8) ∉ l

end Ariadne.Spec
