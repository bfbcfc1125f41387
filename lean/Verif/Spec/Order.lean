import Verif.Spec.Loader

/-!
# Specification: sub zones in another order
-/

namespace Ariadne.Spec

/-- No name of the list lies within another. -/
def Apart (names : List Name) : Prop := names.Pairwise fun a b => ¬ Within a b ∧ ¬ Within b a

/-- The same configuration, with these sub zones. -/
def reorder (conf : ZoneParser.Params) (cs : List ZoneParser.SubParams) : ZoneParser.Params := { conf with subZones := cs }

end Ariadne.Spec
