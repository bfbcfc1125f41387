import Verif.Spec.Tokens
import Verif.Model.ZoneParser
import Mathlib.Logic.Relation

/-!
# Specification vocabulary for the layout of zone files
-/

namespace Ariadne.Spec

/-- No line of the file begins with an opening parenthesis. -/
def NoLeadingParenthesis (f : List (Option Str)) : Prop := ∀ l, some l ∈ f → l.head? ≠ some '('

/-- One file becomes the other one by editing comments and lines without anything else, or by writing two lines in parentheses as one. The
places of the edits satisfy `ok`. -/
inductive Edit (ok : Mode → Prop) (f f' : List (Option Str)) : Prop
  | comments : SameButComments ok f f' → Edit ok f f'
  | join : Joined ok f f' → NoLeadingParenthesis f → Edit ok f f'

/-- Any number of such edits, in both directions, make one file of the other. -/
def SameLayout (ok : Mode → Prop) : List (Option Str) → List (Option Str) → Prop := Relation.EqvGen (Edit ok)

/-- The same files are there, and those with the same name differ in layout only. -/
def SameFiles (ok : Mode → Prop) (fs fs' : ZoneParser.Files) : Prop :=
  ∀ path, (fs path = none ∧ fs' path = none) ∨ ∃ f f', fs path = some f ∧ fs' path = some f' ∧ SameLayout ok f f'

end Ariadne.Spec
