import Verif.Spec.ZoneText

/-!
# Specification: quoted strings with all escapes (RFC 1035 5.1)
-/

namespace Ariadne.Spec

/-- The value of a decimal digit. -/
def digitValue (c : Char) : Nat := c.toNat - '0'.toNat

/-- `Written s text`: the text, between quotes, stands for the string `s`. `\DDD` is the octet with this decimal number; before any other
character, a backslash takes away the meaning of the character. -/
inductive Written : Str → Str → Prop
  | nil : Written [] []
  | char {c : Char} {s text : Str} : c ≠ '"' → c ≠ '\\' → Written s text → Written (c :: s) (c :: text)
  | escape {c : Char} {s text : Str} : ¬ ('0' ≤ c ∧ c ≤ '9') → Written s text → Written (c :: s) ('\\' :: c :: text)
  | code {a b c : Char} {s text : Str} : '0' ≤ a ∧ a ≤ '9' → '0' ≤ b ∧ b ≤ '9' → '0' ≤ c ∧ c ≤ '9' →
      100 * digitValue a + 10 * digitValue b + digitValue c < 256 → Written s text →
      Written (Char.ofNat (100 * digitValue a + 10 * digitValue b + digitValue c) :: s) ('\\' :: a :: b :: c :: text)

/-- The string, with a backslash before each quote and each backslash. -/
def quoteText (s : Str) : Str := s.flatMap fun c => if c = '"' ∨ c = '\\' then ['\\', c] else [c]

/-- A zone file that ends with the line `x TXT "text"`. -/
def textFiles (text : Str) : ZoneParser.Files := fun path =>
  if path = "small".toList then
    some (["@ 60 IN SOA ns mail.f. 1 2 3 4 5".toList, "@ NS ns.f.".toList, "x TXT ".toList ++ '"' :: text ++ ['"']].map some)
  else none

end Ariadne.Spec
