import Verif.Spec.Wire
import Verif.Model.ZoneParser
import Verif.Spec.Tokens

/-!
# Specification vocabulary for the zone loader
-/

namespace Ariadne.Spec

/-- `n` is `z` or a name below it: the labels of `z` end those of `n` (RFC 1034 3.1). -/
def Within (n z : Name) : Prop := ∃ L M, NameOf n.s L ∧ NameOf z.s M ∧ M <:+ L

/-- No line of any file has a backslash. -/
def NoEscapes (fs : ZoneParser.Files) : Prop := ∀ path file, fs path = some file → ∀ l, some l ∈ file → '\\' ∉ l

/-- In every line of every file, each word and quoted string with an escape in it ends before the end of the line. -/
def TidyEscapes (fs : ZoneParser.Files) : Prop := ∀ path file, fs path = some file → ∀ l, some l ∈ file → EscapesEnd l

/-- In every line that has more than a comment, runs of white space begin with a space or a tab (other white space may follow, and may occur
in quoted strings, comments and after a backslash). -/
def PlainBlanks (fs : ZoneParser.Files) : Prop :=
  ∀ path file, fs path = some file → ∀ l, some l ∈ file → NoCode l ∨ BlankRuns .between false l

/-- Reading the tokens of the file one after the other comes to this state. -/
inductive Reads (file : List (Option Str)) : Tokenizer → Prop
  | start : Reads file (Tokenizer.start file)
  | next {t t' : Tokenizer} {tok : Token} : Reads file t → t.next = .ok (tok, t') → Reads file t'

/-- One of the tokens of the file is an `$INCLUDE`, and the token after it and after blanks names `path`. -/
def Includes (file : List (Option Str)) (path : Str) : Prop :=
  ∃ t t₁ t₂ name, Reads file t ∧ t.next = .ok (.includeDir, t₁) ∧ t₁.nextAfterBlanks = .ok (name, t₂) ∧
    (name = .string path ∨ ∃ n : UInt32, name = .number n ∧ path = (toString n.toNat).toList)

/-- The file system has the file `q`'s name in an `$INCLUDE` of the file `p`. -/
def IncludedBy (fs : ZoneParser.Files) (q p : Str) : Prop := ∃ file, fs p = some file ∧ Includes file q

/-- The record is one of those the loaded zone set holds. -/
def Stored (zones : ManagedZone) (r : Record) : Prop :=
  ∃ z ∈ zones.authZone :: zones.subZones, ∃ o : HashOrder, r ∈ z.getAllOfType o r.recordType

end Ariadne.Spec
