import Verif.Model.Tokens
import Mathlib.Logic.Relation

/-!
# Specification vocabulary for the tokenizer of zone files
-/

namespace Ariadne.Spec

/-- The calls a user of a tokenizer can make. -/
inductive Call
  | next
  | nextAfterBlanks
  | peek
  | peekAfterBlanks
  deriving DecidableEq, Repr

/-- Making a call. -/
def Call.run : Call → Tokenizer → Out TokenErr (Token × Tokenizer)
  | .next, t => t.next
  | .nextAfterBlanks, t => t.nextAfterBlanks
  | .peek, t => t.peek
  | .peekAfterBlanks, t => t.peekAfterBlanks

/-- The call skips blanks. -/
def Call.SkipsBlanks (c : Call) : Prop := c = .nextAfterBlanks ∨ c = .peekAfterBlanks

/-- What the calls return, up to the first one that fails. -/
def replies : List Call → Tokenizer → List (Out TokenErr Token)
  | [], _ => []
  | c :: cs, t =>
    match c.run t with
    | .ok (tok, t') => .ok tok :: replies cs t'
    | .err e => [.err e]
    | .panic k => [.panic k]
    | .diverge => [.diverge]

/-- Calls on a tokenizer for the file, in any number and order, lead to this state. -/
inductive Consulted (file : List (Option Str)) : Tokenizer → Prop
  | start : Consulted file (Tokenizer.start file)
  | call {t t' : Tokenizer} {tok : Token} (c : Call) : Consulted file t → c.run t = .ok (tok, t') → Consulted file t'

/-- Where in a line one is (RFC 1035 5.1): between words, in a word (`escaped`: it has a backslash), after a backslash in
a word, in a quoted string, after a backslash in a quoted string, in a comment. -/
inductive Mode
  | between
  | word (escaped : Bool)
  | backslash
  | quoted
  | quotedBackslash
  | comment
  deriving DecidableEq, Repr

/-- Where one is one character further. -/
def Mode.step : Mode → Char → Mode
  | .between, ch =>
    if ch = ';' then .comment else if ch = '"' then .quoted else if ch = '\\' then .backslash
    else if ch = '(' ∨ ch = ')' ∨ isWhitespace ch = true then .between else .word false
  | .word e, ch =>
    if ch = ';' then .comment else if ch = '\\' then .backslash
    else if ch = '(' ∨ ch = ')' ∨ isWhitespace ch = true then .between else .word e
  | .backslash, _ => .word true
  | .quoted, ch => if ch = '"' then .between else if ch = '\\' then .quotedBackslash else .quoted
  | .quotedBackslash, _ => .quoted
  | .comment, _ => .comment

/-- Where one is at the end of the text. -/
def modeAfter (m : Mode) (l : Str) : Mode := l.foldl Mode.step m

/-- Not in a quoted string, nor after a backslash. -/
def Mode.Complete (m : Mode) : Prop := m ≠ .backslash ∧ m ≠ .quoted ∧ m ≠ .quotedBackslash

instance (m : Mode) : Decidable m.Complete := by unfold Mode.Complete; infer_instance

/-- After every escape (a backslash and the character after it) in a word or a quoted string, the word or quoted string ends in the same
line, before the end of the line if it is a word (a blank, a parenthesis or a comment follows). -/
def EscapesEnd (l : Str) : Prop :=
  ∀ pre c post, l = pre ++ c :: post → modeAfter .between pre = .backslash ∨ modeAfter .between pre = .quotedBackslash →
    ∃ q r, post = q ++ r ∧ (modeAfter .between (pre ++ c :: q) = .between ∨ modeAfter .between (pre ++ c :: q) = .comment)

/-- White space outside quoted strings, comments and escapes comes in runs that begin with a space or a tab (`inRun`: the text
follows the beginning of such a run). -/
def BlankRuns : Mode → Bool → Str → Prop
  | _, _, [] => True
  | m, inRun, ch :: l =>
    if (m = .between ∨ ∃ e, m = .word e) ∧ isWhitespace ch = true then (inRun = true ∨ ch = ' ' ∨ ch = '\t') ∧ BlankRuns (m.step ch) true l
    else BlankRuns (m.step ch) false l

instance BlankRuns.decide : ∀ (m : Mode) (r : Bool) (l : Str), Decidable (BlankRuns m r l)
  | _, _, [] => .isTrue trivial
  | m, r, ch :: l => by
    have := BlankRuns.decide (m.step ch) true l
    have := BlankRuns.decide (m.step ch) false l
    unfold BlankRuns
    infer_instance

/-- A comment, or nothing. -/
def Comment (c : Str) : Prop := c = [] ∨ ∃ text, c = ';' :: text

/-- A line with nothing but white space and maybe a comment. -/
def NoCode (l : Str) : Prop := ∃ ws c, l = ws ++ c ∧ (∀ ch ∈ ws, isWhitespace ch = true) ∧ Comment c

/-- The text `l` can be followed by one of the comments as well as by the other one: it does not end within a quoted
string, and neither is missing if `ok` does not hold of the place where `l` ends. -/
def Either (ok : Mode → Prop) (l c c' : Str) : Prop :=
  (modeAfter .between l).Complete ∧ Comment c ∧ Comment c' ∧ (c = [] ∨ c' = [] → ok (modeAfter .between l))

/-- The files differ in comments only: in those at the end of lines, and in the lines that have nothing else. Comments
are neither added nor removed where `ok` does not hold. -/
inductive SameButComments (ok : Mode → Prop) : List (Option Str) → List (Option Str) → Prop
  | nil : SameButComments ok [] []
  | unreadable {f f' : List (Option Str)} : SameButComments ok f f' → SameButComments ok (none :: f) (none :: f')
  | same {l : Str} {f f' : List (Option Str)} : SameButComments ok f f' → SameButComments ok (some l :: f) (some l :: f')
  | comment {l c c' : Str} {f f' : List (Option Str)} : Either ok l c c' → SameButComments ok f f' →
      SameButComments ok (some (l ++ c) :: f) (some (l ++ c') :: f')
  | more {l : Str} {f f' : List (Option Str)} : NoCode l → SameButComments ok f f' → SameButComments ok (some l :: f) f'
  | less {l : Str} {f f' : List (Option Str)} : NoCode l → SameButComments ok f f' → SameButComments ok f (some l :: f')

/-- Is a parenthesis open after the text, if one was (`o`) or was not before it? Parentheses in quoted strings, in
comments and after a backslash are text. -/
def openAfter : Mode → Bool → Str → Bool
  | _, o, [] => o
  | m, o, ch :: l =>
    openAfter (m.step ch) (match m with
      | .between | .word _ => if ch = '(' then true else if ch = ')' then false else o
      | _ => o) l

/-- Is a parenthesis open after the lines? -/
def openAfterLines : Bool → List (Option Str) → Bool
  | o, [] => o
  | o, none :: f => openAfterLines o f
  | o, some l :: f => openAfterLines (openAfter .between o l) f

/-- The second file has two lines of the first one in one line, separated by the white space `sep`: the line break is
within parentheses, and neither in a quoted string nor after a comment, and `ok` holds of the place where it is. -/
inductive Joined (ok : Mode → Prop) : List (Option Str) → List (Option Str) → Prop
  | join (before after : List (Option Str)) (l sep l' : Str)
      (opened : openAfterLines false (before ++ [some l]) = true)
      (ends : modeAfter .between l = .between ∨ ∃ e, modeAfter .between l = .word e)
      (okay : ok (modeAfter .between l))
      (sepBlank : ∃ ch ws, sep = ch :: ws ∧ (ch = ' ' ∨ ch = '\t') ∧ ∀ x ∈ ws, isWhitespace x = true)
      (code : ¬ NoCode l) (code' : ¬ NoCode l')
      (plain : ∀ ch, l'.head? = some ch → isWhitespace ch = true → ch = ' ' ∨ ch = '\t') :
      Joined ok (before ++ some l :: some l' :: after) (before ++ some (l ++ sep ++ l') :: after)

end Ariadne.Spec
