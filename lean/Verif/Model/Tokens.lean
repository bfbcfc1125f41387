import Verif.Model.Basic
import Verif.Model.RString

/-!
# Zone file tokenizer – models src/nameserver/zones/tokens.rs

Files are lists of lines as `BufRead::lines` yields them (no line terminators); `none` is a line that cannot be read
(I/O error or bytes that are not UTF-8).
-/

namespace Ariadne

/-- `char::is_whitespace`: the Unicode property White_Space. -/
def isWhitespace (c : Char) : Bool :=
  (9 ≤ c.toNat && c.toNat ≤ 13) || c.toNat == 0x20 || c.toNat == 0x85 || c.toNat == 0xA0 || c.toNat == 0x1680 ||
  (0x2000 ≤ c.toNat && c.toNat ≤ 0x200A) || c.toNat == 0x2028 || c.toNat == 0x2029 || c.toNat == 0x202F ||
  c.toNat == 0x205F || c.toNat == 0x3000

/-- `str::trim_start`, enough to see whether a trimmed line is empty and what it starts with. -/
def trimStart (s : Str) : Str := s.dropWhile isWhitespace

/-- Decimal digit value. -/
def digitVal (c : Char) : Option Nat :=
  if '0' ≤ c ∧ c ≤ '9' then some (c.toNat - '0'.toNat) else none

/-- Value of a string of decimal digits, `none` if another character occurs. -/
def digitsVal : Str → Nat → Option Nat
  | [], acc => some acc
  | c :: cs, acc => match digitVal c with
    | none => none
    | some d => digitsVal cs (acc * 10 + d)

/-- `str::parse::<u32>()`: an optional plus sign, at least one digit, a value below 2^32. -/
def parseU32 (s : Str) : Option UInt32 :=
  let digits := match s with
    | '+' :: rest => rest
    | _ => s
  if digits = [] then none
  else match digitsVal digits 0 with
    | none => none
    | some v => if v < 4294967296 then some (UInt32.ofNat v) else none

/-- tokens.rs:6-16 `enum Token`. -/
inductive Token
  | originDir
  | includeDir
  | qString (s : Str)
  | string (s : Str)
  | number (n : UInt32)
  | blank
  | newLine
  | «end»
  | «at»
  deriving DecidableEq, Repr

/-- tokens.rs:305-313 `enum TokenErr`; texts and the I/O error are dropped. -/
inductive TokenErr
  | dirMalformed
  | qStrNotClosed
  | mlUnexpectedOpen
  | mlUnexpectedClose
  | mlMissingClose
  | invalidEscape
  | readErr
  deriving DecidableEq, Repr

/-- tokens.rs:21-28 `struct Tokenizer`. `file`: lines not yet read. `rest`: the characters of the current line from `pos`
on; `pos` never exceeds the length of the line, and characters before `pos` are never looked at again, so this stands
for `line_chars` and `pos`. -/
structure Tokenizer where
  file : List (Option Str)
  rest : Str
  peeked : List Token
  multiline : Bool
  line : Nat
  deriving DecidableEq, Repr

namespace Tokenizer

/-- tokens.rs:33-46 `from_file`, once the file is open. -/
def start (file : List (Option Str)) : Tokenizer :=
  { file := file, rest := [], peeked := [], multiline := false, line := 0 }

/-- tokens.rs:148-149: the trimmed line is empty or starts with a semicolon. -/
def skippable (l : Str) : Bool :=
  match trimStart l with
  | [] => true
  | c :: _ => c == ';'

/-- tokens.rs:139-155 `load_new_line`: `false` at the end of the file. -/
def loadFrom : List (Option Str) → Tokenizer → Out TokenErr (Bool × Tokenizer)
  | [], t => .ok (false, { t with file := [] })
  | none :: _, _ => .err .readErr
  | some l :: ls, t =>
    if skippable l then loadFrom ls { t with line := t.line + 1 }
    else .ok (true, { t with file := ls, rest := l, line := t.line + 1 })

/-- tokens.rs:139-155 `load_new_line`. -/
def loadNewLine (t : Tokenizer) : Out TokenErr (Bool × Tokenizer) := loadFrom t.file t

/-- tokens.rs:158-169 `process_whitespace`: the caller has seen a space or a tab (its assertion holds). -/
def processWhitespace (t : Tokenizer) : Token × Tokenizer := (.blank, { t with rest := t.rest.dropWhile isWhitespace })

/-- tokens.rs:292-300 `parse_escape`, at a backslash: the next character and what follows. -/
def parseEscape : Str → Out TokenErr (Char × Str)
  | _ :: c :: rest => .ok (c, rest)
  | _ => .err .invalidEscape

/-- The loop tokens.rs:177-192 (after the dollar sign): `n` iterations left. Indexing `line_chars[pos]` at the end of the
line panics: an escape takes two characters but only one iteration. -/
def directiveLoop : Nat → Str → Str → Out TokenErr (Str × Str)
  | 0, acc, rest => .ok (acc, rest)
  | _ + 1, _, [] => .panic .index
  | n + 1, acc, ch :: rest =>
    if ch = '\\' then
      match parseEscape (ch :: rest) with
      | .ok (c, rest') => directiveLoop n (acc ++ [c]) rest'
      | .err e => .err e
      | .panic k => .panic k
      | .diverge => .diverge
    else if ch = ';' ∨ ch = '(' ∨ ch = ')' then .ok (acc, ch :: rest)
    else if isWhitespace ch then .ok (acc, ch :: rest)
    else directiveLoop n (acc ++ [ch]) rest

/-- tokens.rs:172-199 `process_directive`, at a dollar sign. -/
def processDirective (t : Tokenizer) : Out TokenErr (Token × Tokenizer) := do
  let rest := t.rest.tail
  let (directive, rest) ← directiveLoop rest.length ['$'] rest
  if directive = "$ORIGIN".toList then .ok (.originDir, { t with rest := rest })
  else if directive = "$INCLUDE".toList then .ok (.includeDir, { t with rest := rest })
  else .err .dirMalformed

/-- The loop tokens.rs:209-223; the result says whether the closing quote was found. -/
def quotedLoop : Nat → Str → Str → Out TokenErr (Bool × Str × Str)
  | 0, acc, rest => .ok (false, acc, rest)
  | _ + 1, _, [] => .panic .index
  | n + 1, acc, ch :: rest =>
    if ch = '\\' then
      match parseEscape (ch :: rest) with
      | .ok (c, rest') => quotedLoop n (acc ++ [c]) rest'
      | .err e => .err e
      | .panic k => .panic k
      | .diverge => .diverge
    else if ch = '"' then .ok (true, acc, rest)
    else quotedLoop n (acc ++ [ch]) rest

/-- tokens.rs:202-230 `process_quoted_string`, at a quote. -/
def processQuotedString (t : Tokenizer) : Out TokenErr (Token × Tokenizer) := do
  let rest := t.rest.tail
  let (closed, string, rest) ← quotedLoop rest.length [] rest
  if closed then .ok (.qString string, { t with rest := rest })
  else .err .qStrNotClosed

/-- The loop tokens.rs:260-275. -/
def stringLoop : Nat → Str → Str → Out TokenErr (Str × Str)
  | 0, acc, rest => .ok (acc, rest)
  | _ + 1, _, [] => .panic .index
  | n + 1, acc, ch :: rest =>
    if ch = '\\' then
      match parseEscape (ch :: rest) with
      | .ok (c, rest') => stringLoop n (acc ++ [c]) rest'
      | .err e => .err e
      | .panic k => .panic k
      | .diverge => .diverge
    else if ch = '(' ∨ ch = ')' ∨ ch = ';' then .ok (acc, ch :: rest)
    else if isWhitespace ch then .ok (acc, ch :: rest)
    else stringLoop n (acc ++ [ch]) rest

/-- tokens.rs:277-283: what an unquoted word is. -/
def wordToken (s : Str) : Token :=
  if s = ['@'] then .at
  else match parseU32 s with
    | none => .string s
    | some n => .number n

/-- tokens.rs:257-284 `process_string_or_number`. -/
def processStringOrNumber (t : Tokenizer) : Out TokenErr (Token × Tokenizer) := do
  let (s, rest) ← stringLoop t.rest.length [] t.rest
  .ok (wordToken s, { t with rest := rest })

/-- What `next` returns when no line is left (tokens.rs:55-61 and 70-75). -/
def atEnd (t : Tokenizer) : Out TokenErr (Token × Tokenizer) :=
  if t.multiline then .err .mlMissingClose else .ok (.end, t)

/-- tokens.rs:83-102: dispatch on the next character. `recur` is the recursive call of `next`. -/
def nextChar (recur : Tokenizer → Out TokenErr (Token × Tokenizer)) (t : Tokenizer) :
    Out TokenErr (Token × Tokenizer) :=
  match t.rest with
  | [] => .panic .index
  | ch :: rest =>
    if ch = ' ' ∨ ch = '\t' then .ok t.processWhitespace
    else if ch = '$' then t.processDirective
    else if ch = '"' then t.processQuotedString
    else if ch = '(' then
      -- 233-242 `process_multi_line`
      if t.multiline then .err .mlUnexpectedOpen else recur { t with multiline := true, rest := rest }
    else if ch = ')' then
      -- 245-254 `process_close_multi`
      if !t.multiline then .err .mlUnexpectedClose else recur { t with multiline := false, rest := rest }
    else if ch = ';' then
      -- 287-290 `process_comment`
      recur { t with rest := [] }
    else t.processStringOrNumber

/-- tokens.rs:65-81: peeked tokens, then the end of the line. -/
def nextLoaded (recur : Tokenizer → Out TokenErr (Token × Tokenizer)) (t : Tokenizer) :
    Out TokenErr (Token × Tokenizer) :=
  match t.peeked with
  | tok :: more => .ok (tok, { t with peeked := more })
  | [] =>
    if t.rest = [] then do
      let (loaded, t) ← loadNewLine t
      if !loaded then atEnd t
      else if !t.multiline then .ok (.newLine, t)
      else nextChar recur t
    else nextChar recur t

/-- tokens.rs:51-103 `next`, with fuel for the recursive calls. -/
def nextF : Nat → Tokenizer → Out TokenErr (Token × Tokenizer)
  | 0, _ => .diverge
  | fuel + 1, t =>
    if t.line = 0 then do
      let (loaded, t) ← loadNewLine t
      if loaded then nextLoaded (nextF fuel) t else atEnd t
    else nextLoaded (nextF fuel) t

/-- Characters and lines left. -/
def size (t : Tokenizer) : Nat :=
  t.rest.length + (t.file.map fun l => (l.getD []).length + 1).sum

/-- tokens.rs:51-103 `next`; every recursive call consumes a character, so this fuel is enough (`nextF_ne_diverge`). -/
def next (t : Tokenizer) : Out TokenErr (Token × Tokenizer) := nextF (t.size + 1) t

/-- tokens.rs:107-115 `next_after_blanks`, with fuel. -/
def nextAfterBlanksF : Nat → Tokenizer → Out TokenErr (Token × Tokenizer)
  | 0, _ => .diverge
  | fuel + 1, t => do
    let (tok, t) ← t.next
    if tok = .blank then nextAfterBlanksF fuel t else .ok (tok, t)

/-- tokens.rs:107-115 `next_after_blanks`; every blank consumes a character or a peeked token. -/
def nextAfterBlanks (t : Tokenizer) : Out TokenErr (Token × Tokenizer) :=
  nextAfterBlanksF (t.size + t.peeked.length + 1) t

/-- tokens.rs:118-122 `peek`. -/
def peek (t : Tokenizer) : Out TokenErr (Token × Tokenizer) := do
  let (tok, t) ← t.next
  .ok (tok, { t with peeked := t.peeked ++ [tok] })

/-- tokens.rs:126-130 `peek_after_blanks`. -/
def peekAfterBlanks (t : Tokenizer) : Out TokenErr (Token × Tokenizer) := do
  let (tok, t) ← t.nextAfterBlanks
  .ok (tok, { t with peeked := t.peeked ++ [tok] })

end Tokenizer

end Ariadne
