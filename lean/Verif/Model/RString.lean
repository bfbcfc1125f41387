/-!
# Rust strings

A Rust `&str`/`String` is a sequence of Unicode scalar values, modelled by `List Char`; its bytes are
the UTF-8 encoding. Rust's `len()` is the number of bytes.
-/

namespace Ariadne

/-- A Rust string. -/
abbrev Str := List Char

/-- `as_bytes()`. -/
def strBytes (s : Str) : List UInt8 := s.flatMap String.utf8EncodeChar

/-- `len()`: length in bytes. -/
def strLen (s : Str) : Nat := (strBytes s).length

/-- `std::str::from_utf8(..).ok()`. All-ASCII input is decoded byte by byte (as std's fast path does), other
input by core Lean's UTF-8 decoder; `fromUtf8_iff` (Lemmas/RString.lean) shows that this is the inverse of
`strBytes`. -/
def fromUtf8 (bs : List UInt8) : Option Str :=
  if bs.all (· < 128) then some (bs.map fun b => Char.ofNat b.toNat)
  else (ByteArray.mk bs.toArray).utf8Decode?.map Array.toList

/-- `s.split(c).collect()`: `n` separators give `n + 1` pieces. -/
def splitOn (c : Char) : Str → List Str
  | [] => [[]]
  | x :: xs =>
    if x = c then [] :: splitOn c xs
    else match splitOn c xs with
      | [] => [[x]]
      | l :: ls => (x :: l) :: ls

/-- `s.contains("..")`. -/
def containsDoubleDot : Str → Bool
  | a :: b :: rest => (a == '.' && b == '.') || containsDoubleDot (b :: rest)
  | _ => false

/-- `char::is_ascii_alphanumeric`: `Char.isAlphanum` covers exactly `A-Z`, `a-z`, `0-9`. -/
def isAsciiAlphanumeric (c : Char) : Bool := c.isAlphanum

end Ariadne
