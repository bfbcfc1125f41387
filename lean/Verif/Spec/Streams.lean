import Verif.Spec.Names
import Verif.Model.Buffer

/-!
# Buffers as streams of octets

What it means to decode a value from, or to append a value to, the middle of a stream.
-/

namespace Ariadne

namespace BitsBuf

/-- A buffer made by `from_raw_bytes bs` whose read position is at bit `r`. -/
def rdBit (bs : List UInt8) (r : Nat) : BitsBuf :=
  { buf := bs, last := bs.length * 8, wPos := bs.length * 8, rPos := r }

/-- A buffer made by `from_raw_bytes bs` whose read position is at byte `i`. -/
def rd (bs : List UInt8) (i : Nat) : BitsBuf := rdBit bs (8 * i)

/-- A buffer being built: bytes `bs`, write position at the end. -/
def app (bs : List UInt8) : BitsBuf :=
  { buf := bs, last := 8 * bs.length, wPos := 8 * bs.length, rPos := 0 }

end BitsBuf

open BitsBuf

/-- `d` reads exactly the bytes `x`, anywhere in a message, as `a`. -/
def Decodes {ε α : Type} (d : BufM ε α) (x : List UInt8) (a : α) : Prop :=
  ∀ pre post, d (rd (pre ++ x ++ post) pre.length) = (.ok a, rd (pre ++ x ++ post) (pre.length + x.length))

/-- `m` appends exactly the bytes `x`. -/
def Writes {ε : Type} (m : BufM ε Unit) (x : List UInt8) : Prop :=
  ∀ bs, m (app bs) = (.ok (), app (bs ++ x))

/-- Where the code jumps to for a pointer offset. -/
def codeAddr (p : Profile) (off : Nat) : Option Nat :=
  match p with
  | .debug => if off < 8192 then some (8 * off) else none
  | .release => some (8 * (off % 8192))

end Ariadne
