import Verif.Model.Buffer

/-!
# Client programs of the bit buffer

The public operations of `BitsBuf` as data, so that "every sequence of operations" can be said.
-/

namespace Ariadne.Spec

/-- One call of a public method of `BitsBuf`. -/
inductive BufOp
  | truncate (len : Nat)
  | setReadPos (r : Nat)
  | setWritePos (w : Nat)
  | readBits (n : Nat)
  | readU8
  | readU16
  | readU32
  | readBytes (n : Nat)
  | writeBits (v : UInt8) (n : Nat)
  | writeU8 (v : UInt8)
  | writeU16 (v : UInt16)
  | writeU32 (v : UInt32)
  | writeBytes (l : List UInt8)

/-- Forget the value of a call. -/
def forget {α : Type} (m : BufM Unit α) (b : BitsBuf) : Out Unit Unit × BitsBuf :=
  match m b with
  | (.ok _, b') => (.ok (), b')
  | (.err e, b') => (.err e, b')
  | (.panic k, b') => (.panic k, b')
  | (.diverge, b') => (.diverge, b')

/-- Perform a call. -/
def BufOp.run : BufOp → BitsBuf → Out Unit Unit × BitsBuf
  | .truncate len, b => (.ok (), b.truncate len)
  | .setReadPos r, b => forget (BitsBuf.setReadPos r) b
  | .setWritePos w, b => forget (BitsBuf.setWritePos w) b
  | .readBits n, b => forget (BitsBuf.readBits n) b
  | .readU8, b => forget BitsBuf.readU8 b
  | .readU16, b => forget BitsBuf.readU16 b
  | .readU32, b => forget BitsBuf.readU32 b
  | .readBytes n, b => forget (BitsBuf.readBytesVec n) b
  | .writeBits v n, b => forget (BitsBuf.writeBits v n) b
  | .writeU8 v, b => forget (BitsBuf.writeU8 v) b
  | .writeU16 v, b => forget (BitsBuf.writeU16 v) b
  | .writeU32 v, b => forget (BitsBuf.writeU32 v) b
  | .writeBytes l, b => forget (BitsBuf.writeBytes l) b

/-- The documented contract of a call on a buffer of `last` bits. -/
def BufOp.Legal (last : Nat) : BufOp → Prop
  | .setReadPos r => r ≤ last
  | .setWritePos w => w ≤ last
  | .readBits n => n ≤ 8
  | .writeBits _ n => 0 < n ∧ n ≤ 8
  | _ => True

/-- Buffers a client can hold: made by `new` or `from_raw_bytes`, then any calls that returned. -/
inductive Reachable : BitsBuf → Prop
  | new : Reachable BitsBuf.new
  | raw (bytes : List UInt8) : Reachable (BitsBuf.fromRawBytes bytes)
  | step {b b' : BitsBuf} (op : BufOp) : Reachable b → op.run b = (.ok (), b') → Reachable b'

/-- A field of a binary layout, with its value. -/
inductive Field
  | bits (v : UInt8) (n : Nat)
  | u8 (v : UInt8)
  | u16 (v : UInt16)
  | u32 (v : UInt32)
  | bytes (l : List UInt8)
  deriving DecidableEq, Repr

/-- Bit groups have 1 to 8 bits. -/
def Field.WF : Field → Prop
  | .bits _ n => 0 < n ∧ n ≤ 8
  | _ => True

/-- Append a field. -/
def Field.write : Field → BufM Unit Unit
  | .bits v n => BitsBuf.writeBits v n
  | .u8 v => BitsBuf.writeU8 v
  | .u16 v => BitsBuf.writeU16 v
  | .u32 v => BitsBuf.writeU32 v
  | .bytes l => BitsBuf.writeBytes l

/-- Turn `None` into an error. -/
def need {α : Type} (m : BufM Unit (Option α)) : BufM Unit α := do
  match ← m with
  | some v => pure v
  | none => BufM.throw ()

/-- Read a field of the same kind and width; the value of the argument is not used. -/
def Field.read : Field → BufM Unit Field
  | .bits _ n => do return .bits (← need (BitsBuf.readBits n)) n
  | .u8 _ => do return .u8 (← need BitsBuf.readU8)
  | .u16 _ => do return .u16 (← need BitsBuf.readU16)
  | .u32 _ => do return .u32 (← need BitsBuf.readU32)
  | .bytes l => do return .bytes (← need (BitsBuf.readBytesVec l.length))

/-- Only the low `n` bits of a bit group are stored. -/
def Field.stored : Field → Field
  | .bits v n => .bits (UInt8.ofNat (v.toNat % 2 ^ n)) n
  | f => f

/-- Append all fields. -/
def writeAll : List Field → BufM Unit Unit
  | [] => pure ()
  | f :: fs => do f.write; writeAll fs

/-- Read all fields. -/
def readAll : List Field → BufM Unit (List Field)
  | [] => pure []
  | f :: fs => do
    let x ← f.read
    let xs ← readAll fs
    return x :: xs

/-- Width in bits. -/
def Field.width : Field → Nat
  | .bits _ n => n
  | .u8 _ => 8
  | .u16 _ => 16
  | .u32 _ => 32
  | .bytes l => 8 * l.length

/-- The numeric value stored in `width` bits, big-endian. -/
def Field.value : Field → Nat
  | .bits v n => v.toNat % 2 ^ n
  | .u8 v => v.toNat
  | .u16 v => v.toNat
  | .u32 v => v.toNat
  | .bytes l => l.foldl (fun acc x => acc * 256 + x.toNat) 0

end Ariadne.Spec
