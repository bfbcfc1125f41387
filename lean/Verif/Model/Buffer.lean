import Verif.Model.Basic

/-!
# `BitsBuf` – models src/shared/buffer/buffer.rs

`usize` positions are `Nat`: a buffer would need 2^61 bytes to make them overflow.
-/

namespace Ariadne

/-- buffer.rs:1-7 `struct BitsBuf`. -/
structure BitsBuf where
  buf : List UInt8
  last : Nat
  wPos : Nat
  rPos : Nat
  deriving DecidableEq, Repr

/-- A computation using a `&mut BitsBuf`: the buffer state after it is kept also when the result is
an error, because `Message::decode_from_bytes` goes on after an `UnknownType` error. -/
def BufM (ε α : Type) : Type := BitsBuf → Out ε α × BitsBuf

namespace BufM

instance {ε : Type} : Monad (BufM ε) where
  pure a := fun b => (.ok a, b)
  bind m f := fun b =>
    match m b with
    | (.ok a, b') => f a b'
    | (.err e, b') => (.err e, b')
    | (.panic k, b') => (.panic k, b')
    | (.diverge, b') => (.diverge, b')

/-- Lift a buffer-independent result. -/
def lift {ε α : Type} (o : Out ε α) : BufM ε α := fun b => (o, b)
/-- `return Err(e)`. -/
def throw {ε α : Type} (e : ε) : BufM ε α := fun b => (.err e, b)
/-- `panic!`. -/
def panic {ε α : Type} (k : Panic) : BufM ε α := fun b => (.panic k, b)
/-- Loop fuel exhausted. -/
def diverge {ε α : Type} : BufM ε α := fun b => (.diverge, b)
/-- `assert!(c)`. -/
def assert {ε : Type} (c : Bool) : BufM ε Unit := fun b => (if c then .ok () else .panic .assert, b)
/-- Error conversion done by `?` (`From::from`). -/
def mapErr {ε ε' α : Type} (f : ε → ε') (m : BufM ε α) : BufM ε' α := fun b =>
  ((m b).1.mapErr f, (m b).2)

end BufM

namespace BitsBuf

/-- buffer.rs:18-25 `BitsBuf::new`. -/
def new : BitsBuf := { buf := [], last := 0, wPos := 0, rPos := 0 }

/-- buffer.rs:29-36 `BitsBuf::from_raw_bytes`. -/
def fromRawBytes (bytes : List UInt8) : BitsBuf :=
  { buf := bytes, last := bytes.length * 8, wPos := bytes.length * 8, rPos := 0 }

/-- The Rust expression `((1_u16 << n) - 1) as u8`. -/
def mask (n : Nat) : UInt8 := (((1 : UInt16) <<< n.toUInt16) - 1).toUInt8

/-- buffer.rs:40-62 `BitsBuf::truncate`. -/
def truncate (b : BitsBuf) (len : Nat) : BitsBuf :=
  if len ≥ b.last then b
  else
    let lastByte := (len + 7) / 8
    let buf := b.buf.take lastByte
    let buf :=
      if len % 8 ≠ 0 then
        let bitsToDiscard := 8 - (len % 8)
        let discardMask := ~~~ (mask bitsToDiscard)
        -- `if let Some(byte) = self.buf.last_mut()`
        match buf.getLast? with
        | some byte => buf.dropLast ++ [byte &&& discardMask]
        | none => buf
      else buf
    { buf := buf
      last := len
      rPos := if len < b.rPos then len else b.rPos
      wPos := if len < b.wPos then len else b.wPos }

/-- buffer.rs:65-67 `BitsBuf::into_vec`. -/
def intoVec (b : BitsBuf) : List UInt8 := b.buf

/-- buffer.rs:71-73 `read_pos`. -/
def readPos {ε : Type} : BufM ε Nat := fun b => (.ok b.rPos, b)

/-- buffer.rs:77-79 `write_pos`. -/
def writePos {ε : Type} : BufM ε Nat := fun b => (.ok b.wPos, b)

/-- buffer.rs:84-89 `set_read_pos`: panics beyond the end. -/
def setReadPos {ε : Type} (r : Nat) : BufM ε Unit := fun b =>
  if r > b.last then (.panic .explicit, b) else (.ok (), { b with rPos := r })

/-- buffer.rs:94-99 `set_write_pos`: panics beyond the end. -/
def setWritePos {ε : Type} (w : Nat) : BufM ε Unit := fun b =>
  if w > b.last then (.panic .explicit, b) else (.ok (), { b with wPos := w })

/-- buffer.rs:108-139 `read_bits`. `n : u8` is a `Nat`. Every shift amount in the Rust code is below
the width (shown by the case conditions), so no shift overflow check can fire. -/
def readBits {ε : Type} (n : Nat) : BufM ε (Option UInt8) := fun b =>
  if ¬ n ≤ 8 then (.panic .assert, b)
  else if n = 0 then (.ok (some 0), b)
  else if b.rPos + n > b.last then (.ok none, b)
  else
    let bytesOffset := b.rPos / 8
    let bitsOffset := b.rPos % 8
    let remainingBits := 8 - bitsOffset
    if n ≤ remainingBits then
      match b.buf[bytesOffset]? with
      | none => (.panic .index, b)
      | some cur =>
        let bitsMasked := cur &&& mask remainingBits
        let read := bitsMasked >>> (remainingBits - n).toUInt8
        (.ok (some read), { b with rPos := b.rPos + n })
    else
      match b.buf[bytesOffset]?, b.buf[bytesOffset + 1]? with
      | some cur, some nxt =>
        let first := cur &&& mask remainingBits
        let first := first <<< (n - remainingBits).toUInt8
        let second := nxt >>> (8 - (n - remainingBits)).toUInt8
        (.ok (some (first ||| second)), { b with rPos := b.rPos + n })
      | _, _ => (.panic .index, b)

/-- buffer.rs:143-145 `read_u8`. -/
def readU8 {ε : Type} : BufM ε (Option UInt8) := readBits 8

/-- `self.read_bits(8).unwrap()`. -/
def readU8Unwrap {ε : Type} : BufM ε UInt8 := do
  match ← readU8 with
  | some v => pure v
  | none => BufM.panic .unwrap

/-- buffer.rs:149-157 `read_u16`. -/
def readU16 {ε : Type} : BufM ε (Option UInt16) := fun b =>
  if b.rPos + 16 > b.last then (.ok none, b)
  else
    (do
      let first ← readU8Unwrap
      let second ← readU8Unwrap
      pure (some ((first.toUInt16 <<< 8) ||| second.toUInt16)) : BufM ε (Option UInt16)) b

/-- buffer.rs:161-171 `read_u32`. -/
def readU32 {ε : Type} : BufM ε (Option UInt32) := fun b =>
  if b.rPos + 32 > b.last then (.ok none, b)
  else
    (do
      let first ← readU8Unwrap
      let second ← readU8Unwrap
      let third ← readU8Unwrap
      let fourth ← readU8Unwrap
      pure (some ((first.toUInt32 <<< 24) ||| (second.toUInt32 <<< 16) |||
        (third.toUInt32 <<< 8) ||| fourth.toUInt32)) : BufM ε (Option UInt32)) b

/-- The loop of buffer.rs:182-185 / 198-201: `n` times `read_u8().unwrap()`, pushed in order. -/
def readBytesLoop {ε : Type} : Nat → BufM ε (List UInt8)
  | 0 => pure []
  | n + 1 => do
    let byte ← readU8Unwrap
    let rest ← readBytesLoop n
    pure (byte :: rest)

/-- buffer.rs:193-203 `read_bytes_vec` (and 177-187 `read_bytes::<N>`, the same but for the array
result). -/
def readBytesVec {ε : Type} (n : Nat) : BufM ε (Option (List UInt8)) := fun b =>
  if b.rPos + n * 8 > b.last then (.ok none, b)
  else
    (do
      let bytes ← readBytesLoop n
      pure (some bytes) : BufM ε (Option (List UInt8))) b

/-- buffer.rs:212-247 `write_bits`. The subtraction `buf.len()*8 - w_pos` would underflow for a
write position beyond the bytes; both profiles then panic (debug: overflow, release: the index
below), modelled as `overflow`. -/
def writeBits {ε : Type} (bits : UInt8) (n : Nat) : BufM ε Unit := fun b =>
  if ¬ (n ≤ 8 ∧ n > 0) then (.panic .assert, b)
  else
    let bits := bits &&& mask n
    if b.buf.length * 8 < b.wPos then (.panic .overflow, b)
    else
      let buf := if b.buf.length * 8 - b.wPos < n then b.buf ++ [0] else b.buf
      let avail := 8 - b.wPos % 8
      let w := b.wPos + n
      let last := if w > b.last then w else b.last
      let i := b.wPos / 8
      if n ≤ avail then
        let eraser := mask n <<< (avail - n).toUInt8
        let shifted := bits <<< (avail - n).toUInt8
        match buf[i]? with
        | none => (.panic .index, b)
        | some cur =>
          (.ok (), { b with buf := buf.set i ((cur &&& ~~~ eraser) ||| shifted), wPos := w, last := last })
      else
        let firstShifted := bits >>> (n - avail).toUInt8
        let firstEraser := mask avail
        let secondShifted := (bits &&& mask (n - avail)) <<< (8 - (n - avail)).toUInt8
        let secondEraser := mask (n - avail) <<< (8 - (n - avail)).toUInt8
        match buf[i]?, buf[i + 1]? with
        | some cur, some nxt =>
          let buf := buf.set i ((cur &&& ~~~ firstEraser) ||| firstShifted)
          let buf := buf.set (i + 1) ((nxt &&& ~~~ secondEraser) ||| secondShifted)
          (.ok (), { b with buf := buf, wPos := w, last := last })
        | _, _ => (.panic .index, b)

/-- buffer.rs:251-253 `write_u8`. -/
def writeU8 {ε : Type} (n : UInt8) : BufM ε Unit := writeBits n 8

/-- buffer.rs:257-260 `write_u16`. -/
def writeU16 {ε : Type} (n : UInt16) : BufM ε Unit := do
  writeBits (n >>> 8).toUInt8 8
  writeBits n.toUInt8 8

/-- buffer.rs:264-269 `write_u32`. -/
def writeU32 {ε : Type} (n : UInt32) : BufM ε Unit := do
  writeBits (n >>> 24).toUInt8 8
  writeBits (n >>> 16).toUInt8 8
  writeBits (n >>> 8).toUInt8 8
  writeBits n.toUInt8 8

/-- buffer.rs:274-278 `write_bytes`. -/
def writeBytes {ε : Type} : List UInt8 → BufM ε Unit
  | [] => pure ()
  | x :: xs => do
    writeU8 x
    writeBytes xs

end BitsBuf

end Ariadne
