import Verif.Spec.Streams
import Verif.Spec.Wire

/-!
# What in a message makes the decoder panic or hang

Places and byte patterns, in terms of the wire format only (`Visits`, `BadPointer`, `WireName`, fields).
-/

namespace Ariadne.Spec

open BitsBuf

/-- Reading the name at bit `r` comes across a compression pointer that leads nowhere. -/
def BadName (p : Profile) (msg : List UInt8) (r : Nat) : Prop :=
  ∃ r₁, Visits (codeAddr p) msg r r₁ ∧ BadPointer (codeAddr p) msg r₁

/-- RDLENGTH * 8 does not fit 16 bits and overflow is checked. -/
def LongData (p : Profile) (d : Nat) : Prop := p = .debug ∧ 8192 ≤ d

/-- The RDATA of type `t` and RDLENGTH `d` at bit `r` is harmful. -/
def BadData (p : Profile) (msg : List UInt8) (t : RecordType) (d r : Nat) : Prop :=
  match t with
  | .NS => BadName p msg r ∨ LongData p d
  | .CNAME => BadName p msg r ∨ LongData p d
  | .PTR => BadName p msg r ∨ LongData p d
  | .MX => BadName p msg (r + 16) ∨ LongData p d
  | .SOA => BadName p msg r ∨ (∃ ls next k, WireName (codeAddr p) msg r ls next k ∧ BadName p msg next) ∨ LongData p d
  | .HINFO => LongData p d
  -- a bitmap that is cut off by the end of the message, or has a bit set
  | .WKS => 5 < d ∧ (8 * msg.length < r + 8 * d ∨ ∃ i v, i < d - 5 ∧ FieldAt msg (r + 40 + 8 * i) 8 v ∧ v ≠ 0)
  | .TXT => p = .debug ∧ 65280 ≤ d
  | _ => False

/-- The question or record that starts at bit `r` is harmful: its owner is, or it has an owner, a type and RDLENGTH
(4.1.3: 8 octets after the owner) such that its data is. -/
def Harmful (p : Profile) (msg : List UInt8) (r : Nat) : Prop :=
  BadName p msg r ∨
  ∃ ls next k t d, WireName (codeAddr p) msg r ls next k ∧ FieldAt msg next 16 t.toNum.toNat ∧
    FieldAt msg (next + 64) 16 d ∧ BadData p msg t d (next + 80)

/-- The record that starts at bit `r` is of type WKS (11) and has a bit set in its bitmap, which starts 5 octets after the fixed
fields. -/
def WksBit (p : Profile) (msg : List UInt8) (r : Nat) : Prop :=
  ∃ ls next k d i v, WireName (codeAddr p) msg r ls next k ∧ FieldAt msg next 16 11 ∧ FieldAt msg (next + 64) 16 d ∧
    5 + i < d ∧ FieldAt msg (next + 80 + 40 + 8 * i) 8 v ∧ v ≠ 0

/-- The item decoder at bit `r` got over an item and left the cursor at bit `r'`. -/
def StepsTo {α : Type} (d : BufM ParsingErr α) (msg : List UInt8) (r r' : Nat) : Prop :=
  ∃ o, d (rdBit msg r) = (o, rdBit msg r') ∧ ((∃ a, o = .ok a) ∨ ∃ n, o = .err (.unknownType n))

/-- Bit positions at which the decoder gets to read an item: after the header, and after an item that could be read. -/
inductive Reached (p : Profile) (msg : List UInt8) : Nat → Prop
  | start : Reached p msg 96
  | question {r r' : Nat} : Reached p msg r → StepsTo (Question.decode p) msg r r' → Reached p msg r'
  | record {r r' : Nat} : Reached p msg r → StepsTo (Record.decode p) msg r r' → Reached p msg r'

end Ariadne.Spec
