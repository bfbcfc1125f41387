import Verif.Model.Buffer
import Verif.Model.RString

/-!
# Domain names – models src/shared/dns/name.rs
-/

namespace Ariadne

/-- name.rs:10-11 `struct Name(String)`. The field is private in Rust, so every name was made by `from_string` or
`from_bytes` and has passed `validate_name`; the model does not bundle that fact, theorems assume it where needed.
Equality is derived: it is equality of strings. -/
structure Name where
  s : Str
  deriving DecidableEq, Repr

/-- name.rs:211-222 `enum NameErr`; the message texts are dropped. -/
inductive NameErr
  | bytesEnd
  | maxRedir
  | pointerOutOfBonds
  | relativeName
  | longName
  | malformedName
  | longLabel
  | malformedLabel
  deriving DecidableEq, Repr

namespace Name

/-- name.rs:145-162 `validate_label`. -/
def validateLabel (label : Str) : Out NameErr Unit :=
  if strLen label = 0 then .err .malformedLabel
  else
    match label.head?, label.getLast? with
    | some first, some last =>
      if !isAsciiAlphanumeric first then .err .malformedLabel
      else if !isAsciiAlphanumeric last then .err .malformedLabel
      else if !(label.all fun ch => isAsciiAlphanumeric ch || ch == '-') then .err .malformedLabel
      else .ok ()
    | _, _ => .panic .unwrap

/-- The loop name.rs:134-139 over the labels. -/
def validateLabels : List Str → Out NameErr Unit
  | [] => .ok ()
  | label :: rest =>
    if strLen label = 0 then .err .malformedLabel
    else do
      validateLabel label
      validateLabels rest

/-- name.rs:117-141 `validate_name`. `&name[..name.len() - 1]` cuts the final dot, i.e. the last character. -/
def validateName (name : Str) : Out NameErr Unit :=
  if name = ['.'] then .ok ()
  else if strLen name > 255 then .err .longName
  else if ¬ name.getLast? = some '.' then .err .relativeName
  else if name.head? = some '.' then .err .malformedName
  else if containsDoubleDot name then .err .malformedName
  else validateLabels (splitOn '.' name.dropLast)

/-- name.rs:32-35 `Name::from_string`. -/
def fromString (s : Str) : Out NameErr Name := do
  validateName s
  return ⟨s⟩

/-- name.rs:164-169 `check_end`. -/
def checkEnd {α : Type} (o : Option α) : BufM NameErr α :=
  match o with
  | none => BufM.throw .bytesEnd
  | some v => pure v

/-- name.rs:26-28. -/
def POINTER_MASK : UInt16 := 0b0011111111111111
def LABEL_MASK : UInt8 := 0b11000000
def MAX_REDIR : Nat := 15

/-- The `loop` name.rs:45-85, with fuel. State: `nameBytes` (name_bytes), `after` (pos_after_jump), `nJumps` (n_jumps,
at most 16, so its `u16` increment never overflows). Result: name_bytes and pos_after_jump at the `break`. -/
def fromBytesLoop (p : Profile) : Nat → List UInt8 → Nat → Nat → BufM NameErr (List UInt8 × Nat)
  | 0, _, _, _ => BufM.diverge
  | fuel + 1, nameBytes, after, nJumps => do
    let lenByte ← checkEnd (← BitsBuf.readU8)
    if lenByte &&& LABEL_MASK = 0b11000000 then
      if nJumps > MAX_REDIR then BufM.throw .maxRedir
      else do
        let pos ← BitsBuf.readPos
        let after' := if nJumps = 0 then pos + 8 else after
        let second ← checkEnd (← BitsBuf.readU8)
        let jumpPos := ((lenByte.toUInt16 <<< 8) ||| second.toUInt16) &&& POINTER_MASK
        let jumpPos ← BufM.lift (mulU16 p jumpPos 8)
        BitsBuf.setReadPos jumpPos.toNat
        fromBytesLoop p fuel nameBytes after' (nJumps + 1)
    else if lenByte &&& LABEL_MASK = 0 then
      if lenByte > 63 then BufM.throw .longLabel
      else if lenByte = 0 then pure (nameBytes ++ ['.'.toUInt8], after)
      else do
        let nameBytes := if nameBytes.isEmpty then nameBytes else nameBytes ++ ['.'.toUInt8]
        let labelBytes ← checkEnd (← BitsBuf.readBytesVec lenByte.toNat)
        let nameBytes := nameBytes ++ labelBytes
        if nameBytes.length > 255 then BufM.throw .longName
        else fromBytesLoop p fuel nameBytes after nJumps
    else BufM.throw .malformedLabel

/-- Fuel for the loop; `C08` shows that it is never used up. -/
def loopFuel : Nat := 300

/-- name.rs:87-90: after a jump the cursor goes back behind the first pointer. -/
def restorePos (after : Nat) : BufM NameErr Unit :=
  if after > 0 then BitsBuf.setReadPos after else pure ()

/-- name.rs:40-99 `Name::from_bytes`. -/
def fromBytes (p : Profile) : BufM NameErr Name := do
  let (nameBytes, after) ← fromBytesLoop p loopFuel [] 0 0
  restorePos after
  match fromUtf8 nameBytes with
  | none => BufM.throw .malformedName
  | some name => do
    BufM.lift (validateName name)
    return ⟨name⟩

/-- name.rs:103-112 `to_bytes`. The `debug_assert!` cannot fire on a name made by the constructors. `len() as u8`
truncates. -/
def toBytes (n : Name) : List UInt8 :=
  (splitOn '.' n.s).flatMap fun l => UInt8.ofNat (strLen l) :: strBytes l

/-- name.rs:174-176 `is_in_zone_root`. -/
def isInZoneRoot (n zone : Name) : Bool := n == zone

/-- The loop name.rs:183-192: zone labels against name labels, both from the right. -/
def inZoneLoop : List Str → List Str → Bool
  | [], _ => true
  | _ :: _, [] => false
  | zl :: zs, nl :: ns => if nl ≠ zl then false else inZoneLoop zs ns

/-- name.rs:180-193 `is_in_zone` (`rsplit` yields the pieces of `split` in reverse order). -/
def isInZone (n zone : Name) : Bool :=
  inZoneLoop (splitOn '.' zone.s).reverse (splitOn '.' n.s).reverse

/-- name.rs:198-208 `is_only_in_auth_zone`. -/
def isOnlyInAuthZone (n authZone : Name) (subZones : List Name) : Bool :=
  if !n.isInZone authZone then false
  else !(subZones.any fun sz => n.isInZone sz)

end Name

end Ariadne
