import Verif.Model.Name

/-!
# Code tables – models src/shared/dns/types.rs, class.rs, header.rs (codes), errors.rs, utils.rs
-/

namespace Ariadne

/-- types.rs:5-26 `enum RecordType`. -/
inductive RecordType
  | A | NS | MD | MF | CNAME | SOA | MB | MG | MR | NULL | WKS | PTR | HINFO | MINFO | MX | TXT | AXFR | MAILB | MAILA | WC
  deriving DecidableEq, Repr

namespace RecordType

/-- types.rs:30-54 `from_num`; `Err(n)` is `none`. -/
def fromNum (n : UInt16) : Option RecordType :=
  if n = 1 then some .A
  else if n = 2 then some .NS
  else if n = 3 then some .MD
  else if n = 4 then some .MF
  else if n = 5 then some .CNAME
  else if n = 6 then some .SOA
  else if n = 7 then some .MB
  else if n = 8 then some .MG
  else if n = 9 then some .MR
  else if n = 10 then some .NULL
  else if n = 11 then some .WKS
  else if n = 12 then some .PTR
  else if n = 13 then some .HINFO
  else if n = 14 then some .MINFO
  else if n = 15 then some .MX
  else if n = 16 then some .TXT
  else if n = 252 then some .AXFR
  else if n = 253 then some .MAILB
  else if n = 254 then some .MAILA
  else if n = 255 then some .WC
  else none

/-- types.rs:57-80 `to_num`. -/
def toNum : RecordType → UInt16
  | .A => 1
  | .NS => 2
  | .MD => 3
  | .MF => 4
  | .CNAME => 5
  | .SOA => 6
  | .MB => 7
  | .MG => 8
  | .MR => 9
  | .NULL => 10
  | .WKS => 11
  | .PTR => 12
  | .HINFO => 13
  | .MINFO => 14
  | .MX => 15
  | .TXT => 16
  | .AXFR => 252
  | .MAILB => 253
  | .MAILA => 254
  | .WC => 255

/-- types.rs:83-107 `from_str`. -/
def fromStr (s : Str) : Option RecordType :=
  if s = "A".toList then some .A
  else if s = "NS".toList then some .NS
  else if s = "MD".toList then some .MD
  else if s = "MF".toList then some .MF
  else if s = "CNAME".toList then some .CNAME
  else if s = "SOA".toList then some .SOA
  else if s = "MB".toList then some .MB
  else if s = "MG".toList then some .MG
  else if s = "MR".toList then some .MR
  else if s = "NULL".toList then some .NULL
  else if s = "WKS".toList then some .WKS
  else if s = "PTR".toList then some .PTR
  else if s = "HINFO".toList then some .HINFO
  else if s = "MINFO".toList then some .MINFO
  else if s = "MX".toList then some .MX
  else if s = "TXT".toList then some .TXT
  else if s = "AXFR".toList then some .AXFR
  else if s = "MAILB".toList then some .MAILB
  else if s = "MAILA".toList then some .MAILA
  else if s = "*".toList then some .WC
  else none

/-- types.rs:110-133 `to_str`. -/
def toStr : RecordType → Str
  | .A => "A".toList
  | .NS => "NS".toList
  | .MD => "MD".toList
  | .MF => "MF".toList
  | .CNAME => "CNAME".toList
  | .SOA => "SOA".toList
  | .MB => "MB".toList
  | .MG => "MG".toList
  | .MR => "MR".toList
  | .NULL => "NULL".toList
  | .WKS => "WKS".toList
  | .PTR => "PTR".toList
  | .HINFO => "HINFO".toList
  | .MINFO => "MINFO".toList
  | .MX => "MX".toList
  | .TXT => "TXT".toList
  | .AXFR => "AXFR".toList
  | .MAILB => "MAILB".toList
  | .MAILA => "MAILA".toList
  | .WC => "*".toList

/-- types.rs:167-174 `is_obsolete`. -/
def isObsolete : RecordType → Bool
  | .MD | .MF | .MAILA => true
  | _ => false

/-- types.rs:177-186 `is_experimental`. -/
def isExperimental : RecordType → Bool
  | .MB | .MG | .MR | .NULL | .MINFO => true
  | _ => false

/-- types.rs:139-150 `is_supported_for_records`. -/
def isSupportedForRecords (t : RecordType) : Bool :=
  if t.isObsolete || t.isExperimental then false
  else match t with
    | .AXFR | .MAILB | .MAILA | .WC => false
    | _ => true

/-- types.rs:153-164 `is_supported_for_question`. -/
def isSupportedForQuestion (t : RecordType) : Bool :=
  if t.isObsolete || t.isExperimental then false
  else match t with
    | .AXFR | .MAILB | .MAILA | .WC => false
    | _ => true

end RecordType

/-- class.rs:4-10 `enum Class`. -/
inductive Class
  | IN | CS | CH | HS | WC
  deriving DecidableEq, Repr

namespace Class

/-- class.rs:14-23 `from_num`. -/
def fromNum (n : UInt16) : Option Class :=
  if n = 1 then some .IN
  else if n = 2 then some .CS
  else if n = 3 then some .CH
  else if n = 4 then some .HS
  else if n = 255 then some .WC
  else none

/-- class.rs:26-34 `to_num`. -/
def toNum : Class → UInt16
  | .IN => 1
  | .CS => 2
  | .CH => 3
  | .HS => 4
  | .WC => 255

/-- class.rs:37-46 `from_string`. -/
def fromString (s : Str) : Option Class :=
  if s = "IN".toList then some .IN
  else if s = "CS".toList then some .CS
  else if s = "CH".toList then some .CH
  else if s = "HS".toList then some .HS
  else if s = "*".toList then some .WC
  else none

/-- class.rs:49-54 `is_supported`. -/
def isSupported : Class → Bool
  | .IN => true
  | _ => false

end Class

/-- header.rs:142-150 `enum RespCode`. -/
inductive RespCode
  | NoError | FormErr | ServFail | NxDomain | NotImp | Refused
  deriving DecidableEq, Repr

namespace RespCode

/-- header.rs:153-163 `from_num`. -/
def fromNum (n : UInt8) : Option RespCode :=
  if n = 0 then some .NoError
  else if n = 1 then some .FormErr
  else if n = 2 then some .ServFail
  else if n = 3 then some .NxDomain
  else if n = 4 then some .NotImp
  else if n = 5 then some .Refused
  else none

/-- header.rs:165-174 `to_num`. -/
def toNum : RespCode → UInt8
  | .NoError => 0
  | .FormErr => 1
  | .ServFail => 2
  | .NxDomain => 3
  | .NotImp => 4
  | .Refused => 5

end RespCode

/-- header.rs:179-184 `enum OpCode`. -/
inductive OpCode
  | STD | INV | STS
  deriving DecidableEq, Repr

namespace OpCode

/-- header.rs:188-195 `from_num`. -/
def fromNum (n : UInt8) : Option OpCode :=
  if n = 0 then some .STD
  else if n = 1 then some .INV
  else if n = 2 then some .STS
  else none

/-- header.rs:198-204 `to_num`. -/
def toNum : OpCode → UInt8
  | .STD => 0
  | .INV => 1
  | .STS => 2

/-- header.rs:207-212 `is_supported`. -/
def isSupported : OpCode → Bool
  | .STD => true
  | _ => false

end OpCode

/-- errors.rs:32-47 `enum ParsingErr`; the text of `StringCharErr` is dropped. -/
inductive ParsingErr
  | unsupportedType (t : RecordType)
  | unexpectedType (t : RecordType)
  | unknownType (n : UInt16)
  | unsupportedClass (c : Class)
  | unknownClass (n : UInt16)
  | unknownOpCode (n : UInt8)
  | unsupportedOpCode (o : OpCode)
  | unknownRespCode (n : UInt8)
  | dataLenMismatch
  | bytesEnd
  | domainNameErr (e : NameErr)
  | stringCharErr
  deriving DecidableEq, Repr

/-- errors.rs:49-56 `From<NameErr> for ParsingErr`. -/
def ParsingErr.ofName : NameErr → ParsingErr
  | .bytesEnd => .bytesEnd
  | v => .domainNameErr v

/-- errors.rs:8-15 `enum MessageErr`. -/
inductive MessageErr
  | headerErr (e : ParsingErr)
  | questionErr (i : Nat) (e : ParsingErr)
  | answerErr (i : Nat) (e : ParsingErr)
  | authorityErr (i : Nat) (e : ParsingErr)
  | additionalErr (i : Nat) (e : ParsingErr)
  deriving DecidableEq, Repr

/-- errors.rs:17-27 `MessageErr::inner_err`. -/
def MessageErr.innerErr : MessageErr → ParsingErr
  | .headerErr e => e
  | .questionErr _ e => e
  | .answerErr _ e => e
  | .authorityErr _ e => e
  | .additionalErr _ e => e

/-- utils.rs:40-45 `check_end` applied to a buffer read. -/
def checkEndP {α : Type} (m : BufM ParsingErr (Option α)) : BufM ParsingErr α := do
  match ← m with
  | none => BufM.throw .bytesEnd
  | some v => pure v

/-- `Name::from_bytes(buffer)?` inside functions that return `ParsingErr`. -/
def nameP (p : Profile) : BufM ParsingErr Name := BufM.mapErr ParsingErr.ofName (Name.fromBytes p)

/-- utils.rs:7-17 `decode_character_string`. -/
def decodeCharacterString : BufM ParsingErr Str := do
  let lenByte ← checkEndP BitsBuf.readU8
  let strBs ← checkEndP (BitsBuf.readBytesVec lenByte.toNat)
  if strBs.length > 255 then BufM.throw .stringCharErr
  else match fromUtf8 strBs with
    | none => BufM.throw .stringCharErr
    | some s => pure s

/-- utils.rs:21-30 `encode_character_string`. -/
def encodeCharacterString (s : Str) : Out ParsingErr (List UInt8) :=
  let len := strLen s
  if len > 255 then .err .stringCharErr
  else .ok (UInt8.ofNat len :: strBytes s)

/-- utils.rs:32-38 `is_valid_character_string`. -/
def isValidCharacterString (s : Str) (quoted : Bool) : Bool :=
  if quoted then s.all fun ch => decide (ch.toNat < 128)
  else s.all fun ch => decide (ch.toNat < 128) && ch != ' '

end Ariadne
