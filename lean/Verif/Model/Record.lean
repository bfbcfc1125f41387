import Verif.Model.Header

/-!
# Questions and records – models src/shared/dns/questions.rs, records.rs
-/

namespace Ariadne

/-- questions.rs:11-16 `struct Question`. -/
structure Question where
  node : Name
  recordType : RecordType
  cls : Class
  deriving DecidableEq, Repr

namespace Question

/-- questions.rs:53-62 `decode_record_type`. -/
def decodeRecordType : BufM ParsingErr RecordType := do
  let n ← checkEndP BitsBuf.readU16
  match RecordType.fromNum n with
  | some v => if !v.isSupportedForQuestion then BufM.throw (.unsupportedType v) else pure v
  | none => do
    let _ ← checkEndP BitsBuf.readU16
    BufM.throw (.unknownType n)

/-- questions.rs:64-70 `decode_class`. -/
def decodeClass (n : UInt16) : Out ParsingErr Class :=
  match Class.fromNum n with
  | none => .err (.unknownClass n)
  | some c => if !c.isSupported then .err (.unsupportedClass c) else .ok c

/-- questions.rs:23-28 `Question::decode_from_buf`. -/
def decode (p : Profile) : BufM ParsingErr Question := do
  let node ← nameP p
  let recordType ← decodeRecordType
  let cls ← checkEndP BitsBuf.readU16
  let cls ← BufM.lift (decodeClass cls)
  pure { node := node, recordType := recordType, cls := cls }

/-- questions.rs:41-50 `Question::encode_to_buf`. -/
def encode (q : Question) : BufM ParsingErr Unit := do
  BufM.assert q.recordType.isSupportedForQuestion
  BufM.assert q.cls.isSupported
  BitsBuf.writeBytes q.node.toBytes
  BitsBuf.writeU16 q.recordType.toNum
  BitsBuf.writeU16 q.cls.toNum

end Question

/-- `[u8; 4]`. -/
structure Ip4 where
  a : UInt8
  b : UInt8
  c : UInt8
  d : UInt8
  deriving DecidableEq, Repr

/-- The bytes of the array. -/
def Ip4.bytes (x : Ip4) : List UInt8 := [x.a, x.b, x.c, x.d]

/-- The type-specific fields of the variants of records.rs:13-87 `enum Record`. -/
inductive RData
  | A (address : Ip4)
  | NS (name : Name)
  | CNAME (name : Name)
  | SOA (nsName mlName : Name) (serial refresh retry expire minimum : UInt32)
  | WKS (address : Ip4) (protocol : UInt8) (ports : List UInt32)
  | PTR (name : Name)
  | HINFO (cpu os : Str)
  | MX (priority : UInt16) (name : Name)
  | TXT (txts : List Str)
  deriving DecidableEq, Repr

/-- records.rs:275-287 `record_type`. -/
def RData.recordType : RData → RecordType
  | .A .. => .A
  | .NS .. => .NS
  | .CNAME .. => .CNAME
  | .SOA .. => .SOA
  | .WKS .. => .WKS
  | .PTR .. => .PTR
  | .HINFO .. => .HINFO
  | .MX .. => .MX
  | .TXT .. => .TXT

/-- records.rs:13-87 `enum Record`. Every variant has the fields node, class, ttl, data_len; they are factored out
here, which makes the getters records.rs:229-272 field projections. -/
structure Record where
  node : Name
  cls : Class
  ttl : UInt32
  dataLen : UInt16
  data : RData
  deriving DecidableEq, Repr

namespace Record

/-- records.rs:275-287 `record_type`. -/
def recordType (r : Record) : RecordType := r.data.recordType

/-- records.rs:272 `set_ttl`. -/
def setTtl (r : Record) (v : UInt32) : Record := { r with ttl := v }

/-- records.rs:203-215 `decode_record_type`. -/
def decodeRecordType : BufM ParsingErr RecordType := do
  let n ← checkEndP BitsBuf.readU16
  match RecordType.fromNum n with
  | some v => if !v.isSupportedForRecords then BufM.throw (.unsupportedType v) else pure v
  | none => do
    let _ ← checkEndP BitsBuf.readU16
    let _ ← checkEndP BitsBuf.readU32
    let dataLen ← checkEndP BitsBuf.readU16
    let _ ← checkEndP (BitsBuf.readBytesVec dataLen.toNat)
    BufM.throw (.unknownType n)

/-- records.rs:217-223 `decode_class`. -/
def decodeClass (n : UInt16) : Out ParsingErr Class :=
  match Class.fromNum n with
  | some v => if !v.isSupported then .err (.unsupportedClass v) else .ok v
  | none => .err (.unknownClass n)

/-- buffer.rs:177-187 `read_bytes::<4>`. -/
def readIp4 : BufM ParsingErr (Option Ip4) := do
  match ← BitsBuf.readBytesVec 4 with
  | none => pure none
  | some [a, b, c, d] => pure (some ⟨a, b, c, d⟩)
  | some _ => BufM.panic .index

/-- records.rs:323-329 `decode_a_data`. -/
def decodeA (dataLen : UInt16) : BufM ParsingErr Ip4 :=
  if dataLen ≠ 4 then BufM.throw .dataLenMismatch else checkEndP readIp4

/-- The length check `after - before != (data_len * 8) as usize` (e.g. records.rs:341). `data_len * 8` is a `u16`
multiplication. `after ≥ before` because names end after their start. -/
def checkLen {α : Type} (p : Profile) (dataLen : UInt16) (before after : Nat) (v : α) : BufM ParsingErr α := do
  let want ← BufM.lift (mulU16 p dataLen 8)
  if after - before ≠ want.toNat then BufM.throw .dataLenMismatch else pure v

/-- records.rs:337-346 `decode_ns_data`; 356-365 `decode_cname_data` and 449-458 `decode_ptr_data` are the same code. -/
def decodeNameData (p : Profile) (dataLen : UInt16) : BufM ParsingErr Name := do
  let before ← BitsBuf.readPos
  let name ← nameP p
  let after ← BitsBuf.readPos
  checkLen p dataLen before after name

/-- records.rs:377-392 `decode_soa_data`. -/
def decodeSoa (p : Profile) (dataLen : UInt16) : BufM ParsingErr RData := do
  let before ← BitsBuf.readPos
  let mname ← nameP p
  let rname ← nameP p
  let serial ← checkEndP BitsBuf.readU32
  let refresh ← checkEndP BitsBuf.readU32
  let retry ← checkEndP BitsBuf.readU32
  let expire ← checkEndP BitsBuf.readU32
  let minimum ← checkEndP BitsBuf.readU32
  let after ← BitsBuf.readPos
  checkLen p dataLen before after (.SOA mname rname serial refresh retry expire minimum)

/-- records.rs:433-446 `parse_wks_ports`. For a zero byte nothing is added. For any other byte the loop `for j in 1..`
has no exit: with overflow checks `byte << j` panics at `j = 8`, without them the shift amount wraps and the loop runs
forever. -/
def parseWksPorts (p : Profile) : List UInt8 → Out ParsingErr (List UInt32)
  | [] => .ok []
  | byte :: rest =>
    if byte = 0 then parseWksPorts p rest
    else match p with
      | .debug => .panic .overflow
      | .release => .diverge

/-- records.rs:411-422 `decode_wks_data`. `data_len - 5` cannot underflow because of the condition. -/
def decodeWks (p : Profile) (dataLen : UInt16) : BufM ParsingErr RData := do
  let address ← checkEndP readIp4
  let protocol ← checkEndP BitsBuf.readU8
  if dataLen > 5 then do
    match ← BitsBuf.readBytesVec (dataLen - 5).toNat with
    | none => BufM.panic .unwrap
    | some portsBytes => do
      let ports ← BufM.lift (parseWksPorts p portsBytes)
      pure (.WKS address protocol ports)
  else pure (.WKS address protocol [])

/-- records.rs:468-478 `decode_hinfo_data`. -/
def decodeHinfo (p : Profile) (dataLen : UInt16) : BufM ParsingErr RData := do
  let before ← BitsBuf.readPos
  let cpu ← decodeCharacterString
  let os ← decodeCharacterString
  let after ← BitsBuf.readPos
  checkLen p dataLen before after (.HINFO cpu os)

/-- records.rs:490-500 `decode_mx_data`. -/
def decodeMx (p : Profile) (dataLen : UInt16) : BufM ParsingErr RData := do
  let before ← BitsBuf.readPos
  let preference ← checkEndP BitsBuf.readU16
  let exchange ← nameP p
  let after ← BitsBuf.readPos
  checkLen p dataLen before after (.MX preference exchange)

/-- The loop records.rs:514-526, with fuel: `strings` so far, `read` so far. `pos - 1` cannot underflow: the position is
behind the fixed fields of the record. Note that positions are in bits, so `set_read_pos(pos - 1)` goes back one bit. -/
def decodeTxtLoop (p : Profile) (dataLen : UInt16) : Nat → List Str → UInt16 → BufM ParsingErr (List Str)
  | 0, _, _ => BufM.diverge
  | fuel + 1, strings, read => do
    let pos ← BitsBuf.readPos
    let len ← checkEndP BitsBuf.readU8
    BitsBuf.setReadPos (pos - 1)
    let s1 ← BufM.lift (addU16 p read len.toUInt16)
    let s2 ← BufM.lift (addU16 p s1 1)
    if s2 > dataLen then BufM.throw .dataLenMismatch
    else do
      let str ← decodeCharacterString
      let strings := strings ++ [str]
      let l1 ← BufM.lift (addU16 p len.toUInt16 1)
      let read ← BufM.lift (addU16 p read l1)
      if read = dataLen then pure strings else decodeTxtLoop p dataLen fuel strings read

/-- records.rs:511-528 `decode_txt_data`. The fuel is never used up: each round moves the cursor forward by at least 7
bits (see C22). -/
def decodeTxt (p : Profile) (dataLen : UInt16) : BufM ParsingErr RData := fun b =>
  (do
    let txts ← decodeTxtLoop p dataLen (b.last + 1) [] 0
    pure (.TXT txts) : BufM ParsingErr RData) b

/-- records.rs:102-153: the `match rec_type` of `decode_from_buf`. -/
def decodeData (p : Profile) (t : RecordType) (dataLen : UInt16) : BufM ParsingErr RData :=
  match t with
  | .A => do let x ← decodeA dataLen; pure (.A x)
  | .NS => do let x ← decodeNameData p dataLen; pure (.NS x)
  | .CNAME => do let x ← decodeNameData p dataLen; pure (.CNAME x)
  | .SOA => decodeSoa p dataLen
  | .WKS => decodeWks p dataLen
  | .PTR => do let x ← decodeNameData p dataLen; pure (.PTR x)
  | .HINFO => decodeHinfo p dataLen
  | .MX => decodeMx p dataLen
  | .TXT => decodeTxt p dataLen
  | _ => BufM.panic .explicit

/-- records.rs:95-154 `Record::decode_from_buf`. -/
def decode (p : Profile) : BufM ParsingErr Record := do
  let node ← nameP p
  let recType ← decodeRecordType
  let cls ← checkEndP BitsBuf.readU16
  let cls ← BufM.lift (decodeClass cls)
  let ttl ← checkEndP BitsBuf.readU32
  let dataLen ← checkEndP BitsBuf.readU16
  let data ← decodeData p recType dataLen
  pure { node := node, cls := cls, ttl := ttl, dataLen := dataLen, data := data }

/-- records.rs:428-430: the loop over the ports. -/
def writePorts : List UInt32 → BufM ParsingErr Unit
  | [] => pure ()
  | p :: ps => do
    BitsBuf.writeU32 p
    writePorts ps

/-- records.rs:533-537: encode the strings in order, stop at the first error. -/
def encodeStrings : List Str → Out ParsingErr (List (List UInt8))
  | [] => .ok []
  | s :: ss => do
    let bytes ← encodeCharacterString s
    let rest ← encodeStrings ss
    pure (bytes :: rest)

/-- records.rs:539-541. -/
def writeAllBytes : List (List UInt8) → BufM ParsingErr Unit
  | [] => pure ()
  | b :: bs => do
    BitsBuf.writeBytes b
    writeAllBytes bs

/-- records.rs:182-197 with 331-334, 348-353, 367-372, 394-406, 424-431, 460-465, 480-487, 502-508, 530-543: the
`encode_*_data` functions. `len as u16` truncates. In `encode_mx_data` the sum `2 + len as u16` is at most 2 + 256
(a valid name), so its overflow check cannot fire. -/
def encodeData : RData → BufM ParsingErr Unit
  | .A ip => do
    BitsBuf.writeU16 4
    BitsBuf.writeBytes ip.bytes
  | .NS name | .CNAME name | .PTR name => do
    let dn := name.toBytes
    BitsBuf.writeU16 (UInt16.ofNat dn.length)
    BitsBuf.writeBytes dn
  | .SOA ns ml serial refresh retry expire minimum => do
    let a := ns.toBytes
    let m := ml.toBytes
    BitsBuf.writeU16 (UInt16.ofNat (a.length + m.length + 20))
    BitsBuf.writeBytes a
    BitsBuf.writeBytes m
    BitsBuf.writeU32 serial
    BitsBuf.writeU32 refresh
    BitsBuf.writeU32 retry
    BitsBuf.writeU32 expire
    BitsBuf.writeU32 minimum
  | .WKS address protocol ports => do
    BitsBuf.writeU16 (UInt16.ofNat (5 + ports.length))
    BitsBuf.writeBytes address.bytes
    BitsBuf.writeU8 protocol
    writePorts ports
  | .HINFO cpu os => do
    let cpu ← BufM.lift (encodeCharacterString cpu)
    let os ← BufM.lift (encodeCharacterString os)
    BitsBuf.writeU16 (UInt16.ofNat (cpu.length + os.length))
    BitsBuf.writeBytes cpu
    BitsBuf.writeBytes os
  | .MX priority name => do
    let dn := name.toBytes
    BitsBuf.writeU16 (2 + UInt16.ofNat dn.length)
    BitsBuf.writeU16 priority
    BitsBuf.writeBytes dn
  | .TXT txts => do
    let bufs ← BufM.lift (encodeStrings txts)
    BitsBuf.writeU16 (UInt16.ofNat bufs.flatten.length)
    writeAllBytes bufs

/-- records.rs:168-200 `Record::encode_to_buf`. -/
def encode (r : Record) : BufM ParsingErr Unit := do
  BufM.assert r.recordType.isSupportedForRecords
  BufM.assert (r.cls == .IN)
  BitsBuf.writeBytes r.node.toBytes
  BitsBuf.writeU16 r.recordType.toNum
  BitsBuf.writeU16 r.cls.toNum
  BitsBuf.writeU32 r.ttl
  encodeData r.data

/-- records.rs:291-296 `a_data`. -/
def aData {ε : Type} (r : Record) : Out ε Ip4 :=
  match r.data with
  | .A address => .ok address
  | _ => .panic .explicit

/-- records.rs:300-305 `ns_data`. -/
def nsData {ε : Type} (r : Record) : Out ε Name :=
  match r.data with
  | .NS name => .ok name
  | _ => .panic .explicit

/-- records.rs:309-314 `cname_data`. -/
def cnameData {ε : Type} (r : Record) : Out ε Name :=
  match r.data with
  | .CNAME name => .ok name
  | _ => .panic .explicit

end Record

end Ariadne
