import Verif.Model.Codes

/-!
# Header – models src/shared/dns/header.rs
-/

namespace Ariadne

/-- header.rs:10-25 `struct Header`. -/
structure Header where
  id : UInt16
  queryResp : Bool
  opCode : OpCode
  authAnswer : Bool
  truncated : Bool
  recursionDesired : Bool
  recursionAvailable : Bool
  z : UInt8
  respCode : RespCode
  questionsCount : UInt16
  answersCount : UInt16
  authoritiesCount : UInt16
  additionalsCount : UInt16
  deriving DecidableEq, Repr

namespace Header

/-- header.rs:26-44 `Default for Header`, given the random id. -/
def default (id : UInt16) : Header where
  id := id
  queryResp := false
  opCode := .STD
  authAnswer := false
  truncated := false
  recursionDesired := false
  recursionAvailable := false
  z := 0
  respCode := .NoError
  questionsCount := 0
  answersCount := 0
  authoritiesCount := 0
  additionalsCount := 0

/-- header.rs:108-118 `decode_op_code`. -/
def decodeOpCode (n : UInt8) (allowUnsupported : Bool) : Out ParsingErr OpCode :=
  match OpCode.fromNum n with
  | none => .err (.unknownOpCode n)
  | some c => if !c.isSupported && !allowUnsupported then .err (.unsupportedOpCode c) else .ok c

/-- header.rs:120-125 `decode_resp_code`. -/
def decodeRespCode (n : UInt8) : Out ParsingErr RespCode :=
  match RespCode.fromNum n with
  | none => .err (.unknownRespCode n)
  | some v => .ok v

/-- header.rs:49-78 `Header::decode_from_buf`. -/
def decode : BufM ParsingErr Header := do
  let id ← checkEndP BitsBuf.readU16
  let queryResp ← checkEndP (BitsBuf.readBits 1)
  let op ← checkEndP (BitsBuf.readBits 4)
  let opCode ← BufM.lift (decodeOpCode op true)
  let authAnswer ← checkEndP (BitsBuf.readBits 1)
  let truncated ← checkEndP (BitsBuf.readBits 1)
  let recursionDesired ← checkEndP (BitsBuf.readBits 1)
  let recursionAvailable ← checkEndP (BitsBuf.readBits 1)
  let z ← checkEndP (BitsBuf.readBits 3)
  let rc ← checkEndP (BitsBuf.readBits 4)
  let respCode ← BufM.lift (decodeRespCode rc)
  let questionsCount ← checkEndP BitsBuf.readU16
  let answersCount ← checkEndP BitsBuf.readU16
  let authoritiesCount ← checkEndP BitsBuf.readU16
  let additionalsCount ← checkEndP BitsBuf.readU16
  pure
    { id := id
      queryResp := queryResp == 1
      opCode := opCode
      authAnswer := authAnswer == 1
      truncated := truncated == 1
      recursionDesired := recursionDesired == 1
      recursionAvailable := recursionAvailable == 1
      z := z
      respCode := respCode
      questionsCount := questionsCount
      answersCount := answersCount
      authoritiesCount := authoritiesCount
      additionalsCount := additionalsCount }

/-- header.rs:82-85 `Header::decode_from_bytes`. -/
def decodeFromBytes (bytes : List UInt8) : Out ParsingErr Header := (decode (BitsBuf.fromRawBytes bytes)).1

/-- `b as u8`. -/
def bit (b : Bool) : UInt8 := if b then 1 else 0

/-- header.rs:90-105 `Header::encode_to_buf`. -/
def encode (h : Header) : BufM ParsingErr Unit := do
  BufM.assert h.opCode.isSupported
  BitsBuf.writeU16 h.id
  BitsBuf.writeBits (bit h.queryResp) 1
  BitsBuf.writeBits h.opCode.toNum 4
  BitsBuf.writeBits (bit h.authAnswer) 1
  BitsBuf.writeBits (bit h.truncated) 1
  BitsBuf.writeBits (bit h.recursionDesired) 1
  BitsBuf.writeBits (bit h.recursionAvailable) 1
  BitsBuf.writeBits h.z 3
  BitsBuf.writeBits h.respCode.toNum 4
  BitsBuf.writeU16 h.questionsCount
  BitsBuf.writeU16 h.answersCount
  BitsBuf.writeU16 h.authoritiesCount
  BitsBuf.writeU16 h.additionalsCount

/-- header.rs:129-132 `is_supported`. -/
def isSupported (h : Header) : Out ParsingErr Unit := do
  let _ ← decodeOpCode h.opCode.toNum false
  pure ()

/-- header.rs:135-137 `is_request`. -/
def isRequest (h : Header) : Bool := h.queryResp == false

end Header

end Ariadne
