import Verif.Spec.Names
import Verif.Model.Message

/-!
# Specification of the wire format of messages (RFC 1035 4.1, 3.3)

Uses the data types of the model (`Header`, `Question`, `Record`) as vocabulary, none of its functions except the code
numbers `toNum` (checked separately by C15).
-/

namespace Ariadne.Spec

/-- Fields of given widths and values follow each other from bit `r` on. -/
def Laid (bytes : List UInt8) : Nat → List (Nat × Nat) → Prop
  | _, [] => True
  | r, (n, v) :: rest => FieldAt bytes r n v ∧ Laid bytes (r + n) rest

/-- A flag as a bit. -/
def flag (b : Bool) : Nat := if b then 1 else 0

/-- RFC 1035 4.1.1: widths and values of the header fields, in order. -/
def headerFields (h : Header) : List (Nat × Nat) :=
  [(16, h.id.toNat), (1, flag h.queryResp), (4, h.opCode.toNum.toNat), (1, flag h.authAnswer), (1, flag h.truncated),
   (1, flag h.recursionDesired), (1, flag h.recursionAvailable), (3, h.z.toNat), (4, h.respCode.toNum.toNat),
   (16, h.questionsCount.toNat), (16, h.answersCount.toNat), (16, h.authoritiesCount.toNat),
   (16, h.additionalsCount.toNat)]

/-- `bytes` are the 12 header octets of `h`. -/
def IsHeader (bytes : List UInt8) (h : Header) : Prop := bytes.length = 12 ∧ Laid bytes 0 (headerFields h)

/-- Two octets, network order. -/
def be16 (n : Nat) : List UInt8 := [UInt8.ofNat (n / 256), UInt8.ofNat n]

/-- Four octets, network order. -/
def be32 (n : Nat) : List UInt8 := be16 (n / 65536) ++ be16 n

/-- `x` is the uncompressed wire form of the name (RFC 1035 3.1). -/
def NameWire (n : Name) (x : List UInt8) : Prop :=
  ∃ labels, NameOf n.s labels ∧ (∀ l ∈ labels, l.length ≤ 63) ∧ x = rfcEncode labels

/-- A name within the limits of RFC 1035 3.1, other than the root (which this library encodes wrongly, see C11). -/
def Encodable (n : Name) : Prop :=
  n.s.length ≤ 255 ∧ ∃ labels, NameOf n.s labels ∧ labels ≠ [] ∧ ∀ l ∈ labels, l.length ≤ 63

/-- RFC 1035 3.3 `<character-string>`: one length octet and the octets. -/
def charString (s : Str) : List UInt8 := UInt8.ofNat (strBytes s).length :: strBytes s

/-- RFC 1035 3.3, 3.4: `x` is the RDATA of `d`. -/
def RDataWire : RData → List UInt8 → Prop
  | .A ip, x => x = [ip.a, ip.b, ip.c, ip.d]
  | .NS n, x => NameWire n x
  | .CNAME n, x => NameWire n x
  | .PTR n, x => NameWire n x
  | .SOA mname rname serial refresh retry expire minimum, x =>
      ∃ y z, NameWire mname y ∧ NameWire rname z ∧
        x = y ++ (z ++ (be32 serial.toNat ++ (be32 refresh.toNat ++ (be32 retry.toNat ++ (be32 expire.toNat ++
          be32 minimum.toNat)))))
  | .WKS ip proto ports, x =>
      ∃ bitmap, x = [ip.a, ip.b, ip.c, ip.d, proto] ++ bitmap ∧
        ∀ port : UInt32, port ∈ ports ↔ port.toNat < 8 * bitmap.length ∧ bitAt bitmap port.toNat = true
  | .HINFO cpu os, x => x = charString cpu ++ charString os
  | .MX pref n, x => ∃ y, NameWire n y ∧ x = be16 pref.toNat ++ y
  | .TXT txts, x => x = txts.flatMap charString

/-- RFC 1035 4.1.3: `x` is the wire form of the record, `rdata` its RDATA. -/
def RecordWire (r : Record) (rdata x : List UInt8) : Prop :=
  ∃ owner, NameWire r.node owner ∧ RDataWire r.data rdata ∧ rdata.length < 65536 ∧
    x = owner ++ (be16 r.recordType.toNum.toNat ++ (be16 r.cls.toNum.toNat ++ (be32 r.ttl.toNat ++
      (be16 rdata.length ++ rdata))))

/-- RFC 1035 4.1.2: `x` is the wire form of the question. -/
def QuestionWire (q : Question) (x : List UInt8) : Prop :=
  ∃ owner, NameWire q.node owner ∧ x = owner ++ (be16 q.recordType.toNum.toNat ++ be16 q.cls.toNum.toNat)

/-- Record data this library encodes and decodes faithfully: no TXT (C19), no WKS with ports (C20), encodable names,
strings of at most 255 octets. -/
def PlainData : RData → Prop
  | .A _ => True
  | .NS n => Encodable n
  | .CNAME n => Encodable n
  | .PTR n => Encodable n
  | .SOA a b _ _ _ _ _ => Encodable a ∧ Encodable b
  | .WKS _ _ ports => ports = []
  | .HINFO cpu os => (strBytes cpu).length ≤ 255 ∧ (strBytes os).length ≤ 255
  | .MX _ n => Encodable n
  | .TXT _ => False

/-- A plain record of class IN. -/
def Plain (r : Record) : Prop := Encodable r.node ∧ r.cls = .IN ∧ PlainData r.data

/-- A question the library supports. -/
def PlainQuestion (q : Question) : Prop :=
  Encodable q.node ∧ q.recordType.isSupportedForQuestion = true ∧ q.cls = .IN

/-- `t` is the number of no record type the library knows. -/
def UnknownTypeNum (t : UInt16) : Prop := ∀ rt : RecordType, rt.toNum ≠ t

/-- A well-formed question of a type the library does not know, any class. -/
def UnknownQuestion (x : List UInt8) : Prop :=
  ∃ (n : Name) (owner : List UInt8) (t c : UInt16), n.s.length ≤ 255 ∧ NameWire n owner ∧ UnknownTypeNum t ∧
    x = owner ++ (be16 t.toNat ++ be16 c.toNat)

/-- A well-formed record of a type the library does not know, any class, TTL and data (e.g. AAAA, EDNS OPT). -/
def UnknownRecord (x : List UInt8) : Prop :=
  ∃ (n : Name) (owner rdata : List UInt8) (t c : UInt16) (ttl : UInt32), n.s.length ≤ 255 ∧ NameWire n owner ∧
    UnknownTypeNum t ∧ rdata.length < 65536 ∧
    x = owner ++ (be16 t.toNat ++ (be16 c.toNat ++ (be32 ttl.toNat ++ (be16 rdata.length ++ rdata))))

/-- Contents of a section: `n` items, of which the known ones are `as` in this order, the others of unknown types. -/
inductive SectionWire {α : Type} (known : α → List UInt8 → Prop) (unknown : List UInt8 → Prop) :
    List α → Nat → List UInt8 → Prop
  | nil : SectionWire known unknown [] 0 []
  | known {a : α} {as : List α} {n : Nat} {x y : List UInt8} :
      known a x → SectionWire known unknown as n y → SectionWire known unknown (a :: as) (n + 1) (x ++ y)
  | unknown {as : List α} {n : Nat} {x y : List UInt8} :
      unknown x → SectionWire known unknown as n y → SectionWire known unknown as (n + 1) (x ++ y)

/-- A supported question and its wire form. -/
def KnownQuestion (q : Question) (x : List UInt8) : Prop := PlainQuestion q ∧ QuestionWire q x

/-- A plain record and its wire form; its `data_len` is the RDLENGTH. -/
def KnownRecord (r : Record) (x : List UInt8) : Prop :=
  Plain r ∧ ∃ rdata, RecordWire r rdata x ∧ r.dataLen.toNat = rdata.length

/-- RFC 1035 4.1: header, then the four sections. -/
def MessageWire (m : Message) (x : List UInt8) : Prop :=
  ∃ hb q an au ad, IsHeader hb m.header ∧ m.header.opCode = .STD ∧
    SectionWire KnownQuestion UnknownQuestion m.questions m.header.questionsCount.toNat q ∧
    SectionWire KnownRecord UnknownRecord m.answers m.header.answersCount.toNat an ∧
    SectionWire KnownRecord UnknownRecord m.authorities m.header.authoritiesCount.toNat au ∧
    SectionWire KnownRecord UnknownRecord m.additionals m.header.additionalsCount.toNat ad ∧
    x = hb ++ (q ++ (an ++ (au ++ ad)))

/-- The names occurring in record data. -/
def dataNames : RData → List Name
  | .NS n | .CNAME n | .PTR n | .MX _ n => [n]
  | .SOA a b .. => [a, b]
  | _ => []

/-- RDLENGTH of plain data: a name takes one octet more than its presentation form has characters. -/
def rdLength : RData → Nat
  | .A _ => 4
  | .NS n => n.s.length + 1
  | .CNAME n => n.s.length + 1
  | .PTR n => n.s.length + 1
  | .SOA a b _ _ _ _ _ => (a.s.length + 1) + (b.s.length + 1) + 20
  | .WKS _ _ _ => 5
  | .HINFO cpu os => ((strBytes cpu).length + 1) + ((strBytes os).length + 1)
  | .MX _ n => 2 + (n.s.length + 1)
  | .TXT txts => (txts.map fun t => (strBytes t).length + 1).sum

/-- A message all of whose items are plain and whose header fits its sections. -/
def PlainMessage (m : Message) : Prop :=
  m.header.opCode = .STD ∧ m.header.z.toNat < 8 ∧
  m.header.questionsCount.toNat = m.questions.length ∧ m.header.answersCount.toNat = m.answers.length ∧
  m.header.authoritiesCount.toNat = m.authorities.length ∧ m.header.additionalsCount.toNat = m.additionals.length ∧
  (∀ q ∈ m.questions, PlainQuestion q) ∧
  (∀ r ∈ m.answers ++ m.authorities ++ m.additionals, Plain r ∧ r.dataLen.toNat = rdLength r.data)

/-- The section counts in the header are the sizes of the sections. -/
def CountsMatch (m : Message) : Prop :=
  m.header.questionsCount.toNat = m.questions.length ∧ m.header.answersCount.toNat = m.answers.length ∧
  m.header.authoritiesCount.toNat = m.authorities.length ∧ m.header.additionalsCount.toNat = m.additionals.length

/-- Number of items of a message. -/
def total (m : Message) : Nat :=
  m.questions.length + m.answers.length + m.authorities.length + m.additionals.length

/-- The message of the first `k` items of `m` (questions, answers, authorities, additionals in this order), with
matching counts; TC is set if something is missing, otherwise as in `m`. -/
def cut (m : Message) (k : Nat) : Message :=
  let q := m.questions.take k
  let an := m.answers.take (k - m.questions.length)
  let au := m.authorities.take (k - m.questions.length - m.answers.length)
  let ad := m.additionals.take (k - m.questions.length - m.answers.length - m.authorities.length)
  { header := { m.header with
      truncated := if k < total m then true else m.header.truncated
      questionsCount := UInt16.ofNat q.length
      answersCount := UInt16.ofNat an.length
      authoritiesCount := UInt16.ofNat au.length
      additionalsCount := UInt16.ofNat ad.length }
    questions := q
    answers := an
    authorities := au
    additionals := ad }

/-- The longest string a record holds (HINFO, TXT) has at most `n` octets. -/
def StringsAtMost (n : Nat) (r : Record) : Prop :=
  match r.data with
  | .HINFO cpu os => (strBytes cpu).length ≤ n ∧ (strBytes os).length ≤ n
  | .TXT txts => ∀ s ∈ txts, (strBytes s).length ≤ n
  | _ => True

/-- The record is one that can be sent: valid names, class IN, no string of more than 255 octets. -/
def WellFormed (r : Record) : Prop :=
  ValidName r.node.s ∧ (∀ n ∈ dataNames r.data, ValidName n.s) ∧ r.cls = .IN ∧ StringsAtMost 255 r

end Ariadne.Spec
