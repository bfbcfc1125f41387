import Verif.Spec.Loader
import Verif.Model.Nameserver

/-! # Specification vocabulary for the name server -/

namespace Ariadne.Spec

/-- The records of a zone with this owner and type, iterating over the zone in the order `o` (which does not matter for a
loaded zone, see `C35`). -/
def setAt (o : HashOrder) (z : Zone) (n : Name) (k : RecordType) : List Record :=
  (z.getAllOfType o k).filter fun r => r.node == n

/-- A standard query with the one question `q`; all names a decoder or parser yields are valid. -/
structure Asks (req : Message) (q : Question) : Prop where
  query : req.header.queryResp = false
  op : req.header.opCode = .STD
  one : req.questions = [q]
  count : req.header.questionsCount = 1
  noAnswers : req.header.answersCount = 0
  noAuthorities : req.header.authoritiesCount = 0
  valid : ValidName q.node.s

/-- The one reply to the request `req` is `m`. -/
def Replies (p : Profile) (zones : ManagedZone) (req m : Message) : Prop :=
  Nameserver.handle p zones (.fullMessage req) = .ok (some m)

/-- No records in any section. -/
def NoRecords (m : Message) : Prop := m.answers = [] ∧ m.authorities = [] ∧ m.additionals = []

open Classical in
/-- The A records of the targets of these NS records, from all the sub zones that contain them. -/
noncomputable def glueFor (o : HashOrder) (subZones : List Zone) (ns : List Record) : List Record :=
  ns.flatMap fun r =>
    match r.data with
    | .NS n => subZones.flatMap fun z => if Within n z.zone then setAt o z n .A else []
    | _ => []

/-- A cause for "not implemented" (RFC 1035 4.1.1): a kind of query, a class or a type that is known and not supported. -/
inductive Unimplemented : ParsingErr → Prop
  | opCode (c : OpCode) : Unimplemented (.unsupportedOpCode c)
  | cls (c : Class) : Unimplemented (.unsupportedClass c)
  | type (t : RecordType) : Unimplemented (.unsupportedType t)

/-- Decoding failed for this cause, in whatever part of the message. -/
inductive FailedFor (cause : ParsingErr) : MessageErr → Prop
  | header : FailedFor cause (.headerErr cause)
  | question (i : Nat) : FailedFor cause (.questionErr i cause)
  | answer (i : Nat) : FailedFor cause (.answerErr i cause)
  | authority (i : Nat) : FailedFor cause (.authorityErr i cause)
  | additional (i : Nat) : FailedFor cause (.additionalErr i cause)

end Ariadne.Spec
