import Verif.Spec.Resolver
import Verif.Spec.Told

/-! # Vocabulary for what in a request matters to the resolver -/

namespace Ariadne.Spec

open Resolver

/-- What comes from the client is a request with one question, which is for this name and type. -/
def Queries (p : Profile) (question : Name × RecordType) (job : Job) : Prop :=
  ∃ req q rest, Delivers p req job ∧ WellPosed req ∧ req.questions = q :: rest ∧ question = (q.node, q.recordType)

/-- Both ask for the same name and type, or neither asks for anything. -/
def AskTheSame (p : Profile) (job job' : Job) : Prop := ∀ question, Queries p question job ↔ Queries p question job'

/-- Same code, same records. -/
def SameContents (m m' : Message) : Prop :=
  m.header.respCode = m'.header.respCode ∧ m.answers = m'.answers ∧ m.authorities = m'.authorities ∧ m.additionals = m'.additionals

/-- The message is for whoever sent this request. -/
def RepliesTo (req m : Message) : Prop := Mirrors req.header m ∧ m.questions = req.questions

end Ariadne.Spec

namespace Ariadne.Spec

open Resolver

/-- The cache has records of this name and type that have not expired at this time. -/
def InCache (question : Name × RecordType) (t : Nat) (c : RecordsCache) : Prop :=
  ∃ exp records, c.find question = some (exp, records) ∧ t < exp ∧ records ≠ []

/-- No query was sent. -/
def AskedNobody (log : List Event) : Prop := ∀ addr query reply, Event.exchange addr query reply ∉ log

end Ariadne.Spec
