import Verif.Spec.WellRun
import Verif.Spec.Framing

/-! # Vocabulary for the clients of the resolver -/

namespace Ariadne.Spec

open Resolver

/-- What a record says: all but the TTL and the length of the data. -/
def content (r : Record) : Name × Class × RData := (r.node, r.cls, r.data)

/-- Every entry holds at most 45 records (what fits in 512 octets), which are plain. -/
def PlainCache (c : RecordsCache) : Prop := ∀ k e rs, c.find k = some (e, rs) → rs.length ≤ 45 ∧ ∀ r ∈ rs, Plain r

/-- All records that servers send are plain, as are those of the cache; the other threads keep it so. -/
structure OnlyPlain (env : Env) (p : Profile) (w : World) : Prop where
  net : ∀ hist addr query raw m, env.net hist addr query = some raw → Message.decodeFromBytes p (raw.take 512) = .ok m →
    ∀ r ∈ m.answers ++ m.authorities ++ m.additionals, Plain r
  cache : PlainCache w.cache
  others : ∀ i c, PlainCache c → PlainCache (env.others i c)

/-- The code and the answers of a reply tell what became of the question: the CNAME records on the way, in order, and then
the records if there are; if the name does not exist, just that. -/
def Informs (code : RespCode) (answers cnames : List Record) : Fate → Prop
  | .found l => code = .NoError ∧ ∃ cs rs, answers = cs ++ rs ∧ cs.map content = cnames.map content ∧ (rs.map content).Perm (l.map content)
  | .absent => code = .NxDomain ∧ answers = []
  | .alias _ => False

/-- The message is a request with one question, which is this one. -/
def Poses (req : Message) (node : Name) (kind : RecordType) : Prop :=
  WellPosed req ∧ req.questions = [⟨node, kind, .IN⟩]

/-- The message is a response to the request. -/
def RespondsTo (req m : Message) : Prop :=
  m.header.id = req.header.id ∧ m.header.queryResp = true ∧ m.header.opCode = req.header.opCode ∧ m.questions = req.questions

end Ariadne.Spec
