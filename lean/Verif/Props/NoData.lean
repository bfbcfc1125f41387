import Verif.Spec.NoData
import Verif.Props.Truth
import Verif.Props.WellRun
import Verif.Props.ResolverServer

/-! # C119: names without records of the type asked for -/

namespace Ariadne.Props

open Spec Resolver

/-- The full statement of C119: in a world of honest servers, all of which say that the name has no records of the type (which is the truth), a client that
asks for them is told that there is no error and that there are no such records. -/
def C119_statement : Prop :=
  ∀ (U : Facts) (env : Env) (p : Profile) (conf : Params) (fuel : Nat) (req : Message) (node : Name) (kind : RecordType) (w w' : World) (m : Message),
    HonestWorld U env p → FactualCache U w.cache → (∀ i c, FactualCache U c → FactualCache U (env.others i c)) → Spec.Ready env conf node kind w →
    Poses req node kind → LacksType U node kind → (∀ addr, Answers env p node kind SaysNoData addr) →
    handle env p conf fuel (.fullMessage req) w = (.ok (some m), w') → m.header.respCode = .NoError ∧ m.answers = []

/-- C119, what holds: a client that asks for records of a type that the name does not have is not told of any records, nor that the name does not exist: the
reply is SERVFAIL. Missing: the reply that is due (`C119_violated`), and the type NS. -/
theorem C119_servfail_partial (U : Facts) (env : Env) (p : Profile) (conf : Params) (fuel : Nat) (req : Message) (node : Name) (kind : RecordType)
    (w w' : World) (m : Message) (hon : HonestWorld U env p) (hc : FactualCache U w.cache)
    (hoth : ∀ i c, FactualCache U c → FactualCache U (env.others i c)) (hq : Poses req node kind) (hn : LacksType U node kind) (hk : kind ≠ .NS)
    (h : handle env p conf fuel (.fullMessage req) w = (.ok (some m), w')) : m.header.respCode = .ServFail ∧ NoRecords m := by
  obtain ⟨-, -, -, -, -, -, -, h8⟩ := C67_reply_partial env p conf fuel req m w w' h
  obtain ⟨q, qs, e1, -, h9⟩ := h8 hq.1
  obtain ⟨rfl, rfl⟩ := List.cons.inj (hq.2.symm.trans e1)
  have hno : ∀ r, (lookup env p conf fuel node kind w).1 ≠ .ok r := fun r hr => by
    obtain ⟨hf, chain, final, recs, e2, e3, e4, e5, e6⟩ := (C82_facts_partial U env p conf fuel node kind w hon hc hoth).2 r hr
    obtain ⟨n1, t, n2⟩ := hn chain final (fun c hc => hf c (by simp [e2, hc])) e3
    cases hr' : r.noRecords with
    | true => exact n2 ((e5 hr').2 t)
    | false =>
      obtain ⟨x, xs, rfl⟩ := List.exists_cons_of_ne_nil (e6 hr')
      obtain ⟨i1, i2⟩ := e4 hk x (by simp)
      have hx : Factual U x := hf x (by simp [e2])
      unfold Factual at hx
      rw [i1, i2, n1] at hx
      exact nomatch hx
  rcases h9 with ⟨r, hr, -⟩ | ⟨r, hr, -⟩ | h9
  · exact (hno r hr).elim
  · exact (hno r hr).elim
  · obtain ⟨e, -, a, b⟩ := h9
    exact ⟨a, b⟩

/-- The facts of the example: a.com. has an address, and that is all there is. -/
def addressOnly : Facts := fun n k => if n = ⟨"a.com.".toList⟩ ∧ k = .A then [.A ⟨1, 2, 3, 4⟩] else []

/-- The servers of the example say NODATA to every query. -/
def noData : Message := orderMessage true .NoError [] [] []

def noDataEnv : Env := ⟨fun n => n, fun _ _ h => h, fun _ c => c, fun _ => 7, fun _ _ q =>
  match (withId noData (queryId q)).encodeToBytes with
  | .ok b => some b
  | _ => none⟩

/-- The question for texts of a.com. -/
def textsQuery : Message :=
  ⟨⟨5, false, .STD, false, false, true, false, 0, .NoError, 1, 0, 0, 0⟩, [⟨⟨"a.com.".toList⟩, .TXT, .IN⟩], [], [], []⟩

theorem noData_plain : PlainMessage noData := ⟨rfl, by decide, rfl, rfl, rfl, rfl, by simp [noData, orderMessage], by simp [noData, orderMessage]⟩

theorem noData_sent (p : Profile) (q : List UInt8) : ∃ b, noDataEnv.net [] ⟨0, 0, 0, 0⟩ q = some b ∧
    Message.decodeFromBytes p (b.take 512) = .ok (withId noData (queryId q)) :=
  send_of noData_plain (by decide +kernel) p rfl

theorem noData_honest (p : Profile) : HonestWorld addressOnly noDataEnv p := by
  intro hist addr query reply id node kind m hn hq hd hid
  obtain ⟨b, e1, e2⟩ := noData_sent p query
  obtain rfl := Option.some.inj (e1.symm.trans hn)
  obtain rfl := Out.ok.inj (e2.symm.trans hd)
  exact ⟨by simp [withId, noData, orderMessage], by simp [withId, noData, orderMessage], by simp [withId, noData, orderMessage]⟩

theorem noData_said (p : Profile) (addr : Ip4) : Answers noDataEnv p ⟨"a.com.".toList⟩ .TXT SaysNoData addr := by
  intro hist id q hq
  obtain ⟨b, e1, e2⟩ := noData_sent p q
  exact ⟨b, _, e1, e2, queryId_of hq rfl acom_encodable, rfl, rfl, rfl, rfl, by simp [withId, noData, orderMessage]⟩

theorem noData_lacks : LacksType addressOnly ⟨"a.com.".toList⟩ .TXT := by
  intro chain final hc ha
  cases ha with
  | nil => exact ⟨by decide +kernel, .A, by decide +kernel⟩
  | @cons n t m c cs h1 h2 h3 =>
    have := hc c (by simp)
    unfold Factual addressOnly Record.recordType at this
    rw [h2] at this
    simp [RData.recordType] at this

theorem no_facts {U : Facts} : FactualCache U (World.cache ⟨.empty, 0, []⟩) := fun _ _ _ h => nomatch h

theorem noData_ready : Spec.Ready noDataEnv ⟨2, 3, 2, false⟩ ⟨"a.com.".toList⟩ .TXT ⟨.empty, 0, []⟩ where
  friendly := ⟨fun _ _ h => h, fun _ _ h => h⟩
  cache := fun _ _ _ h => nomatch h
  log := rfl
  node := validName_of (by decide +kernel)
  kind := rfl
  nsq := by decide
  retries := by decide

theorem noData_reply : ∃ m w', handle noDataEnv .release ⟨2, 3, 2, false⟩ 3 (.fullMessage textsQuery) ⟨.empty, 0, []⟩ = (.ok (some m), w') := by
  have h : (match (handle noDataEnv .release ⟨2, 3, 2, false⟩ 3 (.fullMessage textsQuery) ⟨.empty, 0, []⟩).1 with
    | .ok (some _) => true
    | _ => false) = true := by decide +kernel
  generalize handle noDataEnv .release ⟨2, 3, 2, false⟩ 3 (.fullMessage textsQuery) ⟨.empty, 0, []⟩ = x at h
  obtain ⟨o, w'⟩ := x
  dsimp only at h
  split at h
  · exact ⟨_, w', rfl⟩
  · cases h

/-- `C119_servfail_partial` applies to the question for texts of a.com., and there is a reply. -/
example : ∃ m w', handle noDataEnv .release ⟨2, 3, 2, false⟩ 3 (.fullMessage textsQuery) ⟨.empty, 0, []⟩ = (.ok (some m), w') ∧
    m.header.respCode = .ServFail ∧ NoRecords m := by
  obtain ⟨m, w', h⟩ := noData_reply
  exact ⟨m, w', h, C119_servfail_partial addressOnly _ _ _ _ _ ⟨"a.com.".toList⟩ .TXT _ _ _ (noData_honest _) no_facts (fun _ _ h => h)
    ⟨⟨rfl, rfl, rfl, rfl⟩, rfl⟩ noData_lacks (by decide) h⟩

/-- C119 does not hold: the servers say that a.com. has no texts, and the client gets SERVFAIL. -/
theorem C119_violated : ¬ C119_statement := by
  intro h
  obtain ⟨m, w', hm⟩ := noData_reply
  have hf := noData_honest .release
  have h1 := C119_servfail_partial addressOnly _ _ _ _ _ ⟨"a.com.".toList⟩ .TXT _ _ _ hf no_facts (fun _ _ h => h)
    ⟨⟨rfl, rfl, rfl, rfl⟩, rfl⟩ noData_lacks (by decide) hm
  have h2 := h addressOnly _ _ _ _ _ ⟨"a.com.".toList⟩ .TXT _ _ _ hf no_facts (fun _ _ h => h) noData_ready
    ⟨⟨rfl, rfl, rfl, rfl⟩, rfl⟩ noData_lacks (noData_said .release) hm
  rw [h1.1] at h2
  exact RespCode.noConfusion h2.1

end Ariadne.Props
