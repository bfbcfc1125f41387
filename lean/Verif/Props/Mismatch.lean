import Verif.Spec.Mismatch
import Verif.Props.Referrals
import Verif.Props.Lookup

/-! # C110: responses to other questions -/

namespace Ariadne.Props

open Spec Resolver

/-- **C110.** A response is only used if its question section is the question asked. -/
def C110_statement : Prop :=
  ∀ (env : Env) (p : Profile) (ns : NextNs) (node : Name) (kind : RecordType) (retries : Nat) (w w' : World) (r : NsResponse),
    performRequest env p ns node kind retries w = (.ok r, w') →
    ∃ resp, JustReceived p node kind resp w'.log ∧ TakenFrom resp node kind r ∧ resp.questions = [⟨node, kind, .IN⟩]

theorem retries_received {env : Env} {p : Profile} {ns : NextNs} {node : Name} {kind : RecordType} : ∀ {n : Nat} {e : Option LookupErr}
    {w w' : World} {resp : Message}, sendQueryWithRetries env p ns node kind n e w = (.ok resp, w') → JustReceived p node kind resp w'.log
  | 0, some e, w, w', resp, h => by cases (Prod.mk.inj h).1
  | 0, none, w, w', resp, h => by cases (Prod.mk.inj h).1
  | n + 1, e, w, w', resp, h => by
    rw [sendQueryWithRetries] at h
    rcases hs : sendQuery env p ns node kind w with ⟨o, w1⟩
    simp only [bind, M.bind, M.attempt, hs] at h
    cases o with
    | ok m =>
      obtain ⟨h1, h2⟩ := Prod.mk.inj h
      obtain rfl := Out.ok.inj h1
      obtain ⟨addr, query, reply, e1, e2, -, e4, e5⟩ := C65_used env p ns node kind w w1 m hs
      subst h2
      exact ⟨w.log, addr, query, reply, _, by rw [e1], e2, e4, e5⟩
    | err x => exact retries_received h
    | panic k => cases (Prod.mk.inj h).1
    | diverge => cases (Prod.mk.inj h).1

theorem taken_of_means {resp : Message} {node : Name} {kind : RecordType} {zone : Name} {r : NsResponse} (h : Means resp node kind zone r) :
    TakenFrom resp node kind r := by
  cases r with
  | noDomain soa => exact ⟨h.1, h.2.1⟩
  | answer answers additionals => exact h
  | «alias» cname nss =>
    obtain ⟨h1, h2, h3, -, t, h4, -⟩ := h
    exact ⟨h1, h2, h3, t, h4⟩
  | delegation nss =>
    obtain ⟨h1, h2, -, h3⟩ := h
    refine ⟨h1, h2, fun ns hns => ?_⟩
    obtain ⟨g1, g2, -⟩ := h3 ns hns
    exact ⟨g1.1, nsData_of g1.2.1, List.isSuffixOf_iff_suffix.1 g2⟩

/-- **C110, partially.** A response is only used if it came last, in reply to a query for this name and type, with the id of the query; and what is taken from it as an answer or alias
belongs to the name (and type) in question, NS records belong to a name that is a (textual) suffix of it, and denials have the AA flag. Missing: the question section is not looked at
(`C110_violated`). -/
theorem C110_taken_partial (env : Env) (p : Profile) (ns : NextNs) (node : Name) (kind : RecordType) (retries : Nat) (w w' : World) (r : NsResponse)
    (h : performRequest env p ns node kind retries w = (.ok r, w')) :
    ∃ resp, JustReceived p node kind resp w'.log ∧ TakenFrom resp node kind r := by
  unfold performRequest at h
  rcases hs : sendQueryWithRetries env p ns node kind retries none w with ⟨o, w1⟩
  simp only [bind, M.bind, hs] at h
  cases o with
  | ok resp =>
    obtain ⟨h1, h2⟩ := Prod.mk.inj h
    subst h2
    have hm := interpret_sat resp node kind ns.zone
    have h1' : interpret resp node kind ns.zone = .ok r := h1
    rw [h1'] at hm
    exact ⟨resp, retries_received hs, taken_of_means hm⟩
  | err e => cases (Prod.mk.inj h).1
  | panic k => cases (Prod.mk.inj h).1
  | diverge => cases (Prod.mk.inj h).1

/-- A datagram with id 7: b. does not exist. -/
def denialOfB : List UInt8 := [0, 7, 0x84, 3, 0, 1, 0, 0, 0, 0, 0, 0, 1, 98, 0, 0, 1, 0, 1]

/-- Servers answer every query with that datagram. -/
def denyingEnv : Env := ⟨fun n => n, fun _ _ h => h, fun _ c => c, fun _ => 7, fun _ _ _ => some denialOfB⟩

/-- Is it the report that the domain does not exist? -/
def reportsNone : Out LookupErr NsResponse → Bool
  | .ok (.noDomain none) => true
  | _ => false

theorem denied_request : performRequest denyingEnv .release comServer ⟨"a.".toList⟩ .A 1 ⟨.empty, 0, []⟩ =
    (.ok (.noDomain none), (performRequest denyingEnv .release comServer ⟨"a.".toList⟩ .A 1 ⟨.empty, 0, []⟩).2) := by
  have h : reportsNone (performRequest denyingEnv .release comServer ⟨"a.".toList⟩ .A 1 ⟨.empty, 0, []⟩).1 = true := by decide +kernel
  refine Prod.ext ?_ rfl
  generalize (performRequest denyingEnv .release comServer ⟨"a.".toList⟩ .A 1 ⟨.empty, 0, []⟩).1 = o at h ⊢
  unfold reportsNone at h
  split at h
  · rfl
  · cases h

/-- C110 does not hold: that b. does not exist is taken as an answer to the question for a. -/
theorem C110_violated : ¬ C110_statement := by
  intro h
  obtain ⟨resp, ⟨before, addr, query, reply, id, h1, -, h2, -⟩, -, h3⟩ := h _ _ _ _ _ _ _ _ _ denied_request
  have hlog : (match (performRequest denyingEnv .release comServer ⟨"a.".toList⟩ .A 1 ⟨.empty, 0, []⟩).2.log.getLast? with
      | some (.exchange _ _ (some x)) => decide (x = denialOfB)
      | _ => false) = true := by decide +kernel
  rw [h1, List.getLast?_append, List.getLast?_singleton] at hlog
  have hr : reply = denialOfB := of_decide_eq_true hlog
  rw [hr] at h2
  have hq : (match Message.decodeFromBytes .release (denialOfB.take 512) with
      | .ok m => decide (m.questions ≠ [⟨⟨"a.".toList⟩, .A, .IN⟩])
      | _ => false) = true := by decide +kernel
  rw [h2] at hq
  exact of_decide_eq_true hq h3

/-- A client is told that a. does not exist, because servers say that b. does not exist. -/
example : (match (lookup denyingEnv .release ⟨2, 3, 2, false⟩ 3 ⟨"a.".toList⟩ .A ⟨.empty, 0, []⟩).1 with
    | .ok r => r.noRecords
    | _ => false) = true := by decide +kernel

/-- `C110_taken_partial` applies to it. -/
example : ∃ resp, JustReceived .release ⟨"a.".toList⟩ .A resp
      (performRequest denyingEnv .release comServer ⟨"a.".toList⟩ .A 1 ⟨.empty, 0, []⟩).2.log ∧
    TakenFrom resp ⟨"a.".toList⟩ .A (.noDomain none) :=
  C110_taken_partial _ _ _ _ _ _ _ _ _ denied_request

end Ariadne.Props
