import Verif.Lemmas.OnlyQuestion
import Verif.Props.Told

/-! # C108: of a request, only the question matters -/

namespace Ariadne.Props

open Spec Resolver

variable {p : Profile}

/-- What becomes of the reply. -/
def sending (job : Job) (m : Message) : Out LookupErr (List (List UInt8) × Bool) :=
  match job with
  | .udp _ sends => (Net.udpReply m sends).mapErr Empty.elim
  | .tcp _ room => match (Net.tcpReply m room).mapErr Empty.elim with
    | .ok r => .ok ([r.1], r.2)
    | .err e => .err e
    | .panic k => .panic k
    | .diverge => .diverge

theorem sending_ok {job : Job} {m : Message} {result : List (List UInt8) × Bool} (h : sending job m = .ok result) :
    IsSendingOf m result job := by
  cases job with
  | udp datagram sends => exact mapErr_ok h
  | tcp stream room =>
    unfold sending at h
    dsimp only at h
    cases ho : (Net.tcpReply m room).mapErr (Empty.elim : Empty → LookupErr) with
    | ok r =>
      rw [ho] at h
      obtain rfl := Out.ok.inj h
      exact ⟨r.1, mapErr_ok ho, rfl⟩
    | err e => rw [ho] at h; cases h
    | panic k => rw [ho] at h; cases h
    | diverge => rw [ho] at h; cases h

theorem wellPosed_validate {req : Message} : WellPosed req ↔ (!validate req) = false := by
  unfold WellPosed validate Header.isRequest
  cases req.header.queryResp <;> simp [and_assoc]

/-- What is read from the client. -/
def readOf (p : Profile) : Job → Out LookupErr ReadResult
  | .udp datagram _ => (Net.udpRead p datagram).mapErr Empty.elim
  | .tcp stream _ => match (Net.tcpRead p stream).mapErr Empty.elim with
    | .ok r => .ok r.1
    | .err e => .err e
    | .panic k => .panic k
    | .diverge => .diverge

theorem readOf_full {req : Message} {job : Job} : readOf p job = .ok (.fullMessage req) ↔ Delivers p req job := by
  cases job with
  | udp datagram sends =>
    exact ⟨fun h => mapErr_ok h, fun h => by
      show (Net.udpRead p datagram).mapErr _ = _
      rw [show Net.udpRead p datagram = _ from h]; rfl⟩
  | tcp stream room =>
    unfold readOf Delivers
    dsimp only
    constructor
    · intro h
      cases ho : (Net.tcpRead p stream).mapErr (Empty.elim : Empty → LookupErr) with
      | ok r =>
        rw [ho] at h
        exact ⟨r.2, by rw [mapErr_ok ho, ← Out.ok.inj h]⟩
      | err e => rw [ho] at h; cases h
      | panic k => rw [ho] at h; cases h
      | diverge => rw [ho] at h; cases h
    · rintro ⟨rest, h⟩
      rw [h]
      rfl

/-- Serving is reading, handling and sending. -/
theorem serve_eq (conf : Params) (fuel : Nat) (job : Job) :
    Steps.serve p conf fuel job = (Resolver.Task.done (readOf p job)).bind fun read => (Steps.handle p conf fuel read).bind fun reply =>
      match reply with
      | none => .done (.ok (match job with | .udp .. => ([], true) | .tcp .. => ([[]], true)))
      | some m => .done (sending job m) := by
  cases job with
  | udp datagram sends =>
    show Steps.serveUdp p conf fuel datagram sends = _
    unfold Steps.serveUdp
    show Resolver.Task.bind _ _ = _
    congr 1
  | tcp stream room =>
    show (Steps.serveTcp p conf fuel stream room).bind _ = _
    unfold Steps.serveTcp
    show (Resolver.Task.bind _ _).bind _ = _
    rw [Task.bind_assoc']
    unfold readOf
    dsimp only
    cases ho : (Net.tcpRead p stream).mapErr (Empty.elim : Empty → LookupErr) with
    | ok r =>
      show (Resolver.Task.bind _ _).bind _ = Resolver.Task.bind _ _
      rw [Task.bind_assoc']
      congr 1
      funext reply
      cases reply with
      | none => rfl
      | some m =>
        show (Resolver.Task.done _).bind _ = .done (sending _ m)
        unfold sending
        dsimp only
        generalize (Net.tcpReply m room).mapErr (Empty.elim : Empty → LookupErr) = o
        cases o <;> rfl
    | err e => rfl
    | panic k => rfl
    | diverge => rfl

/-- A query is looked up, and the result sent. -/
theorem serve_query {conf : Params} {fuel : Nat} {job : Job} {req : Message} {q : Question} {rest : List Question} (hd : Delivers p req job)
    (hw : WellPosed req) (hq : req.questions = q :: rest) :
    Steps.serve p conf fuel job = (Steps.lookup p conf fuel q.node q.recordType).attempt.bind fun x => .done (sending job (resultReply req x)) := by
  rw [serve_eq, readOf_full.2 hd]
  show (Steps.handle p conf fuel (.fullMessage req)).bind _ = _
  unfold Steps.handle
  dsimp only
  rw [wellPosed_validate.1 hw, hq]
  show (Resolver.Task.bind _ _).bind _ = _
  rw [Task.bind_assoc']
  rfl

/-- Everything else takes no steps. -/
theorem serve_other {conf : Params} {fuel : Nat} {job : Job} (h : ∀ question, ¬ Queries p question job) :
    ∃ o, Steps.serve p conf fuel job = .done o ∧ ∀ req, Delivers p req job → WellPosed req → ∀ r, o ≠ .ok r := by
  rw [serve_eq]
  cases hr : readOf p job with
  | err e => exact ⟨_, rfl, fun req hd _ => by rw [← readOf_full, hr] at hd; cases hd⟩
  | panic k => exact ⟨_, rfl, fun req hd _ => by rw [← readOf_full, hr] at hd; cases hd⟩
  | diverge => exact ⟨_, rfl, fun req hd _ => by rw [← readOf_full, hr] at hd; cases hd⟩
  | ok read =>
    show ∃ o, (Steps.handle p conf fuel read).bind _ = .done o ∧ _
    cases read with
    | headerOnly hd e => exact ⟨_, rfl, fun req hd _ => by rw [← readOf_full, hr] at hd; cases hd⟩
    | parseErr a b => exact ⟨_, rfl, fun req hd _ => by rw [← readOf_full, hr] at hd; cases hd⟩
    | ioErr => exact ⟨_, rfl, fun req hd _ => by rw [← readOf_full, hr] at hd; cases hd⟩
    | fullMessage req =>
      have hd := readOf_full.1 hr
      unfold Steps.handle
      dsimp only
      by_cases hv : (!validate req) = true
      · rw [if_pos hv]
        refine ⟨_, rfl, fun req' hd' hw => ?_⟩
        have := (readOf_full.2 hd').symm.trans hr
        obtain rfl : req' = req := by injection this with this; injection this
        rw [wellPosed_validate.1 hw] at hv
        cases hv
      · rw [if_neg hv]
        cases hq : req.questions with
        | nil => exact ⟨_, rfl, fun req' _ _ r h => by cases h⟩
        | cons q rest =>
          exact absurd ⟨req, q, rest, hd, wellPosed_validate.2 (by simpa using hv), hq, rfl⟩ (h (q.node, q.recordType))

theorem delivers_unique {req req' : Message} {job : Job} (h : Delivers p req job) (h' : Delivers p req' job) : req = req' := by
  have := (readOf_full.2 h).symm.trans (readOf_full.2 h')
  injection this with this
  injection this

theorem resultReply_to (req : Message) (x : LookupErr ⊕ Response) : RepliesTo req (resultReply req x) := by
  cases x with
  | inl e => exact ⟨⟨rfl, rfl, rfl, rfl, rfl, rfl, rfl⟩, rfl⟩
  | inr r =>
    unfold resultReply
    dsimp only
    split
    · exact ⟨⟨rfl, rfl, rfl, rfl, rfl, rfl, rfl⟩, rfl⟩
    · exact ⟨⟨rfl, rfl, rfl, rfl, rfl, rfl, rfl⟩, rfl⟩

theorem resultReply_same (req req' : Message) (x : LookupErr ⊕ Response) : SameContents (resultReply req x) (resultReply req' x) := by
  cases x with
  | inl e => exact ⟨rfl, rfl, rfl, rfl⟩
  | inr r =>
    unfold resultReply
    dsimp only
    split
    · exact ⟨rfl, rfl, rfl, rfl⟩
    · exact ⟨rfl, rfl, rfl, rfl⟩

/-- The outcomes of two jobs that ask the same. -/
def SameOutcome (p : Profile) (job job' : Job) (result result' : List (List UInt8) × Bool) : Prop :=
  ∀ req req', Delivers p req job → Delivers p req' job' → WellPosed req → WellPosed req' →
    ∃ m m', IsSendingOf m result job ∧ IsSendingOf m' result' job' ∧ RepliesTo req m ∧ RepliesTo req' m' ∧ SameContents m m'

theorem serve_alike (conf : Params) (fuel : Nat) {job job' : Job} (h : AskTheSame p job job') :
    Task.Alike (SameOutcome p job job') (Steps.serve p conf fuel job) (Steps.serve p conf fuel job') := by
  by_cases hq : ∃ question, Queries p question job
  · obtain ⟨question, hq⟩ := hq
    obtain ⟨req', q', rest', hd', hw', hq', e'⟩ := (h question).1 hq
    obtain ⟨req, q, rest, hd, hw, hq, e⟩ := hq
    rw [e] at e'
    obtain ⟨e1, e2⟩ := Prod.mk.inj e'
    rw [serve_query hd hw hq, serve_query hd' hw' hq', e1, e2]
    refine Task.alike_bind (fun x => .done fun r r' hr hr' r1 r2 hd1 hd2 _ _ => ?_) _
    obtain rfl := delivers_unique hd hd1
    obtain rfl := delivers_unique hd' hd2
    exact ⟨_, _, sending_ok hr, sending_ok hr', resultReply_to _ _, resultReply_to _ _, resultReply_same _ _ _⟩
  · have h1 : ∀ question, ¬ Queries p question job := fun question hx => hq ⟨question, hx⟩
    obtain ⟨o, e, ho⟩ := serve_other (conf := conf) (fuel := fuel) h1
    obtain ⟨o', e', -⟩ := serve_other (conf := conf) (fuel := fuel) fun question hx => h1 question ((h question).2 hx)
    rw [e, e']
    exact .done fun r r' hr _ req req' hd _ hw _ => absurd hr (ho req hd hw r)

/-- C108: take two histories of the resolver with the same order of events, and the same servers, which differ in what the clients send; but each two requests
ask for the same name and type, or neither is a request with a question. Then in both the cache goes through the same states, every thread sends the same queries, octet for octet, has
the same replies to them, and is done at the same moment; and the replies to the clients have the same code and the same records. So nothing else in a request, such as its records,
id and flags, or whether it came over UDP or TCP, can influence the cache, the queries, or what other clients are told. -/
theorem C108_only_the_question (S : Schedule) (net : Nat → List Event → Ip4 → List UInt8 → Option (List UInt8)) (p : Profile) (conf : Params)
    (fuel : Nat) (jobs jobs' : Nat → Job) (c : RecordsCache) (n : Nat) (h : ∀ i, AskTheSame p (jobs i) (jobs' i)) :
    (System.after S net (.serving p conf fuel jobs c) n).cache = (System.after S net (.serving p conf fuel jobs' c) n).cache ∧
    ∀ i, ((System.after S net (.serving p conf fuel jobs c) n).threads i).log = ((System.after S net (.serving p conf fuel jobs' c) n).threads i).log ∧
      ((∃ o, ((System.after S net (.serving p conf fuel jobs c) n).threads i).task = .done o) ↔
        ∃ o, ((System.after S net (.serving p conf fuel jobs' c) n).threads i).task = .done o) ∧
      ∀ req req' result result', Delivers p req (jobs i) → Delivers p req' (jobs' i) → WellPosed req → WellPosed req' →
        ((System.after S net (.serving p conf fuel jobs c) n).threads i).task = .done (.ok result) →
        ((System.after S net (.serving p conf fuel jobs' c) n).threads i).task = .done (.ok result') →
        ∃ m m', IsSendingOf m result (jobs i) ∧ IsSendingOf m' result' (jobs' i) ∧ RepliesTo req m ∧ RepliesTo req' m' ∧ SameContents m m' := by
  obtain ⟨h1, h2⟩ := System.alike_after (R := fun i => SameOutcome p (jobs i) (jobs' i)) (S := S) (net := net)
    (s := .serving p conf fuel jobs c) (s' := .serving p conf fuel jobs' c) rfl (fun i => ⟨rfl, serve_alike conf fuel (h i)⟩) n
  refine ⟨h1, fun i => ⟨(h2 i).1, (h2 i).2.done_iff, fun req req' result result' hd hd' hw hw' e e' => ?_⟩⟩
  have := (h2 i).2
  rw [e, e'] at this
  exact this.results req req' hd hd' hw hw'

/-! ## An example -/

theorem askTheSame_of {job job' : Job} {req req' : Message} {q q' : Question} {rest rest' : List Question} (hd : Delivers p req job)
    (hd' : Delivers p req' job') (hw : WellPosed req) (hw' : WellPosed req') (hq : req.questions = q :: rest) (hq' : req'.questions = q' :: rest')
    (h : (q.node, q.recordType) = (q'.node, q'.recordType)) : AskTheSame p job job' := by
  intro question
  constructor
  · rintro ⟨r, x, xs, g1, g2, g3, g4⟩
    obtain rfl := delivers_unique hd g1
    rw [hq] at g3
    exact ⟨req', q', rest', hd', hw', hq', by rw [g4, ← h, (List.cons.inj g3).1]⟩
  · rintro ⟨r, x, xs, g1, g2, g3, g4⟩
    obtain rfl := delivers_unique hd' g1
    rw [hq'] at g3
    exact ⟨req, q, rest, hd, hw, hq, by rw [g4, h, (List.cons.inj g3).1]⟩

/-- A request for the address of b.com. with another id, other flags, and an address for b.com. of its own. -/
def loudQuery : List UInt8 := [0, 99, 3, 0, 0, 1, 0, 0, 0, 0, 0, 1, 1, 98, 3, 99, 111, 109, 0, 0, 1, 0, 1,
  1, 98, 3, 99, 111, 109, 0, 0, 1, 0, 1, 0, 0, 0, 9, 0, 4, 6, 6, 6, 6]

/-- The requests, the first of which is replaced. -/
def loudJobs (i : Nat) : Job := if i = 0 then .udp loudQuery [some 512] else turnJobs i

/-- The request, if it is in order. -/
def requestIn : Out Empty ReadResult → Option Message
  | .ok (.fullMessage req) => if !validate req then none else some req
  | _ => none

theorem requestIn_some {o : Out Empty ReadResult} {req : Message} (h : requestIn o = some req) : o = .ok (.fullMessage req) ∧ WellPosed req := by
  unfold requestIn at h
  split at h
  · split at h
    · cases h
    · rename_i hw
      cases h
      exact ⟨rfl, wellPosed_validate.2 (by simpa using hw)⟩
  · cases h

theorem loud_read : ∃ req, Net.udpRead .release loudQuery = .ok (.fullMessage req) ∧ WellPosed req ∧ req.questions = [⟨nB, .A, .IN⟩] ∧
    req.header.id = 99 ∧ req.header.recursionDesired = true ∧ req.additionals.length = 1 := by
  have h : (match requestIn (Net.udpRead .release loudQuery) with
      | some req => decide (req.questions = [⟨nB, .A, .IN⟩] ∧ req.header.id = 99 ∧ req.header.recursionDesired = true ∧ req.additionals.length = 1)
      | none => false) = true := by decide +kernel
  cases hr : requestIn (Net.udpRead .release loudQuery) with
  | none => rw [hr] at h; cases h
  | some req =>
    rw [hr] at h
    obtain ⟨h1, h2⟩ := requestIn_some hr
    have h3 := of_decide_eq_true h
    exact ⟨req, h1, h2, h3⟩

theorem loud_same : ∀ i, AskTheSame .release (turnJobs i) (loudJobs i) := by
  intro i
  by_cases hi : i = 0
  · subst hi
    obtain ⟨req, h1, h2, h3, -⟩ := loud_read
    exact askTheSame_of (job := .udp (addressQuery 6 nB) [some 512]) (job' := .udp loudQuery [some 512])
      (addressQuery_read .release 6 nB_encodable) h1 ⟨rfl, rfl, rfl, rfl⟩ h2 rfl h3 rfl
  · have e : loudJobs i = turnJobs i := if_neg hi
    rw [e]
    exact fun _ => Iff.rfl

/-- All goes on as if the first request had been the ordinary one. -/
example : (turnService 168).cache = (System.after turns (fun _ _ a q => orderNet a q) (.serving .release ⟨2, 3, 2, false⟩ 259 loudJobs .empty) 168).cache ∧
    ∀ i, ((turnService 168).threads i).log =
      ((System.after turns (fun _ _ a q => orderNet a q) (.serving .release ⟨2, 3, 2, false⟩ 259 loudJobs .empty) 168).threads i).log :=
  have h := C108_only_the_question turns (fun _ _ a q => orderNet a q) .release ⟨2, 3, 2, false⟩ 259 turnJobs loudJobs .empty 168 loud_same
  ⟨h.1, fun i => (h.2 i).1⟩

end Ariadne.Props
