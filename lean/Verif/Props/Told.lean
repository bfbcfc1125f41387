import Verif.Spec.Told
import Verif.Props.AgeThreads
import Verif.Props.Asks

/-! # C105, C106: what the clients of the resolver are told, while many are served -/

namespace Ariadne.Props

open Spec Resolver

variable {p : Profile}

/-- All the records of the message may be given out. -/
def MessageTimely (p : Profile) (B : Lifetimes) (log : List Event) (m : Message) : Prop :=
  ∀ x ∈ m.answers ++ m.authorities ++ m.additionals, Timely p B log x

theorem resultReply_timely {B : Lifetimes} {log : List Event} {req : Message} {result : LookupErr ⊕ Response}
    (h : ∀ r, result = .inr r → Steps.TimelyAll p B log r) : MessageTimely p B log (resultReply req result) := by
  intro x hx
  cases result with
  | inl e => cases hx
  | inr r =>
    by_cases hn : r.noRecords = true
    · have e : resultReply req (.inr r) = errReply req .NxDomain := if_pos hn
      rw [e] at hx
      cases hx
    · have e : (resultReply req (.inr r)).answers ++ (resultReply req (.inr r)).authorities ++ (resultReply req (.inr r)).additionals =
          r.answers ++ r.authorities ++ r.additionals := by
        unfold resultReply
        simp only [if_neg hn]
      rw [e] at hx
      exact h r rfl x hx

theorem handle_careful {B : Lifetimes} {conf : Params} {fuel : Nat} {read : ReadResult} :
    Careful p B (fun log reply => ∀ m, reply = some m → MessageTimely p B log m) [] (Steps.handle p conf fuel read) := by
  cases read with
  | fullMessage req =>
    unfold Steps.handle
    dsimp only
    by_cases hv : (!validate req) = true
    · rw [if_pos hv]
      exact Careful.pure fun m hm x hx => by cases hm; cases hx
    · rw [if_neg hv]
      cases hq : req.questions with
      | nil => exact Careful.panic
      | cons q qs =>
        refine (Careful.attempt (Steps.perform_careful fuel _ [] (by simp))).bind fun result log _ hr => ?_
        exact Careful.pure fun m hm => by cases hm; exact resultReply_timely hr
  | headerOnly h e => exact Careful.pure fun m hm x hx => by cases hm; cases hx
  | parseErr a b => exact Careful.pure fun m hm => nomatch hm
  | ioErr => exact Careful.pure fun m hm => nomatch hm

theorem mapErr_ok {α : Type} {o : Out Empty α} {a : α} (h : o.mapErr (Empty.elim : Empty → LookupErr) = .ok a) : o = .ok a := by
  cases o with
  | ok b => injection h with h; rw [h]
  | err e => exact nomatch e
  | panic k => cases h
  | diverge => cases h

theorem serve_careful {B : Lifetimes} {conf : Params} {fuel : Nat} {job : Job} :
    Careful p B (fun log result => SaysNothing result job ∨ ∃ m, IsSendingOf m result job ∧ MessageTimely p B log m) []
      (Steps.serve p conf fuel job) := by
  cases job with
  | udp datagram sends =>
    show Careful p B _ [] (Steps.serveUdp p conf fuel datagram sends)
    unfold Steps.serveUdp
    refine Careful.bind (Q := fun log _ => log = []) (Careful.done fun _ _ => rfl) fun read log' _ hr => ?_
    subst hr
    refine handle_careful.bind fun reply log'' _ hm => ?_
    cases reply with
    | none => exact Careful.pure (.inl rfl)
    | some m => exact Careful.done fun a ha => .inr ⟨m, mapErr_ok ha, hm m rfl⟩
  | tcp stream room =>
    show Careful p B _ [] (Steps.serveTcp p conf fuel stream room >>= fun r => pure ([r.1], r.2))
    refine Careful.bind (Q := fun log r => r.1 = [] ∨ ∃ m, Net.tcpReply m room = .ok r ∧ MessageTimely p B log m) ?_ fun r log _ hr => ?_
    · unfold Steps.serveTcp
      refine Careful.bind (Q := fun log _ => log = []) (Careful.done fun _ _ => rfl) fun read log' _ hr => ?_
      subst hr
      refine handle_careful.bind fun reply log'' _ hm => ?_
      cases reply with
      | none => exact Careful.pure (.inl rfl)
      | some m => exact Careful.done fun a ha => .inr ⟨m, mapErr_ok ha, hm m rfl⟩
    · refine Careful.pure ?_
      rcases hr with hr | ⟨m, hm, ht⟩
      · exact .inl (by show [r.1] = [[]]; rw [hr])
      · exact .inr ⟨m, ⟨r.1, hm, rfl⟩, ht⟩

/-- C105: whatever the clients send and the servers answer, and in whatever order the threads make their steps, with a cache that was empty at first:
when a request has been served, nothing was sent to the client, or a message (truncated if need be) all of whose records say
what a record said that one of the threads had received from a server by then; and, aliases apart (C98), their TTLs, from the
beginning of the service of this request on, end no later than those of the records received, from some moment on at which
the thread that received them had not finished yet. -/
theorem C105_told (S : Schedule) (net : Nat → List Event → Ip4 → List UInt8 → Option (List UInt8)) (p : Profile) (conf : Params)
    (fuel : Nat) (jobs : Nat → Job) (n i first : Nat) (result : List (List UInt8) × Bool) (hf : ∀ m < first, S.move m ≠ .step i)
    (h : ((System.after S net (.serving p conf fuel jobs .empty) n).threads i).task = .done (.ok result)) :
    SaysNothing result (jobs i) ∨ ∃ m, IsSendingOf m result (jobs i) ∧ ∀ x ∈ m.answers ++ m.authorities ++ m.additionals,
      HasSourceInThread S net p (.serving p conf fuel jobs .empty) n x ∧
      (x.recordType ≠ .CNAME → EndsInTime S net p (.serving p conf fuel jobs .empty) n (S.time first) x) := by
  have hall := (careful_after (S := S) (net := net) (p := p) (s := .serving p conf fuel jobs .empty) (N := n)
    (start := fun j => if j = i then S.time first else S.time 0)
    (fun m j hm => by
      split
      · rename_i hj
        subst hj
        refine times_mono S ?_
        by_contra hlt
        exact hf m (by omega) hm
      · exact times_mono S (Nat.zero_le m))
    Cache.distinct_empty (fun key exp rs hf => by cases hf)
    (Q := fun j log result => SaysNothing result (jobs j) ∨ ∃ m, IsSendingOf m result (jobs j) ∧
      MessageTimely p (keptBy S net p _ n (if j = i then S.time first else S.time 0)) log m)
    (fun j => serve_careful) n (Nat.le_refl n)).2 i
  rw [h] at hall
  rcases hall result rfl with hnone | ⟨m, hm, ht⟩
  · exact .inl hnone
  refine .inr ⟨m, hm, fun x hx => ?_⟩
  rcases ht x hx with ⟨r₀, hr, e1, e2⟩ | ⟨m, r₀, h1, h2, h3⟩
  · obtain ⟨m, g1, g2, g3⟩ := received_step (S := S) (net := net) (s := .serving p conf fuel jobs .empty) rfl hr
    refine ⟨⟨m, r₀, ⟨g1, i, g2, g3⟩, e1⟩, fun _ => ⟨m, r₀, ⟨g1, i, g2, g3⟩, e1, ?_⟩⟩
    have : S.time first ≤ S.time m := by
      refine times_mono S ?_
      by_contra hlt
      exact hf m (by omega) g2.1
    have : x.ttl.toNat * NANOS ≤ r₀.ttl.toNat * NANOS := Nat.mul_le_mul_right _ e2
    omega
  · refine ⟨⟨m, r₀, h1, h2⟩, fun hk => ⟨m, r₀, h1, h2, ?_⟩⟩
    rw [if_neg hk] at h3
    have h4 : (if i = i then S.time first else S.time 0) + x.ttl.toNat * NANOS ≤ S.time m + r₀.ttl.toNat * NANOS := h3
    rw [if_pos rfl] at h4
    exact h4

/-! ## An example -/

theorem says_nothing {res : List (List UInt8) × Bool} {job : Job} (h : SaysNothing res job) : NothingSent res := by
  intro out ho
  cases job with
  | udp => rw [show res.1 = [] from h] at ho; cases ho
  | tcp => rw [show res.1 = [[]] from h] at ho; exact List.mem_singleton.1 ho

theorem turn_told {l : List (List UInt8)} {i : Nat} (h : ((turnService 168).threads i).task = .done (.ok (l, true))) (hl : ∃ x ∈ l, x ≠ []) :
    ∃ m, IsSendingOf m (l, true) (turnJobs i) ∧ ∀ x ∈ m.answers ++ m.authorities ++ m.additionals,
      HasSourceInThread turns (fun _ _ a q => orderNet a q) .release (.serving .release ⟨2, 3, 2, false⟩ 259 turnJobs .empty) 168 x := by
  rcases C105_told _ _ _ _ _ _ _ _ 0 _ (fun m hm => absurd hm (Nat.not_lt_zero m)) h with h0 | ⟨m, h1, h2⟩
  · obtain ⟨x, hx, hne⟩ := hl
    exact absurd (says_nothing h0 x hx) hne
  · exact ⟨m, h1, fun x hx => (h2 x hx).1⟩

/-- Both clients are told what servers have told. -/
example : (∃ m, IsSendingOf m ([turnReply₀], true) (turnJobs 0) ∧ ∀ x ∈ m.answers ++ m.authorities ++ m.additionals,
      HasSourceInThread turns (fun _ _ a q => orderNet a q) .release (.serving .release ⟨2, 3, 2, false⟩ 259 turnJobs .empty) 168 x) ∧
    ∃ m, IsSendingOf m ([turnReply], true) (turnJobs 1) ∧ ∀ x ∈ m.answers ++ m.authorities ++ m.additionals,
      HasSourceInThread turns (fun _ _ a q => orderNet a q) .release (.serving .release ⟨2, 3, 2, false⟩ 259 turnJobs .empty) 168 x :=
  ⟨turn_told service_done.1 ⟨turnReply₀, List.mem_singleton.2 rfl, fun h => nomatch h⟩,
    turn_told service_done.2 ⟨turnReply, List.mem_singleton.2 rfl, fun h => nomatch h⟩⟩

/-! ## C106 -/

theorem handle_some {env : Env} {conf : Params} {fuel : Nat} {req : Message} {w : World} {reply : Option Message} {w' : World}
    (h : handle env p conf fuel (.fullMessage req) w = (.ok reply, w')) : ∃ m, reply = some m := by
  unfold handle at h
  dsimp only at h
  by_cases hv : (!validate req) = true
  · rw [if_pos hv] at h
    exact ⟨_, (Out.ok.inj (Prod.mk.inj h).1).symm⟩
  · rw [if_neg hv] at h
    cases hq : req.questions with
    | nil => rw [hq] at h; cases h
    | cons q qs =>
      rw [hq] at h
      have h' := (attempt_pure (lookup env p conf fuel q.node q.recordType) (fun x => some (resultReply req x)) w).symm.trans h
      rcases hl : lookup env p conf fuel q.node q.recordType w with ⟨o, w1⟩
      rw [hl] at h'
      cases o with
      | ok r => exact ⟨_, (Out.ok.inj (Prod.mk.inj h').1).symm⟩
      | err e => exact ⟨_, (Out.ok.inj (Prod.mk.inj h').1).symm⟩
      | panic k => cases (Prod.mk.inj h').1
      | diverge => cases (Prod.mk.inj h').1

/-- The reply to a decoded message answers it. -/
theorem handle_answers {env : Env} {conf : Params} {fuel : Nat} {req m : Message} {w w' : World} {bytes : List UInt8} (hu : Up env conf w)
    (hd : Message.decodeFromBytes p bytes = .ok req) (h : handle env p conf fuel (.fullMessage req) w = (.ok (some m), w')) :
    AnswersRequest p conf.maxCnameRedir w'.log req m := by
  obtain ⟨e1, e2, -, -, -, -, e7, e8⟩ := C67_reply_partial env p conf fuel req m w w' h
  refine ⟨e1, e2, fun hw => ⟨(e7 hw).1, (e7 hw).2.1⟩, fun hw => ?_⟩
  obtain ⟨q, qs, hqs, hw', hcase⟩ := e8 hw
  obtain ⟨hdec, hnames⟩ := decoded_message hd
  have hqm : q ∈ req.questions := by rw [hqs]; exact List.mem_cons_self ..
  have hready : Spec.Ready env conf q.node q.recordType w :=
    ⟨hu.friendly, hu.cache, hu.log, hnames.qs q hqm, (hdec.qs q hqm).2, hu.nsq, hu.retries⟩
  refine ⟨q, qs, hqs, ?_⟩
  rcases hcase with ⟨r, hl, hn, hc, ha, -, -⟩ | ⟨r, hl, hn, hc, hno⟩ | ⟨e, hl, hc, hno⟩
  · obtain ⟨chain, final, recs, g1, g2, g3, g4, g5, g6, -⟩ := C59_chain_partial env p conf fuel q.node q.recordType w w' r hready
      (Prod.ext hl hw'.symm)
    exact .inl ⟨hc, chain, final, recs, ha.trans g1, g2, g3, g4, g6 hn, g5⟩
  · obtain ⟨final, g1, g2⟩ := C66_denied env p conf fuel q.node q.recordType w w' r hready (Prod.ext hl hw'.symm) hn
    exact .inr (.inl ⟨hc, hno, r.answers, final, g1, g2⟩)
  · exact .inr (.inr ⟨hc, hno⟩)

theorem infallible_inv {α : Type} {o : Out Empty α} {w w' : World} {a : α} (h : infallible o w = (.ok a, w')) : o = .ok a ∧ w' = w := by
  cases o with
  | ok b => exact ⟨congrArg _ (Out.ok.inj (Prod.mk.inj h).1), (Prod.mk.inj h).2.symm⟩
  | err e => exact nomatch e
  | panic k => cases (Prod.mk.inj h).1
  | diverge => cases (Prod.mk.inj h).1

theorem mBind_ok_inv {α β : Type} {m : M α} {f : α → M β} {w w' : World} {b : β} (h : (m >>= f) w = (.ok b, w')) :
    ∃ a w1, m w = (.ok a, w1) ∧ f a w1 = (.ok b, w') := by
  have h' : M.bind m f w = (.ok b, w') := h
  unfold M.bind at h'
  rcases hm : m w with ⟨o, w1⟩
  rw [hm] at h'
  cases o with
  | ok a => exact ⟨a, w1, rfl, h'⟩
  | err e => cases (Prod.mk.inj h').1
  | panic k => cases (Prod.mk.inj h').1
  | diverge => cases (Prod.mk.inj h').1

/-- A message that is read, and served with success, is answered. -/
theorem serve_answers {env : Env} {conf : Params} {fuel : Nat} {req : Message} {job : Job} {w w' : World} {result : List (List UInt8) × Bool}
    (hu : Up env conf w) (hd : Delivers p req job) (h : serve env p conf fuel job w = (.ok result, w')) :
    ∃ m, IsSendingOf m result job ∧ AnswersRequest p conf.maxCnameRedir w'.log req m := by
  cases job with
  | udp datagram sends =>
    have hr : Net.udpRead p datagram = .ok (.fullMessage req) := hd
    have h' : serveUdp env p conf fuel datagram sends w = (.ok result, w') := h
    have e : serveUdp env p conf fuel datagram sends w = (handle env p conf fuel (.fullMessage req) >>= fun reply =>
        match reply with
        | none => pure ([], true)
        | some m => infallible (Net.udpReply m sends)) w := infallible_ok hr _ w
    rw [e] at h'
    obtain ⟨reply, w1, h1, h2⟩ := mBind_ok_inv h'
    obtain ⟨m, rfl⟩ := handle_some h1
    obtain ⟨h3, rfl⟩ := infallible_inv h2
    exact ⟨m, h3, handle_answers hu (decoded_of_udp hr) h1⟩
  | tcp stream room =>
    obtain ⟨rest, hr⟩ := hd
    obtain ⟨body, hb⟩ := decoded_of_tcp hr
    have h' : (serveTcp env p conf fuel stream room >>= fun r => pure ([r.1], r.2)) w = (.ok result, w') := h
    obtain ⟨r, w1, h1, h2⟩ := mBind_ok_inv h'
    have h3 := Out.ok.inj (Prod.mk.inj h2).1
    have h4 := (Prod.mk.inj h2).2
    subst h3 h4
    have e : serveTcp env p conf fuel stream room w = (handle env p conf fuel (.fullMessage req) >>= fun reply =>
        match reply with
        | none => pure ([], true)
        | some m => infallible (Net.tcpReply m room)) w := infallible_ok hr _ w
    rw [e] at h1
    obtain ⟨reply, w2, h1, h2⟩ := mBind_ok_inv h1
    obtain ⟨m, rfl⟩ := handle_some h1
    obtain ⟨h3, rfl⟩ := infallible_inv h2
    exact ⟨m, ⟨r.1, h3, rfl⟩, handle_answers hu hb h1⟩

/-- C106: whatever the clients send, whatever the servers do, and in whatever order the threads go on: a message that was read from a client, and has been
served, was answered with a reply to this very message: the id and the questions are those of the request, and the records, if
there are any, lead from the name in question to records of the type in question. Nothing that the other clients asked, and nothing that other threads
received, ends up in its answer section unless it is on that way. -/
theorem C106_answers_for_clients {S : Schedule} {net : Nat → List Event → Ip4 → List UInt8 → Option (List UInt8)} {p : Profile} {conf : Params}
    {fuel : Nat} {jobs : Nat → Job} {c : RecordsCache} {lo n : Nat} (h : Service S net p conf fuel jobs c lo n) (i : Nat) (req : Message)
    (result : List (List UInt8) × Bool) (hd : Delivers p req (jobs i))
    (hr : ((System.after S net (.serving p conf fuel jobs c) n).threads i).task = .done (.ok result)) :
    ∃ m, IsSendingOf m result (jobs i) ∧
      AnswersRequest p conf.maxCnameRedir ((System.after S net (.serving p conf fuel jobs c) n).threads i).log req m := by
  obtain ⟨env, w', -, hu, he, hlog⟩ := (C93_service_in_threads h).2 i _ hr
  rw [← hlog]
  exact serve_answers hu hd he

/-! ## An example -/

/-- Both clients of the example are answered. -/
example : ∀ i, i = 0 ∨ i = 1 → ∃ req result m, Delivers .release req (turnJobs i) ∧ ((turnService 168).threads i).task = .done (.ok result) ∧
    IsSendingOf m result (turnJobs i) ∧ AnswersRequest .release 2 ((turnService 168).threads i).log req m := by
  intro i hi
  have hd : ∃ req, Delivers .release req (turnJobs i) := by
    have := turnJobs_answerable hi
    rcases hi with rfl | rfl
    · exact ⟨_, addressQuery_read .release 6 nB_encodable⟩
    · obtain ⟨-, req, nm, k, rest, h, -⟩ := this
      exact ⟨req, rest, h⟩
  obtain ⟨req, hd⟩ := hd
  have ht : ∃ result, ((turnService 168).threads i).task = .done (.ok result) := by
    rcases hi with rfl | rfl
    · exact ⟨_, service_done.1⟩
    · exact ⟨_, service_done.2⟩
  obtain ⟨result, ht⟩ := ht
  obtain ⟨m, h1, h2⟩ := C106_answers_for_clients (service_service 168) i req result hd ht
  exact ⟨req, result, m, hd, ht, h1, h2⟩

end Ariadne.Props
