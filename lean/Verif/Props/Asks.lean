import Verif.Lemmas.Asks
import Verif.Spec.Asks
import Verif.Props.AgeThreads
import Verif.Props.Serving

/-! # C99: the resolver asks nobody it has not been told of, and nothing it has not been asked or told -/

namespace Ariadne.Props

open Spec Resolver

variable {α : Type} {S : Schedule} {net : Nat → List Event → Ip4 → List UInt8 → Option (List UInt8)} {p : Profile} {s : System α}

/-- The question, and what the threads have received before the event `N`. -/
def heardBy (S : Schedule) (net : Nat → List Event → Ip4 → List UInt8 → Option (List UInt8)) (p : Profile) (s : System α) (N : Nat)
    (question : Name × RecordType) : Knowledge where
  question := question
  known x := HasSourceInThread S net p s N x
  closed := by
    rintro r r' ⟨m, x, h1, h2⟩ hc
    exact ⟨m, x, h1, h2.trans hc.symm⟩

/-- The entries of the cache may be there. -/
def HeardCache (S : Schedule) (net : Nat → List Event → Ip4 → List UInt8 → Option (List UInt8)) (p : Profile) (s : System α) (N : Nat)
    (c : RecordsCache) : Prop :=
  ∀ key exp rs, c.find key = some (exp, rs) → ∀ x ∈ rs, Fitting key x ∧ HasSourceInThread S net p s N x

/-- What a thread has learnt, has been received in a thread. -/
theorem learnt_heard {i n N : Nat} {q : Name × RecordType} (hl : (s.threads i).log = []) (hn : n ≤ N) {x : Record}
    (h : Learnt p (heardBy S net p s N q) ((System.after S net s n).threads i).log x) : HasSourceInThread S net p s N x := by
  rcases h with ⟨r, hr, h⟩ | h
  · obtain ⟨m, h1, h2, h3⟩ := received_step hl hr
    exact ⟨m, r, ⟨by omega, i, h2, h3⟩, h⟩
  · exact h

theorem asking_after {N : Nat} {questions : Nat → Name × RecordType} (hd : s.cache.Distinct)
    (hc : HeardCache S net p s N s.cache) (hl : ∀ i, (s.threads i).log = [])
    (hs : ∀ j, Asking p (heardBy S net p s N (questions j)) (fun _ _ => True) (s.threads j).log (s.threads j).task) : ∀ n ≤ N,
      HeardCache S net p s N (System.after S net s n).cache ∧ ∀ j, Asking p (heardBy S net p s N (questions j)) (fun _ _ => True)
        ((System.after S net s n).threads j).log ((System.after S net s n).threads j).task
  | 0, _ => ⟨hc, hs⟩
  | n + 1, hn => by
    obtain ⟨h1, h2⟩ := asking_after hd hc hl hs n (by omega)
    have hnext : System.after S net s (n + 1) = System.next S net n (System.after S net s n) := rfl
    cases hmv : S.move n with
    | clean reading =>
      have he : System.after S net s (n + 1) = { System.after S net s n with cache := (System.after S net s n).cache.clean reading } := by
        rw [hnext]; unfold System.next; rw [hmv]
      rw [he]
      exact ⟨fun key exp rs hf => h1 key exp rs (mem_clean (distinct_after hd n) hf), h2⟩
    | step i =>
      generalize hr : ((System.after S net s n).threads i).step (net i) (S.time n) (S.time' n) (S.id n) (System.after S net s n).cache = r
      have he : System.after S net s (n + 1) = ⟨r.2, fun j => if j = i then r.1 else (System.after S net s n).threads j⟩ := by
        rw [hnext]; unfold System.next; rw [hmv]; dsimp only; rw [hr]
      suffices h : HeardCache S net p s N r.2 ∧ Asking p (heardBy S net p s N (questions i)) (fun _ _ => True) r.1.log r.1.task by
        refine ⟨by rw [he]; exact h.1, fun j => ?_⟩
        rw [he]
        dsimp only
        by_cases hj : j = i
        · rw [if_pos hj, hj]; exact h.2
        · rw [if_neg hj]; exact h2 j
      have hi := h2 i
      unfold Thread.step at hr
      cases htask : ((System.after S net s n).threads i).task with
      | done o => rw [htask] at hr; subst hr; exact ⟨h1, hi⟩
      | emit x k => rw [htask] at hr hi; subst hr; exact ⟨h1, hi⟩
      | now k => rw [htask] at hr hi; subst hr; exact ⟨h1, hi _⟩
      | randomId k => rw [htask] at hr hi; subst hr; exact ⟨h1, hi _⟩
      | send addr bytes k => rw [htask] at hr hi; subst hr; exact ⟨h1, hi.2 _⟩
      | get key k =>
        rw [htask] at hr hi
        subst hr
        refine ⟨fun key' exp rs hf => h1 key' exp rs (mem_getClone hf), hi _ fun exp rs hg => ?_⟩
        exact h1 key exp rs (getClone_some hg).1
      | set key ttl records k =>
        rw [htask] at hr hi
        subst hr
        refine ⟨fun key' exp rs hf => ?_, hi.2⟩
        simp only [find_set, Cache.find_put] at hf
        by_cases hk : key = key'
        · rw [if_pos hk] at hf
          injection hf with hf
          injection hf with g1 g2
          subst g1 g2 hk
          intro x hx
          obtain ⟨e1, e2⟩ := hi.1 x hx
          exact ⟨e1, learnt_heard (hl i) (by omega) e2⟩
        · rw [if_neg hk] at hf
          exact h1 key' exp rs hf

/-- What is about to be sent, may be. -/
theorem justified_of_asking {i n : Nat} {q : Name × RecordType} (hl : (s.threads i).log = []) {Q : List Event → α → Prop}
    (h : Asking p (heardBy S net p s n q) Q ((System.after S net s n).threads i).log ((System.after S net s n).threads i).task)
    {addr : Ip4} {bytes : List UInt8} {k : Option (List UInt8) → Resolver.Task α} (ht : ((System.after S net s n).threads i).task = .send addr bytes k) :
    Justified S net p s n q addr bytes := by
  rw [ht] at h
  obtain ⟨⟨ha, id, name, kind, hp, hq⟩, -⟩ := h
  refine ⟨?_, id, name, kind, ?_, hq⟩
  · rcases ha with h | ⟨t, x, y, hx, hxd, hy, hyn, hyd⟩
    · exact .inl h
    · obtain ⟨m, r, h1, h2⟩ := learnt_heard hl (Nat.le_refl n) hx
      obtain ⟨m', r', h1', h2'⟩ := learnt_heard hl (Nat.le_refl n) hy
      have d1 : r.data = x.data := (Prod.mk.inj (Prod.mk.inj h2).2).2
      have d2 : r'.data = y.data := (Prod.mk.inj (Prod.mk.inj h2').2).2
      have d3 : r'.node = y.node := (Prod.mk.inj h2').1
      exact .inr ⟨t, ⟨m, r, h1, d1.trans hxd⟩, m', r', h1', d3.trans hyn, d2.trans hyd⟩
  · rcases hp with ⟨h, hch⟩ | ⟨h, x, hx, hd⟩
    · refine .inl ⟨h, Relation.ReflTransGen.mono (fun a b => ?_) _ _ hch⟩
      rintro ⟨x, hx, hn, hd⟩
      obtain ⟨m, r, h1, h2⟩ := learnt_heard hl (Nat.le_refl n) hx
      exact ⟨m, r, h1, (Prod.mk.inj h2).1.trans hn, (Prod.mk.inj (Prod.mk.inj h2).2).2.trans hd⟩
    · obtain ⟨m, r, h1, h2⟩ := learnt_heard hl (Nat.le_refl n) hx
      exact .inr ⟨h, m, r, h1, (Prod.mk.inj (Prod.mk.inj h2).2).2.trans hd⟩

/-- C99: whatever the servers answer, and in whatever order the threads make their steps, with a cache that was empty at first: when a thread sends a
datagram, it is a query, sent to a root server, or to an address that was received for the name of a name server; for the name and type the thread is to look up,
for a name to which aliases lead that were received, or for the address of a name server that was named in a record received. -/
theorem C99_queries (S : Schedule) (net : Nat → List Event → Ip4 → List UInt8 → Option (List UInt8)) (p : Profile) (conf : Params)
    (fuel : Nat) (questions : Nat → Name × RecordType) (n i : Nat) (addr : Ip4) (bytes : List UInt8) (k : Option (List UInt8) → Resolver.Task Response)
    (h : ((System.after S net (.start p conf fuel questions .empty) n).threads i).task = .send addr bytes k) :
    Justified S net p (.start p conf fuel questions .empty) n (questions i) addr bytes := by
  refine justified_of_asking rfl ((asking_after (questions := questions) Cache.distinct_empty (fun key exp rs hf => by cases hf) (fun _ => rfl)
    (fun j => ?_) n (Nat.le_refl n)).2 i) h
  exact (Steps.perform_asks fuel _ [] ⟨.inl ⟨rfl, .refl⟩, fun _ => ⟨rfl, .refl⟩, fun x hx => by cases hx⟩).mono fun _ _ _ _ => trivial

/-! ## While requests are served -/

theorem handle_asks {B : Knowledge} {conf : Params} {fuel : Nat} {read : ReadResult}
    (h : ∀ req q rest, read = .fullMessage req → req.questions = q :: rest → B.question = (q.node, q.recordType)) :
    Asking p B (fun _ _ => True) [] (Steps.handle p conf fuel read) := by
  cases read with
  | fullMessage req =>
    unfold Steps.handle
    dsimp only
    by_cases hv : (!validate req) = true
    · rw [if_pos hv]
      exact Asking.pure trivial
    · rw [if_neg hv]
      cases hq : req.questions with
      | nil => exact Asking.panic
      | cons q qs =>
        have hB := h req q qs rfl hq
        refine (Asking.attempt (Q := fun _ _ => True) ?_).bind fun _ _ _ _ => Asking.pure trivial
        refine (Steps.perform_asks fuel _ [] ⟨.inl ?_, fun _ => ?_, fun x hx => by cases hx⟩).mono fun _ _ _ _ => trivial
        · rw [hB]; exact ⟨rfl, .refl⟩
        · rw [hB]; exact ⟨rfl, .refl⟩
  | headerOnly h e => exact Asking.pure trivial
  | parseErr a b => exact Asking.pure trivial
  | ioErr => exact Asking.pure trivial

theorem serve_asks {B : Knowledge} {conf : Params} {fuel : Nat} {job : Job} (h : ∀ q, JobAsks p q job → B.question = q) :
    Asking p B (fun _ _ => True) [] (Steps.serve p conf fuel job) := by
  cases job with
  | udp datagram sends =>
    show Asking p B _ [] (Steps.serveUdp p conf fuel datagram sends)
    unfold Steps.serveUdp
    refine (Asking.lift (Q := fun _ _ => True)).bind fun read log' _ hr => ?_
    obtain ⟨rfl, hr⟩ := hr
    refine (handle_asks fun req q rest e hq => h _ ⟨req, q, rest, ?_, hq, rfl⟩).bind fun reply _ _ _ => ?_
    · subst e
      revert hr
      generalize Net.udpRead p datagram = o
      cases o with
      | ok a => intro hr; injection hr with hr; rw [hr]
      | err e => exact nomatch e
      | panic k => intro hr; cases hr
      | diverge => intro hr; cases hr
    · cases reply with
      | none => exact Asking.pure trivial
      | some m => exact Asking.done fun _ _ => trivial
  | tcp stream room =>
    show Asking p B _ [] (Steps.serveTcp p conf fuel stream room >>= fun r => pure ([r.1], r.2))
    refine Asking.bind (Q := fun _ _ => True) ?_ fun _ _ _ _ => Asking.pure trivial
    unfold Steps.serveTcp
    refine (Asking.lift (Q := fun _ _ => True)).bind fun read log' _ hr => ?_
    obtain ⟨rfl, hr⟩ := hr
    refine (handle_asks fun req q rest e hq => h _ ⟨req, q, rest, read.2, ?_, hq, rfl⟩).bind fun reply _ _ _ => ?_
    · rw [← e]
      revert hr
      generalize Net.tcpRead p stream = o
      cases o with
      | ok a => intro hr; injection hr with hr; rw [hr]
      | err e => exact nomatch e
      | panic k => intro hr; cases hr
      | diverge => intro hr; cases hr
    · cases reply with
      | none => exact Asking.pure trivial
      | some m => exact Asking.done fun _ _ => trivial

/-- The message that a job brings. -/
def broughtBy (p : Profile) : Job → Option (Name × RecordType)
  | .udp datagram _ => match Net.udpRead p datagram with
    | .ok (.fullMessage req) => req.questions.head?.map fun q => (q.node, q.recordType)
    | _ => none
  | .tcp stream _ => match Net.tcpRead p stream with
    | .ok (.fullMessage req, _) => req.questions.head?.map fun q => (q.node, q.recordType)
    | _ => none

theorem broughtBy_eq {q : Name × RecordType} {job : Job} (h : JobAsks p q job) : broughtBy p job = some q := by
  cases job with
  | udp datagram sends =>
    obtain ⟨req, q', rest, h1, h2, rfl⟩ := h
    simp only [broughtBy, h1, h2, List.head?_cons, Option.map_some]
  | tcp stream room =>
    obtain ⟨req, q', rest, unread, h1, h2, rfl⟩ := h
    simp only [broughtBy, h1, h2, List.head?_cons, Option.map_some]

/-- A job that asks for nothing ends at once. -/
theorem serve_silent {conf : Params} {fuel : Nat} {job : Job} (h : ∀ q, ¬ JobAsks p q job) : ∃ o, Steps.serve p conf fuel job = .done o := by
  have hh : ∀ read : ReadResult, (∀ req q rest, read = .fullMessage req → req.questions ≠ q :: rest) →
      ∃ o, Steps.handle p conf fuel read = .done o := by
    intro read hr
    cases read with
    | fullMessage req =>
      unfold Steps.handle
      dsimp only
      by_cases hv : (!validate req) = true
      · rw [if_pos hv]; exact ⟨_, rfl⟩
      · rw [if_neg hv]
        cases hq : req.questions with
        | nil => exact ⟨_, rfl⟩
        | cons q qs => exact absurd hq (hr req q qs rfl)
    | headerOnly h e => exact ⟨_, rfl⟩
    | parseErr a b => exact ⟨_, rfl⟩
    | ioErr => exact ⟨_, rfl⟩
  have hb : ∀ {α β : Type} (o : Out LookupErr α) (f : α → Resolver.Task β), (∀ a, o = .ok a → ∃ o', f a = .done o') →
      ∃ o', ((.done o : Resolver.Task α) >>= f) = .done o' := by
    intro α β o f hf
    cases o with
    | ok a => exact hf a rfl
    | err e => exact ⟨_, rfl⟩
    | panic k => exact ⟨_, rfl⟩
    | diverge => exact ⟨_, rfl⟩
  cases job with
  | udp datagram sends =>
    show ∃ o, Steps.serveUdp p conf fuel datagram sends = .done o
    unfold Steps.serveUdp
    refine hb _ _ fun read hr => ?_
    obtain ⟨o, ho⟩ := hh read fun req q rest e hq => h _ ⟨req, q, rest, (by
      subst e
      revert hr
      generalize Net.udpRead p datagram = o
      cases o with
      | ok a => intro hr; injection hr with hr; rw [hr]
      | err e => exact nomatch e
      | panic k => intro hr; cases hr
      | diverge => intro hr; cases hr), hq, rfl⟩
    rw [ho]
    refine hb _ _ fun reply _ => ?_
    cases reply with
    | none => exact ⟨_, rfl⟩
    | some m => exact ⟨_, rfl⟩
  | tcp stream room =>
    show ∃ o, (Steps.serveTcp p conf fuel stream room >>= fun r => pure ([r.1], r.2)) = .done o
    have : ∃ o, Steps.serveTcp p conf fuel stream room = .done o := by
      unfold Steps.serveTcp
      refine hb _ _ fun read hr => ?_
      obtain ⟨o, ho⟩ := hh read.1 fun req q rest e hq => h _ ⟨req, q, rest, read.2, (by
        rw [← e]
        revert hr
        generalize Net.tcpRead p stream = o
        cases o with
        | ok a => intro hr; injection hr with hr; rw [hr]
        | err e => exact nomatch e
        | panic k => intro hr; cases hr
        | diverge => intro hr; cases hr), hq, rfl⟩
      rw [ho]
      refine hb _ _ fun reply _ => ?_
      cases reply with
      | none => exact ⟨_, rfl⟩
      | some m => exact ⟨_, rfl⟩
    obtain ⟨o, ho⟩ := this
    rw [ho]
    exact hb _ _ fun a _ => ⟨_, rfl⟩

/-- C99: the same while requests are served: when a thread sends a datagram, its request was a message, and the query may be sent for the first
question of that message. -/
theorem C99_queries_for_clients (S : Schedule) (net : Nat → List Event → Ip4 → List UInt8 → Option (List UInt8)) (p : Profile) (conf : Params)
    (fuel : Nat) (jobs : Nat → Job) (n i : Nat) (addr : Ip4) (bytes : List UInt8)
    (k : Option (List UInt8) → Resolver.Task (List (List UInt8) × Bool))
    (h : ((System.after S net (.serving p conf fuel jobs .empty) n).threads i).task = .send addr bytes k) :
    ∃ question, JobAsks p question (jobs i) ∧ Justified S net p (.serving p conf fuel jobs .empty) n question addr bytes := by
  by_cases hq : ∃ q, JobAsks p q (jobs i)
  · obtain ⟨q, hq⟩ := hq
    have := justified_of_asking rfl ((asking_after (questions := fun j => (broughtBy p (jobs j)).getD (⟨[]⟩, .A)) Cache.distinct_empty
      (fun key exp rs hf => by cases hf) (fun _ => rfl)
      (fun j => serve_asks fun q hq => by
        show (broughtBy p (jobs j)).getD (⟨[]⟩, .A) = q
        rw [broughtBy_eq hq]
        rfl) n (Nat.le_refl n)).2 i) h
    rw [broughtBy_eq hq] at this
    exact ⟨q, hq, this⟩
  · exfalso
    obtain ⟨o, ho⟩ := serve_silent (p := p) (conf := conf) (fuel := fuel) fun q h => hq ⟨q, h⟩
    have hd := done_stays (S := S) (net := net) (s := .serving p conf fuel jobs .empty) (n := 0) (i := i) ho n
    rw [Nat.zero_add] at hd
    exact Resolver.Task.noConfusion rfl (heq_of_eq (hd.symm.trans h))

/-! ## An example -/

/-- What is about to be sent. -/
def nextQuery {α : Type} : Resolver.Task α → Option (Ip4 × List UInt8)
  | .send addr bytes _ => some (addr, bytes)
  | _ => none

theorem nextQuery_some {α : Type} {t : Resolver.Task α} {x : Ip4 × List UInt8} (h : nextQuery t = some x) : ∃ k, t = .send x.1 x.2 k := by
  unfold nextQuery at h
  split at h
  · injection h with h
    subst h
    exact ⟨_, rfl⟩
  · cases h

set_option maxRecDepth 100000 in
theorem turn_queries : (nextQuery ((turnService 74).threads 0).task = some (⟨198, 41, 0, 4⟩, addressQuery 72 ⟨"n.net.".toList⟩)) ∧
    nextQuery ((turnService 154).threads 0).task = some (⟨2, 2, 2, 2⟩, addressQuery 152 nA) := by decide +kernel

theorem turn_justified {n : Nat} {addr : Ip4} {bytes : List UInt8} (h : nextQuery ((turnService n).threads 0).task = some (addr, bytes)) :
    ∃ question, JobAsks .release question (turnJobs 0) ∧ Justified turns (fun _ _ a q => orderNet a q) .release
      (.serving .release ⟨2, 3, 2, false⟩ 259 turnJobs .empty) n question addr bytes := by
  obtain ⟨k, h⟩ := nextQuery_some h
  exact C99_queries_for_clients _ _ _ _ _ _ _ _ _ _ k h

/-- The client who asks for b.com. makes the resolver ask a root server for the address of n.net., and the server at 2.2.2.2 for that of a.com.: both are
justified. -/
example : (∃ question, JobAsks .release question (turnJobs 0) ∧ Justified turns (fun _ _ a q => orderNet a q) .release
      (.serving .release ⟨2, 3, 2, false⟩ 259 turnJobs .empty) 74 question ⟨198, 41, 0, 4⟩ (addressQuery 72 ⟨"n.net.".toList⟩)) ∧
    ∃ question, JobAsks .release question (turnJobs 0) ∧ Justified turns (fun _ _ a q => orderNet a q) .release
      (.serving .release ⟨2, 3, 2, false⟩ 259 turnJobs .empty) 154 question ⟨2, 2, 2, 2⟩ (addressQuery 152 nA) :=
  ⟨turn_justified turn_queries.1, turn_justified turn_queries.2⟩

theorem race_justified {n : Nat} {addr : Ip4} {bytes : List UInt8} (h : nextQuery ((raceSystem n).threads 1).task = some (addr, bytes)) :
    Justified race (fun _ => lazyEnv.net) .debug (.start .debug ⟨1, 1, 3, false⟩ 5 (fun _ => (⟨"a.".toList⟩, .A)) .empty) n
      (⟨"a.".toList⟩, .A) addr bytes := by
  obtain ⟨k, h⟩ := nextQuery_some h
  exact C99_queries _ _ _ _ _ _ _ 1 _ _ k h

set_option maxRecDepth 100000 in
/-- The same for a lookup. -/
example : Justified race (fun _ => lazyEnv.net) .debug (.start .debug ⟨1, 1, 3, false⟩ 5 (fun _ => (⟨"a.".toList⟩, .A)) .empty) 25
    (⟨"a.".toList⟩, .A) ⟨198, 41, 0, 4⟩ (addressQuery 7 ⟨"b.".toList⟩) :=
  race_justified (by decide +kernel)

end Ariadne.Props
