import Verif.Lemmas.Daemon
import Verif.Spec.Daemon
import Verif.Props.Told
import Verif.Props.Server

/-! # C120: the resolver as a whole

Both servers, their workers, and the cache they share, in any interleaving, with any requests and any behaviour of the servers it asks. -/

namespace Ariadne.Props

open Spec Resolver Server Daemon

variable {Addr R O : Type} {S : Schedule} {net : Nat → List Event → Ip4 → List UInt8 → Option (List UInt8)} {p : Profile} {conf : Params} {fuel : Nat}
  {ut tt : Nat} {c : RecordsCache} {guard : Daemon.State Addr → Prop}

/-! ## Threads -/

/-- The work of the program is that of threads that serve one request each (as in C93, C94, C105, C106), with the same cache. -/
theorem C120_threads {d : Daemon.State Addr} (h : Daemon.Reachable S net p conf fuel ut tt c guard d) :
    ∃ jobs : Nat → Job, d.cache = (System.after S net (.serving p conf fuel jobs c) d.events).cache ∧
      ∀ m x, d.work m = some x → x.1 = jobs m ∧ (System.after S net (.serving p conf fuel jobs c) d.events).threads m = x.2 :=
  have hf := follows h (jobs_work d)
  ⟨d.jobs, hf.cache, fun m x hx => ⟨jobs_work d m x hx, hf.threads m x hx⟩⟩

/-! ## What is sent -/

/-- What has been sent is what the work says that has been done. -/
structure Accounted (π : Port R O) (js : List R) (k : Work) (s : Server.State R O) : Prop where
  sent : s.sent = s.pool.finished.flatMap fun n => match js[n]?, k (π.slot n) with
    | some r, some x => (match x.2.task with | .done (.ok res) => π.result r res | _ => [])
    | _, _ => []
  real : ∀ n ∈ s.pool.finished, ∃ r, js[n]? = some r ∧ (π.skip r false ∨ ∃ x res, k (π.slot n) = some x ∧ x.2.task = .done (.ok res))
  panics : ∀ n ∈ s.pool.crashed, ∃ r, js[n]? = some r ∧ (π.skip r true ∨ ∃ x e, k (π.slot n) = some x ∧ x.2.task = .done (.panic e))

theorem accounted_port {π : Port R O} {stop : Bool} {s t : Server.State R O} {k k' K : Work} {js : List R} (h : PortStep π p conf fuel stop s k t k')
    (hjs : s.jobs <+: js) (hK : k.Le K) (hskip : ∀ n r, js[n]? = some r → (∃ b, π.skip r b) → K (π.slot n) = none) (ha : Accounted π js K s) :
    Accounted π js K t := by
  have hmain : ∀ {a b : Pool.State}, Pool.MainStep a b → b.finished = a.finished ∧ b.crashed = a.crashed := fun h => by cases h <;> exact ⟨rfl, rfl⟩
  cases h with
  | listen h =>
    cases h with
    | finish i n r outs h h' h'' => exact h''.elim
    | crash i n r outs h h' h'' => exact h''.elim
    | drop h1 h2 =>
      obtain ⟨e1, e2⟩ := hmain h2
      exact ⟨by dsimp only; rw [e1]; exact ha.sent, by dsimp only; rw [e1]; exact ha.real, by dsimp only; rw [e2]; exact ha.panics⟩
    | _ => exact ⟨ha.sent, ha.real, ha.panics⟩
  | «begin» i n r j h1 h2 h3 h4 => exact ha
  | finish i n r x res h1 h2 h3 h4 =>
    have g1 := get_prefix hjs h2
    have g2 := hK.ended _ _ _ h3 h4
    refine ⟨?_, fun m hm => ?_, ha.panics⟩
    · dsimp only
      rw [List.flatMap_append, ← ha.sent, List.flatMap_cons, List.flatMap_nil, List.append_nil, g1, g2]
      dsimp only
      rw [h4]
    · rcases List.mem_append.1 hm with hm | hm
      · exact ha.real m hm
      · rw [List.mem_singleton.1 hm]
        exact ⟨r, g1, .inr ⟨x, res, g2, h4⟩⟩
  | crash i n r x e h1 h2 h3 h4 =>
    refine ⟨ha.sent, ha.real, fun m hm => ?_⟩
    rcases List.mem_append.1 hm with hm | hm
    · exact ha.panics m hm
    · rw [List.mem_singleton.1 hm]
      exact ⟨r, get_prefix hjs h2, .inr ⟨x, e, hK.ended _ _ _ h3 h4, h4⟩⟩
  | skip i n r h1 h2 h3 h4 =>
    have g1 := get_prefix hjs h2
    refine ⟨?_, fun m hm => ?_, ha.panics⟩
    · dsimp only
      rw [List.flatMap_append, ← ha.sent, List.flatMap_cons, List.flatMap_nil, List.append_nil, g1, hskip n r g1 ⟨_, h4⟩]
      dsimp only
      rw [List.append_nil]
    · rcases List.mem_append.1 hm with hm | hm
      · exact ha.real m hm
      · rw [List.mem_singleton.1 hm]
        exact ⟨r, g1, .inl h4⟩
  | skipPanic i n r h1 h2 h3 h4 =>
    refine ⟨ha.sent, ha.real, fun m hm => ?_⟩
    rcases List.mem_append.1 hm with hm | hm
    · exact ha.panics m hm
    · rw [List.mem_singleton.1 hm]
      exact ⟨r, get_prefix hjs h2, .inl h4⟩

theorem skip_udp {d : Daemon.State Addr} (n : Nat) (r : Packet Addr) (_ : d.udp.jobs[n]? = some r) (h : ∃ b, (udpPort (Addr := Addr)).skip r b) :
    d.work ((udpPort (Addr := Addr)).slot n) = none := h.elim fun _ h => h.elim

theorem skip_tcp {d : Daemon.State Addr} (ho : Owned d) (n : Nat) (r : Conn Addr) (hr : d.tcp.jobs[n]? = some r)
    (h : ∃ b, (tcpPort (Addr := Addr)).skip r b) : d.work ((tcpPort (Addr := Addr)).slot n) = none := by
  cases hk : d.work ((tcpPort (Addr := Addr)).slot n) with
  | none => rfl
  | some x =>
    exfalso
    obtain ⟨b, hb⟩ := h
    have hs : (tcpPort (Addr := Addr)).slot n = 2 * n + 1 := rfl
    rcases ho.owner _ x hk with ⟨n', r', h1, -, -⟩ | ⟨n', r', h1, h2, h3⟩
    · omega
    · have hn : n' = n := by omega
      subst hn
      obtain rfl := Option.some.inj (hr.symm.trans h2)
      obtain ⟨h4, h5, -⟩ := h3
      unfold tcpPort at hb
      simp only [h4, h5, Bool.true_eq_false, false_and, if_false] at hb

theorem accounted {d e : Daemon.State Addr} (h : Daemon.Reachable S net p conf fuel ut tt c guard d) (hle : Daemon.Le d e) (ho : Owned e) :
    Accounted udpPort e.udp.jobs e.work d.udp ∧ Accounted tcpPort e.tcp.jobs e.work d.tcp := by
  induction h with
  | init => exact ⟨⟨rfl, fun n hn => absurd hn (List.not_mem_nil), fun n hn => absurd hn (List.not_mem_nil)⟩,
      ⟨rfl, fun n hn => absurd hn (List.not_mem_nil), fun n hn => absurd hn (List.not_mem_nil)⟩⟩
  | step h hg hs ih =>
    have hd := (step_le hs).trans hle
    have ih := ih hd
    cases hs with
    | udp hp => exact ⟨accounted_port hp hd.udp hd.work skip_udp ih.1, ih.2⟩
    | tcp hp => exact ⟨ih.1, accounted_port hp hd.tcp hd.work (skip_tcp ho) ih.2⟩
    | udpArrive h1 => cases h1; exact ⟨⟨ih.1.sent, ih.1.real, ih.1.panics⟩, ih.2⟩
    | tcpArrive h1 => cases h1; exact ⟨ih.1, ⟨ih.2.sent, ih.2.real, ih.2.panics⟩⟩
    | _ => exact ih

theorem account {d : Daemon.State Addr} (h : Daemon.Reachable S net p conf fuel ut tt c guard d) :
    Accounted udpPort d.udp.jobs d.work d.udp ∧ Accounted tcpPort d.tcp.jobs d.work d.tcp := accounted h (.refl d) (owned h)

theorem done_owner {d : Daemon.State Addr} (h : Daemon.Reachable S net p conf fuel ut tt c guard d) {n : Nat} {x : Job × Thread (List (List UInt8) × Bool)} :
    (∀ r, d.udp.jobs[n]? = some r → d.work (2 * n) = some x → (udpPort (Addr := Addr)).job r x.1) ∧
    ∀ r, d.tcp.jobs[n]? = some r → d.work (2 * n + 1) = some x → (tcpPort (Addr := Addr)).job r x.1 := by
  constructor
  · intro r hr hx
    rcases (owned h).owner _ x hx with ⟨n', r', h1, h2, h3⟩ | ⟨n', r', h1, -, -⟩
    · have hn : n' = n := by omega
      subst hn
      obtain rfl := Option.some.inj (hr.symm.trans h2)
      exact h3
    · omega
  · intro r hr hx
    rcases (owned h).owner _ x hx with ⟨n', r', h1, -, -⟩ | ⟨n', r', h1, h2, h3⟩
    · omega
    · have hn : n' = n := by omega
      subst hn
      obtain rfl := Option.some.inj (hr.symm.trans h2)
      exact h3

/-! ## Every request at most once, and at rest exactly once -/

theorem at_rest_running {π : Port R O} {stop : Bool} {s : Server.State R O} {k : Work} (hr : AtRest π p conf fuel stop s k)
    (hall : ∀ r, (∃ j, π.job r j) ∨ ∃ b, π.skip r b) {i n : Nat} {r : R} (h1 : s.pool.workers[i]? = some (.running n)) (h2 : s.jobs[n]? = some r) :
    False := by
  have hlen : ∀ {l : List Nat} {n : Nat}, l ++ [n] ≠ l := fun {l n} h => by
    have := congrArg List.length h
    simp at this
  cases hk : k (π.slot n) with
  | some x =>
    rcases hr.over n x hk with ⟨res, ho⟩ | ⟨e, ho⟩
    · have := (hr.still _ _ (.finish i n r x res h1 h2 hk ho)).1
      exact hlen (congrArg (fun s => s.pool.finished) this)
    · have := (hr.still _ _ (.crash i n r x e h1 h2 hk ho)).1
      exact hlen (congrArg (fun s => s.pool.crashed) this)
  | none =>
    rcases hall r with ⟨j, hj⟩ | ⟨b, hb⟩
    · have := (hr.still _ _ (.begin i n r j h1 h2 hj hk)).2
      have := congrFun this (π.slot n)
      rw [if_pos rfl, hk] at this
      cases this
    · cases b with
      | false =>
        have := (hr.still _ _ (.skip i n r h1 h2 hk hb)).1
        exact hlen (congrArg (fun s => s.pool.finished) this)
      | true =>
        have := (hr.still _ _ (.skipPanic i n r h1 h2 hk hb)).1
        exact hlen (congrArg (fun s => s.pool.crashed) this)

theorem at_rest_idle {π : Port R O} {stop : Bool} {s : Server.State R O} {k : Work} (hr : AtRest π p conf fuel stop s k)
    (hall : ∀ r, (∃ j, π.job r j) ∨ ∃ b, π.skip r b) : Server.Idle (kind π s.jobs k) stop s := by
  refine ⟨hr.listening, hr.inbox, fun t ht => ?_⟩
  have back : Server.Step (quiet π.mayDrop) stop s t → s = t := fun h => ((hr.still t k (.listen h)).1).symm
  cases ht with
  | finish i n r outs h1 h2 h3 => exact (at_rest_running hr hall h1 h2).elim
  | crash i n r outs h1 h2 h3 => exact (at_rest_running hr hall h1 h2).elim
  | bound h => exact back (.bound h)
  | bindErr h => exact back (.bindErr h)
  | recv r rest h h' => exact back (.recv r rest h h')
  | recvErr h => rfl
  | seeStop r h h' => exact back (.seeStop r h h')
  | clear r h h' => exact back (.clear r h h')
  | cloneErr r h h' => exact back (.cloneErr r h h')
  | submit r h h' => exact back (.submit r h h')
  | abort r h h' => exact back (.abort r h h')
  | drop h h' => exact back (.drop h h')
  | dropEnd h h' => exact back (.dropEnd h h')
  | dropPanic h h' => exact back (.dropPanic h h')
  | lock i h h' => exact back (.lock i h h')
  | takeJob i n q h h' => exact back (.takeJob i n q h h')
  | takeStop i q h h' => exact back (.takeStop i q h h')
  | orphan i h h' h'' => exact back (.orphan i h h' h'')

/-- One server: everything sent was sent by a worker for its request, every accepted request was handled at most once, and at rest exactly once. -/
theorem once_server {π : Port R O} {threads : Nat} (ht : 0 < threads) {stop : Bool} {s : Server.State R O} {k : Work}
    (h : Server.Reachable (kind π s.jobs k) threads stop s) (ha : Accounted π s.jobs k s) (hall : ∀ r, (∃ j, π.job r j) ∨ ∃ b, π.skip r b) :
    s.sent = s.pool.finished.flatMap (sentFor π s k) ∧ s.jobs.Sublist s.seen ∧ (s.pool.finished ++ s.pool.crashed).Nodup ∧
    (∀ n ∈ s.pool.finished ++ s.pool.crashed, n < s.jobs.length) ∧
    (AtRest π p conf fuel stop s k → s.pool.crashed.length < threads →
      (s.pool.finished ++ s.pool.crashed).Perm (List.range s.jobs.length) ∧ (π.mayDrop = false → s.jobs = s.seen)) := by
  obtain ⟨runs, hi⟩ := Server.inv_reachable h
  obtain ⟨-, -, hsub, -⟩ := C72_served_once _ threads ht stop s h
  have c31 := C31_fifo_at_most_once threads ht s.pool hi.pool
  have hnd : (s.pool.running ++ s.pool.finished ++ s.pool.crashed).Nodup := by
    rw [c31.2.2.2.2.nodup_iff, c31.1]
    exact List.nodup_range
  have hnd' : (s.pool.finished ++ s.pool.crashed).Nodup := by
    rw [List.append_assoc] at hnd
    exact (List.nodup_append.1 hnd).2.1
  refine ⟨ha.sent, hsub, hnd', fun n hn => ?_, fun hr hc => ?_⟩
  · rcases List.mem_append.1 hn with hn | hn
    · obtain ⟨r, hr, -⟩ := ha.real n hn
      exact (List.getElem?_eq_some_iff.1 hr).1
    · obtain ⟨r, hr, -⟩ := ha.panics n hn
      exact (List.getElem?_eq_some_iff.1 hr).1
  · have hid := at_rest_idle hr hall
    obtain ⟨h1, h2, h3⟩ := rest_done ht h hid (fun i n r g1 g2 => (at_rest_running hr hall g1 g2).elim) hc
    have e := c31.2.2.1
    have q := c31.2.2.2.2
    rw [h3, List.append_nil, hi.jobs] at e
    rw [h2, List.nil_append, e] at q
    refine ⟨q, fun hd => ?_⟩
    have := hi.all hd (.inr (by rw [h1]; rfl))
    rw [h1] at this
    simpa [Phase.inHand] using this.symm

theorem udp_all (r : Packet Addr) : (∃ j, (udpPort (Addr := Addr)).job r j) ∨ ∃ b, (udpPort (Addr := Addr)).skip r b := .inl ⟨_, true, rfl⟩

theorem tcp_all (r : Conn Addr) : (∃ j, (tcpPort (Addr := Addr)).job r j) ∨ ∃ b, (tcpPort (Addr := Addr)).skip r b := by
  cases h1 : r.setupOk with
  | false => exact .inr ⟨false, by unfold tcpPort; simp only [h1, if_true]⟩
  | true =>
    cases h2 : r.cloneOk with
    | false => exact .inr ⟨true, by unfold tcpPort; simp only [h1, h2, Bool.true_eq_false, if_false, and_self]⟩
    | true => exact .inl ⟨_, h1, h2, rfl⟩

/-- **C120**, requests. In every execution of the resolver, everything a server has sent was sent by a worker that had finished its request, for this request (`sentFor`);
only requests taken from the socket are accepted, and each is handled at most once, with or without a panic. When a server is at rest, and one of its workers is left, each accepted
request has been handled exactly once; and over TCP all requests taken from the socket were accepted. -/
theorem C120_once {d : Daemon.State Addr} (h : Daemon.Reachable S net p conf fuel ut tt c guard d) (hu : 0 < ut) (ht : 0 < tt) :
    (d.udp.sent = d.udp.pool.finished.flatMap (sentFor udpPort d.udp d.work) ∧ d.udp.jobs.Sublist d.udp.seen ∧
      (d.udp.pool.finished ++ d.udp.pool.crashed).Nodup ∧ (∀ n ∈ d.udp.pool.finished ++ d.udp.pool.crashed, n < d.udp.jobs.length) ∧
      (AtRest udpPort p conf fuel d.stop d.udp d.work → d.udp.pool.crashed.length < ut →
        (d.udp.pool.finished ++ d.udp.pool.crashed).Perm (List.range d.udp.jobs.length))) ∧
    d.tcp.sent = d.tcp.pool.finished.flatMap (sentFor tcpPort d.tcp d.work) ∧ d.tcp.jobs.Sublist d.tcp.seen ∧
      (d.tcp.pool.finished ++ d.tcp.pool.crashed).Nodup ∧ (∀ n ∈ d.tcp.pool.finished ++ d.tcp.pool.crashed, n < d.tcp.jobs.length) ∧
      (AtRest tcpPort p conf fuel d.stop d.tcp d.work → d.tcp.pool.crashed.length < tt →
        (d.tcp.pool.finished ++ d.tcp.pool.crashed).Perm (List.range d.tcp.jobs.length) ∧ d.tcp.jobs = d.tcp.seen) := by
  obtain ⟨hs1, hs2⟩ := servers h (.refl d)
  obtain ⟨ha1, ha2⟩ := account h
  obtain ⟨a1, a2, a3, a4, a5⟩ := once_server (p := p) (conf := conf) (fuel := fuel) hu hs1 ha1 udp_all
  obtain ⟨b1, b2, b3, b4, b5⟩ := once_server (p := p) (conf := conf) (fuel := fuel) ht hs2 ha2 tcp_all
  exact ⟨⟨a1, a2, a3, a4, fun hr hc => (a5 hr hc).1⟩, b1, b2, b3, b4, fun hr hc => ⟨(b5 hr hc).1, (b5 hr hc).2 rfl⟩⟩

/-! ## What clients are told -/

theorem log_grows {α : Type} {s : System α} (j m : Nat) : ∀ n, m ≤ n → ((System.after S net s m).threads j).log <+: ((System.after S net s n).threads j).log
  | n, h => by
    obtain ⟨k, rfl⟩ := Nat.exists_eq_add_of_le h
    clear h
    induction k with
    | zero => exact List.prefix_refl _
    | succ k ih =>
      refine ih.trans ?_
      show _ <+: ((System.next S net (m + k) (System.after S net s (m + k))).threads j).log
      unfold System.next
      cases hm : S.move (m + k) with
      | clean r => exact List.prefix_refl _
      | step i =>
        dsimp only
        by_cases hj : j = i
        · subst hj
          rw [if_pos rfl]
          unfold Thread.step
          split <;> first | exact List.prefix_refl _ | exact List.prefix_append _ _
        · rw [if_neg hj]

theorem told_work {d : Daemon.State Addr} (h : Daemon.Reachable S net p conf fuel ut tt .empty guard d) {m : Nat}
    {x : Job × Thread (List (List UInt8) × Bool)} {res : List (List UInt8) × Bool} (hx : d.work m = some x) (hd : x.2.task = .done (.ok res)) :
    SaysNothing res x.1 ∨ ∃ msg, IsSendingOf msg res x.1 ∧ AllKnown p d msg := by
  have hf := follows h (jobs_work d)
  have ht : ((System.after S net (.serving p conf fuel d.jobs .empty) d.events).threads m).task = .done (.ok res) := by rw [hf.threads m x hx, hd]
  rw [jobs_work d m x hx]
  rcases C105_told S net p conf fuel d.jobs d.events m 0 res (fun _ h => absurd h (Nat.not_lt_zero _)) ht with h1 | ⟨msg, h1, h2⟩
  · exact .inl h1
  · refine .inr ⟨msg, h1, fun y hy => ?_⟩
    obtain ⟨n, r, ⟨hn, j, ⟨hb, -⟩, hr⟩, hc⟩ := (h2 y hy).1
    cases hw : d.work j with
    | none => exact absurd hb (hf.waiting j hw n hn)
    | some z =>
      refine ⟨j, z, hw, r, ?_, hc⟩
      rw [← hf.threads j z hw]
      obtain ⟨t, ht⟩ := log_grows (S := S) (net := net) (s := .serving p conf fuel d.jobs .empty) j (n + 1) d.events hn
      rw [← ht, receivedBy_append]
      exact List.mem_append_left _ hr

/-- **C120**, records. In every execution of the resolver, whatever it has sent to a client went to the address a request had come from, and is, whole or in part,
a message in which every record says what a record said that some worker had received from a server: clients are told nothing else,
whatever anybody asks in the meantime, and whatever happens to the cache. -/
theorem C120_told {d : Daemon.State Addr} (h : Daemon.Reachable S net p conf fuel ut tt .empty guard d) (hu : 0 < ut) (ht : 0 < tt) :
    (∀ o ∈ d.udp.sent, ∃ r ∈ d.udp.seen, r.addr = o.addr ∧ ∃ msg sends b, Net.udpReply msg [sends] = .ok ([o.bytes], b) ∧ AllKnown p d msg) ∧
    ∀ o ∈ d.tcp.sent, ∃ r ∈ d.tcp.seen, r.addr = o.addr ∧ ∃ msg b, Net.tcpReply msg r.room = .ok (o.bytes, b) ∧ AllKnown p d msg := by
  obtain ⟨⟨hs, hsub, -⟩, hs', hsub', -⟩ := C120_once h hu ht
  constructor
  · intro o ho
    rw [hs, List.mem_flatMap] at ho
    obtain ⟨n, hn, ho⟩ := ho
    obtain ⟨r, hr, hh⟩ := (account h).1.real n hn
    rcases hh with hh | ⟨x, res, hx, hd⟩
    · exact hh.elim
    · unfold sentFor at ho
      rw [hr, hx] at ho
      dsimp only at ho
      rw [hd] at ho
      obtain ⟨out, hout, rfl⟩ := List.mem_map.1 ho
      refine ⟨r, hsub.subset (List.mem_of_getElem? hr), rfl, ?_⟩
      obtain ⟨sendOk, hj⟩ := (done_owner h).1 r hr hx
      rcases told_work h hx hd with h1 | ⟨msg, h1, h2⟩
      · rw [hj] at h1
        exact absurd hout (by rw [show res.1 = [] from h1]; exact List.not_mem_nil)
      · rw [hj] at h1
        obtain ⟨ds, b⟩ := res
        unfold IsSendingOf at h1
        dsimp only at h1
        have hone := udpReply_one h1
        refine ⟨msg, if sendOk then some Message.MAX_UDP_LEN_BYTES else none, b, ?_, h2⟩
        cases ds with
        | nil => cases hout
        | cons y ys =>
          cases ys with
          | nil =>
            have e := List.mem_singleton.1 hout
            subst e
            exact h1
          | cons z zs => simp at hone
  · intro o ho
    rw [hs', List.mem_flatMap] at ho
    obtain ⟨n, hn, ho⟩ := ho
    obtain ⟨r, hr, hh⟩ := (account h).2.real n hn
    rcases hh with hh | ⟨x, res, hx, hd⟩
    · unfold sentFor at ho
      rw [hr, skip_tcp (owned h) n r hr ⟨_, hh⟩] at ho
      cases ho
    · unfold sentFor at ho
      rw [hr, hx] at ho
      dsimp only at ho
      rw [hd] at ho
      obtain ⟨out, hout, rfl⟩ := List.mem_map.1 ho
      obtain ⟨hout, hne⟩ := List.mem_filter.1 hout
      refine ⟨r, hsub'.subset (List.mem_of_getElem? hr), rfl, ?_⟩
      obtain ⟨-, -, hj⟩ := (done_owner h).2 r hr hx
      rcases told_work h hx hd with h1 | ⟨msg, h1, h2⟩
      · rw [hj] at h1
        rw [show res.1 = [[]] from h1] at hout
        rw [List.mem_singleton.1 hout] at hne
        simp at hne
      · rw [hj] at h1
        obtain ⟨y, h3, h4⟩ := h1
        rw [h4] at hout
        rw [List.mem_singleton.1 hout]
        exact ⟨msg, res.2, h3, h2⟩

/-! ## Answers -/

/-- For less than 2³² seconds, with limits that are not 0. -/
structure Timed (S : Schedule) (conf : Params) (lo : Nat) : Prop where
  times : ∀ m, lo < S.time m ∧ S.time' m < lo + 2 ^ 32 * NANOS
  nsq : conf.maxNsQueried ≠ 0
  retries : conf.maxUdpRetries ≠ 0

theorem service_of {lo : Nat} (hs : Timed S conf lo) {d : Daemon.State Addr} (h : Daemon.Reachable S net p conf fuel ut tt .empty (Patient S lo) d) :
    Service S net p conf fuel d.jobs .empty lo d.events where
  times := hs.times
  good := fun _ _ _ h => nomatch h
  distinct := Cache.distinct_empty
  expires := fun _ _ _ h => nomatch h
  modest := guarded h (jobs_work d) (G := fun m s => Modest S lo m s) fun e hp hf hw i key ttl records k hm ht => by
    obtain ⟨x, hx⟩ := hw i hm
    exact hp i x key ttl records k hm hx (by rw [← hf.threads i x hx]; exact ht)
  nsq := hs.nsq
  retries := hs.retries

theorem answers_work {lo : Nat} (hs : Timed S conf lo) {d : Daemon.State Addr}
    (h : Daemon.Reachable S net p conf fuel ut tt .empty (Patient S lo) d) {m : Nat}
    {x : Job × Thread (List (List UInt8) × Bool)} {res : List (List UInt8) × Bool} {req : Message} (hx : d.work m = some x)
    (hd : x.2.task = .done (.ok res)) (hq : Delivers p req x.1) :
    ∃ msg, IsSendingOf msg res x.1 ∧ AnswersRequest p conf.maxCnameRedir x.2.log req msg := by
  have hf := follows h (jobs_work d)
  have ht : ((System.after S net (.serving p conf fuel d.jobs .empty) d.events).threads m).task = .done (.ok res) := by rw [hf.threads m x hx, hd]
  have := C106_answers_for_clients (service_of hs h) m req res (jobs_work d m x hx ▸ hq) ht
  rw [hf.threads m x hx, ← jobs_work d m x hx] at this
  exact this

/-- **C120**, answers. Every request that has been handled, and that brought a message, was answered with a reply to it: what the worker sent to this client, and nothing
else was sent for this request, is a message (or what the socket took of it) that has the id and the questions of the request, and records that lead from the name in question to records of the type
in question, or says that the name does not exist, as a server had said to this worker, or that there was a failure; FORMERR, if the message was no
request with one question. -/
theorem C120_answers {lo : Nat} (hs : Timed S conf lo) {d : Daemon.State Addr}
    (h : Daemon.Reachable S net p conf fuel ut tt .empty (Patient S lo) d) :
    (∀ n ∈ d.udp.pool.finished, ∃ r, d.udp.jobs[n]? = some r ∧ ∀ req, Net.udpRead p r.bytes = .ok (.fullMessage req) →
      ∃ (sendOk : Bool) (msg : Message) (outs : List (List UInt8)) (b : Bool) (x : Job × Thread (List (List UInt8) × Bool)),
        d.work (2 * n) = some x ∧
        Net.udpReply msg [if sendOk then some Message.MAX_UDP_LEN_BYTES else none] = .ok (outs, b) ∧
        sentFor udpPort d.udp d.work n = outs.map (fun o => ⟨r.addr, o⟩) ∧ AnswersRequest p conf.maxCnameRedir x.2.log req msg) ∧
    ∀ n ∈ d.tcp.pool.finished, ∃ r, d.tcp.jobs[n]? = some r ∧ ∀ req rest, r.setupOk = true → Net.tcpRead p r.stream = .ok (.fullMessage req, rest) →
      ∃ (msg : Message) (out : List UInt8) (b : Bool) (x : Job × Thread (List (List UInt8) × Bool)), d.work (2 * n + 1) = some x ∧
        Net.tcpReply msg r.room = .ok (out, b) ∧
        sentFor tcpPort d.tcp d.work n = (if out = [] then [] else [⟨r.addr, out⟩]) ∧ AnswersRequest p conf.maxCnameRedir x.2.log req msg := by
  constructor
  · intro n hn
    obtain ⟨r, hr, hh⟩ := (account h).1.real n hn
    refine ⟨r, hr, fun req hq => ?_⟩
    rcases hh with hh | ⟨x, res, hx, hd⟩
    · exact hh.elim
    · obtain ⟨sendOk, hj⟩ := (done_owner h).1 r hr hx
      obtain ⟨msg, h1, h2⟩ := answers_work hs h hx hd (by rw [hj]; exact hq)
      rw [hj] at h1
      refine ⟨sendOk, msg, res.1, res.2, x, hx, h1, ?_, h2⟩
      unfold sentFor
      rw [hr, hx]
      dsimp only
      rw [hd]
      rfl
  · intro n hn
    obtain ⟨r, hr, hh⟩ := (account h).2.real n hn
    refine ⟨r, hr, fun req rest hset hq => ?_⟩
    rcases hh with hh | ⟨x, res, hx, hd⟩
    · unfold tcpPort at hh
      simp only [hset, Bool.true_eq_false, Bool.false_eq_true, if_false, and_false] at hh
    · obtain ⟨-, -, hj⟩ := (done_owner h).2 r hr hx
      obtain ⟨msg, h1, h2⟩ := answers_work hs h hx hd (by rw [hj]; exact ⟨rest, hq⟩)
      rw [hj] at h1
      obtain ⟨out, h3, h4⟩ := h1
      refine ⟨msg, out, res.2, x, hx, h3, ?_, h2⟩
      unfold sentFor
      rw [hr, hx]
      dsimp only
      rw [hd]
      dsimp only [tcpPort]
      rw [h4]
      by_cases ho : out = []
      · rw [if_pos ho, ho]; rfl
      · rw [if_neg ho]
        simp [List.filter, ho]

/-! ## Both servers -/

theorem serve_udp_def {env : Env} {datagram : List UInt8} {sends : List (Option Nat)} :
    serve env p conf fuel (.udp datagram sends) = serveUdp env p conf fuel datagram sends := by unfold Resolver.serve; rfl

theorem serve_tcp_def {env : Env} {w : World} {stream : List UInt8} {room : Nat} :
    (serve env p conf fuel (.tcp stream room) w).1 = (Resolver.M.bind (serveTcp env p conf fuel stream room) (fun r => pure ([r.1], r.2)) w).1 := by
  unfold Resolver.serve; rfl

/-- A server of a handler that does more can do more. -/
theorem reachable_mono {k k' : Kind R O} {n : Nat} {stop : Bool} {s : Server.State R O} (hd : k.mayDrop = k'.mayDrop)
    (hk : ∀ r outs b, k.serves r outs b → k'.serves r outs b) (h : Server.Reachable k n stop s) : Server.Reachable k' n stop s := by
  induction h with
  | init => exact .init
  | arrive _ h ih => exact .arrive ih h
  | setStop _ ih => exact .setStop ih
  | step _ h ih =>
    refine .step ih ?_
    cases h with
    | bound h => exact .bound h
    | bindErr h => exact .bindErr h
    | recv r rest h h' => exact .recv r rest h h'
    | recvErr h => exact .recvErr h
    | seeStop r h h' => exact .seeStop r h h'
    | clear r h h' => exact .clear r h h'
    | cloneErr r h h' => exact .cloneErr r h (hd ▸ h')
    | submit r h h' => exact .submit r h h'
    | abort r h h' => exact .abort r h h'
    | drop h h' => exact .drop h h'
    | dropEnd h h' => exact .dropEnd h h'
    | dropPanic h h' => exact .dropPanic h h'
    | lock i h h' => exact .lock i h h'
    | takeJob i n q h h' => exact .takeJob i n q h h'
    | takeStop i q h h' => exact .takeStop i q h h'
    | finish i n r outs h h' h'' => exact .finish i n r outs h h' (hk _ _ _ h'')
    | crash i n r outs h h' h'' => exact .crash i n r outs h h' (hk _ _ _ h'')
    | orphan i h h' h'' => exact .orphan i h h' h''

/-- **C120**, servers. As servers (Model/Server), they do nothing that servers of this handler do not do, so that all that is proved of these (C72–C74) holds of them. -/
theorem C120_servers {lo : Nat} (hs : Timed S conf lo) {d : Daemon.State Addr}
    (h : Daemon.Reachable S net p conf fuel ut tt .empty (Patient S lo) d) :
    Server.Reachable (resolverUdp p conf) ut d.stop d.udp ∧ Server.Reachable (resolverTcp p conf) tt d.stop d.tcp := by
  have hf := follows h (jobs_work d)
  have single : ∀ {m : Nat} {x : Job × Thread (List (List UInt8) × Bool)} {o : Out LookupErr (List (List UInt8) × Bool)}, d.work m = some x →
      x.2.task = .done o → ∃ env w, o = (serve env p conf fuel x.1 w).1 := by
    intro m x o hx ho
    obtain ⟨env, w', -, -, he, -⟩ := (C93_service_in_threads (service_of hs h)).2 m o (by rw [hf.threads m x hx, ho])
    exact ⟨env, _, by rw [jobs_work d m x hx, he]⟩
  have tcpOut : ∀ {env : Env} {w : World} {stream : List UInt8} {room : Nat} {v : List (List UInt8) × Bool},
      (serve env p conf fuel (.tcp stream room) w).1 = .ok v → ∃ bytes, v.1 = [bytes] ∧ (serveTcp env p conf fuel stream room w).1 = .ok (bytes, v.2) := by
    intro env w stream room v hv
    rw [serve_tcp_def] at hv
    unfold Resolver.M.bind at hv
    generalize serveTcp env p conf fuel stream room w = y at hv
    obtain ⟨o, w'⟩ := y
    cases o with
    | ok o => cases hv; exact ⟨o.1, rfl, rfl⟩
    | _ => cases hv
  have tcpPanic : ∀ {env : Env} {w : World} {stream : List UInt8} {room : Nat} {e : Panic},
      (serve env p conf fuel (.tcp stream room) w).1 = .panic e → (serveTcp env p conf fuel stream room w).1 = .panic e := by
    intro env w stream room v hv
    rw [serve_tcp_def] at hv
    unfold Resolver.M.bind at hv
    generalize serveTcp env p conf fuel stream room w = y at hv
    obtain ⟨o, w'⟩ := y
    cases o with
    | panic k => cases hv; rfl
    | _ => cases hv
  obtain ⟨h1, h2⟩ := servers h (.refl d)
  refine ⟨reachable_mono (k := kind udpPort d.udp.jobs d.work) (k' := resolverUdp p conf) rfl (fun r outs b hk => ?_) h1,
    reachable_mono (k := kind tcpPort d.tcp.jobs d.work) (k' := resolverTcp p conf) rfl (fun r outs b hk => ?_) h2⟩
  · rcases hk with ⟨hk, -⟩ | ⟨n, x, hr, hx, hk⟩
    · exact hk.elim
    · obtain ⟨sendOk, hj⟩ := (done_owner h).1 r hr hx
      rcases hk with ⟨res, ho, rfl, rfl⟩ | ⟨e, ho, rfl, rfl⟩
      · obtain ⟨env, w, he⟩ := single hx ho
        rw [hj, serve_udp_def] at he
        simp only [resolverUdp, udpKind, Bool.false_eq_true, if_false]
        refine ⟨sendOk, res.1, res.2, ⟨env, w, fuel, ?_⟩, rfl⟩
        rw [← he]; rfl
      · obtain ⟨env, w, he⟩ := single hx ho
        rw [hj, serve_udp_def] at he
        simp only [resolverUdp, udpKind, if_true]
        refine ⟨trivial, sendOk, e, env, w, fuel, ?_⟩
        rw [← he]; rfl
  · unfold resolverTcp tcpKind
    dsimp only
    rcases hk with ⟨hk, rfl⟩ | ⟨n, x, hr, hx, hk⟩
    · unfold tcpPort at hk
      dsimp only at hk
      by_cases h1 : r.setupOk = false
      · rw [if_pos h1] at hk ⊢
        exact ⟨rfl, hk⟩
      · rw [if_neg h1] at hk ⊢
        rw [if_pos hk.1]
        exact ⟨rfl, hk.2⟩
    · obtain ⟨g1, g2, hj⟩ := (done_owner h).2 r hr hx
      rw [if_neg (by rw [g1]; decide), if_neg (by rw [g2]; decide)]
      rcases hk with ⟨res, ho, rfl, rfl⟩ | ⟨e, ho, rfl, rfl⟩
      · obtain ⟨env, w, he⟩ := single hx ho
        rw [hj] at he
        obtain ⟨bytes, e1, e2⟩ := tcpOut he.symm
        refine ⟨bytes, res.2, ⟨env, w, fuel, by rw [e2]; rfl⟩, ?_⟩
        dsimp only [tcpPort]
        rw [e1]
        by_cases ho : bytes = []
        · rw [if_pos ho, ho]; rfl
        · rw [if_neg ho]
          simp [List.filter, ho]
      · obtain ⟨env, w, he⟩ := single hx ho
        rw [hj] at he
        exact ⟨rfl, e, env, w, fuel, by rw [tcpPanic he.symm]; rfl⟩

/-! ## An example

A request over UDP and one over TCP are served at the same time, by the only worker of each server. -/

/-- The system that serves the two. -/
abbrev twoThreads (S : Schedule) (net : Nat → List Event → Ip4 → List UInt8 → Option (List UInt8)) (p : Profile) (conf : Params) (fuel : Nat)
    (J : Nat → Job) (m : Nat) : System (List (List UInt8) × Bool) := System.after S net (.serving p conf fuel J .empty) m

/-- The work after so many events. -/
def twoWork (S : Schedule) (net : Nat → List Event → Ip4 → List UInt8 → Option (List UInt8)) (p : Profile) (conf : Params) (fuel : Nat)
    (J : Nat → Job) (m : Nat) : Work := fun j => if j < 2 then some (J j, (twoThreads S net p conf fuel J m).threads j) else none

/-- The program while both requests are being served. -/
def twoServing (S : Schedule) (net : Nat → List Event → Ip4 → List UInt8 → Option (List UInt8)) (p : Profile) (conf : Params) (fuel : Nat)
    (J : Nat → Job) (r : Packet Nat) (q : Conn Nat) (m : Nat) : Daemon.State Nat where
  udp := ⟨.receiving, ⟨.using, [], [.running 0], 1, [0], [], []⟩, [], [r], [r], []⟩
  tcp := ⟨.receiving, ⟨.using, [], [.running 0], 1, [0], [], []⟩, [], [q], [q], []⟩
  stop := false
  cache := (twoThreads S net p conf fuel J m).cache
  work := twoWork S net p conf fuel J m
  events := m

/-- The program when both have been served. -/
def twoServed (S : Schedule) (net : Nat → List Event → Ip4 → List UInt8 → Option (List UInt8)) (p : Profile) (conf : Params) (fuel : Nat)
    (J : Nat → Job) (r : Packet Nat) (q : Conn Nat) (outs outs' : List (Packet Nat)) (m : Nat) : Daemon.State Nat where
  udp := ⟨.receiving, ⟨.using, [], [.holding], 1, [0], [0], []⟩, [], [r], [r], outs⟩
  tcp := ⟨.receiving, ⟨.using, [], [.holding], 1, [0], [0], []⟩, [], [q], [q], outs'⟩
  stop := false
  cache := (twoThreads S net p conf fuel J m).cache
  work := twoWork S net p conf fuel J m
  events := m

/-- A worker begins, and this is the work then. -/
theorem begins {π : Port R O} {stop : Bool} {s : Server.State R O} {k k' : Work} (i n : Nat) (r : R) (j : Job)
    (h1 : s.pool.workers[i]? = some (.running n)) (h2 : s.jobs[n]? = some r) (h3 : π.job r j) (h4 : k (π.slot n) = none)
    (hk : ∀ m, k' m = if m = π.slot n then some (j, ⟨Steps.serve p conf fuel j, []⟩) else k m) : PortStep π p conf fuel stop s k s k' := by
  obtain rfl : k' = _ := funext hk
  exact .begin i n r j h1 h2 h3 h4

theorem twoWork_thread {J : Nat → Job} {m j : Nat} {x : Job × Thread (List (List UInt8) × Bool)} (h : twoWork S net p conf fuel J m j = some x) :
    x.2 = (twoThreads S net p conf fuel J m).threads j := by
  unfold twoWork at h
  split at h
  · rw [← Option.some.inj h]
  · cases h

theorem two_begin {J : Nat → Job} {r : Packet Nat} {q : Conn Nat} (h0 : (udpPort (Addr := Nat)).job r (J 0)) (h1 : (tcpPort (Addr := Nat)).job q (J 1))
    {guard : Daemon.State Nat → Prop}
    (hg : ∀ d : Daemon.State Nat, (∀ j x, d.work j = some x → x.2 = (twoThreads S net p conf fuel J d.events).threads j) → guard d) :
    Daemon.Reachable S net p conf fuel 1 1 .empty guard (twoServing S net p conf fuel J r q 0) := by
  have hn : ∀ {u : Server.State (Packet Nat) (Packet Nat)} {t : Server.State (Conn Nat) (Packet Nat)} {c : RecordsCache},
      guard ⟨u, t, false, c, fun _ => none, 0⟩ := hg _ fun j x hx => nomatch hx
  have h0' : Daemon.Reachable S net p conf fuel 1 1 .empty guard (Daemon.init Nat 1 1 .empty) := .init
  have h1' := Daemon.Reachable.step h0' hn (.udp (.listen (.bound rfl)))
  have h2 := Daemon.Reachable.step h1' hn (.udpArrive (.mk r rfl))
  have h3 := Daemon.Reachable.step h2 hn (.udp (.listen (.recv r [] rfl rfl)))
  have h4 := Daemon.Reachable.step h3 hn (.udp (.listen (.clear r rfl rfl)))
  have h5 := Daemon.Reachable.step h4 hn (.udp (.listen (.submit r rfl rfl)))
  have h6 := Daemon.Reachable.step h5 hn (.udp (.listen (.lock 0 rfl rfl)))
  have h7 := Daemon.Reachable.step h6 hn (.udp (.listen (.takeJob 0 0 [] rfl rfl)))
  have g1 := Daemon.Reachable.step h7 hn (.tcp (.listen (.bound rfl)))
  have g2 := Daemon.Reachable.step g1 hn (.tcpArrive (.mk q rfl))
  have g3 := Daemon.Reachable.step g2 hn (.tcp (.listen (.recv q [] rfl rfl)))
  have g4 := Daemon.Reachable.step g3 hn (.tcp (.listen (.clear q rfl rfl)))
  have g5 := Daemon.Reachable.step g4 hn (.tcp (.listen (.submit q rfl rfl)))
  have g6 := Daemon.Reachable.step g5 hn (.tcp (.listen (.lock 0 rfl rfl)))
  have g7 := Daemon.Reachable.step g6 hn (.tcp (.listen (.takeJob 0 0 [] rfl rfl)))
  have i1 := Daemon.Reachable.step g7 hn (.udp (k := fun j => if j = 0 then some (J 0, ⟨Steps.serve p conf fuel (J 0), []⟩) else none)
    (begins 0 0 r (J 0) rfl rfl h0 rfl fun m => rfl))
  have i2 := Daemon.Reachable.step i1 (hg _ fun j x hx => by
    dsimp only at hx
    split at hx
    · rename_i hj
      rw [← Option.some.inj hx, hj]
      rfl
    · cases hx) (.tcp (k := twoWork S net p conf fuel J 0) (begins 0 0 q (J 1) rfl rfl h1 rfl fun m => by
      show twoWork S net p conf fuel J 0 m = if m = 1 then _ else if m = 0 then _ else none
      unfold twoWork
      by_cases h1 : m = 1
      · subst h1
        rw [if_pos rfl, if_pos (by decide)]
        rfl
      · by_cases h0 : m = 0
        · subst h0
          rw [if_neg h1, if_pos rfl, if_pos (by decide)]
          rfl
        · rw [if_neg h1, if_neg h0, if_neg (by omega)]))
  exact i2

theorem two_go_on {J : Nat → Job} {r : Packet Nat} {q : Conn Nat} (h0 : (udpPort (Addr := Nat)).job r (J 0)) (h1 : (tcpPort (Addr := Nat)).job q (J 1))
    {guard : Daemon.State Nat → Prop}
    (hg : ∀ d : Daemon.State Nat, (∀ j x, d.work j = some x → x.2 = (twoThreads S net p conf fuel J d.events).threads j) → guard d)
    (hm : ∀ m j, S.move m = .step j → j < 2) : ∀ m, Daemon.Reachable S net p conf fuel 1 1 .empty guard (twoServing S net p conf fuel J r q m)
  | 0 => two_begin h0 h1 hg
  | m + 1 => by
    have ih := two_go_on h0 h1 hg hm m
    have hp : guard (twoServing S net p conf fuel J r q m) := hg _ fun j x hx => twoWork_thread hx
    have hn : twoThreads S net p conf fuel J (m + 1) = System.next S net m (twoThreads S net p conf fuel J m) := rfl
    cases hmv : S.move m with
    | clean reading =>
      have := Daemon.Reachable.step ih hp (.clean _ hmv)
      have hn' : twoThreads S net p conf fuel J (m + 1) =
          { twoThreads S net p conf fuel J m with cache := (twoThreads S net p conf fuel J m).cache.clean reading } := by
        rw [hn]
        unfold System.next
        rw [hmv]
      refine cast (congrArg _ ?_) this
      unfold twoServing twoWork
      rw [hn']
    | step i =>
      have hi := hm m i hmv
      have hw : (twoServing S net p conf fuel J r q m).work i = some (J i, (twoThreads S net p conf fuel J m).threads i) := if_pos hi
      have := Daemon.Reachable.step ih hp (.work _ _ hmv hw)
      refine cast (congrArg _ ?_) this
      have hn' : twoThreads S net p conf fuel J (m + 1) =
          ⟨(((twoThreads S net p conf fuel J m).threads i).step (net i) (S.time m) (S.time' m) (S.id m) (twoThreads S net p conf fuel J m).cache).2,
            fun j => if j = i then (((twoThreads S net p conf fuel J m).threads i).step (net i) (S.time m) (S.time' m) (S.id m) (twoThreads S net p conf fuel J m).cache).1
              else (twoThreads S net p conf fuel J m).threads j⟩ := by
        rw [hn]
        unfold System.next
        rw [hmv]
      unfold twoServing
      congr 1
      · rw [hn']
      · funext j
        show (if j = i then _ else twoWork S net p conf fuel J m j) = _
        unfold twoWork
        by_cases hj : j = i
        · rw [if_pos hj, if_pos (by omega), hn', hj]
          dsimp only
          rw [if_pos rfl]
        · rw [if_neg hj, hn']
          dsimp only
          rw [if_neg hj]

theorem two_end {J : Nat → Job} {r : Packet Nat} {q : Conn Nat} (h0 : (udpPort (Addr := Nat)).job r (J 0)) (h1 : (tcpPort (Addr := Nat)).job q (J 1))
    {guard : Daemon.State Nat → Prop}
    (hg : ∀ d : Daemon.State Nat, (∀ j x, d.work j = some x → x.2 = (twoThreads S net p conf fuel J d.events).threads j) → guard d)
    (hm : ∀ m j, S.move m = .step j → j < 2) {m : Nat} {res res' : List (List UInt8) × Bool}
    (hd : ((twoThreads S net p conf fuel J m).threads 0).task = .done (.ok res)) (hd' : ((twoThreads S net p conf fuel J m).threads 1).task = .done (.ok res')) :
    Daemon.Reachable S net p conf fuel 1 1 .empty guard
      (twoServed S net p conf fuel J r q ((udpPort (Addr := Nat)).result r res) ((tcpPort (Addr := Nat)).result q res') m) := by
  have hp : ∀ {u : Server.State (Packet Nat) (Packet Nat)} {t : Server.State (Conn Nat) (Packet Nat)} {c : RecordsCache},
      guard ⟨u, t, false, c, twoWork S net p conf fuel J m, m⟩ := hg _ fun j x hx => twoWork_thread hx
  have e0 : twoWork S net p conf fuel J m 0 = some (J 0, (twoThreads S net p conf fuel J m).threads 0) := if_pos (by decide)
  have e1 : twoWork S net p conf fuel J m 1 = some (J 1, (twoThreads S net p conf fuel J m).threads 1) := if_pos (by decide)
  have g0 := two_go_on h0 h1 hg hm m
  have g1 := Daemon.Reachable.step g0 hp (.udp (.finish 0 0 r (J 0, (twoThreads S net p conf fuel J m).threads 0) res rfl rfl e0 hd))
  have g2 := Daemon.Reachable.step g1 hp (.tcp (.finish 0 0 q (J 1, (twoThreads S net p conf fuel J m).threads 1) res' rfl rfl e1 hd'))
  have g3 := Daemon.Reachable.step g2 hp (.udp (.listen (.lock 0 rfl rfl)))
  have g4 := Daemon.Reachable.step g3 hp (.tcp (.listen (.lock 0 rfl rfl)))
  exact g4

theorem two_rest {J : Nat → Job} {r : Packet Nat} {q : Conn Nat} {outs outs' : List (Packet Nat)} {m : Nat} {res res' : List (List UInt8) × Bool}
    (hd : ((twoThreads S net p conf fuel J m).threads 0).task = .done (.ok res)) (hd' : ((twoThreads S net p conf fuel J m).threads 1).task = .done (.ok res'))
    {d : Daemon.State Nat} (e : d = twoServed S net p conf fuel J r q outs outs' m) :
    AtRest udpPort p conf fuel d.stop d.udp d.work ∧ AtRest tcpPort p conf fuel d.stop d.tcp d.work ∧
    sentFor udpPort d.udp d.work 0 = (udpPort (Addr := Nat)).result r res ∧ sentFor tcpPort d.tcp d.work 0 = (tcpPort (Addr := Nat)).result q res' := by
  subst e
  have e0 : twoWork S net p conf fuel J m 0 = some (J 0, (twoThreads S net p conf fuel J m).threads 0) := if_pos (by decide)
  have e1 : twoWork S net p conf fuel J m 1 = some (J 1, (twoThreads S net p conf fuel J m).threads 1) := if_pos (by decide)
  have hover : ∀ j x, twoWork S net p conf fuel J m j = some x → (∃ res, x.2.task = .done (.ok res)) ∨ ∃ e, x.2.task = .done (.panic e) := by
    intro j x hx
    have e := twoWork_thread hx
    unfold twoWork at hx
    split at hx
    · rename_i hm
      left
      rw [e]
      rcases (by omega : j = 0 ∨ j = 1) with rfl | rfl
      · exact ⟨_, hd⟩
      · exact ⟨_, hd'⟩
    · cases hx
  have w : ∀ {i : Nat} {x : Pool.Worker}, [Pool.Worker.holding][i]? = some x → x = .holding := by
    intro i x h
    cases i with
    | zero => cases h; rfl
    | succ i => cases h
  refine ⟨⟨rfl, rfl, fun t k' h => ?_, fun n x hx => hover _ x hx⟩, ⟨rfl, rfl, fun t k' h => ?_, fun n x hx => hover _ x hx⟩, ?_, ?_⟩
  · cases h with
    | listen h => exact ⟨(idle_after.2.2 _ h).symm, rfl⟩
    | «begin» i n r j h1 => cases w h1
    | finish i n r x res h1 => cases w h1
    | crash i n r x e h1 => cases w h1
    | skip i n r h1 => cases w h1
    | skipPanic i n r h1 => cases w h1
  · cases h with
    | listen h => exact ⟨(idle_after.2.2 _ h).symm, rfl⟩
    | «begin» i n r j h1 => cases w h1
    | finish i n r x res h1 => cases w h1
    | crash i n r x e h1 => cases w h1
    | skip i n r h1 => cases w h1
    | skipPanic i n r h1 => cases w h1
  · unfold sentFor
    rw [show (twoServed S net p conf fuel J r q outs outs' m).udp.jobs[0]? = some r from rfl, show (twoServed S net p conf fuel J r q outs outs' m).work ((udpPort (Addr := Nat)).slot 0) = _ from e0]
    dsimp only
    rw [hd]
  · unfold sentFor
    rw [show (twoServed S net p conf fuel J r q outs outs' m).tcp.jobs[0]? = some q from rfl, show (twoServed S net p conf fuel J r q outs outs' m).work ((tcpPort (Addr := Nat)).slot 0) = _ from e1]
    dsimp only
    rw [hd']

/-- C120 applies to the program after two requests, one over UDP from address 3 and one over TCP from address 4 (those of C94): both requests have been handled, once, and answered, and the servers wait for the next. -/
example : ∃ (d : Daemon.State Nat) (b c : List UInt8), Daemon.Reachable turns (fun _ _ a q => orderNet a q) .release ⟨2, 3, 2, false⟩ 259 1 1 .empty (Patient turns 0) d ∧
    Timed turns ⟨2, 3, 2, false⟩ 0 ∧ d.udp.seen = [⟨3, b⟩] ∧ d.tcp.seen = [⟨4, c, 70000, true, true⟩] ∧
    AtRest udpPort .release ⟨2, 3, 2, false⟩ 259 d.stop d.udp d.work ∧ AtRest tcpPort .release ⟨2, 3, 2, false⟩ 259 d.stop d.tcp d.work ∧
    d.udp.pool.crashed.length < 1 ∧ d.tcp.pool.crashed.length < 1 ∧
    sentFor udpPort d.udp d.work 0 = [⟨3, turnReply₀⟩] ∧ sentFor tcpPort d.tcp d.work 0 = [⟨4, turnReply⟩] ∧
    (∃ req, Net.udpRead .release b = .ok (.fullMessage req)) ∧ ∃ req rest, Net.tcpRead .release c = .ok (.fullMessage req, rest) := by
  obtain ⟨b, hb, hr⟩ : ∃ b, turnJobs 0 = .udp b [some 512] ∧ ∃ req, Net.udpRead .release b = .ok (.fullMessage req) := by
    refine ⟨addressQuery 6 nB, ?_, _, addressQuery_read .release 6 nB_encodable⟩
    unfold turnJobs
    exact if_pos rfl
  obtain ⟨c, hc, hr'⟩ : ∃ c, turnJobs 1 = .tcp c 70000 ∧ ∃ req rest, Net.tcpRead .release c = .ok (.fullMessage req, rest) := by
    obtain ⟨-, req, nm, k, rest, h, -⟩ := turnJobs_answerable (.inr rfl)
    refine ⟨be16 (addressQuery 7 nA).length ++ addressQuery 7 nA, ?_, req, rest, h⟩
    unfold turnJobs
    exact (if_neg (by decide)).trans (if_pos rfl)
  have hm : ∀ m j, turns.move m = .step j → j < 2 := by
    intro m j h
    have h : (if m % 8 = 7 then Move.clean (fun _ => turnTime m) else Move.step (m % 2)) = .step j := h
    split at h
    · cases h
    · injection h with h
      omega
  have hd := service_done.1
  have hd' := service_done.2
  have h0 : (udpPort (Addr := Nat)).job ⟨3, b⟩ (turnJobs 0) := ⟨true, hb⟩
  have h1 : (tcpPort (Addr := Nat)).job ⟨4, c, 70000, true, true⟩ (turnJobs 1) := ⟨rfl, rfl, hc⟩
  have s := service_service 0
  have hend := two_end (r := ⟨3, b⟩) (q := ⟨4, c, 70000, true, true⟩) h0 h1 (guard := Patient turns 0)
    (fun d h j x key ttl records k hm hx ht => service_modest d.events j key ttl records k hm ((congrArg Thread.task (h j x hx)).symm.trans ht)) hm hd hd'
  obtain ⟨r1, r2, r3, r4⟩ := two_rest (r := ⟨3, b⟩) (q := ⟨4, c, 70000, true, true⟩) hd hd' (d := twoServed _ _ _ _ _ _ _ _ _ _ _) rfl
  exact ⟨_, b, c, hend, ⟨s.times, s.nsq, s.retries⟩, rfl, rfl, r1, r2, Nat.zero_lt_one, Nat.zero_lt_one, r3, r4, hr, hr'⟩

end Ariadne.Props
