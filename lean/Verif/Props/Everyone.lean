import Verif.Props.Daemon

/-! # C121: the resolver as a whole answers everyone

The program of C120 in a name space that is in order (C93, C94). -/

namespace Ariadne.Props

open Spec Resolver Server Daemon

variable {Addr R O : Type} {N : NameSpace} {S : Schedule} {net : Nat → List Event → Ip4 → List UInt8 → Option (List UInt8)} {p : Profile}
  {conf : Params} {fuel : Nat} {ut tt : Nat} {start stop : Nat}

/-- The servers of a name space that is in order, and has plain records only, reached by every worker; a period of time shorter than the TTLs of NS records and of server
addresses; limits that suffice. (`OrderlyService`, without the requests and the cache.) -/
structure OrderlyNet (N : NameSpace) (S : Schedule) (net : Nat → List Event → Ip4 → List UInt8 → Option (List UInt8)) (p : Profile)
    (conf : Params) (fuel start stop : Nat) : Prop where
  times : ∀ m, start < S.time m ∧ S.time' m ≤ stop
  period : stop < start + 2 ^ 32 * NANOS
  run : ∀ i env, env.net = net i → N.WellRun env p conf.maxUdpRetries conf.maxNsQueried (stop - start)
  plainNet : ∀ i hist addr query raw m, net i hist addr query = some raw → Message.decodeFromBytes p (raw.take 512) = .ok m →
    ∀ r ∈ m.answers ++ m.authorities ++ m.additionals, Plain r
  follow : conf.noFollowCname = false
  retries : conf.maxUdpRetries ≠ 0
  redir : conf.maxCnameRedir ≤ 52
  enough : 256 + N.depth < fuel

/-- This datagram is a request that the name space has an answer to. -/
def AsksUdp (N : NameSpace) (p : Profile) (n : Nat) (r : Packet Addr) : Prop := AnswerableJob N p n (.udp r.bytes [some 512])

/-- This connection brings a request that the name space has an answer to, and takes a reply of any length. -/
def AsksTcp (N : NameSpace) (p : Profile) (n : Nat) (r : Conn Addr) : Prop := r.setupOk = true ∧ r.cloneOk = true ∧ AnswerableJob N p n (.tcp r.stream r.room)

/-- What has arrived so far are requests that the name space has an answer to, or is none at all; the UDP socket takes what it is given. -/
structure Clients (N : NameSpace) (p : Profile) (n : Nat) (d : Daemon.State Addr) : Prop where
  udp : ∀ r ∈ d.udp.seen, AsksUdp N p n r ∨ Harmless p (.udp r.bytes [some 512])
  tcp : ∀ r ∈ d.tcp.seen, AsksTcp N p n r ∨ Harmless p (.tcp r.stream r.room)
  socket : ∀ m x datagram sends, d.work m = some x → x.1 = .udp datagram sends → sends = [some 512]

/-- A request has been accepted by a server if it is one of its jobs, and only those taken from the socket are. -/
theorem jobs_seen {d : Daemon.State Addr} {guard : Daemon.State Addr → Prop} (h : Daemon.Reachable S net p conf fuel ut tt .empty guard d)
    (hu : 0 < ut) (ht : 0 < tt) : (∀ r ∈ d.udp.jobs, r ∈ d.udp.seen) ∧ ∀ r ∈ d.tcp.jobs, r ∈ d.tcp.seen := by
  obtain ⟨⟨-, h1, -⟩, -, h2, -⟩ := C120_once h hu ht
  exact ⟨fun r hr => h1.subset hr, fun r hr => h2.subset hr⟩

theorem harmless_nothing (p : Profile) : Harmless p (.udp [] []) := by
  intro req h
  have : Net.udpRead p [] = .ok (.parseErr (.headerErr .bytesEnd) .bytesEnd) := by cases p <;> decide +kernel
  rw [this] at h
  cases h

theorem orderly_of (hN : OrderlyNet N S net p conf fuel start stop) (hu : 0 < ut) (ht : 0 < tt) {d : Daemon.State Addr}
    (h : Daemon.Reachable S net p conf fuel ut tt .empty (Patient S start) d) (hc : Clients N p conf.maxCnameRedir d) :
    OrderlyService N S net p conf fuel d.jobs .empty start stop d.events where
  times := hN.times
  period := hN.period
  run := hN.run
  plainNet := hN.plainNet
  follow := hN.follow
  retries := hN.retries
  redir := hN.redir
  enough := hN.enough
  coherent := empty_coherent ..
  plain := fun _ _ _ h => nomatch h
  received := fun _ _ _ h => nomatch h
  distinct := Cache.distinct_empty
  fresh := fun _ _ _ h => nomatch h
  expires := fun _ _ _ h => nomatch h
  modest := guarded h (jobs_work d) (G := fun m s => Modest S start m s) fun e hp hf hw i key ttl records k hm ht => by
    obtain ⟨x, hx⟩ := hw i hm
    exact hp i x key ttl records k hm hx (by rw [← hf.threads i x hx]; exact ht)
  jobs i := by
    cases hw : d.work i with
    | none =>
      right
      have e : d.jobs i = .udp [] [] := by
        unfold Daemon.State.jobs
        rw [hw]
      rw [e]
      exact harmless_nothing p
    | some x =>
      rw [← jobs_work d i x hw]
      rcases (owned h).owner i x hw with ⟨n, r, -, hr, sendOk, hj⟩ | ⟨n, r, -, hr, h1, h2, hj⟩
      · have e := hc.socket i x _ _ hw hj
        rw [hj, e]
        rcases hc.udp r ((jobs_seen h hu ht).1 r (List.mem_of_getElem? hr)) with h3 | h3
        · exact .inl h3
        · exact .inr h3
      · rw [hj]
        rcases hc.tcp r ((jobs_seen h hu ht).2 r (List.mem_of_getElem? hr)) with h3 | h3
        · exact .inl h3.2.2
        · exact .inr h3

/-- **C121.** In every execution of the resolver (any requests among which those that are requests have an answer, any interleaving of servers, workers, cleaner
and clients), the cache stays in order; no worker panics over such a request; and once one has been handled, what was sent for it is one answer, to the address it came from:
right, and complete over TCP, complete or marked as truncated over UDP. -/
theorem C121_everyone (p' : Profile) (hN : OrderlyNet N S net p conf fuel start stop) (hu : 0 < ut) (ht : 0 < tt) {d : Daemon.State Addr}
    (h : Daemon.Reachable S net p conf fuel ut tt .empty (Patient S start) d) (hc : Clients N p conf.maxCnameRedir d) :
    N.Coherent start stop d.cache ∧
    (∀ n r, d.udp.jobs[n]? = some r → AsksUdp N p conf.maxCnameRedir r → n ∉ d.udp.pool.crashed ∧ (n ∈ d.udp.pool.finished →
      ∃ out, sentFor udpPort d.udp d.work n = [⟨r.addr, out⟩] ∧ AnsweredJob N p p' (.ok ([out], true)) (.udp r.bytes [some 512]))) ∧
    ∀ n r, d.tcp.jobs[n]? = some r → AsksTcp N p conf.maxCnameRedir r → n ∉ d.tcp.pool.crashed ∧ (n ∈ d.tcp.pool.finished →
      ∃ out, sentFor tcpPort d.tcp d.work n = [⟨r.addr, out⟩] ∧ AnsweredJob N p p' (.ok ([out], true)) (.tcp r.stream r.room)) := by
  have hf := follows h (jobs_work d)
  obtain ⟨hcoh, hans⟩ := C94_answers p' (orderly_of hN hu ht h hc)
  have hwork : ∀ m x o, d.work m = some x → x.2.task = .done o → AnswerableJob N p conf.maxCnameRedir x.1 → AnsweredJob N p p' o x.1 := by
    intro m x o hx ho hj
    have := hans m o (jobs_work d m x hx ▸ hj) (by rw [hf.threads m x hx, ho])
    rwa [← jobs_work d m x hx] at this
  refine ⟨hf.cache ▸ hcoh, fun n r hr ha => ?_, fun n r hr ha => ?_⟩
  · have hown : ∀ x, d.work (2 * n) = some x → x.1 = .udp r.bytes [some 512] := by
      intro x hx
      obtain ⟨sendOk, hj⟩ := (done_owner h).1 r hr hx
      rw [hj, hc.socket _ x _ _ hx hj]
    constructor
    · intro hn
      obtain ⟨r', hr', hh⟩ := (account h).1.panics n hn
      rcases hh with hh | ⟨x, e, hx, hd⟩
      · exact hh
      · have := hwork _ x _ hx hd (by rw [hown x hx]; exact ha)
        rw [hown x hx] at this
        obtain ⟨req, node, kind, cs, fate, out, m, all, -, -, -, h1, -⟩ := this
        cases h1
    · intro hn
      obtain ⟨r', hr', hh⟩ := (account h).1.real n hn
      rcases hh with hh | ⟨x, res, hx, hd⟩
      · exact hh.elim
      · have hw := hwork _ x _ hx hd (by rw [hown x hx]; exact ha)
        rw [hown x hx] at hw
        have hw' := hw
        obtain ⟨req, node, kind, cs, fate, out, m, all, -, -, -, h1, -⟩ := hw
        refine ⟨out, ?_, h1 ▸ hw'⟩
        cases h1
        unfold sentFor
        rw [hr, show d.work (udpPort.slot n) = some x from hx]
        dsimp only
        rw [hd]
        rfl
  · have hown : ∀ x, d.work (2 * n + 1) = some x → x.1 = .tcp r.stream r.room := by
      intro x hx
      obtain ⟨-, -, hj⟩ := (done_owner h).2 r hr hx
      exact hj
    have hskip : ∀ b, ¬ (tcpPort (Addr := Addr)).skip r b := by
      intro b hb
      unfold tcpPort at hb
      simp [ha.1, ha.2.1] at hb
    constructor
    · intro hn
      obtain ⟨r', hr', hh⟩ := (account h).2.panics n hn
      obtain rfl := Option.some.inj (hr.symm.trans hr')
      rcases hh with hh | ⟨x, e, hx, hd⟩
      · exact hskip _ hh
      · have := hwork _ x _ hx hd (by rw [hown x hx]; exact ha.2.2)
        rw [hown x hx] at this
        obtain ⟨req, node, kind, rest, cs, fate, body, m, -, -, -, -, h1, -⟩ := this
        cases h1
    · intro hn
      obtain ⟨r', hr', hh⟩ := (account h).2.real n hn
      obtain rfl := Option.some.inj (hr.symm.trans hr')
      rcases hh with hh | ⟨x, res, hx, hd⟩
      · exact (hskip _ hh).elim
      · have hw := hwork _ x _ hx hd (by rw [hown x hx]; exact ha.2.2)
        rw [hown x hx] at hw
        have hw' := hw
        obtain ⟨req, node, kind, rest, cs, fate, body, m, -, -, -, -, h1, -⟩ := hw
        refine ⟨be16 body.length ++ body, ?_, h1 ▸ hw'⟩
        cases h1
        unfold sentFor
        rw [hr, show d.work (tcpPort.slot n) = some x from hx]
        dsimp only
        rw [hd]
        dsimp only [tcpPort]
        have hne : be16 body.length ++ body ≠ [] := by simp [be16]
        simp [List.filter, hne]

/-- One reply for each. -/
theorem paired {α β : Type} {P : α → β → Prop} {f : Nat → List β} : ∀ (js : List α) (k : Nat),
    (∀ n r, js[n]? = some r → ∃ o, f (k + n) = [o] ∧ P r o) → List.Forall₂ P js ((List.range' k js.length).flatMap f)
  | [], _, _ => .nil
  | r :: js, k, h => by
    obtain ⟨o, h1, h2⟩ := h 0 r rfl
    rw [List.length_cons, List.range'_succ, List.flatMap_cons, show f k = [o] from h1]
    exact .cons h2 (paired js (k + 1) fun n r hr => by
      have := h (n + 1) r hr
      rwa [show k + (n + 1) = k + 1 + n by omega] at this)

/-- **C121.** If all that has arrived are requests the name space has an answer to, no worker of either server has panicked; and when a server has come to rest, what it has sent is one
answer for each request that it has accepted, to the address it came from, in some order. Over TCP all requests taken from the socket have been accepted. -/
theorem C121_all_answered (p' : Profile) (hN : OrderlyNet N S net p conf fuel start stop) (hu : 0 < ut) (ht : 0 < tt) {d : Daemon.State Addr}
    (h : Daemon.Reachable S net p conf fuel ut tt .empty (Patient S start) d) (hc : Clients N p conf.maxCnameRedir d)
    (h1 : ∀ r ∈ d.udp.seen, AsksUdp N p conf.maxCnameRedir r) (h2 : ∀ r ∈ d.tcp.seen, AsksTcp N p conf.maxCnameRedir r) :
    d.udp.pool.crashed = [] ∧ d.tcp.pool.crashed = [] ∧
    (AtRest udpPort p conf fuel d.stop d.udp d.work → ∃ replies : List (Packet Addr), d.udp.sent.Perm replies ∧
      List.Forall₂ (fun (r o : Packet Addr) => o.addr = r.addr ∧ AnsweredJob N p p' (.ok ([o.bytes], true)) (.udp r.bytes [some 512])) d.udp.jobs replies) ∧
    (AtRest tcpPort p conf fuel d.stop d.tcp d.work → d.tcp.jobs = d.tcp.seen ∧ ∃ replies : List (Packet Addr), d.tcp.sent.Perm replies ∧
      List.Forall₂ (fun (r : Conn Addr) (o : Packet Addr) => o.addr = r.addr ∧ AnsweredJob N p p' (.ok ([o.bytes], true)) (.tcp r.stream r.room))
        d.tcp.jobs replies) := by
  obtain ⟨-, hU, hT⟩ := C121_everyone p' hN hu ht h hc
  obtain ⟨⟨s1, -, -, -, r1⟩, s2, -, -, -, r2⟩ := C120_once h hu ht
  obtain ⟨j1, j2⟩ := jobs_seen h hu ht
  have c1 : d.udp.pool.crashed = [] := List.eq_nil_iff_forall_not_mem.2 fun n hn => by
    obtain ⟨r, hr, -⟩ := (account h).1.panics n hn
    exact (hU n r hr (h1 r (j1 r (List.mem_of_getElem? hr)))).1 hn
  have c2 : d.tcp.pool.crashed = [] := List.eq_nil_iff_forall_not_mem.2 fun n hn => by
    obtain ⟨r, hr, -⟩ := (account h).2.panics n hn
    exact (hT n r hr (h2 r (j2 r (List.mem_of_getElem? hr)))).1 hn
  refine ⟨c1, c2, fun hr => ?_, fun hr => ?_⟩
  · have hp := r1 hr (by rw [c1]; exact hu)
    rw [c1, List.append_nil] at hp
    refine ⟨(List.range d.udp.jobs.length).flatMap (sentFor udpPort d.udp d.work), by rw [s1]; exact hp.flatMap_right _, ?_⟩
    rw [List.range_eq_range']
    refine paired _ _ fun n r hn => ?_
    obtain ⟨out, g1, g2⟩ := (hU n r hn (h1 r (j1 r (List.mem_of_getElem? hn)))).2
      (hp.mem_iff.2 (List.mem_range.2 (List.getElem?_eq_some_iff.1 hn).1))
    exact ⟨⟨r.addr, out⟩, by rw [Nat.zero_add, g1], rfl, g2⟩
  · obtain ⟨hp, he⟩ := r2 hr (by rw [c2]; exact ht)
    rw [c2, List.append_nil] at hp
    refine ⟨he, (List.range d.tcp.jobs.length).flatMap (sentFor tcpPort d.tcp d.work), by rw [s2]; exact hp.flatMap_right _, ?_⟩
    rw [List.range_eq_range']
    refine paired _ _ fun n r hn => ?_
    obtain ⟨out, g1, g2⟩ := (hT n r hn (h2 r (j2 r (List.mem_of_getElem? hn)))).2
      (hp.mem_iff.2 (List.mem_range.2 (List.getElem?_eq_some_iff.1 hn).1))
    exact ⟨⟨r.addr, out⟩, by rw [Nat.zero_add, g1], rfl, g2⟩

/-- C121 applies to the execution of C120's example: one client over UDP, one over TCP, in the name space of C94, with both servers at rest at the end. -/
example : ∃ d : Daemon.State Nat, Daemon.Reachable turns (fun _ _ a q => orderNet a q) .release ⟨2, 3, 2, false⟩ 259 1 1 .empty (Patient turns 0) d ∧
    OrderlyNet orderSpace turns (fun _ _ a q => orderNet a q) .release ⟨2, 3, 2, false⟩ 259 0 span ∧ Clients orderSpace .release 2 d ∧
    (∀ r ∈ d.udp.seen, AsksUdp orderSpace .release 2 r) ∧ (∀ r ∈ d.tcp.seen, AsksTcp orderSpace .release 2 r) ∧
    AtRest udpPort .release ⟨2, 3, 2, false⟩ 259 d.stop d.udp d.work ∧ AtRest tcpPort .release ⟨2, 3, 2, false⟩ 259 d.stop d.tcp d.work ∧
    d.udp.jobs.length = 1 ∧ d.tcp.jobs.length = 1 := by
  obtain ⟨b, hb⟩ : ∃ b, turnJobs 0 = .udp b [some 512] := ⟨addressQuery 6 nB, by unfold turnJobs; exact if_pos rfl⟩
  obtain ⟨c, hc⟩ : ∃ c, turnJobs 1 = .tcp c 70000 :=
    ⟨be16 (addressQuery 7 nA).length ++ addressQuery 7 nA, by unfold turnJobs; exact (if_neg (by decide)).trans (if_pos rfl)⟩
  have a0 : AnswerableJob orderSpace .release 2 (.udp b [some 512]) := hb ▸ turnJobs_answerable (.inl rfl)
  have a1 : AnswerableJob orderSpace .release 2 (.tcp c 70000) := hc ▸ turnJobs_answerable (.inr rfl)
  have hm : ∀ m j, turns.move m = .step j → j < 2 := by
    intro m j h
    have h : (if m % 8 = 7 then Move.clean (fun _ => turnTime m) else Move.step (m % 2)) = .step j := h
    split at h
    · cases h
    · injection h with h
      omega
  have hd := service_done.1
  have hd' := service_done.2
  have h0 : (udpPort (Addr := Nat)).job ⟨3, b⟩ (turnJobs 0) := ⟨true, hb⟩
  have h1 : (tcpPort (Addr := Nat)).job ⟨4, c, 70000, true, true⟩ (turnJobs 1) := ⟨rfl, rfl, hc⟩
  have hend := two_end (r := ⟨3, b⟩) (q := ⟨4, c, 70000, true, true⟩) h0 h1 (guard := Patient turns 0)
    (fun d h j x key ttl records k hm hx ht => service_modest d.events j key ttl records k hm ((congrArg Thread.task (h j x hx)).symm.trans ht)) hm hd hd'
  obtain ⟨r1, r2, -, -⟩ := two_rest (r := ⟨3, b⟩) (q := ⟨4, c, 70000, true, true⟩) hd hd' (d := twoServed _ _ _ _ _ _ _ _ _ _ _) rfl
  have o := service_orderly 0
  have q1 : ∀ r ∈ [(⟨3, b⟩ : Packet Nat)], AsksUdp orderSpace .release 2 r := by
    intro r hr
    rw [List.mem_singleton.1 hr]
    exact a0
  have q2 : ∀ r ∈ [(⟨4, c, 70000, true, true⟩ : Conn Nat)], AsksTcp orderSpace .release 2 r := by
    intro r hr
    rw [List.mem_singleton.1 hr]
    exact ⟨rfl, rfl, a1⟩
  refine ⟨_, hend, ⟨o.times, o.period, o.run, o.plainNet, o.follow, o.retries, o.redir, o.enough⟩, ⟨fun r hr => .inl (q1 r hr), fun r hr => .inl (q2 r hr), ?_⟩,
    q1, q2, r1, r2, rfl, rfl⟩
  intro m x datagram sends hx hj
  have hx : twoWork turns (fun _ _ a q => orderNet a q) .release ⟨2, 3, 2, false⟩ 259 turnJobs 168 m = some x := hx
  unfold twoWork at hx
  split at hx
  · rename_i hm
    rw [← Option.some.inj hx] at hj
    dsimp only at hj
    rcases (by omega : m = 0 ∨ m = 1) with rfl | rfl
    · have inj : ∀ {a a' : List UInt8} {s s' : List (Option Nat)}, Job.udp a s = .udp a' s' → s' = s := fun h => by cases h; rfl
      exact inj (hb.symm.trans hj)
    · have no : ∀ room, Job.tcp c room ≠ .udp datagram sends := fun room h => by cases h
      exact absurd (hc.symm.trans hj) (no 70000)
  · cases hx

end Ariadne.Props
