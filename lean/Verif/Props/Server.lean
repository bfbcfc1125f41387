import Verif.Lemmas.Server
import Verif.Props.ResolverServer

/-! # Server loops and the life cycle of the programs (C72–C75) -/

namespace Ariadne.Props

open Server Spec

variable {R O R' O' Addr : Type}

theorem out_bind_ok {ε α β : Type} {x : Out ε α} {f : α → Out ε β} {b : β} (h : (x >>= f) = .ok b) :
    ∃ a, x = .ok a ∧ f a = .ok b := by
  cases x with
  | ok a => exact ⟨a, rfl, h⟩
  | _ => cases h

/-! ## C72 -/

theorem dropped_no_crash {size : Nat} (hsize : 0 < size) {s : Pool.State} (h : Pool.Reachable size s) :
    s.main = .dropped → s.crashed = [] := by
  induction h with
  | init => intro h; cases h
  | @step s t hr hs ih =>
    intro hm
    have hi := Pool.inv_reachable hsize hr
    have ht := Pool.inv_reachable hsize (.step hr hs)
    rcases hs with hs | hs
    · have stopped : ∀ {i : Nat} {w : Pool.Worker}, s.workers[i]? = some w → s.main = .dropped → w = .stopped :=
        fun h1 h2 => hi.aDropped h2 _ _ h1
      cases hs with
      | lock i h1 h2 => exact ih hm
      | takeJob i n q h1 h2 => exact ih hm
      | takeStop i q h1 h2 => exact ih hm
      | finish i n h1 => exact ih hm
      | crash i n h1 => cases stopped h1 hm
      | orphan i h1 h2 h3 => exact ih hm
    · cases hs with
      | endDrop k h1 h2 =>
        have a := hi.dead (by rw [h1]; simp) (by rw [h1]; simp)
        have b := (hi.aJoining k h1).2
        have c : Pool.tally Pool.isDead s.workers = 0 := by
          unfold Pool.tally
          apply List.sum_eq_zero
          intro x hx
          obtain ⟨w, hw, rfl⟩ := List.mem_map.1 hx
          obtain ⟨i, hi', e⟩ := List.mem_iff_getElem.1 hw
          have := b i (by omega) (by rw [← hi.len]; exact hi')
          rw [List.getElem?_eq_getElem hi', e] at this
          cases this
          rfl
        exact List.length_eq_zero_iff.1 (by simp only; omega)
      | execute h1 h2 => simp only [h1] at hm; cases hm
      | _ => cases hm

theorem numbers_perm (runs : List (JobRun O)) :
    ((runs.filter fun r => !r.panics).map (·.number) ++ (runs.filter fun r => r.panics).map (·.number)).Perm (runs.map (·.number)) := by
  rw [← List.map_append]
  apply List.Perm.map
  have := List.filter_append_perm (fun r : JobRun O => r.panics) runs
  exact List.perm_append_comm.trans this

/-- C72. In every state of a server of any kind, in every schedule, with every sequence of requests: everything it sent came
from runs of the handler, each for an accepted request, at most one for each. The accepted requests are, in order, among those
taken from the socket, and over TCP they are all of them; their handling starts in order. A server that has been shut down has
handled all accepted requests. -/
theorem C72_served_once (k : Kind R O) (threads : Nat) (ht : 0 < threads) (stop : Bool) (s : State R O) (h : Reachable k threads stop s) :
    ∃ runs, Explains k s runs ∧ s.jobs.Sublist s.seen ∧
      (k.mayDrop = false → s.phase.listening = true → s.seen = s.jobs ++ s.phase.inHand) ∧
      s.pool.started = List.range s.pool.started.length ∧ s.pool.started.length ≤ s.jobs.length ∧
      (∀ run ∈ runs, run.number ∈ s.pool.started) ∧
      (s.phase = .returned → (runs.map (·.number)).Perm (List.range s.jobs.length) ∧ ∀ run ∈ runs, run.panics = false) := by
  obtain ⟨runs, hi⟩ := inv_reachable h
  have c := C31_fifo_at_most_once threads ht s.pool hi.pool
  have hperm : (s.pool.running ++ runs.map (·.number)).Perm s.pool.started := by
    have := c.2.2.2.2
    rw [hi.fin, hi.crash, List.append_assoc] at this
    exact ((List.Perm.append_left _ (numbers_perm runs)).symm).trans this
  have hnd : s.pool.started.Nodup := by rw [c.1]; exact List.nodup_range
  refine ⟨runs, ⟨?_, hi.real, hi.sent⟩, (List.sublist_append_left _ _).trans hi.sub, fun hd hl => hi.all hd (.inr hl), c.1,
    by rw [← hi.jobs]; exact c.2.1, fun run hr => ?_, fun hp => ?_⟩
  · exact (List.nodup_append.1 ((List.Perm.nodup_iff hperm).2 hnd)).2.1
  · exact hperm.subset (List.mem_append_right _ (List.mem_map_of_mem hr))
  · have hm : s.pool.main = .dropped := by have := hi.fits; rw [hp] at this; exact this
    have hc := dropped_no_crash ht hi.pool hm
    have hall := ((C32_drop_waits_for_all_jobs threads ht s.pool hi.pool hc).2.1 hm).1
    rw [hi.jobs, hi.fin] at hall
    have hno : ∀ run ∈ runs, run.panics = false := by
      intro run hr
      have := hi.crash
      rw [hc] at this
      have := (List.map_eq_nil_iff.1 this.symm)
      rw [List.filter_eq_nil_iff] at this
      simpa using this run hr
    refine ⟨?_, hno⟩
    rwa [List.filter_eq_self.2 (by intro r hr; simp [hno r hr])] at hall

/-- The reply goes out in at most one datagram. -/
theorem udpReply_one {m : Message} {x : Option Nat} {ds : List (List UInt8)} {b : Bool} (h : Net.udpReply m [x] = .ok (ds, b)) :
    ds.length ≤ 1 := by
  unfold Net.udpReply at h
  cases e : m.encodeToBytesTrunc with
  | ok bytes =>
    rw [e] at h
    simp only at h
    unfold Net.sendLoop at h
    by_cases h0 : 0 < bytes.length
    · rw [if_pos h0] at h
      cases x with
      | none => cases h; simp
      | some n =>
        simp only at h
        unfold Net.sendLoop at h
        by_cases h1 : 0 + n < bytes.length
        · rw [if_pos h1] at h; cases h
        · rw [if_neg h1] at h; cases h; simp
    · rw [if_neg h0] at h; cases h; simp
  | err _ => rw [e] at h; cases h
  | panic _ => rw [e] at h; cases h
  | diverge => rw [e] at h; cases h

theorem countP_distinct {l : List R} (p : R → Bool) {ns : List Nat} (hn : ns.Nodup) (hp : ∀ n ∈ ns, ∃ r, l[n]? = some r ∧ p r = true) :
    ns.length ≤ l.countP p := by
  have h1 : ns.Subperm ((List.range l.length).filter fun n => (l[n]?).any p) := by
    apply List.subperm_of_subset hn
    intro n hm
    obtain ⟨r, hr, hpr⟩ := hp n hm
    obtain ⟨hl, -⟩ := List.getElem?_eq_some_iff.1 hr
    rw [List.mem_filter, List.mem_range]
    exact ⟨hl, by rw [hr]; exact hpr⟩
  have h2 := h1.length_le
  have h3 : ((List.range l.length).filter fun n => (l[n]?).any p).length = l.countP p := by
    rw [← List.countP_eq_length_filter]
    clear h1 h2 hn hp
    induction l using List.reverseRecOn with
    | nil => rfl
    | append_singleton l a ih =>
      rw [List.length_append, List.length_singleton, List.range_succ, List.countP_append, List.countP_append, ← ih]
      congr 1
      · apply List.countP_congr
        intro n hn
        rw [List.mem_range] at hn
        rw [List.getElem?_append_left hn]
      · simp
  omega

/-- Everything sent by a UDP server whose handler sends at most one datagram for each request. -/
theorem udp_addresses [DecidableEq Addr] {serve : List UInt8 → List (Option Nat) → Out Empty (List (List UInt8) × Bool) → Prop}
    (hone : ∀ d x ds b, serve d [x] (.ok (ds, b)) → ds.length ≤ 1)
    (threads : Nat) (ht : 0 < threads) (stop : Bool) (s : State (Packet Addr) (Packet Addr)) (h : Reachable (udpKind serve) threads stop s) :
    (∀ o ∈ s.sent, ∃ r ∈ s.seen, r.addr = o.addr ∧ ∃ x b, serve r.bytes [x] (.ok ([o.bytes], b))) ∧
    ∀ a, s.sent.countP (fun o => o.addr = a) ≤ s.seen.countP fun r => r.addr = a := by
  obtain ⟨runs, he, hsub, -⟩ := C72_served_once _ threads ht stop s h
  have shape : ∀ run ∈ runs, ∃ r, s.jobs[run.number]? = some r ∧ (run.outs = [] ∨ ∃ d, run.outs = [⟨r.addr, d⟩] ∧
      ∃ x b, serve r.bytes [x] (.ok ([d], b))) := by
    intro run hr
    obtain ⟨r, h1, h2⟩ := he.real run hr
    refine ⟨r, h1, ?_⟩
    unfold udpKind at h2
    cases hp : run.panics with
    | true => rw [hp] at h2; exact .inl h2.1
    | false =>
      rw [hp] at h2
      obtain ⟨ok, ds, b, h3, h4⟩ := h2
      have := hone _ _ _ _ h3
      rcases ds with _ | ⟨d, _ | ⟨d', ds⟩⟩
      · exact .inl h4
      · exact .inr ⟨d, h4, _, b, h3⟩
      · simp at this
  refine ⟨fun o ho => ?_, fun a => ?_⟩
  · rw [he.sent, List.mem_flatMap] at ho
    obtain ⟨run, hr, ho⟩ := ho
    obtain ⟨r, h1, h2⟩ := shape run hr
    rcases h2 with h2 | ⟨d, h2, x, b, h3⟩
    · rw [h2] at ho; cases ho
    · rw [h2, List.mem_singleton] at ho
      subst ho
      exact ⟨r, hsub.subset (List.mem_of_getElem? h1), rfl, x, b, h3⟩
  · have h1 : s.sent.countP (fun o => o.addr = a) ≤
        (runs.filter fun run => (s.jobs[run.number]?).any fun r => r.addr = a).length := by
      rw [he.sent]
      clear he
      induction runs with
      | nil => simp
      | cons run runs ih =>
        rw [List.flatMap_cons, List.countP_append, List.filter_cons]
        have ih := ih fun r hr => shape r (List.mem_cons_of_mem _ hr)
        obtain ⟨r, h1, h2⟩ := shape run (List.mem_cons_self ..)
        rw [h1]
        rcases h2 with h2 | ⟨d, h2, -⟩
        · rw [h2]
          by_cases hc : (Option.any (fun r : Packet Addr => decide (r.addr = a)) (some r)) = true
          · rw [if_pos hc, List.length_cons, List.countP_nil]; omega
          · rw [if_neg hc, List.countP_nil]; omega
        · rw [h2]
          by_cases hc : r.addr = a
          · rw [if_pos (by simp [hc]), List.length_cons, List.countP_singleton, if_pos (by simp [hc])]; omega
          · rw [if_neg (by simp [hc]), List.countP_singleton, if_neg (by simp [hc])]; omega
    have h2 := countP_distinct (l := s.jobs) (fun r : Packet Addr => decide (r.addr = a))
      (ns := (runs.filter fun run => (s.jobs[run.number]?).any fun r => r.addr = a).map (·.number))
      ((List.filter_sublist.map _).nodup he.once) (by
        intro n hn
        obtain ⟨run, hr, rfl⟩ := List.mem_map.1 hn
        rw [List.mem_filter] at hr
        obtain ⟨r, h1, -⟩ := shape run hr.1
        refine ⟨r, h1, ?_⟩
        have := hr.2
        rw [h1] at this
        exact this)
    rw [List.length_map] at h2
    have h3 := hsub.countP_le (p := fun r : Packet Addr => decide (r.addr = a))
    omega

/-- C72 for the UDP side of the name server: every datagram it sends is its reply to a datagram it received from the same
address, and no address is sent more datagrams than it sent. -/
theorem C72_nameserver [DecidableEq Addr] (p : Profile) (zones : ManagedZone) (threads : Nat) (ht : 0 < threads) (stop : Bool)
    (s : State (Packet Addr) (Packet Addr)) (h : Reachable (nameserverUdp p zones) threads stop s) :
    (∀ o ∈ s.sent, ∃ r ∈ s.seen, r.addr = o.addr ∧ ∃ x b, Nameserver.serveUdp p zones r.bytes [x] = .ok ([o.bytes], b)) ∧
    ∀ a, s.sent.countP (fun o => o.addr = a) ≤ s.seen.countP fun r => r.addr = a := by
  have := udp_addresses (fun d x ds b hs => by
    have hs := hs.symm
    unfold Nameserver.serveUdp at hs
    obtain ⟨read, h1, hs⟩ := out_bind_ok hs
    obtain ⟨reply, h2, hs⟩ := out_bind_ok hs
    cases reply with
    | none => cases hs; simp
    | some m => exact udpReply_one hs) threads ht stop s h
  refine ⟨fun o ho => ?_, this.2⟩
  obtain ⟨r, h1, h2, x, b, h3⟩ := this.1 o ho
  exact ⟨r, h1, h2, x, b, h3.symm⟩

theorem serve_ok {α : Type} {read : Out Empty α} {handle : α → Resolver.M (Option Message)}
    {reply : Message → Out Empty (List (List UInt8) × Bool)} {w : Resolver.World} {v : List (List UInt8) × Bool}
    (h : ((Resolver.infallible read >>= fun r => handle r >>= fun o => match o with
      | none => pure ([], true)
      | some m => Resolver.infallible (reply m)) w).1 = .ok v) : v.1 = [] ∨ ∃ m, reply m = .ok v := by
  rw [infallible_bind] at h
  cases read with
  | err e => exact e.elim
  | panic k => cases h
  | diverge => cases h
  | ok r =>
    simp only at h
    change (Resolver.M.bind (handle r) _ w).1 = _ at h
    unfold Resolver.M.bind at h
    generalize handle r w = x at h
    obtain ⟨o, w'⟩ := x
    cases o with
    | ok o =>
      cases o with
      | none => cases h; exact .inl rfl
      | some m =>
        simp only [Resolver.infallible, Resolver.M.lift, Out.mapErr] at h
        generalize he : reply m = y at h
        cases y with
        | ok y => cases h; exact .inr ⟨m, he⟩
        | err e => exact e.elim
        | _ => cases h
    | _ => cases h

/-- C72 for the UDP side of the resolver. -/
theorem C72_resolver [DecidableEq Addr] (p : Profile) (conf : Resolver.Params) (threads : Nat) (ht : 0 < threads) (stop : Bool)
    (s : State (Packet Addr) (Packet Addr)) (h : Reachable (resolverUdp p conf) threads stop s) :
    (∀ o ∈ s.sent, ∃ r ∈ s.seen, r.addr = o.addr ∧ ∃ env w fuel x b, (Resolver.serveUdp env p conf fuel r.bytes [x] w).1 = .ok ([o.bytes], b)) ∧
    ∀ a, s.sent.countP (fun o => o.addr = a) ≤ s.seen.countP fun r => r.addr = a := by
  have okOf : ∀ {α : Type} {o : Out Resolver.LookupErr α} {a : α}, Out.ok a = outcome o → o = .ok a := fun {α o a} h => by
    cases o with
    | ok b => cases h; rfl
    | _ => cases h
  have := udp_addresses (fun d x ds b hs => by
    obtain ⟨env, w, fuel, hs⟩ := hs
    have hs := okOf hs
    unfold Resolver.serveUdp at hs
    rcases serve_ok (reply := fun m => Net.udpReply m [x]) hs with h | ⟨m, h⟩
    · simp only at h; rw [h]; simp
    · exact udpReply_one h) threads ht stop s h
  refine ⟨fun o ho => ?_, this.2⟩
  obtain ⟨r, h1, h2, x, b, env, w, fuel, h3⟩ := this.1 o ho
  exact ⟨r, h1, h2, env, w, fuel, x, b, okOf h3⟩

/-- C72 for the TCP side of the name server: what is written to a connection is the reply to what was read from it. -/
theorem C72_nameserver_tcp (p : Profile) (zones : ManagedZone) (threads : Nat) (ht : 0 < threads) (stop : Bool)
    (s : State (Conn Addr) (Packet Addr)) (h : Reachable (nameserverTcp p zones) threads stop s) :
    ∃ runs, Explains (nameserverTcp p zones) s runs ∧ ∀ run ∈ runs, ∃ r, s.jobs[run.number]? = some r ∧
      (run.outs = [] ∨ ∃ bytes b, Nameserver.serveTcp p zones r.stream r.room = .ok (bytes, b) ∧ run.outs = [⟨r.addr, bytes⟩]) := by
  obtain ⟨runs, he, -⟩ := C72_served_once _ threads ht stop s h
  refine ⟨runs, he, fun run hr => ?_⟩
  obtain ⟨r, h1, h2⟩ := he.real run hr
  refine ⟨r, h1, ?_⟩
  unfold nameserverTcp tcpKind at h2
  simp only at h2
  split at h2
  · exact .inl h2.1
  · split at h2
    · exact .inl h2.1
    · split at h2
      · exact .inl h2.1
      · obtain ⟨bytes, b, h3, h4⟩ := h2
        by_cases hb : bytes = []
        · rw [if_pos hb] at h4; exact .inl h4
        · rw [if_neg hb] at h4; exact .inr ⟨bytes, b, h3.symm, h4⟩

/-- C72 for the TCP side of the resolver. -/
theorem C72_resolver_tcp (p : Profile) (conf : Resolver.Params) (threads : Nat) (ht : 0 < threads) (stop : Bool)
    (s : State (Conn Addr) (Packet Addr)) (h : Reachable (resolverTcp p conf) threads stop s) :
    ∃ runs, Explains (resolverTcp p conf) s runs ∧ ∀ run ∈ runs, ∃ r, s.jobs[run.number]? = some r ∧
      (run.outs = [] ∨ ∃ env w fuel bytes b, (Resolver.serveTcp env p conf fuel r.stream r.room w).1 = .ok (bytes, b) ∧
        run.outs = [⟨r.addr, bytes⟩]) := by
  obtain ⟨runs, he, -⟩ := C72_served_once _ threads ht stop s h
  refine ⟨runs, he, fun run hr => ?_⟩
  obtain ⟨r, h1, h2⟩ := he.real run hr
  refine ⟨r, h1, ?_⟩
  unfold resolverTcp tcpKind at h2
  simp only at h2
  split at h2
  · exact .inl h2.1
  · split at h2
    · exact .inl h2.1
    · split at h2
      · exact .inl h2.1
      · obtain ⟨bytes, b, ⟨env, w, fuel, h3⟩, h4⟩ := h2
        by_cases hb : bytes = []
        · rw [if_pos hb] at h4; exact .inl h4
        · rw [if_neg hb] at h4
          refine .inr ⟨env, w, fuel, bytes, b, ?_, h4⟩
          generalize (Resolver.serveTcp env p conf fuel r.stream r.room w).1 = o at h3 ⊢
          cases o with
          | ok x => cases h3; rfl
          | _ => cases h3

/-! ## C73 -/

/-- The state after `j` requests that made their workers panic. -/
def decimated (r : R) (threads j : Nat) : State R O where
  phase := .receiving
  pool := ⟨.using, [], List.replicate j .dead ++ List.replicate (threads - j) .idle, j, List.range j, [], List.range j⟩
  inbox := []
  seen := List.replicate j r
  jobs := List.replicate j r
  sent := []

theorem decimated_reachable {k : Kind R O} {r : R} (hr : k.serves r [] true) (threads : Nat) :
    ∀ j, j ≤ threads → Reachable k threads false (decimated r threads j) := by
  intro j
  induction j with
  | zero => intro _; exact .step .init (.bound rfl)
  | succ j ih =>
    intro hj
    have hw : ∀ w w', ((List.replicate j Pool.Worker.dead ++ w :: List.replicate (threads - (j + 1)) Pool.Worker.idle).set j w') =
        List.replicate j Pool.Worker.dead ++ w' :: List.replicate (threads - (j + 1)) Pool.Worker.idle := fun w w' => by
      rw [List.set_append_right _ _ (by simp)]; simp
    have hg : ∀ w, (List.replicate j Pool.Worker.dead ++ w :: List.replicate (threads - (j + 1)) Pool.Worker.idle)[j]? = some w := fun w => by
      rw [List.getElem?_append_right (by simp)]; simp
    have e : decimated (O := O) r threads j = ⟨.receiving, ⟨.using, [], List.replicate j .dead ++ .idle :: List.replicate (threads - (j + 1)) .idle, j,
        List.range j, [], List.range j⟩, [], List.replicate j r, List.replicate j r, []⟩ := by
      unfold decimated
      rw [← List.replicate_succ, show threads - (j + 1) + 1 = threads - j from by omega]
    have h0 := ih (by omega)
    rw [e] at h0
    have h1 := Reachable.arrive h0 (.mk r rfl)
    have h2 := Reachable.step h1 (.recv r [] rfl rfl)
    have h3 := Reachable.step h2 (.clear r rfl rfl)
    have h4 := Reachable.step h3 (.submit r rfl (by simp [Pool.State.connected, Pool.Worker.live]))
    have h5 := Reachable.step h4 (.lock j (hg _) (by
      simp only [Pool.State.unlocked, List.all_eq_true, List.mem_append, List.mem_cons, List.mem_replicate, bne_iff_ne, ne_eq]
      rintro w (⟨-, rfl⟩ | rfl | ⟨-, rfl⟩) <;> simp))
    simp only [hw] at h5
    have h6 := Reachable.step h5 (.takeJob j j [] (hg _) rfl)
    simp only [hw] at h6
    have h7 := Reachable.step h6 (.crash j j r [] (hg _) (by simp) hr)
    simp only [hw] at h7
    have e' : decimated (O := O) r threads (j + 1) = ⟨.receiving, ⟨.using, [], List.replicate j .dead ++ .dead :: List.replicate (threads - (j + 1)) .idle,
        j + 1, List.range j ++ [j], [], List.range j ++ [j]⟩, [], List.replicate j r ++ [r], List.replicate j r ++ [r], []⟩ := by
      unfold decimated
      rw [List.replicate_succ', List.replicate_succ', List.range_succ, List.append_assoc]
      rfl
    rw [e']
    exact h7

/-- A request that makes a worker panic, sent once more than there are threads, ends the process. -/
theorem abort_reachable {k : Kind R O} {r : R} (hr : k.serves r [] true) (threads : Nat) :
    ∃ s, Reachable k threads false s ∧ s.phase = .aborted ∧ s.seen = List.replicate (threads + 1) r := by
  have h0 := decimated_reachable hr threads threads (le_refl _)
  have h1 := Reachable.arrive h0 (.mk r rfl)
  have h2 := Reachable.step h1 (.recv r [] rfl rfl)
  have h3 := Reachable.step h2 (.clear r rfl rfl)
  have h4 := Reachable.step h3 (.abort r rfl (by simp [decimated, Pool.State.connected, Pool.Worker.live]))
  exact ⟨_, h4, rfl, by rw [List.replicate_succ']; rfl⟩

theorem udpKind_panics {serve : List UInt8 → List (Option Nat) → Out Empty (List (List UInt8) × Bool) → Prop} {r : Packet Addr} {e : Panic}
    (h : serve r.bytes [some Message.MAX_UDP_LEN_BYTES] (.panic e)) : (udpKind serve).serves r [] true :=
  ⟨rfl, true, e, h⟩

theorem nameserver_aaaa (p : Profile) (zones : ManagedZone) (a : Addr) :
    (nameserverUdp p zones).serves ⟨a, aaaaQuery⟩ [] true :=
  udpKind_panics (e := .index) (C50_violated.2 p zones [some Message.MAX_UDP_LEN_BYTES]).symm

theorem resolver_aaaa (p : Profile) (conf : Resolver.Params) (a : Addr) :
    (resolverUdp p conf).serves ⟨a, aaaaQuery⟩ [] true := by
  refine udpKind_panics (e := .index) ⟨scripted fun _ => none, ⟨.empty, 0, []⟩, 0, ?_⟩
  have := C68_violated.2 (scripted fun _ => none) p conf 0 [some Message.MAX_UDP_LEN_BYTES] ⟨.empty, 0, []⟩
  rw [this]
  rfl

/-- The full statement of C73, for UDP: no sequence of requests, in any schedule, ends the process. -/
def C73_statement : Prop :=
  (∀ (p : Profile) (conf : ZoneParser.Params) (zones : ManagedZone) (threads : Nat) (stop : Bool) (s : State (Packet Nat) (Packet Nat)),
    0 < threads → Loaded conf zones → Reachable (nameserverUdp p zones) threads stop s → s.phase ≠ .aborted) ∧
  ∀ (p : Profile) (conf : Resolver.Params) (threads : Nat) (stop : Bool) (s : State (Packet Nat) (Packet Nat)),
    0 < threads → Reachable (resolverUdp p conf) threads stop s → s.phase ≠ .aborted

/-- C73 does not hold: as many AAAA queries as there are threads, and one more, from anywhere, abort the name server and the
resolver, whatever their zones, configuration and number of threads. -/
theorem C73_violated : ¬ C73_statement ∧
    (∀ (p : Profile) (zones : ManagedZone) (threads : Nat) (a : Addr), ∃ s : State (Packet Addr) (Packet Addr),
      Reachable (nameserverUdp p zones) threads false s ∧ s.phase = .aborted ∧ s.seen = List.replicate (threads + 1) ⟨a, aaaaQuery⟩) ∧
    (∀ (p : Profile) (conf : Resolver.Params) (threads : Nat) (a : Addr), ∃ s : State (Packet Addr) (Packet Addr),
      Reachable (resolverUdp p conf) threads false s ∧ s.phase = .aborted ∧ s.seen = List.replicate (threads + 1) ⟨a, aaaaQuery⟩) := by
  have h1 : ∀ {Addr : Type} (p : Profile) (zones : ManagedZone) (threads : Nat) (a : Addr), ∃ s : State (Packet Addr) (Packet Addr),
      Reachable (nameserverUdp p zones) threads false s ∧ s.phase = .aborted ∧ s.seen = List.replicate (threads + 1) ⟨a, aaaaQuery⟩ :=
    fun p zones threads a => abort_reachable (nameserver_aaaa p zones a) threads
  have h2 : ∀ {Addr : Type} (p : Profile) (conf : Resolver.Params) (threads : Nat) (a : Addr), ∃ s : State (Packet Addr) (Packet Addr),
      Reachable (resolverUdp p conf) threads false s ∧ s.phase = .aborted ∧ s.seen = List.replicate (threads + 1) ⟨a, aaaaQuery⟩ :=
    fun p conf threads a => abort_reachable (resolver_aaaa p conf a) threads
  refine ⟨fun h => ?_, h1, h2⟩
  obtain ⟨s, hs, ha, -⟩ := h2 .release ⟨1, 1, 1, false⟩ 1 0
  exact h.2 _ _ 1 _ s (by decide) hs ha

/-- What can end the process: every thread has been lost to a request that made the handler panic. If no accepted request
can do that, all threads live and the server never stops by itself. -/
theorem no_abort {k : Kind R O} {threads : Nat} (ht : 0 < threads) {stop : Bool} {s : State R O} (h : Reachable k threads stop s) :
    (s.phase = .aborted → ∃ runs, Explains k s runs ∧ (runs.filter (·.panics)).length = threads) ∧
    ((∀ r ∈ s.seen, ∀ outs, ¬ k.serves r outs true) → s.phase ≠ .aborted ∧ s.phase ≠ .panicked ∧
      (s.phase.listening = true → s.pool.liveCount = threads)) := by
  obtain ⟨runs, hi⟩ := inv_reachable h
  have c := C31_fifo_at_most_once threads ht s.pool hi.pool
  have c33 := C33_panics_cost_one_worker_partial threads ht s.pool hi.pool
  have hex : Explains k s runs := by
    refine ⟨?_, hi.real, hi.sent⟩
    have hperm : (s.pool.running ++ runs.map (·.number)).Perm s.pool.started := by
      have := c.2.2.2.2
      rw [hi.fin, hi.crash, List.append_assoc] at this
      exact ((List.Perm.append_left _ (numbers_perm runs)).symm).trans this
    have hnd : s.pool.started.Nodup := by rw [c.1]; exact List.nodup_range
    exact (List.nodup_append.1 ((List.Perm.nodup_iff hperm).2 hnd)).2.1
  have hab : s.phase = .aborted → s.pool.crashed.length = threads := fun ha => by
    have hm : s.pool.main = .using := by have := hi.fits; rw [ha] at this; exact this
    have a := c33.1 hm
    have b : s.pool.liveCount = 0 := by
      have := hi.gone ha
      unfold Pool.State.connected at this
      unfold Pool.State.liveCount
      rw [List.countP_eq_zero]
      exact List.any_eq_false.1 this
    omega
  refine ⟨fun ha => ⟨runs, hex, ?_⟩, fun hno => ?_⟩
  · have := hab ha
    rw [hi.crash, List.length_map] at this
    exact this
  · have hc : s.pool.crashed = [] := by
      rw [hi.crash, List.map_eq_nil_iff, List.filter_eq_nil_iff]
      intro run hr hp
      obtain ⟨r, h1, h2⟩ := hi.real run hr
      rw [hp] at h2
      exact hno r (((List.sublist_append_left _ _).trans hi.sub).subset (List.mem_of_getElem? h1)) _ h2
    refine ⟨fun ha => ?_, fun hp => ?_, fun hl => ?_⟩
    · have := hab ha
      rw [hc] at this
      simp at this
      omega
    · have hm : s.pool.main = .panicked := by have := hi.fits; rw [hp] at this; exact this
      exact c33.2.2 hm hc
    · have hm : s.pool.main = .using := by
        have := hi.fits
        cases hp : s.phase <;> rw [hp] at this hl <;> first | exact this | cases hl
      have := c33.1 hm
      rw [hc] at this
      simpa using this

/-- A datagram the name server can handle: a message all of whose questions have known types, or no header at all. -/
def Manageable (p : Profile) (datagram : List UInt8) : Prop :=
  (∃ req, Net.udpRead p datagram = .ok (.fullMessage req) ∧ req.questions.length = req.header.questionsCount.toNat) ∨
  ∃ e eh, Net.udpRead p datagram = .ok (.parseErr e eh)

theorem sendLoop_one (bytes : List UInt8) (x : Option Nat) (k : Panic) : Net.sendLoop bytes [x] 0 [] ≠ .panic k := by
  intro h
  unfold Net.sendLoop at h
  by_cases h0 : 0 < bytes.length
  · rw [if_pos h0] at h
    cases x with
    | none => cases h
    | some n =>
      simp only at h
      unfold Net.sendLoop at h
      by_cases h1 : 0 + n < bytes.length
      · rw [if_pos h1] at h; cases h
      · rw [if_neg h1] at h; cases h
  · rw [if_neg h0] at h; cases h

theorem manageable_no_panic {p : Profile} {conf : ZoneParser.Params} {zones : ManagedZone} (hl : Loaded conf zones)
    (hst : ∀ r, Stored zones r → StringsAtMost 255 r) {d : List UInt8} (hd : Manageable p d) (x : Option Nat) (k : Panic) :
    Nameserver.serveUdp p zones d [x] ≠ .panic k := by
  intro h
  unfold Nameserver.serveUdp at h
  rcases hd with ⟨req, hr, hq⟩ | ⟨e, eh, hr⟩
  · have hdec : Message.decodeFromBytes p (d.take 512) = .ok req := by
      have := (C30_classification.1 p d _).1 hr
      cases this with
      | full h => exact h
    obtain ⟨m, h1, -, y, h2⟩ := reply_encodes hl hst hdec hq
    unfold Replies at h1
    rw [hr, Out.bind_ok, h1, Out.bind_ok] at h
    simp only [Net.udpReply, h2] at h
    exact sendLoop_one _ _ _ h
  · rw [hr, Out.bind_ok] at h
    cases h

/-- C73, part: the process can end in this way only after as many requests that make the handler panic as there are threads.
The name server survives every sequence of datagrams that are all manageable, in every schedule, with all its threads, if no
loaded string is over 255 octets. Missing: other datagrams (`C73_violated`). -/
theorem C73_survives_partial :
    (∀ (k : Kind R O) (threads : Nat) (stop : Bool) (s : State R O), 0 < threads → Reachable k threads stop s → s.phase = .aborted →
      ∃ runs, Explains k s runs ∧ (runs.filter (·.panics)).length = threads) ∧
    ∀ (p : Profile) (conf : ZoneParser.Params) (zones : ManagedZone) (threads : Nat) (stop : Bool) (s : State (Packet Addr) (Packet Addr)),
      0 < threads → Loaded conf zones → (∀ r, Stored zones r → StringsAtMost 255 r) →
      Reachable (nameserverUdp p zones) threads stop s → (∀ r ∈ s.seen, Manageable p r.bytes) →
      s.phase ≠ .aborted ∧ s.phase ≠ .panicked ∧ (s.phase.listening = true → s.pool.liveCount = threads) := by
  refine ⟨fun k threads stop s ht h => (no_abort ht h).1, fun p conf zones threads stop s ht hl hst h hm => (no_abort ht h).2 ?_⟩
  intro r hr outs hs
  obtain ⟨-, ok, e, hs⟩ := hs
  exact manageable_no_panic hl hst (hm r hr) _ _ hs.symm

/-! ## C74 -/

/-- Steps the listening thread can still make, not counting those in `drop`. -/
def phaseWeight : Phase R → Nat
  | .starting => 7
  | .receiving => 1
  | .received _ => 7
  | .cleared _ => 6
  | .dropping => 1
  | _ => 0

/-- As `Pool.ownerWeight`, but `drop` may still come. -/
def ownerLeft (threads : Nat) : Pool.Main → Nat
  | .using => 6 * threads + 3
  | m => ownerWeight threads m

/-- Bound on the steps of a server without new requests. -/
def stepsLeft (s : State R O) : Nat :=
  7 * s.inbox.length + phaseWeight s.phase + workLeft s.pool + ownerLeft s.pool.workers.length s.pool.main

theorem stepsLeft_worker {s : State R O} {q : Pool.State} {sent : List O} (h : Pool.WorkerStep s.pool q) :
    stepsLeft { s with pool := q, sent := sent } < stepsLeft s := by
  have a := workLeft_step h
  have l : q.workers.length = s.pool.workers.length := by cases h <;> simp
  unfold stepsLeft
  simp only [a.2, l]
  omega

theorem stepsLeft_step {k : Kind R O} {threads : Nat} {stop : Bool} {s t : State R O} {runs : List (JobRun O)} (hi : Inv k threads s runs)
    (h : Step k stop s t) (hne : s ≠ t) : stepsLeft t < stepsLeft s := by
  have hf := hi.fits
  cases h with
  | bound h1 => simp [stepsLeft, h1, phaseWeight]
  | bindErr h1 =>
    rw [h1] at hf
    simp only [Fits] at hf
    simp [stepsLeft, h1, phaseWeight, hf, ownerLeft, ownerWeight, workLeft]; omega
  | recv r rest h1 h2 => simp [stepsLeft, h1, h2, phaseWeight]; omega
  | recvErr h1 => exact absurd rfl hne
  | seeStop r h1 h2 =>
    rw [h1] at hf
    simp only [Fits] at hf
    simp [stepsLeft, h1, phaseWeight, hf, ownerLeft, ownerWeight, workLeft]; omega
  | clear r h1 h2 => simp [stepsLeft, h1, phaseWeight]
  | cloneErr r h1 h2 => simp [stepsLeft, h1, phaseWeight]
  | submit r h1 h2 => simp [stepsLeft, h1, phaseWeight, workLeft]; omega
  | abort r h1 h2 => simp [stepsLeft, h1, phaseWeight]
  | @drop t h1 h2 =>
    rw [h1] at hf
    have a := dropLeft_step (.inr h2) hf
    have l : t.workers.length = s.pool.workers.length := by cases h2 <;> rfl
    have e : ∀ m : Pool.Main, m ≠ .using → ownerLeft s.pool.workers.length m = ownerWeight s.pool.workers.length m := by
      intro m hm
      cases m <;> first | rfl | exact absurd rfl hm
    unfold dropLeft at a
    unfold stepsLeft
    simp only [l]
    rw [e _ a.2, e _ hf]
    rw [l] at a
    omega
  | dropEnd h1 h2 => simp [stepsLeft, h1, phaseWeight]
  | dropPanic h1 h2 => simp [stepsLeft, h1, phaseWeight]
  | lock i h1 h2 => exact stepsLeft_worker (.lock i h1 h2)
  | takeJob i n q h1 h2 => exact stepsLeft_worker (.takeJob i n q h1 h2)
  | takeStop i q h1 h2 => exact stepsLeft_worker (.takeStop i q h1 h2)
  | finish i n r outs h1 h2 h3 => exact stepsLeft_worker (.finish i n h1)
  | crash i n r outs h1 h2 h3 => exact stepsLeft_worker (.crash i n h1)
  | orphan i h1 h2 h3 => exact stepsLeft_worker (.orphan i h1 h2 h3)

theorem steps_bound {k : Kind R O} {threads : Nat} {stop : Bool} {s t : State R O} {n : Nat} (hs : Reachable k threads stop s)
    (h : Steps k stop n s t) : n + stepsLeft t ≤ stepsLeft s := by
  induction h with
  | refl => omega
  | step h1 hne _ ih =>
    obtain ⟨runs, hi⟩ := inv_reachable hs
    have := stepsLeft_step hi h1 hne
    have := ih (.step hs h1)
    omega

theorem workers_ne {s : State R O} {ws : List Pool.Worker} {t : State R O} (ht : t.pool.workers = ws) (h : s.pool.workers ≠ ws) : s ≠ t := by
  rintro rfl
  exact h ht

theorem set_ne {ws : List Pool.Worker} {i : Nat} {w w' : Pool.Worker} (h : ws[i]? = some w) (hw : w ≠ w') : ws ≠ ws.set i w' := by
  intro e
  have h2 := congrArg (fun l => l[i]?) e
  simp only [List.getElem?_set_self', h] at h2
  exact hw (by simpa using h2)

/-- In an idle server nothing is running or waiting, as long as one thread is left. -/
theorem rest_done {k : Kind R O} {threads : Nat} (ht : 0 < threads) {stop : Bool} {s : State R O} (hs : Reachable k threads stop s)
    (hid : Idle k stop s) (hend : ∀ (i n : Nat) (r : R), s.pool.workers[i]? = some (.running n) → s.jobs[n]? = some r → ∃ outs b, k.serves r outs b)
    (hc : s.pool.crashed.length < threads) :
    s.phase = .receiving ∧ s.pool.running = [] ∧ s.pool.waiting = [] := by
  obtain ⟨runs, hi⟩ := inv_reachable hs
  obtain ⟨hl, -, hst⟩ := hid
  have hm : s.pool.main = .using := by
    have := hi.fits
    cases hp : s.phase <;> rw [hp] at this hl <;> first | exact this | cases hl
  have c31 := C31_fifo_at_most_once threads ht s.pool hi.pool
  have hcon : s.pool.connected = true := by
    have := (C33_panics_cost_one_worker_partial threads ht s.pool hi.pool).1 hm
    unfold Pool.State.connected
    have : 0 < s.pool.workers.countP Pool.Worker.live := by unfold Pool.State.liveCount at this; omega
    obtain ⟨w, hw, hl⟩ := List.countP_pos_iff.1 this
    exact List.any_eq_true.2 ⟨w, hw, hl⟩
  have hrun : ∀ (i n : Nat), s.pool.workers[i]? ≠ some (.running n) := by
    intro i n hw
    have hn : n < s.jobs.length := by
      have hmem : n ∈ s.pool.running := by
        unfold Pool.State.running
        rw [List.mem_filterMap]
        exact ⟨_, List.mem_of_getElem? hw, rfl⟩
      have : n ∈ s.pool.started := c31.2.2.2.2.subset (by simp [hmem])
      rw [c31.1, List.mem_range] at this
      have := c31.2.1
      rw [hi.jobs] at this
      omega
    have hj : s.jobs[n]? = some s.jobs[n] := List.getElem?_eq_getElem hn
    obtain ⟨outs, b, hb⟩ := hend i n _ hw hj
    cases b with
    | false => exact workers_ne rfl (set_ne hw (by simp)) (hst _ (.finish i n _ outs hw hj hb))
    | true => exact workers_ne rfl (set_ne hw (by simp)) (hst _ (.crash i n _ outs hw hj hb))
  refine ⟨?_, ?_, ?_⟩
  · cases hp : s.phase with
    | receiving => rfl
    | received r =>
      cases stop with
      | true => have := congrArg State.phase (hst _ (.seeStop r hp rfl)); rw [hp] at this; cases this
      | false => have := congrArg State.phase (hst _ (.clear r hp rfl)); rw [hp] at this; cases this
    | cleared r => have := congrArg State.phase (hst _ (.submit r hp hcon)); rw [hp] at this; cases this
    | _ => rw [hp] at hl; cases hl
  · unfold Pool.State.running
    rw [List.filterMap_eq_nil_iff]
    intro w hw
    obtain ⟨i, hi, e⟩ := List.mem_iff_getElem.1 hw
    cases w with
    | running m => exact absurd (by rw [List.getElem?_eq_getElem hi, e]) (hrun i m)
    | _ => rfl
  · apply queue_waiting
    by_contra hq
    rcases unlocked_or_holding s.pool with hu | ⟨i, hh⟩
    · obtain ⟨w, hw, hlv⟩ := List.any_eq_true.1 hcon
      obtain ⟨i, hi', e⟩ := List.mem_iff_getElem.1 hw
      have hw' : s.pool.workers[i]? = some w := by rw [List.getElem?_eq_getElem hi', e]
      cases w with
      | idle => exact workers_ne rfl (set_ne hw' (by simp)) (hst _ (.lock i hw' hu))
      | running n => exact hrun i n hw'
      | holding =>
        have := List.all_eq_true.1 hu _ hw
        simp at this
      | stopped => cases hlv
      | dead => cases hlv
    · cases hqe : s.pool.queue with
      | nil => exact hq hqe
      | cons m q =>
        cases m with
        | job n => exact workers_ne rfl (set_ne hh (by simp)) (hst _ (.takeJob i n q hh hqe))
        | stop => exact workers_ne rfl (set_ne hh (by simp)) (hst _ (.takeStop i q hh hqe))

theorem idle_done {k : Kind R O} {threads : Nat} (ht : 0 < threads) {stop : Bool} {s : State R O} (hs : Reachable k threads stop s)
    (hid : Idle k stop s) (hend : ∀ r ∈ s.jobs, ∃ outs b, k.serves r outs b) (hc : s.pool.crashed.length < threads) :
    s.phase = .receiving ∧ s.pool.running = [] ∧ s.pool.waiting = [] :=
  rest_done ht hs hid (fun _ _ r _ h => hend r (List.mem_of_getElem? h)) hc

/-- C74. However its threads are scheduled, a server that gets no new requests makes a bounded number of steps. When it then
waits, and a thread is left, every accepted request has been handled, exactly once, provided that handling the accepted requests
always ends; over TCP every connection taken from the socket was accepted. -/
theorem C74_drains (k : Kind R O) (threads : Nat) (ht : 0 < threads) (stop : Bool) (s : State R O) (hs : Reachable k threads stop s) :
    (∀ n t, Steps k stop n s t → n ≤ 7 * s.inbox.length + 4 * s.pool.queue.length + 9 * threads + 10) ∧
    ((∀ r ∈ s.jobs, ∃ outs b, k.serves r outs b) → s.pool.crashed.length < threads → Idle k stop s →
      ∃ runs, Explains k s runs ∧ (runs.map (·.number)).Perm (List.range s.jobs.length) ∧ (k.mayDrop = false → s.jobs = s.seen)) := by
  refine ⟨fun n t h => ?_, fun hend hc hid => ?_⟩
  · have a := steps_bound hs h
    obtain ⟨runs, hi⟩ := inv_reachable hs
    have hl := (Pool.inv_reachable ht hi.pool).len
    have b := weight_le s.pool.workers
    have c : ownerLeft s.pool.workers.length s.pool.main ≤ 6 * threads + 3 := by
      have hp := Pool.inv_reachable ht hi.pool
      rw [hl]
      cases hm : s.pool.main with
      | stopping j =>
        have := hp.aStopping j hm
        simp only [ownerLeft, ownerWeight]; omega
      | joining j => simp only [ownerLeft, ownerWeight]; omega
      | _ => simp [ownerLeft, ownerWeight]
    have d : phaseWeight s.phase ≤ 7 := by cases s.phase <;> simp [phaseWeight]
    unfold stepsLeft workLeft at a
    omega
  · obtain ⟨h1, h2, h3⟩ := idle_done ht hs hid hend hc
    obtain ⟨runs, hi⟩ := inv_reachable hs
    obtain ⟨runs', he, -⟩ := C72_served_once k threads ht stop s hs
    have c := C31_fifo_at_most_once threads ht s.pool hi.pool
    have hperm : (runs.map (·.number)).Perm (List.range s.jobs.length) := by
      have p := c.2.2.2.2
      have e := c.2.2.1
      rw [h3, List.append_nil, hi.jobs] at e
      rw [h2, List.nil_append, hi.fin, hi.crash, e] at p
      exact (numbers_perm runs).symm.trans p
    refine ⟨runs, ⟨(List.Perm.nodup_iff hperm).2 List.nodup_range, hi.real, hi.sent⟩, hperm, fun hd => ?_⟩
    have := hi.all hd (.inr (by rw [h1]; rfl))
    rw [h1] at this
    simpa [Phase.inHand] using this.symm

/-! ## C75 -/

/-- How many messages the main thread has taken. -/
def taken : Main → Nat
  | .waiting => 0
  | .returned => 2
  | _ => 1

/-- Invariant of the process. -/
structure ProcessInv (k : Kind R O) (k' : Kind R' O') (n n' : Nat) (s : Process R O R' O') : Prop where
  udp : Reachable k n s.stop s.udp
  tcp : Reachable k' n' s.stop s.tcp
  udpTold : s.udpTold = true → s.udp.phase = .returned
  tcpTold : s.tcpTold = true → s.tcp.phase = .returned
  notes : s.notes + taken s.main = s.udpTold.toNat + s.tcpTold.toNat
  stop : s.stop = true ↔ s.main ≠ .waiting ∧ s.main ≠ .flagged

theorem returned_stays {k : Kind R O} {stop : Bool} {s t : State R O} (h : Step k stop s t) (hr : s.phase = .returned) : t.phase = .returned := by
  cases h <;> simp_all

theorem processInv_step {k : Kind R O} {k' : Kind R' O'} {wake : R} {wake' : R'} {n n' : Nat} {s t : Process R O R' O'}
    (h : ProcessInv k k' n n' s) (hs : Process.Step k k' wake wake' s t) : ProcessInv k k' n n' t := by
  obtain ⟨hu, ht, hut, htt, hn, hst⟩ := h
  cases hs with
  | udp _ h => exact ⟨.step hu h, ht, fun e => returned_stays h (hut e), htt, hn, hst⟩
  | tcp _ h => exact ⟨hu, .step ht h, hut, fun e => returned_stays h (htt e), hn, hst⟩
  | udpTell _ h1 h2 => exact ⟨hu, ht, fun _ => h1, htt, (by simp only [h2, Bool.toNat_false, Bool.toNat_true] at hn ⊢; omega), hst⟩
  | tcpTell _ h1 h2 => exact ⟨hu, ht, hut, fun _ => h1, (by simp only [h2, Bool.toNat_false, Bool.toNat_true] at hn ⊢; omega), hst⟩
  | heard m _ h1 h2 => exact ⟨hu, ht, hut, htt, (by simp only [h1, h2, taken] at hn ⊢; omega), (by simp only [h1] at hst ⊢; simpa using hst)⟩
  | flag _ h1 => exact ⟨.setStop hu, .setStop ht, hut, htt, (by simp only [h1, taken] at hn ⊢; omega), (by simp)⟩
  | wakeUdp _ h1 =>
    refine ⟨?_, ht, fun e => ?_, htt, (by simp only [h1, taken] at hn ⊢; omega), (by simp only [h1] at hst ⊢; simpa using hst)⟩
    · by_cases hl : s.udp.phase.listening = true
      · simp only [hl, if_true]; exact .arrive hu (.mk wake hl)
      · simp only [hl]; exact hu
    · by_cases hl : s.udp.phase.listening = true
      · simp only [hl, if_true]; exact hut e
      · simp only [hl]; exact hut e
  | wakeUdpLost _ h1 =>
    exact ⟨hu, ht, hut, htt, (by simp only [h1, taken] at hn ⊢; omega), (by simp only [h1] at hst ⊢; simpa using hst)⟩
  | wakeUdpErr _ h1 =>
    exact ⟨hu, ht, hut, htt, (by simp only [h1, taken] at hn ⊢; omega), (by simp only [h1] at hst ⊢; simpa using hst)⟩
  | wakeTcp _ h1 =>
    refine ⟨hu, ?_, hut, fun e => ?_, (by simp only [h1, taken] at hn ⊢; omega), (by simp only [h1] at hst ⊢; simpa using hst)⟩
    · by_cases hl : s.tcp.phase.listening = true
      · simp only [hl, if_true]; exact .arrive ht (.mk wake' hl)
      · simp only [hl]; exact ht
    · by_cases hl : s.tcp.phase.listening = true
      · simp only [hl, if_true]; exact htt e
      · simp only [hl]; exact htt e
  | wakeTcpErr _ h1 =>
    exact ⟨hu, ht, hut, htt, (by simp only [h1, taken] at hn ⊢; omega), (by simp only [h1] at hst ⊢; simpa using hst)⟩
  | done m _ h1 h2 => exact ⟨hu, ht, hut, htt, (by simp only [h1, h2, taken] at hn ⊢; omega), (by simp only [h1] at hst ⊢; simpa using hst)⟩
  | timeout _ h1 h2 => exact ⟨hu, ht, hut, htt, (by simp only [h1, taken] at hn ⊢; omega), (by simp only [h1] at hst ⊢; simpa using hst)⟩

theorem processInv_arrive {k : Kind R O} {k' : Kind R' O'} {n n' : Nat} {s t : Process R O R' O'}
    (h : ProcessInv k k' n n' s) (hs : Process.Arrive s t) : ProcessInv k k' n n' t := by
  obtain ⟨hu, ht, hut, htt, hn, hst⟩ := h
  cases hs with
  | udp _ h => exact ⟨.arrive hu h, ht, fun e => by have := hut e; cases h; exact this, htt, hn, hst⟩
  | tcp _ h => exact ⟨hu, .arrive ht h, hut, fun e => by have := htt e; cases h; exact this, hn, hst⟩

theorem processInv_reachable {k : Kind R O} {k' : Kind R' O'} {wake : R} {wake' : R'} {n n' : Nat} {s : Process R O R' O'}
    (h : Process.Reachable k k' wake wake' n n' s) : ProcessInv k k' n n' s := by
  induction h with
  | init => exact ⟨.init, .init, (by simp [Process.init]), (by simp [Process.init]), rfl, (by simp [Process.init])⟩
  | step _ hs ih => exact processInv_step ih hs
  | arrive _ hs ih => exact processInv_arrive ih hs

/-- The full statement of C75: when one server ends, the other one is stopped as well and `start_servers` returns. -/
def C75_statement : Prop :=
  ∀ (p : Profile) (zones : ManagedZone) (wake : Packet Nat) (wake' : Conn Nat) (n n' : Nat) (s : Process _ _ _ _), 0 < n → 0 < n' →
    Process.Reachable (nameserverUdp p zones) (nameserverTcp p zones) wake wake' n n' s → s.main ≠ .panicked

/-- A pool whose `drop` begins, and the same pool when it has returned. -/
def closing : Pool.State := ⟨.stopping 1, [], [.idle], 0, [], [], []⟩
def closedPool : Pool.State := ⟨.dropped, [], [.stopped], 0, [], [], []⟩

theorem closes {k : Kind R O} {k' : Kind R' O'} {wake : R} {wake' : R'} {n n' : Nat} {tcp : State R' O'} {notes : Nat}
    (ha : tcp.phase ≠ .aborted)
    (h : Process.Reachable k k' wake wake' n n' ⟨.waiting, ⟨.dropping, closing, [], [], [], []⟩, tcp, false, notes, false, false⟩) :
    Process.Reachable k k' wake wake' n n' ⟨.waiting, ⟨.returned, closedPool, [], [], [], []⟩, tcp, false, notes, false, false⟩ := by
  have al : ∀ {ph : Phase R} {q : Pool.State}, ph ≠ .aborted →
      Process.alive (R := R) (O := O) ⟨.waiting, ⟨ph, q, [], [], [], []⟩, tcp, false, notes, false, false⟩ :=
    fun hp => ⟨by simp, by simp, hp, ha⟩
  have h1 := Process.Reachable.step h (.udp (al (by simp)) (.drop rfl (.sendStop 0 rfl rfl)))
  have h2 := Process.Reachable.step h1 (.udp (al (by simp)) (.lock 0 rfl rfl))
  have h3 := Process.Reachable.step h2 (.udp (al (by simp)) (.takeStop 0 [] rfl rfl))
  have h4 := Process.Reachable.step h3 (.udp (al (by simp)) (.drop rfl (.beginJoin rfl)))
  have h5 := Process.Reachable.step h4 (.udp (al (by simp)) (.drop rfl (.join 0 rfl rfl)))
  have h6 := Process.Reachable.step h5 (.udp (al (by simp)) (.drop rfl (.endDrop 1 rfl (Nat.le_refl 1))))
  exact Process.Reachable.step h6 (.udp (al (by simp)) (.dropEnd rfl rfl))

/-- The UDP address cannot be bound; the main thread sends its wake-up messages before the TCP server listens. -/
theorem race_reachable (k : Kind R O) (k' : Kind R' O') (wake : R) (wake' : R') :
    ∃ s, Process.Reachable k k' wake wake' 1 1 s ∧ s.main = .panicked ∧ s.udp.phase = .returned ∧ s.tcp.phase = .receiving := by
  have al : ∀ {m : Main} {ph : Phase R} {ph' : Phase R'} {q q' : Pool.State} {b c d : Bool} {notes : Nat}, m ≠ .returned → m ≠ .panicked →
      ph ≠ .aborted → ph' ≠ .aborted →
      Process.alive (R := R) (O := O) (R' := R') (O' := O') ⟨m, ⟨ph, q, [], [], [], []⟩, ⟨ph', q', [], [], [], []⟩, b, notes, c, d⟩ :=
    fun h1 h2 h3 h4 => ⟨h1, h2, h3, h4⟩
  have h0 : Process.Reachable k k' wake wake' 1 1 ⟨.waiting, ⟨.dropping, closing, [], [], [], []⟩, Server.init 1, false, 0, false, false⟩ :=
    .step .init (.udp (al (by simp) (by simp) (by simp) (by simp)) (.bindErr rfl))
  have h1 := closes (by simp [Server.init]) h0
  have h2 := Process.Reachable.step h1 (.udpTell (al (by simp) (by simp) (by simp) (by simp)) rfl rfl)
  have h3 := Process.Reachable.step h2 (.heard 0 (al (by simp) (by simp) (by simp) (by simp)) rfl rfl)
  have h4 := Process.Reachable.step h3 (.flag (al (by simp) (by simp) (by simp) (by simp)) rfl)
  have h5 := Process.Reachable.step h4 (.wakeUdp (al (by simp) (by simp) (by simp) (by simp)) rfl)
  have h6 := Process.Reachable.step h5 (.wakeTcp (al (by simp) (by simp) (by simp [Phase.listening]) (by simp)) rfl)
  have h7 := Process.Reachable.step h6 (.tcp (al (by simp) (by simp) (by simp [Phase.listening]) (by simp [Phase.listening])) (.bound rfl))
  have h8 := Process.Reachable.step h7 (.timeout (al (by simp) (by simp) (by simp [Phase.listening]) (by simp)) rfl rfl)
  exact ⟨_, h8, rfl, rfl, rfl⟩

/-- C75 does not hold: if the address of one server cannot be bound and the other server is slow to start, the wake-up message
is lost, the other server keeps waiting for requests and the main thread panics after four seconds. -/
theorem C75_violated : ¬ C75_statement := fun h => by
  obtain ⟨z, -⟩ := ok_of (x := ZoneParser.parseZoneFiles .release sampleFiles forwards 20 sampleConf) (fun _ => true) (by decide +kernel)
  obtain ⟨s, hs, hm, -⟩ := race_reachable (nameserverUdp .release z) (nameserverTcp .release z) ⟨0, [0]⟩ ⟨0, [0], 0, true, true⟩
  exact h _ _ _ _ 1 1 s (by decide) (by decide) hs hm

/-- Steps of the main thread and messages to it that are still possible. -/
def lifeLeft (s : Process R O R' O') : Nat :=
  (match s.main with
    | .waiting => 5
    | .flagged => 4
    | .wakeUdp => 3
    | .wakeTcp => 2
    | .lastWait => 1
    | _ => 0) + (1 - s.udpTold.toNat) + (1 - s.tcpTold.toNat)

theorem lifeLeft_step {k : Kind R O} {k' : Kind R' O'} {wake : R} {wake' : R'} {s t : Process R O R' O'}
    (h : Process.Step k k' wake wake' s t) : lifeLeft t ≤ lifeLeft s ∧ (Process.Life k k' wake wake' s t → lifeLeft t < lifeLeft s) := by
  cases h with
  | udp _ h => exact ⟨le_refl _, fun hl => by rcases hl.2 with h | h | h <;> exact absurd rfl h⟩
  | tcp _ h => exact ⟨le_refl _, fun hl => by rcases hl.2 with h | h | h <;> exact absurd rfl h⟩
  | udpTell _ h1 h2 => simp [lifeLeft, h2]
  | tcpTell _ h1 h2 => simp [lifeLeft, h2]
  | _ => simp [lifeLeft, *]

theorem life_bound {k : Kind R O} {k' : Kind R' O'} {wake : R} {wake' : R'} {s t : Process R O R' O'} {n : Nat}
    (h : Process.Runs k k' wake wake' n s t) : n + lifeLeft t ≤ lifeLeft s := by
  induction h with
  | refl => omega
  | life h _ ih => have := (lifeLeft_step h.1).2 h; omega
  | step h _ _ ih => have := (lifeLeft_step h).1; omega
  | arrive h _ ih => cases h <;> exact ih

/-- C75, part, for every kind of servers and every schedule: the main thread does nothing before one server has ended. Once one
has, the process cannot linger: something can be done about its end, and there are at most seven such steps. `start_servers`
returns only when both servers have ended and have handled every request they accepted. Missing: that it returns at all
(`C75_violated`), see `C75_clean_partial`. -/
theorem C75_lifecycle_partial (k : Kind R O) (k' : Kind R' O') (wake : R) (wake' : R') (n n' : Nat) (hn : 0 < n) (hn' : 0 < n')
    (s : Process R O R' O') (h : Process.Reachable k k' wake wake' n n' s) :
    (s.stop = true ∨ s.main ≠ .waiting → s.udp.phase = .returned ∨ s.tcp.phase = .returned) ∧
    (s.alive → s.udp.phase = .returned ∨ s.tcp.phase = .returned → ∃ t, Process.Life k k' wake wake' s t) ∧
    (∀ m t, Process.Runs k k' wake wake' m s t → m ≤ 7) ∧
    (s.main = .returned → s.udp.phase = .returned ∧ s.tcp.phase = .returned ∧
      (∃ runs, Explains k s.udp runs ∧ (runs.map (·.number)).Perm (List.range s.udp.jobs.length) ∧ ∀ run ∈ runs, run.panics = false) ∧
      ∃ runs, Explains k' s.tcp runs ∧ (runs.map (·.number)).Perm (List.range s.tcp.jobs.length) ∧ ∀ run ∈ runs, run.panics = false) := by
  have hi := processInv_reachable h
  have told : 0 < s.udpTold.toNat + s.tcpTold.toNat → s.udp.phase = .returned ∨ s.tcp.phase = .returned := by
    intro h0
    cases hu : s.udpTold with
    | true => exact .inl (hi.udpTold hu)
    | false =>
      cases ht : s.tcpTold with
      | true => exact .inr (hi.tcpTold ht)
      | false => rw [hu, ht] at h0; cases h0
  refine ⟨fun hm => told ?_, fun ha hr => ?_, fun m t hr => ?_, fun hm => ?_⟩
  · have := hi.notes
    have hm : s.main ≠ .waiting := by
      rcases hm with hm | hm
      · exact (hi.stop.1 hm).1
      · exact hm
    cases hx : s.main <;> rw [hx] at this hm <;> simp only [taken] at this <;> first | omega | exact absurd rfl hm
  · cases hm : s.main with
    | waiting =>
      cases hno : s.notes with
      | succ j => exact ⟨_, .heard j ha hm hno, .inl (by simp [hm])⟩
      | zero =>
        have hn := hi.notes
        rw [hm, hno] at hn
        simp only [taken] at hn
        rcases hr with hr | hr
        · have : s.udpTold = false := by
            cases hu : s.udpTold with
            | false => rfl
            | true => rw [hu] at hn; simp only [Bool.toNat_true] at hn; omega
          exact ⟨_, .udpTell ha hr this, .inr (.inl (by simp [this]))⟩
        · have : s.tcpTold = false := by
            cases hu : s.tcpTold with
            | false => rfl
            | true => rw [hu] at hn; simp only [Bool.toNat_true] at hn; omega
          exact ⟨_, .tcpTell ha hr this, .inr (.inr (by simp [this]))⟩
    | flagged => exact ⟨_, .flag ha hm, .inl (by simp [hm])⟩
    | wakeUdp => exact ⟨_, .wakeUdpLost ha hm, .inl (by simp [hm])⟩
    | wakeTcp => exact ⟨_, .wakeTcpErr ha hm, .inl (by simp [hm])⟩
    | lastWait =>
      cases hno : s.notes with
      | succ j => exact ⟨_, .done j ha hm hno, .inl (by simp [hm])⟩
      | zero => exact ⟨_, .timeout ha hm hno, .inl (by simp [hm])⟩
    | returned => exact absurd hm ha.1
    | panicked => exact absurd hm ha.2.1
  · have := life_bound hr
    have hb : lifeLeft s ≤ 7 := by
      unfold lifeLeft
      cases s.main <;> simp <;> omega
    omega
  · have hno := hi.notes
    rw [hm] at hno
    simp only [taken] at hno
    have hu : s.udpTold = true := by
      cases hu : s.udpTold with
      | true => rfl
      | false => rw [hu] at hno; cases ht : s.tcpTold <;> rw [ht] at hno <;> simp at hno
    have ht : s.tcpTold = true := by
      cases ht : s.tcpTold with
      | true => rfl
      | false => rw [ht, hu] at hno; simp at hno
    have h1 := hi.udpTold hu
    have h2 := hi.tcpTold ht
    refine ⟨h1, h2, ?_, ?_⟩
    · obtain ⟨runs, he, -, -, -, -, -, hf⟩ := C72_served_once k n hn _ _ hi.udp
      exact ⟨runs, he, hf h1⟩
    · obtain ⟨runs, he, -, -, -, -, -, hf⟩ := C72_served_once k' n' hn' _ _ hi.tcp
      exact ⟨runs, he, hf h2⟩

/-- What a run of the threads of one server keeps, once the flag is set. -/
structure Settled (k : Kind R O) (threads : Nat) (s : State R O) : Prop where
  reach : Reachable k threads true s
  woken : Woken s
  harmless : Harmless k (s.seen ++ s.inbox)

theorem settled_step {k : Kind R O} {threads : Nat} (ht : 0 < threads) {s t : State R O} (h : Settled k threads s) (hs : Step k true s t) :
    Settled k threads t := by
  have hw := h.woken
  have hh := h.harmless
  have safe : t.seen ++ t.inbox = s.seen ++ s.inbox → t.phase ≠ .aborted ∧ t.phase ≠ .panicked := fun e =>
    have := (no_abort ht (.step h.reach hs)).2 fun r hr => (hh r (by rw [← e]; exact List.mem_append_left _ hr)).1
    ⟨this.1, this.2.1⟩
  have key : Woken t ∧ t.seen ++ t.inbox = s.seen ++ s.inbox := by
    unfold Woken at hw ⊢
    cases hs with
    | recv r rest h1 h2 => exact ⟨trivial, by simp [h2]⟩
    | bound h1 => rw [h1] at hw; exact hw.elim
    | bindErr h1 => exact ⟨trivial, rfl⟩
    | recvErr h1 => exact ⟨hw, rfl⟩
    | seeStop r h1 h2 => exact ⟨trivial, rfl⟩
    | clear r h1 h2 => cases h2
    | cloneErr r h1 h2 => rw [h1] at hw; exact ⟨hw, rfl⟩
    | submit r h1 h2 => rw [h1] at hw; exact ⟨hw, rfl⟩
    | abort r h1 h2 => exact absurd rfl (safe rfl).1
    | drop h1 h2 => exact ⟨hw, rfl⟩
    | dropEnd h1 h2 => exact ⟨trivial, rfl⟩
    | dropPanic h1 h2 => exact absurd rfl (safe rfl).2
    | _ => exact ⟨hw, rfl⟩
  exact ⟨.step h.reach hs, key.1, by rw [key.2]; exact hh⟩

theorem settled_moves {k : Kind R O} {threads : Nat} (ht : 0 < threads) {s : State R O} (h : Settled k threads s)
    (hr : s.phase ≠ .returned) : ∃ t, Step k true s t ∧ s ≠ t := by
  obtain ⟨runs, hi⟩ := inv_reachable h.reach
  have hw := h.woken
  have hno := (no_abort ht h.reach).2 fun r hr => (h.harmless r (List.mem_append_left _ hr)).1
  have byPhase : ∀ {t : State R O}, t.phase ≠ s.phase → s ≠ t := fun hp e => hp (by rw [e])
  have hsub : ∀ r ∈ s.jobs, r ∈ s.seen := fun r hr => ((List.sublist_append_left _ _).trans hi.sub).subset hr
  have hc : s.pool.crashed = [] := by
    rw [hi.crash, List.map_eq_nil_iff, List.filter_eq_nil_iff]
    intro run hrun hp
    obtain ⟨r, h1, h2⟩ := hi.real run hrun
    rw [hp] at h2
    exact (h.harmless r (List.mem_append_left _ (hsub r (List.mem_of_getElem? h1)))).1 _ h2
  unfold Woken at hw
  cases hp : s.phase with
  | receiving =>
    rw [hp] at hw
    cases hb : s.inbox with
    | nil => exact absurd hb hw
    | cons r rest => exact ⟨_, .recv r rest hp hb, byPhase (by rw [hp]; simp)⟩
  | received r => exact ⟨_, .seeStop r hp rfl, byPhase (by rw [hp]; simp)⟩
  | cleared r =>
    have hl := hno.2.2 (by rw [hp]; rfl)
    have hcon : s.pool.connected = true := by
      unfold Pool.State.connected
      have : 0 < s.pool.workers.countP Pool.Worker.live := by unfold Pool.State.liveCount at hl; omega
      obtain ⟨w, hw, hl⟩ := List.countP_pos_iff.1 this
      exact List.any_eq_true.2 ⟨w, hw, hl⟩
    exact ⟨_, .submit r hp hcon, byPhase (by rw [hp]; simp)⟩
  | dropping =>
    have hf := hi.fits
    rw [hp] at hf
    by_cases hst : ∀ q, ¬ Pool.Step s.pool q
    · have := (C32_drop_waits_for_all_jobs threads ht s.pool hi.pool hc).2.2.2 hf hst
      exact ⟨_, .dropEnd hp this, byPhase (by rw [hp]; simp)⟩
    · obtain ⟨q, hq⟩ := not_forall.1 hst
      have hq := not_not.1 hq
      have c31 := C31_fifo_at_most_once threads ht s.pool hi.pool
      have running : ∀ {i n : Nat}, s.pool.workers[i]? = some (.running n) → ∃ t, Step k true s t ∧ s ≠ t := by
        intro i n hw
        have hn : n < s.jobs.length := by
          have hmem : n ∈ s.pool.running := by
            unfold Pool.State.running
            rw [List.mem_filterMap]
            exact ⟨_, List.mem_of_getElem? hw, rfl⟩
          have : n ∈ s.pool.started := c31.2.2.2.2.subset (by simp [hmem])
          rw [c31.1, List.mem_range] at this
          have := c31.2.1
          rw [hi.jobs] at this
          omega
        obtain ⟨outs, ho⟩ := (h.harmless _ (List.mem_append_left _ (hsub _ (List.getElem_mem hn)))).2
        exact ⟨_, .finish i n _ outs hw (List.getElem?_eq_getElem hn) ho, workers_ne rfl (set_ne hw (by simp))⟩
      rcases hq with hq | hq
      · cases hq with
        | lock i h1 h2 => exact ⟨_, .lock i h1 h2, workers_ne rfl (set_ne h1 (by simp))⟩
        | takeJob i n q h1 h2 => exact ⟨_, .takeJob i n q h1 h2, workers_ne rfl (set_ne h1 (by simp))⟩
        | takeStop i q h1 h2 => exact ⟨_, .takeStop i q h1 h2, workers_ne rfl (set_ne h1 (by simp))⟩
        | finish i n h1 => exact running h1
        | crash i n h1 => exact running h1
        | orphan i h1 h2 h3 =>
          refine ⟨_, .orphan i h1 h2 h3, ?_⟩
          rcases h1 with h1 | h1
          · exact workers_ne rfl (set_ne h1 (by simp))
          · exact workers_ne rfl (set_ne h1 (by simp))
      · refine ⟨_, .drop hp hq, fun e => ?_⟩
        have := (dropLeft_step (.inr hq) hf).1
        have e' := congrArg State.pool e
        simp only at e'
        rw [← e'] at this
        omega
  | returned => exact absurd hp hr
  | starting => rw [hp] at hw; exact hw.elim
  | panicked => rw [hp] at hw; exact hw.elim
  | aborted => rw [hp] at hw; exact hw.elim

/-- What a run of the process keeps. -/
structure Leaving (k : Kind R O) (k' : Kind R' O') (n n' : Nat) (s : Process R O R' O') : Prop where
  inv : ProcessInv k k' n n' s
  main : s.main = .lastWait ∨ s.main = .returned
  udp : Settled k n s.udp
  tcp : Settled k' n' s.tcp

theorem leaving_stop {k : Kind R O} {k' : Kind R' O'} {n n' : Nat} {s : Process R O R' O'} (h : Leaving k k' n n' s) : s.stop = true := by
  rw [h.inv.stop]
  rcases h.main with hm | hm <;> rw [hm] <;> simp

/-- Bound on the steps of a process that is about to end. -/
def quietLeft (s : Process R O R' O') : Nat := stepsLeft s.udp + stepsLeft s.tcp + lifeLeft s

theorem leaving_step {k : Kind R O} {k' : Kind R' O'} {wake : R} {wake' : R'} {n n' : Nat} (hn : 0 < n) (hn' : 0 < n') {s t : Process R O R' O'}
    (h : Leaving k k' n n' s) (hs : Process.Quiet k k' wake wake' s t) : Leaving k k' n n' t ∧ quietLeft t < quietLeft s := by
  obtain ⟨hs, hne, hnp⟩ := hs
  have hi := processInv_step h.inv hs
  have hst := leaving_stop h
  have hm := h.main
  have hno : ∀ {m : Main}, s.main = m → m ≠ .lastWait → m ≠ .returned → False := fun e h1 h2 => by
    rcases hm with hm | hm
    · exact h1 (e.symm.trans hm)
    · exact h2 (e.symm.trans hm)
  cases hs with
  | @udp u ha hs =>
    rw [hst] at hs
    obtain ⟨runs, hr⟩ := inv_reachable h.udp.reach
    have := stepsLeft_step hr hs (fun e => hne (by rw [← e]))
    exact ⟨⟨hi, hm, settled_step hn h.udp hs, h.tcp⟩, by simp only [quietLeft, lifeLeft] at *; omega⟩
  | @tcp u ha hs =>
    rw [hst] at hs
    obtain ⟨runs, hr⟩ := inv_reachable h.tcp.reach
    have := stepsLeft_step hr hs (fun e => hne (by rw [← e]))
    exact ⟨⟨hi, hm, h.udp, settled_step hn' h.tcp hs⟩, by simp only [quietLeft, lifeLeft] at *; omega⟩
  | udpTell ha h1 h2 => exact ⟨⟨hi, hm, h.udp, h.tcp⟩, by simp [quietLeft, lifeLeft, h2]⟩
  | tcpTell ha h1 h2 => exact ⟨⟨hi, hm, h.udp, h.tcp⟩, by simp [quietLeft, lifeLeft, h2]⟩
  | heard m ha h1 h2 => exact (hno h1 (by simp) (by simp)).elim
  | flag ha h1 => exact (hno h1 (by simp) (by simp)).elim
  | wakeUdp ha h1 => exact (hno h1 (by simp) (by simp)).elim
  | wakeUdpLost ha h1 => exact (hno h1 (by simp) (by simp)).elim
  | wakeUdpErr ha h1 => exact (hno h1 (by simp) (by simp)).elim
  | wakeTcp ha h1 => exact (hno h1 (by simp) (by simp)).elim
  | wakeTcpErr ha h1 => exact (hno h1 (by simp) (by simp)).elim
  | done m ha h1 h2 => exact ⟨⟨hi, .inr rfl, h.udp, h.tcp⟩, by simp [quietLeft, lifeLeft, h1]⟩
  | timeout ha h1 h2 => exact absurd rfl hnp

theorem leaving_run {k : Kind R O} {k' : Kind R' O'} {wake : R} {wake' : R'} {n n' m : Nat} (hn : 0 < n) (hn' : 0 < n') {s t : Process R O R' O'}
    (hs : Process.Quietly k k' wake wake' m s t) : Leaving k k' n n' s → Leaving k k' n n' t ∧ m + quietLeft t ≤ quietLeft s := by
  induction hs with
  | refl => intro h; exact ⟨h, by omega⟩
  | step h1 _ ih =>
    intro h
    have a := leaving_step hn hn' h h1
    have b := ih a.1
    exact ⟨b.1, by omega⟩

/-- C75, part: the clean end. Once the main thread waits for the second message and both servers have been woken up or have
ended, and their requests are harmless: every schedule in which the four seconds are enough ends, and only with `start_servers`
having returned. Missing: requests that panic or hang the handler (C50, C68), wake-up messages that get lost (`C75_violated`). -/
theorem C75_clean_partial (k : Kind R O) (k' : Kind R' O') (wake : R) (wake' : R') (n n' : Nat) (hn : 0 < n) (hn' : 0 < n')
    (s : Process R O R' O') (h : Process.Reachable k k' wake wake' n n' s) (hm : s.main = .lastWait) (hu : Woken s.udp) (ht : Woken s.tcp)
    (hhu : Harmless k (s.udp.seen ++ s.udp.inbox)) (hht : Harmless k' (s.tcp.seen ++ s.tcp.inbox)) :
    (∃ bound, ∀ m t, Process.Quietly k k' wake wake' m s t → m ≤ bound) ∧
    ∀ m t, Process.Quietly k k' wake wake' m s t → (∀ u, ¬ Process.Quiet k k' wake wake' t u) → t.main = .returned := by
  have hi := processInv_reachable h
  have hst : s.stop = true := by rw [hi.stop, hm]; simp
  have hl : Leaving k k' n n' s := ⟨hi, .inl hm, ⟨hst ▸ hi.udp, hu, hhu⟩, ⟨hst ▸ hi.tcp, ht, hht⟩⟩
  refine ⟨⟨quietLeft s, fun m t hq => ?_⟩, fun m t hq hend => ?_⟩
  · have := (leaving_run hn hn' hq hl).2
    omega
  · have hl := (leaving_run hn hn' hq hl).1
    rcases hl.main with hm | hm
    swap
    · exact hm
    exfalso
    have hst := leaving_stop hl
    have safe : ∀ {R O : Type} {k : Kind R O} {n : Nat} {s : State R O}, 0 < n → Settled k n s → s.phase ≠ .aborted := fun hn h =>
      ((no_abort hn h.reach).2 fun r hr => (h.harmless r (List.mem_append_left _ hr)).1).1
    have ha : t.alive := ⟨by rw [hm]; simp, by rw [hm]; simp, safe hn hl.udp, safe hn' hl.tcp⟩
    have hmp : t.main ≠ .panicked := by rw [hm]; simp
    have hu : t.udp.phase = .returned := by
      by_contra hne
      obtain ⟨u, h1, h2⟩ := settled_moves hn hl.udp hne
      exact hend _ ⟨.udp ha (hst ▸ h1), fun e => h2 (congrArg Process.udp e), hmp⟩
    have ht : t.tcp.phase = .returned := by
      by_contra hne
      obtain ⟨u, h1, h2⟩ := settled_moves hn' hl.tcp hne
      exact hend _ ⟨.tcp ha (hst ▸ h1), fun e => h2 (congrArg Process.tcp e), hmp⟩
    have hut : t.udpTold = true := by
      cases e : t.udpTold with
      | true => rfl
      | false => exact absurd ⟨.udpTell ha hu e, (fun e' => by have := congrArg Process.udpTold e'; simp [e] at this), hmp⟩ (hend _)
    have htt : t.tcpTold = true := by
      cases e : t.tcpTold with
      | true => rfl
      | false => exact absurd ⟨.tcpTell ha ht e, (fun e' => by have := congrArg Process.tcpTold e'; simp [e] at this), hmp⟩ (hend _)
    have hno : t.notes = 1 := by
      have := hl.inv.notes
      rw [hut, htt, hm] at this
      simp only [taken, Bool.toNat_true] at this
      omega
    exact absurd ⟨.done 0 ha hm hno, (fun e' => by have := congrArg Process.main e'; simp [hm] at this), by simp⟩ (hend _)

/-! ## Examples -/

/-- One thread, one request `r`, answered by `outs`; the thread waits for the next. -/
theorem one_request {k : Kind R O} {r : R} {outs : List O} (h : k.serves r outs false) :
    Reachable k 1 false ⟨.receiving, ⟨.using, [], [.holding], 1, [0], [0], []⟩, [], [r], [r], outs⟩ := by
  have h0 : Reachable k 1 false (init 1) := .init
  have h1 := Reachable.step h0 (.bound rfl)
  have h2 := Reachable.arrive h1 (.mk r rfl)
  have h3 := Reachable.step h2 (.recv r [] rfl rfl)
  have h4 := Reachable.step h3 (.clear r rfl rfl)
  have h5 := Reachable.step h4 (.submit r rfl rfl)
  have h6 := Reachable.step h5 (.lock 0 rfl rfl)
  have h7 := Reachable.step h6 (.takeJob 0 0 [] rfl rfl)
  have h8 := Reachable.step h7 (.finish 0 0 r outs rfl rfl h)
  exact Reachable.step h8 (.lock 0 rfl rfl)

theorem idle_after {k : Kind R O} {r : R} {outs : List O} :
    Idle k false ⟨.receiving, ⟨.using, [], [.holding], 1, [0], [0], []⟩, [], [r], [r], outs⟩ := by
  have w : ∀ {i : Nat} {x : Pool.Worker}, [Pool.Worker.holding][i]? = some x → x = .holding := by
    intro i x h
    cases i with
    | zero => cases h; rfl
    | succ i => cases h
  refine ⟨rfl, rfl, fun t h => ?_⟩
  cases h with
  | recvErr h1 => rfl
  | bound h1 => cases h1
  | bindErr h1 => cases h1
  | recv r rest h1 h2 => cases h2
  | seeStop r h1 h2 => cases h2
  | clear r h1 h2 => cases h1
  | cloneErr r h1 h2 => cases h1
  | submit r h1 h2 => cases h1
  | abort r h1 h2 => cases h1
  | drop h1 h2 => cases h1
  | dropEnd h1 h2 => cases h1
  | dropPanic h1 h2 => cases h1
  | lock i h1 h2 => cases w h1
  | takeJob i n q h1 h2 => cases h2
  | takeStop i q h1 h2 => cases h2
  | finish i n r outs h1 h2 h3 => cases w h1
  | crash i n r outs h1 h2 h3 => cases w h1
  | orphan i h1 h2 h3 => cases h3

/-- The name server of the sample zone (C50) answers the sample query from address 3, and is then idle; the query is
manageable. -/
example : ∃ (zones : ManagedZone) (out : List UInt8) (s : State (Packet Nat) (Packet Nat)), Loaded sampleConf zones ∧
    Reachable (nameserverUdp .debug zones) 1 false s ∧ s.seen = [⟨3, sampleQuery⟩] ∧ s.sent = [⟨3, out⟩] ∧
    Idle (nameserverUdp .debug zones) false s ∧ s.pool.crashed.length < 1 ∧ Manageable .debug sampleQuery ∧
    ∀ r ∈ s.jobs, ∃ outs b, (nameserverUdp .debug zones).serves r outs b := by
  obtain ⟨zones, hz, hst⟩ := ok_of (x := ZoneParser.parseZoneFiles .release sampleFiles forwards 20 sampleConf) (fun z => match
    Nameserver.serveUdp .debug z sampleQuery [some Message.MAX_UDP_LEN_BYTES] with
    | .ok ([_], true) => true
    | _ => false) (by decide +kernel)
  have hs : ∃ out, Nameserver.serveUdp .debug zones sampleQuery [some Message.MAX_UDP_LEN_BYTES] = .ok ([out], true) := by
    generalize Nameserver.serveUdp .debug zones sampleQuery [some Message.MAX_UDP_LEN_BYTES] = o at hst
    split at hst
    · exact ⟨_, rfl⟩
    · cases hst
  obtain ⟨out, hs⟩ := hs
  have hserve : (nameserverUdp .debug zones).serves (⟨3, sampleQuery⟩ : Packet Nat) [⟨3, out⟩] false :=
    ⟨true, [out], true, hs.symm, rfl⟩
  refine ⟨zones, out, _, ⟨sample_valid, _, _, _, _, hz⟩, one_request hserve, rfl, rfl, idle_after, Nat.zero_lt_one, .inl ?_, ?_⟩
  · obtain ⟨r, h1, h2⟩ := ok_of (x := Net.udpRead .debug sampleQuery) (fun r => match r with
      | .fullMessage req => req.questions.length = req.header.questionsCount.toNat ∧ req.questions.length = 1
      | _ => false) (by decide +kernel)
    cases r with
    | fullMessage req => exact ⟨req, h1, by simpa using (by simpa using h2 : _ ∧ _).1⟩
    | _ => cases h2
  · intro r hr
    rw [List.mem_singleton] at hr
    subst hr
    exact ⟨_, false, hserve⟩

/-- The name server when its UDP address cannot be bound and its TCP server is listening. -/
example (p : Profile) (zones : ManagedZone) : ∃ s : Process (Packet Nat) (Packet Nat) (Conn Nat) (Packet Nat),
    Process.Reachable (nameserverUdp p zones) (nameserverTcp p zones) ⟨0, [0]⟩ ⟨0, [0], 0, true, true⟩ 1 1 s ∧ s.main = .lastWait ∧
    Woken s.udp ∧ Woken s.tcp ∧ s.tcp.phase = .receiving ∧ Harmless (nameserverUdp p zones) (s.udp.seen ++ s.udp.inbox) ∧
    Harmless (nameserverTcp p zones) (s.tcp.seen ++ s.tcp.inbox) := by
  have al : ∀ {m : Main} {ph : Phase (Packet Nat)} {ph' : Phase (Conn Nat)} {q q' : Pool.State} {b c d : Bool} {notes : Nat}, m ≠ .returned →
      m ≠ .panicked → ph ≠ .aborted → ph' ≠ .aborted →
      Process.alive (O := Packet Nat) (O' := Packet Nat) ⟨m, ⟨ph, q, [], [], [], []⟩, ⟨ph', q', [], [], [], []⟩, b, notes, c, d⟩ :=
    fun h1 h2 h3 h4 => ⟨h1, h2, h3, h4⟩
  have h0 : Process.Reachable (nameserverUdp p zones) (nameserverTcp p zones) ⟨0, [0]⟩ ⟨0, [0], 0, true, true⟩ 1 1
      ⟨.waiting, ⟨.starting, Pool.init 1, [], [], [], []⟩, ⟨.receiving, Pool.init 1, [], [], [], []⟩, false, 0, false, false⟩ :=
    .step .init (.tcp (al (by simp) (by simp) (by simp) (by simp)) (.bound rfl))
  have h1 : Process.Reachable (nameserverUdp p zones) (nameserverTcp p zones) ⟨0, [0]⟩ ⟨0, [0], 0, true, true⟩ 1 1
      ⟨.waiting, ⟨.dropping, closing, [], [], [], []⟩, ⟨.receiving, Pool.init 1, [], [], [], []⟩, false, 0, false, false⟩ :=
    .step h0 (.udp (al (by simp) (by simp) (by simp) (by simp)) (.bindErr rfl))
  have h1 := closes (by simp) h1
  have h2 := Process.Reachable.step h1 (.udpTell (al (by simp) (by simp) (by simp) (by simp)) rfl rfl)
  have h3 := Process.Reachable.step h2 (.heard 0 (al (by simp) (by simp) (by simp) (by simp)) rfl rfl)
  have h4 := Process.Reachable.step h3 (.flag (al (by simp) (by simp) (by simp) (by simp)) rfl)
  have h5 := Process.Reachable.step h4 (.wakeUdp (al (by simp) (by simp) (by simp) (by simp)) rfl)
  have h6 := Process.Reachable.step h5 (.wakeTcp (al (by simp) (by simp) (by simp [Phase.listening]) (by simp)) rfl)
  refine ⟨_, h6, rfl, trivial, (by intro h; cases h), rfl, (by intro r hr; cases hr), ?_⟩
  intro r hr
  have hr : r = ⟨0, [0], 0, true, true⟩ := List.mem_singleton.1 hr
  subst hr
  have e : Nameserver.serveTcp p zones [0] 0 = .ok ([], true) := rfl
  refine ⟨fun outs h => ?_, [], [], true, e.symm, rfl⟩
  obtain ⟨-, k, h⟩ := h
  rw [e] at h
  cases h

end Ariadne.Props
