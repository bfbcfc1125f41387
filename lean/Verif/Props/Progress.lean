import Verif.Spec.Progress
import Verif.Props.Everyone

/-! # C122: the resolver does not get stuck -/

namespace Ariadne.Pool

/-- Unless it has returned or panicked, the drop of the pool goes on, or a worker can. -/
theorem drop_moves {size : Nat} (hsize : 0 < size) {s : State} (h : Reachable size s) (hu : s.main ≠ .using) (hd : s.main ≠ .dropped)
    (hp : s.main ≠ .panicked) : ∃ t, Step s t := by
  have hi := inv_reachable hsize h
  cases hm : s.main with
  | «using» => exact absurd hm hu
  | dropped => exact absurd hm hd
  | panicked => exact absurd hm hp
  | stopping k =>
    cases k with
    | zero => exact ⟨_, .inr (.beginJoin hm)⟩
    | succ k =>
      by_cases hcon : s.connected = true
      · exact ⟨_, .inr (.sendStop k hm hcon)⟩
      · exact ⟨_, .inr (.stopPanic k hm (by simpa using hcon))⟩
  | joining k =>
    by_cases hk : s.workers.length ≤ k
    · exact ⟨_, .inr (.endDrop k hm hk)⟩
    · have hk' : s.workers[k]? = some (s.workers[k]'(by omega)) := List.getElem?_eq_getElem (by omega)
      by_cases hq : s.queue = []
      · have a := (hi.aJoining k hm).1
        rw [hq] at a
        have := Props.all_stopped_tally (ws := s.workers) (by rw [hi.len]; simpa using a) k _ hk'
        rw [this] at hk'
        exact ⟨_, .inr (.join k hm hk')⟩
      · generalize s.workers[k]'(by omega) = w at hk'
        cases w with
        | stopped => exact ⟨_, .inr (.join k hm hk')⟩
        | dead => exact ⟨_, .inr (.joinPanic k hm hk')⟩
        | idle => obtain ⟨t, ht⟩ := Props.live_moves hk' rfl hq; exact ⟨t, .inl ht⟩
        | holding => obtain ⟨t, ht⟩ := Props.live_moves hk' rfl hq; exact ⟨t, .inl ht⟩
        | running n => obtain ⟨t, ht⟩ := Props.live_moves hk' rfl hq; exact ⟨t, .inl ht⟩

end Ariadne.Pool

namespace Ariadne.Props

/-- **C32**, also when jobs panic: once `drop` has been called, it does not hang. Whatever jobs panicked, as long as it has neither returned nor panicked itself, it or a worker can go on; and all
schedules end, within so many steps. -/
theorem C32_drop_never_hangs (size : Nat) (hsize : 0 < size) (s : Pool.State) (h : Pool.Reachable size s) (hm : s.main = .stopping size) :
    (∀ n t, Pool.Run n s t → n ≤ 4 * s.queue.length + 9 * size + 2) ∧
    ∀ n t, Pool.Run n s t → (∀ u, ¬ Pool.Step t u) → t.main = .dropped ∨ t.main = .panicked := by
  have hrun : ∀ {n : Nat} {s t : Pool.State}, Pool.Run n s t → Pool.Reachable size s → s.main ≠ .using → Pool.Reachable size t ∧ t.main ≠ .using := by
    intro n s t hr
    induction hr with
    | refl => exact fun h1 h2 => ⟨h1, h2⟩
    | step h1 _ ih => exact fun hs hu => ih (.step hs h1) (dropLeft_step h1 hu).2
  refine ⟨fun n t hr => ?_, fun n t hr hst => ?_⟩
  · have hi := Pool.inv_reachable hsize h
    have a := run_bound hr (by rw [hm]; simp)
    have b := weight_le s.workers
    have hl := hi.len
    have c : dropLeft s = 4 * s.queue.length + Pool.tally weight s.workers + (5 * size + size + 2) := by
      unfold dropLeft workLeft; rw [hm, hl]; rfl
    omega
  · obtain ⟨h1, h2⟩ := hrun hr h (by rw [hm]; simp)
    by_contra hn
    rw [not_or] at hn
    obtain ⟨u, hu⟩ := Pool.drop_moves hsize h1 h2 hn.1 hn.2
    exact hst u hu

open Spec Resolver Server Daemon

variable {Addr R O : Type} {S : Schedule} {net : Nat → List Event → Ip4 → List UInt8 → Option (List UInt8)} {p : Profile} {conf : Params} {fuel : Nat}
  {ut tt : Nat} {c : RecordsCache} {guard : Daemon.State Addr → Prop}

/-- `C32_drop_never_hangs` applies to a pool of two threads that is dropped while both run, one of which has panicked since. -/
example : ∃ s, Pool.Reachable 2 s ∧ s.main = .stopping 2 ∧ s.crashed = [0] ∧ s.queue = [.job 2] :=
  ⟨_, .step (.step busyPool_reachable (.inl (.crash 0 0 rfl))) (.inr (.beginDrop rfl)), rfl, rfl, rfl⟩

/-- A worker that has been given a job can begin with it, or has ended with it, or is in the middle. -/
theorem running_goes_on {π : Port R O} {stop : Bool} {s : Server.State R O} {k : Work} (hall : ∀ r, (∃ j, π.job r j) ∨ ∃ b, π.skip r b)
    {i n : Nat} {r : R} (h1 : s.pool.workers[i]? = some (.running n)) (h2 : s.jobs[n]? = some r) :
    CanGoOn π p conf fuel stop s k ∨ UnderWay π k := by
  have hlen : ∀ {l : List Nat} {n : Nat}, l ++ [n] ≠ l := fun {l n} h => by
    have := congrArg List.length h
    simp at this
  have hfin : ∀ {t : Server.State R O}, t.pool.finished ++ t.pool.crashed ≠ s.pool.finished ++ s.pool.crashed → ¬ (t = s ∧ k = k) := fun h e => h (by rw [e.1])
  cases hk : k (π.slot n) with
  | some x =>
    by_cases ho : (∃ res, x.2.task = .done (.ok res)) ∨ ∃ e, x.2.task = .done (.panic e)
    · left
      rcases ho with ⟨res, ho⟩ | ⟨e, ho⟩
      · exact ⟨_, _, .finish i n r x res h1 h2 hk ho, fun e => hlen (congrArg (fun s => s.pool.finished) e.1)⟩
      · exact ⟨_, _, .crash i n r x e h1 h2 hk ho, fun e => hlen (congrArg (fun s => s.pool.crashed) e.1)⟩
    · exact .inr ⟨n, x, hk, ho⟩
  | none =>
    left
    rcases hall r with ⟨j, hj⟩ | ⟨b, hb⟩
    · refine ⟨_, _, .begin i n r j h1 h2 hj hk, fun e => ?_⟩
      have := congrFun e.2 (π.slot n)
      rw [if_pos rfl, hk] at this
      cases this
    · cases b with
      | false => exact ⟨_, _, .skip i n r h1 h2 hk hb, fun e => hlen (congrArg (fun s => s.pool.finished) e.1)⟩
      | true => exact ⟨_, _, .skipPanic i n r h1 h2 hk hb, fun e => hlen (congrArg (fun s => s.pool.crashed) e.1)⟩

theorem progress_server {π : Port R O} {threads : Nat} (ht : 0 < threads) {stop : Bool} {s : Server.State R O} {k : Work}
    (h : Server.Reachable (kind π s.jobs k) threads stop s) (hall : ∀ r, (∃ j, π.job r j) ∨ ∃ b, π.skip r b) :
    AtRest π p conf fuel stop s k ∨ Ended s ∨ CanGoOn π p conf fuel stop s k ∨ UnderWay π k := by
  by_cases hgo : CanGoOn π p conf fuel stop s k
  · exact .inr (.inr (.inl hgo))
  by_cases huw : UnderWay π k
  · exact .inr (.inr (.inr huw))
  obtain ⟨runs, hi⟩ := inv_reachable h
  have hover : ∀ n x, k (π.slot n) = some x → (∃ res, x.2.task = .done (.ok res)) ∨ ∃ e, x.2.task = .done (.panic e) := by
    intro n x hx
    by_contra hn
    exact huw ⟨n, x, hx, hn⟩
  have hstill : ∀ t k', PortStep π p conf fuel stop s k t k' → t = s ∧ k' = k := by
    intro t k' hs
    by_contra hn
    exact hgo ⟨t, k', hs, hn⟩
  have byPhase : ∀ {t : Server.State R O}, Server.Step (quiet π.mayDrop) stop s t → t.phase = s.phase := fun hs => by rw [(hstill _ _ (.listen hs)).1]
  have byWorkers : ∀ {t : Server.State R O}, Server.Step (quiet π.mayDrop) stop s t → t.pool = s.pool := fun hs => by rw [(hstill _ _ (.listen hs)).1]
  cases hp : s.phase with
  | starting => have := byPhase (.bound hp); rw [hp] at this; cases this
  | receiving =>
    left
    refine ⟨by rw [hp]; rfl, ?_, hstill, hover⟩
    cases hb : s.inbox with
    | nil => rfl
    | cons r rest => have := byPhase (.recv r rest hp hb); rw [hp] at this; cases this
  | received r =>
    cases stop with
    | true => have := byPhase (.seeStop r hp rfl); rw [hp] at this; cases this
    | false => have := byPhase (.clear r hp rfl); rw [hp] at this; cases this
  | cleared r =>
    cases hc : s.pool.connected with
    | true => have := byPhase (.submit r hp hc); rw [hp] at this; cases this
    | false => have := byPhase (.abort r hp hc); rw [hp] at this; cases this
  | returned => exact .inr (.inl (.inl hp))
  | panicked => exact .inr (.inl (.inr (.inl hp)))
  | aborted => exact .inr (.inl (.inr (.inr hp)))
  | dropping =>
    exfalso
    have hf := hi.fits
    rw [hp] at hf
    by_cases hd : s.pool.main = .dropped
    · have := byPhase (.dropEnd hp hd); rw [hp] at this; cases this
    by_cases hpa : s.pool.main = .panicked
    · have := byPhase (.dropPanic hp hpa); rw [hp] at this; cases this
    obtain ⟨q, hq⟩ := Pool.drop_moves ht hi.pool hf hd hpa
    have c31 := C31_fifo_at_most_once threads ht s.pool hi.pool
    have running : ∀ {i n : Nat}, s.pool.workers[i]? = some (.running n) → False := by
      intro i n hw
      have hn : n < s.jobs.length := by
        have hmem : n ∈ s.pool.running := by
          unfold Pool.State.running
          rw [List.mem_filterMap]
          exact ⟨_, List.mem_of_getElem? hw, rfl⟩
        have : n ∈ s.pool.started := c31.2.2.2.2.subset (by simp [hmem])
        rw [c31.1, List.mem_range] at this
        have := c31.2.1
        rw [hi.jobs] at this
        omega
      rcases running_goes_on (stop := stop) hall hw (List.getElem?_eq_getElem hn) with hg | hg
      · exact hgo hg
      · exact huw hg
    have set : ∀ {i : Nat} {w w' : Pool.Worker}, s.pool.workers[i]? = some w → w ≠ w' → ∀ {t : Server.State R O},
        Server.Step (quiet π.mayDrop) stop s t → t.pool.workers = s.pool.workers.set i w' → False := by
      intro i w w' hw hne t hs e
      exact set_ne hw hne (by rw [← e, byWorkers hs])
    rcases hq with hq | hq
    · cases hq with
      | lock i h1 h2 => exact set (w' := .holding) h1 (by simp) (.lock i h1 h2) rfl
      | takeJob i n q h1 h2 => exact set (w' := .running n) h1 (by simp) (.takeJob i n q h1 h2) rfl
      | takeStop i q h1 h2 => exact set (w' := .stopped) h1 (by simp) (.takeStop i q h1 h2) rfl
      | finish i n h1 => exact running h1
      | crash i n h1 => exact running h1
      | orphan i h1 h2 h3 =>
        rcases h1 with h1 | h1
        · exact set (w' := .dead) h1 (by simp) (.orphan i (.inl h1) h2 h3) rfl
        · exact set (w' := .dead) h1 (by simp) (.orphan i (.inr h1) h2 h3) rfl
    · have a := (dropLeft_step (.inr hq) hf).1
      have e := byWorkers (.drop hp hq)
      dsimp only at e
      rw [e] at a
      omega

/-- **C122**, no deadlock. In every state of every execution of the resolver, each server has come to rest and waits for a request, or has ended; otherwise one of its threads can go on, or one of
its workers is in the middle of a request (and is done after a number of turns that depends on its request only: C90, C93). -/
theorem C122_progress {d : Daemon.State Addr} (h : Daemon.Reachable S net p conf fuel ut tt c guard d) (hu : 0 < ut) (ht : 0 < tt) :
    (AtRest udpPort p conf fuel d.stop d.udp d.work ∨ Ended d.udp ∨ CanGoOn udpPort p conf fuel d.stop d.udp d.work ∨ UnderWay (udpPort (Addr := Addr)) d.work) ∧
    (AtRest tcpPort p conf fuel d.stop d.tcp d.work ∨ Ended d.tcp ∨ CanGoOn tcpPort p conf fuel d.stop d.tcp d.work ∨ UnderWay (tcpPort (Addr := Addr)) d.work) := by
  obtain ⟨hs1, hs2⟩ := servers h (.refl d)
  exact ⟨progress_server hu hs1 udp_all, progress_server ht hs2 tcp_all⟩

/-! ## Bounds -/

/-- A worker has been given a job and has not begun with it. -/
def fresh (π : Port R O) (k : Work) : Pool.Worker → Nat
  | .running n => if k (π.slot n) = none then 1 else 0
  | _ => 0

theorem fresh_le (π : Port R O) (k : Work) (w : Pool.Worker) : fresh π k w ≤ 1 := by
  unfold fresh
  split
  · split <;> omega
  · omega

/-- Bound on the steps that are left. -/
def aloneLeft (π : Port R O) (s : Server.State R O) (k : Work) : Nat := 2 * stepsLeft s + Pool.tally (fresh π k) s.pool.workers

theorem tally_mono {f g : Pool.Worker → Nat} : ∀ {ws : List Pool.Worker}, (∀ w, f w ≤ g w) → Pool.tally f ws ≤ Pool.tally g ws
  | [], _ => Nat.le_refl _
  | w :: ws, h => by
    have := tally_mono (ws := ws) h
    have := h w
    simp [Pool.tally] at *
    omega

theorem tally_strict {f g : Pool.Worker → Nat} {w : Pool.Worker} : ∀ {ws : List Pool.Worker} {i : Nat}, (∀ w, f w ≤ g w) → ws[i]? = some w → f w < g w →
    Pool.tally f ws < Pool.tally g ws
  | [], i, _, h, _ => by simp at h
  | x :: xs, 0, hm, h, hl => by
    simp at h
    subst h
    have := tally_mono (ws := xs) hm
    simp [Pool.tally] at *
    omega
  | x :: xs, i + 1, hm, h, hl => by
    have := tally_strict (ws := xs) (i := i) hm (by simpa using h) hl
    have := hm x
    simp [Pool.tally] at *
    omega

theorem tally_one {f : Pool.Worker → Nat} (h : ∀ w, f w ≤ 1) : ∀ ws : List Pool.Worker, Pool.tally f ws ≤ ws.length
  | [] => Nat.le_refl _
  | w :: ws => by
    have := tally_one h ws
    have := h w
    simp [Pool.tally] at *
    omega

/-- A step of the server changes at most one worker. -/
theorem fresh_step {π : Port R O} {K : Kind R O} {stop : Bool} {s t : Server.State R O} {k : Work} (h : Server.Step K stop s t) :
    Pool.tally (fresh π k) t.pool.workers ≤ Pool.tally (fresh π k) s.pool.workers + 1 := by
  have set : ∀ {i : Nat} {w w' : Pool.Worker}, s.pool.workers[i]? = some w →
      Pool.tally (fresh π k) (s.pool.workers.set i w') ≤ Pool.tally (fresh π k) s.pool.workers + 1 := by
    intro i w w' hw
    have := Pool.tally_set (f := fresh π k) (w' := w') hw
    have := fresh_le π k w'
    omega
  cases h with
  | lock i h1 h2 => exact set h1
  | takeJob i n q h1 h2 => exact set h1
  | takeStop i q h1 h2 => exact set h1
  | finish i n r outs h1 h2 h3 => exact set h1
  | crash i n r outs h1 h2 h3 => exact set h1
  | orphan i h1 h2 h3 =>
    rcases h1 with h1 | h1
    · exact set h1
    · exact set h1
  | @drop t h1 h2 =>
    have : t.workers = s.pool.workers := by cases h2 <;> rfl
    dsimp only
    rw [this]
    omega
  | _ => exact Nat.le_succ _

theorem alone_step {π : Port R O} {threads : Nat} {stop : Bool} {s t : Server.State R O} {k k' : Work}
    (hr : Server.Reachable (kind π s.jobs k) threads stop s) (h : PortStep π p conf fuel stop s k t k') (hne : ¬ (t = s ∧ k' = k)) :
    aloneLeft π t k' < aloneLeft π s k := by
  obtain ⟨runs, hi⟩ := inv_reachable hr
  have byServer : ∀ {t : Server.State R O}, Server.Step (kind π s.jobs k) stop s t → t ≠ s → aloneLeft π t k < aloneLeft π s k := by
    intro t hs hne
    have a := stepsLeft_step hi hs (Ne.symm hne)
    have b := fresh_step (π := π) (k := k) hs
    unfold aloneLeft
    omega
  have other : k' = k → aloneLeft π t k' < aloneLeft π s k := by
    intro e
    subst e
    rcases port_server h (List.prefix_refl _) (.refl k') with hs | hs
    · exact byServer hs fun e => hne ⟨e, rfl⟩
    · exact absurd ⟨hs, rfl⟩ hne
  cases h with
  | «begin» i n r j h1 h2 h3 h4 =>
    unfold aloneLeft
    refine Nat.add_lt_add_left (tally_strict (w := .running n) (fun w => ?_) h1 ?_) _
    · cases w with
      | running m =>
        simp only [fresh]
        by_cases e : π.slot m = π.slot n
        · simp [e]
        · simp [e]
      | _ => exact Nat.le_refl _
    · simp [fresh, h4]
  | _ => exact other rfl

theorem any_guard {d : Daemon.State Addr} (h : Daemon.Reachable S net p conf fuel ut tt c guard d) :
    Daemon.Reachable S net p conf fuel ut tt c (fun _ => True) d := by
  induction h with
  | init => exact .init
  | step _ _ hs ih => exact .step ih trivial hs

theorem alone_udp {n : Nat} {stop : Bool} {s t : Server.State (Packet Addr) (Packet Addr)} {k k' : Work} (h : Alone udpPort p conf fuel stop n s k t k') :
    ∀ {d : Daemon.State Addr}, Daemon.Reachable S net p conf fuel ut tt c (fun _ => True) d → d.udp = s → d.work = k → d.stop = stop →
      n + aloneLeft udpPort t k' ≤ aloneLeft udpPort s k := by
  induction h with
  | refl => intro d _ _ _ _; omega
  | step h1 h2 _ ih =>
    rintro d hd rfl rfl rfl
    have := alone_step (servers hd (.refl d)).1 h1 h2
    have := ih (.step hd trivial (.udp h1)) rfl rfl rfl
    omega

theorem alone_tcp {n : Nat} {stop : Bool} {s t : Server.State (Conn Addr) (Packet Addr)} {k k' : Work} (h : Alone tcpPort p conf fuel stop n s k t k') :
    ∀ {d : Daemon.State Addr}, Daemon.Reachable S net p conf fuel ut tt c (fun _ => True) d → d.tcp = s → d.work = k → d.stop = stop →
      n + aloneLeft tcpPort t k' ≤ aloneLeft tcpPort s k := by
  induction h with
  | refl => intro d _ _ _ _; omega
  | step h1 h2 _ ih =>
    rintro d hd rfl rfl rfl
    have := alone_step (servers hd (.refl d)).2 h1 h2
    have := ih (.step hd trivial (.tcp h1)) rfl rfl rfl
    omega

theorem alone_start {K : Kind R O} {π : Port R O} {threads : Nat} (ht : 0 < threads) {stop : Bool} {s : Server.State R O} {k : Work}
    (hs : Server.Reachable K threads stop s) : aloneLeft π s k ≤ 14 * s.inbox.length + 8 * s.pool.queue.length + 19 * threads + 20 := by
  obtain ⟨runs, hi⟩ := inv_reachable hs
  have hl := (Pool.inv_reachable ht hi.pool).len
  have b := weight_le s.pool.workers
  have c : ownerLeft s.pool.workers.length s.pool.main ≤ 6 * threads + 3 := by
    have hp := Pool.inv_reachable ht hi.pool
    rw [hl]
    cases hm : s.pool.main with
    | stopping j =>
      have := hp.aStopping j hm
      simp only [ownerLeft, ownerWeight]; omega
    | joining j => simp only [ownerLeft, ownerWeight]; omega
    | _ => simp [ownerLeft, ownerWeight]
  have d : phaseWeight s.phase ≤ 7 := by cases s.phase <;> simp [phaseWeight]
  have e := tally_one (fresh_le π k) s.pool.workers
  unfold aloneLeft stepsLeft workLeft
  omega

/-- **C122**, no busy waiting. While nothing arrives and no worker has a turn in the middle of a request, each server makes a bounded number of steps that change anything. -/
theorem C122_bounded {d : Daemon.State Addr} (h : Daemon.Reachable S net p conf fuel ut tt c guard d) (hu : 0 < ut) (ht : 0 < tt) :
    (∀ n t k, Alone udpPort p conf fuel d.stop n d.udp d.work t k → n ≤ 14 * d.udp.inbox.length + 8 * d.udp.pool.queue.length + 19 * ut + 20) ∧
    ∀ n t k, Alone tcpPort p conf fuel d.stop n d.tcp d.work t k → n ≤ 14 * d.tcp.inbox.length + 8 * d.tcp.pool.queue.length + 19 * tt + 20 := by
  obtain ⟨hs1, hs2⟩ := servers h (.refl d)
  refine ⟨fun n t k ha => ?_, fun n t k ha => ?_⟩
  · have a := alone_udp ha (any_guard h) rfl rfl rfl
    have b := alone_start (π := udpPort) (k := d.work) hu hs1
    omega
  · have a := alone_tcp ha (any_guard h) rfl rfl rfl
    have b := alone_start (π := tcpPort) (k := d.work) ht hs2
    omega

/-- **C122** together: from every state, however the threads of a server are scheduled, after at most so many steps it is at rest, or has ended, or one of its workers is in the middle of a request; it
never stops anywhere else. -/
theorem C122_settles {d : Daemon.State Addr} (h : Daemon.Reachable S net p conf fuel ut tt c guard d) (hu : 0 < ut) (ht : 0 < tt) :
    (∀ n t k, Alone udpPort p conf fuel d.stop n d.udp d.work t k → ¬ CanGoOn udpPort p conf fuel d.stop t k →
      AtRest udpPort p conf fuel d.stop t k ∨ Ended t ∨ UnderWay (udpPort (Addr := Addr)) k) ∧
    ∀ n t k, Alone tcpPort p conf fuel d.stop n d.tcp d.work t k → ¬ CanGoOn tcpPort p conf fuel d.stop t k →
      AtRest tcpPort p conf fuel d.stop t k ∨ Ended t ∨ UnderWay (tcpPort (Addr := Addr)) k := by
  have reachU : ∀ {n : Nat} {stop : Bool} {s t : Server.State (Packet Addr) (Packet Addr)} {k k' : Work}, Alone udpPort p conf fuel stop n s k t k' →
      ∀ {d : Daemon.State Addr}, Daemon.Reachable S net p conf fuel ut tt c (fun _ => True) d → d.udp = s → d.work = k → d.stop = stop →
      Daemon.Reachable S net p conf fuel ut tt c (fun _ => True) { d with udp := t, work := k' } := by
    intro n stop s t k k' ha
    induction ha with
    | refl => rintro d hd rfl rfl rfl; exact hd
    | step h1 _ _ ih => rintro d hd rfl rfl rfl; have := ih (Daemon.Reachable.step hd trivial (.udp h1)) rfl rfl rfl; exact this
  have reachT : ∀ {n : Nat} {stop : Bool} {s t : Server.State (Conn Addr) (Packet Addr)} {k k' : Work}, Alone tcpPort p conf fuel stop n s k t k' →
      ∀ {d : Daemon.State Addr}, Daemon.Reachable S net p conf fuel ut tt c (fun _ => True) d → d.tcp = s → d.work = k → d.stop = stop →
      Daemon.Reachable S net p conf fuel ut tt c (fun _ => True) { d with tcp := t, work := k' } := by
    intro n stop s t k k' ha
    induction ha with
    | refl => rintro d hd rfl rfl rfl; exact hd
    | step h1 _ _ ih => rintro d hd rfl rfl rfl; have := ih (Daemon.Reachable.step hd trivial (.tcp h1)) rfl rfl rfl; exact this
  refine ⟨fun n t k ha hn => ?_, fun n t k ha hn => ?_⟩
  · rcases (C122_progress (reachU ha (any_guard h) rfl rfl rfl) hu ht).1 with h1 | h1 | h1 | h1
    · exact .inl h1
    · exact .inr (.inl h1)
    · exact absurd h1 hn
    · exact .inr (.inr h1)
  · rcases (C122_progress (reachT ha (any_guard h) rfl rfl rfl) hu ht).2 with h1 | h1 | h1 | h1
    · exact .inl h1
    · exact .inr (.inl h1)
    · exact absurd h1 hn
    · exact .inr (.inr h1)

/-- C122 applies to a state in which the only worker has been given the first datagram: the server is not at rest and has not ended, the worker can begin.
(The example of C121 is at rest.) -/
example : ∃ d : Daemon.State Nat, Daemon.Reachable turns (fun _ _ a q => orderNet a q) .release ⟨2, 3, 2, false⟩ 259 1 1 .empty (fun _ => True) d ∧
    d.udp.seen = [⟨3, [1, 2, 3]⟩] ∧ CanGoOn udpPort .release ⟨2, 3, 2, false⟩ 259 d.stop d.udp d.work ∧
    ¬ AtRest udpPort .release ⟨2, 3, 2, false⟩ 259 d.stop d.udp d.work ∧ ¬ Ended d.udp := by
  have h0 : Daemon.Reachable turns (fun _ _ a q => orderNet a q) .release ⟨2, 3, 2, false⟩ 259 1 1 .empty (fun _ => True) (Daemon.init Nat 1 1 .empty) := .init
  have h1 := Daemon.Reachable.step h0 trivial (.udp (.listen (.bound rfl)))
  have h2 := Daemon.Reachable.step h1 trivial (.udpArrive (.mk ⟨3, [1, 2, 3]⟩ rfl))
  have h3 := Daemon.Reachable.step h2 trivial (.udp (.listen (.recv ⟨3, [1, 2, 3]⟩ [] rfl rfl)))
  have h4 := Daemon.Reachable.step h3 trivial (.udp (.listen (.clear ⟨3, [1, 2, 3]⟩ rfl rfl)))
  have h5 := Daemon.Reachable.step h4 trivial (.udp (.listen (.submit ⟨3, [1, 2, 3]⟩ rfl rfl)))
  have h6 := Daemon.Reachable.step h5 trivial (.udp (.listen (.lock 0 rfl rfl)))
  have h7 := Daemon.Reachable.step h6 trivial (.udp (.listen (.takeJob 0 0 [] rfl rfl)))
  have hgo : CanGoOn udpPort .release ⟨2, 3, 2, false⟩ 259 false
      (⟨.receiving, ⟨.using, [], [.running 0], 1, [0], [], []⟩, [], [⟨3, [1, 2, 3]⟩], [⟨3, [1, 2, 3]⟩], []⟩ : Server.State (Packet Nat) (Packet Nat)) (fun _ => none) := by
    refine ⟨_, _, .begin 0 0 ⟨3, [1, 2, 3]⟩ _ rfl rfl ⟨true, rfl⟩ rfl, fun e => ?_⟩
    have := congrFun e.2 0
    rw [if_pos rfl] at this
    cases this
  refine ⟨_, h7, rfl, hgo, fun hr => ?_, fun he => ?_⟩
  · obtain ⟨t, k, hs, hn⟩ := hgo
    exact hn (hr.still t k hs)
  · rcases he with he | he | he <;> cases he

end Ariadne.Props
