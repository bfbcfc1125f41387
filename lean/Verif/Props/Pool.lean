import Verif.Lemmas.Pool

/-!
# C31–C34: the thread pool
-/

namespace Ariadne.Props

open Pool

theorem runs_countP (n : Nat) (ws : List Worker) : tally (runs n) ws =
    (ws.filterMap fun w => match w with | .running n => some n | _ => none).count n := by
  induction ws with
  | nil => rfl
  | cons w ws ih =>
    unfold tally at ih ⊢
    rw [List.map_cons, List.sum_cons, ih]
    cases w with
    | running m =>
      simp only [List.filterMap_cons, List.count_cons, runs, beq_iff_eq]
      omega
    | _ => simp [runs]

theorem running_length (ws : List Worker) :
    (ws.filterMap fun w => match w with | .running n => some n | _ => none).length ≤ ws.length :=
  List.length_filterMap_le _ _

theorem started_prefix {size : Nat} {s : State} (h : Inv size s) : s.started.Nodup :=
  (List.nodup_append.1 (h.fifo ▸ List.nodup_range)).1

/-- C31. In every state of every schedule: the jobs started so far are the first ones submitted, in order, each once,
and the rest are waiting in order; those running are distinct started ones, no more than there are threads; a started job
is exactly one of finished, panicked, running. -/
theorem C31_fifo_at_most_once (size : Nat) (hsize : 0 < size) (s : State) (h : Reachable size s) :
    s.started = List.range s.started.length ∧ s.started.length ≤ s.submitted ∧
    s.started ++ s.waiting = List.range s.submitted ∧
    s.running.length ≤ size ∧
    (s.running ++ s.finished ++ s.crashed).Perm s.started := by
  have hi := inv_reachable hsize h
  have hf := hi.fifo
  have hlen : s.started.length ≤ s.submitted := by
    have := congrArg List.length hf
    simp at this; omega
  refine ⟨?_, hlen, ?_, ?_, ?_⟩
  · have := congrArg (List.take s.started.length) hf
    rw [List.take_left, List.take_range, Nat.min_eq_left hlen] at this
    exact this
  · rw [waiting_eq]; exact hf
  · have := running_length s.workers
    rw [hi.len] at this
    exact this
  · rw [List.perm_iff_count]
    intro n
    have := hi.part n
    rw [runs_countP] at this
    simp only [List.count_append]
    have e : s.running =
      (s.workers.filterMap fun w => match w with | .running n => some n | _ => none) := by
      unfold State.running
      congr 1
    rw [e]
    omega

/-- A pool of two threads, with three jobs, two of them running. -/
def busyPool : State :=
  { main := .using, queue := [.job 2], workers := [.running 0, .running 1], submitted := 3, started := [0, 1],
    finished := [], crashed := [] }

theorem busyPool_reachable : Reachable 2 busyPool := by
  refine .step (.step (.step (.step (.step (.step (.step .init (.inr (.execute rfl rfl))) (.inr (.execute rfl rfl)))
    (.inr (.execute rfl rfl))) (.inl (.lock 0 rfl rfl))) (.inl (.takeJob 0 0 _ rfl rfl))) (.inl (.lock 1 rfl rfl)))
    (.inl (.takeJob 1 1 [.job 2] rfl rfl))

example : busyPool.running = [0, 1] ∧ busyPool.waiting = [2] ∧ busyPool.started = [0, 1] := by decide

/-! ## Progress -/

theorem unlocked_or_holding (s : State) : s.unlocked = true ∨ ∃ i : Nat, s.workers[i]? = some Worker.holding := by
  unfold State.unlocked
  by_cases h : (s.workers.all fun w => w != .holding) = true
  · exact .inl h
  · right
    simp only [List.all_eq_true, not_forall] at h
    obtain ⟨w, hw, hn⟩ := h
    obtain ⟨i, hi, e⟩ := List.mem_iff_getElem.1 hw
    refine ⟨i, ?_⟩
    rw [List.getElem?_eq_getElem hi, e]
    simpa using hn

theorem holding_moves {s : State} {i : Nat} (h : s.workers[i]? = some Worker.holding) (hq : s.queue ≠ []) :
    ∃ t, WorkerStep s t := by
  cases hq' : s.queue with
  | nil => exact absurd hq' hq
  | cons m q =>
    cases m with
    | job n => exact ⟨_, .takeJob i n q h hq'⟩
    | stop => exact ⟨_, .takeStop i q h hq'⟩

theorem live_moves {s : State} {i : Nat} {w : Worker} (h : s.workers[i]? = some w) (hw : w.live = true)
    (hq : s.queue ≠ []) : ∃ t, WorkerStep s t := by
  cases w with
  | idle =>
    rcases unlocked_or_holding s with hu | ⟨j, hj⟩
    · exact ⟨_, .lock i h hu⟩
    · exact holding_moves hj hq
  | holding => exact holding_moves h hq
  | running n => exact ⟨_, .finish i n h⟩
  | stopped => cases hw
  | dead => cases hw

theorem connected_moves {s : State} (h : s.connected = true) (hq : s.queue ≠ []) : ∃ t, WorkerStep s t := by
  obtain ⟨w, hw, hl⟩ := List.any_eq_true.1 h
  obtain ⟨i, hi, e⟩ := List.mem_iff_getElem.1 hw
  exact live_moves (i := i) (w := w) (by rw [List.getElem?_eq_getElem hi, e]) hl hq

def weight : Worker → Nat
  | .idle => 2
  | .holding => 1
  | .running _ => 3
  | .stopped => 0
  | .dead => 0

def ownerWeight (size : Nat) : Main → Nat
  | .using => 0
  | .stopping k => 5 * k + size + 2
  | .joining k => size - k + 1
  | .dropped => 0
  | .panicked => 0

/-- Bound on the number of worker steps without new messages. -/
def workLeft (s : State) : Nat := 4 * s.queue.length + tally weight s.workers

theorem workLeft_step {s t : State} (h : WorkerStep s t) : workLeft t < workLeft s ∧ t.main = s.main := by
  cases h with
  | lock i h1 h2 =>
    have := tally_set (f := weight) (w' := .holding) h1
    simp [workLeft, weight] at *; omega
  | takeJob i n q h1 h2 =>
    have := tally_set (f := weight) (w' := .running n) h1
    simp [workLeft, weight, h2] at *; omega
  | takeStop i q h1 h2 =>
    have := tally_set (f := weight) (w' := .stopped) h1
    simp [workLeft, weight, h2] at *; omega
  | finish i n h1 =>
    have := tally_set (f := weight) (w' := .idle) h1
    simp [workLeft, weight] at *; omega
  | crash i n h1 =>
    have := tally_set (f := weight) (w' := .dead) h1
    simp [workLeft, weight] at *; omega
  | orphan i h1 h2 h3 =>
    rcases h1 with h1 | h1
    all_goals
      have := tally_set (f := weight) (w' := .dead) h1
      simp [workLeft, weight] at *; omega

theorem weight_le (ws : List Worker) : tally weight ws ≤ 3 * ws.length := by
  induction ws with
  | nil => simp [tally]
  | cons w ws ih =>
    unfold tally at ih ⊢
    rw [List.map_cons, List.sum_cons, List.length_cons]
    have : weight w ≤ 3 := by cases w <;> simp [weight]
    omega

theorem workerRun_bound {n : Nat} {s t : State} (h : WorkerRun n s t) : n + workLeft t ≤ workLeft s := by
  induction h with
  | refl => omega
  | step h1 _ ih => have := (workLeft_step h1).1; omega

theorem workerRun_reachable {size n : Nat} {s t : State} (h : WorkerRun n s t) (hs : Reachable size s) :
    Reachable size t := by
  induction h with
  | refl => exact hs
  | step h1 _ ih => exact ih (.step hs (.inl h1))

theorem queue_waiting {s : State} (h : s.queue = []) : s.waiting = [] := by
  unfold State.waiting; rw [h]; rfl

/-- C34. (1) A queued message and one live thread: some thread can move. (2) However the threads are scheduled, they make
at most `4 * queued + 3 * size` steps before they all wait. (3) When no thread can move (and the owner did not panic) and
fewer jobs panicked than there are threads, every submitted job has been started, and every started one has ended. -/
theorem C34_no_deadlock_and_drains (size : Nat) (hsize : 0 < size) (s : State) (h : Reachable size s) :
    (s.queue ≠ [] → s.connected = true → ∃ t, WorkerStep s t) ∧
    (∀ n t, WorkerRun n s t → n ≤ 4 * s.queue.length + 3 * size) ∧
    (∀ n t, WorkerRun n s t → Stuck t → t.main ≠ .panicked → t.crashed.length < size →
      t.started = List.range t.submitted ∧ (t.finished ++ t.crashed).Perm t.started) := by
  refine ⟨fun hq hc => connected_moves hc hq, fun n t hr => ?_, fun n t hr hst hm hc => ?_⟩
  · have := workerRun_bound hr
    have hl := (inv_reachable hsize h).len
    have := weight_le s.workers
    unfold workLeft at *
    omega
  · have ht := workerRun_reachable hr h
    have hi := inv_reachable hsize ht
    have hw : t.waiting = [] := by
      by_cases hcon : t.connected = true
      · apply queue_waiting
        by_contra hq
        obtain ⟨u, hu⟩ := connected_moves hcon hq
        exact hst u hu
      · have hcon : t.workers.any Worker.live = false := by simpa [State.connected] using hcon
        have a := tally_dead_stopped hcon
        rw [waiting_eq]
        apply hi.drained
        rw [hi.len] at a
        by_cases hd : t.main = .dropped
        · have := hi.aDropped hd
          have h0 : ∃ w : Worker, t.workers[0]? = some w := by
            have := hi.len
            exact ⟨_, List.getElem?_eq_getElem (by omega)⟩
          obtain ⟨w, h0⟩ := h0
          have e := hi.aDropped hd _ _ h0
          subst e
          have := tally_ge (f := isStopped) h0
          simp [isStopped] at this
          omega
        · have := hi.dead hd hm
          omega
    have c := C31_fifo_at_most_once size hsize t ht
    refine ⟨by simpa [hw] using c.2.2.1, ?_⟩
    have hr : t.running = [] := by
      unfold State.running
      rw [List.filterMap_eq_nil_iff]
      intro w hw
      obtain ⟨i, hi, e⟩ := List.mem_iff_getElem.1 hw
      cases w with
      | running m => exact absurd (WorkerStep.finish i m (by rw [List.getElem?_eq_getElem hi, e])) (hst _)
      | _ => rfl
    simpa [hr] using c.2.2.2.2

example : busyPool.queue ≠ [] ∧ busyPool.connected = true ∧ busyPool.crashed.length < 2 := by decide

/-! ## Drop -/

theorem all_stopped_tally {ws : List Worker} (h : tally isStopped ws = ws.length) :
    ∀ (i : Nat) (w : Worker), ws[i]? = some w → w = Worker.stopped := by
  have key : ∀ ws : List Worker, tally isStopped ws ≤ ws.length := by
    intro ws
    induction ws with
    | nil => simp [tally]
    | cons w ws ih =>
      unfold tally at ih ⊢
      rw [List.map_cons, List.sum_cons, List.length_cons]
      have : isStopped w ≤ 1 := by cases w <;> simp [isStopped]
      omega
  induction ws with
  | nil => intro i w hw; simp at hw
  | cons x ws ih =>
    have k := key ws
    unfold tally at ih h k
    rw [List.map_cons, List.sum_cons, List.length_cons] at h
    have : isStopped x ≤ 1 := by cases x <;> simp [isStopped]
    intro i w hw
    cases i with
    | zero =>
      simp at hw; subst hw
      cases x <;> simp [isStopped] at h ⊢ <;> omega
    | succ i => exact ih (by omega) i w (by simpa using hw)

/-- Work left once `drop` has begun. -/
def dropLeft (s : State) : Nat := workLeft s + ownerWeight s.workers.length s.main

theorem dropLeft_step {s t : State} (h : Step s t) (hm : s.main ≠ .using) : dropLeft t < dropLeft s ∧ t.main ≠ .using := by
  rcases h with h | h
  · have a := workLeft_step h
    have l : t.workers.length = s.workers.length := by cases h <;> simp
    unfold dropLeft
    rw [a.2, l]
    exact ⟨by omega, hm⟩
  · cases h with
    | execute h1 h2 => exact absurd h1 hm
    | executePanic h1 h2 => exact absurd h1 hm
    | beginDrop h1 => exact absurd h1 hm
    | sendStop k h1 h2 => simp [dropLeft, workLeft, ownerWeight, h1]; omega
    | stopPanic k h1 h2 => simp [dropLeft, workLeft, ownerWeight, h1]
    | beginJoin h1 => simp [dropLeft, workLeft, ownerWeight, h1]
    | join k h1 h2 =>
      have hk : k < s.workers.length := (List.getElem?_eq_some_iff.1 h2).1
      simp [dropLeft, workLeft, ownerWeight, h1]; omega
    | joinPanic k h1 h2 => simp [dropLeft, workLeft, ownerWeight, h1]
    | endDrop k h1 h2 => simp [dropLeft, workLeft, ownerWeight, h1]

theorem run_bound {n : Nat} {s t : State} (h : Run n s t) (hm : s.main ≠ .using) : n + dropLeft t ≤ dropLeft s := by
  induction h with
  | refl => omega
  | step h1 _ ih => have := dropLeft_step h1 hm; have := ih this.2; omega

/-- C32. While no job panics: the owner never panics; once `drop` has returned every submitted job has run to its end,
exactly once, and all threads have stopped; once `drop` has been called every schedule ends, within
`4 * queued + 9 * size + 2` steps, and it can only end with `drop` having returned. -/
theorem C32_drop_waits_for_all_jobs (size : Nat) (hsize : 0 < size) (s : State) (h : Reachable size s)
    (hc : s.crashed = []) :
    s.main ≠ .panicked ∧
    (s.main = .dropped → s.finished.Perm (List.range s.submitted) ∧ ∀ w ∈ s.workers, w = .stopped) ∧
    (s.main = .stopping size → ∀ n t, Run n s t → n ≤ 4 * s.queue.length + 9 * size + 2) ∧
    (s.main ≠ .using → (∀ t, ¬ Step s t) → s.main = .dropped) := by
  have hi := inv_reachable hsize h
  have hnp : s.main ≠ .panicked := fun hm => hi.noPanic hm hc
  refine ⟨hnp, fun hd => ?_, fun hm n t hr => ?_, fun hu hst => ?_⟩
  · have hall := hi.aDropped hd
    have hw : ∀ w ∈ s.workers, w = .stopped := fun w hw => by
      obtain ⟨i, hi, e⟩ := List.mem_iff_getElem.1 hw
      exact hall i w (by rw [List.getElem?_eq_getElem hi, e])
    refine ⟨?_, hw⟩
    have h0 : s.workers[0]? = some Worker.stopped := by
      have hl := hi.len
      have e : s.workers[0]? = some (s.workers[0]'(by omega)) := List.getElem?_eq_getElem (by omega)
      rw [e, hall 0 _ e]
    have hwait : s.waiting = [] := by
      rw [waiting_eq]
      apply hi.drained
      have := tally_ge (f := isStopped) h0
      simp [isStopped] at this
      omega
    have hrun : s.running = [] := by
      unfold State.running
      rw [List.filterMap_eq_nil_iff]
      intro w hw'
      rw [hw w hw']
    have c := C31_fifo_at_most_once size hsize s h
    have e := c.2.2.1
    rw [hwait, List.append_nil] at e
    have p := c.2.2.2.2
    rw [hrun, hc, e] at p
    simpa using p
  · have a := run_bound hr (by rw [hm]; simp)
    have b := weight_le s.workers
    have hl := hi.len
    have c : dropLeft s = 4 * s.queue.length + tally weight s.workers + (5 * size + size + 2) := by
      unfold dropLeft workLeft; rw [hm, hl]; rfl
    omega
  · have hdead : ∀ (i : Nat), s.main ≠ .dropped → s.workers[i]? ≠ some Worker.dead := fun i hd e => by
      have a := tally_ge (f := isDead) e
      have b := hi.dead hd hnp
      rw [hc] at b
      simp [isDead] at a b; omega
    cases hm : s.main with
    | «using» => exact absurd hm hu
    | dropped => rfl
    | panicked => exact absurd hm hnp
    | stopping k =>
      exfalso
      cases k with
      | zero => exact hst _ (.inr (.beginJoin hm))
      | succ k =>
        by_cases hcon : s.connected = true
        · exact hst _ (.inr (.sendStop k hm hcon))
        · exact hst _ (.inr (.stopPanic k hm (by simpa using hcon)))
    | joining k =>
      exfalso
      by_cases hk : s.workers.length ≤ k
      · exact hst _ (.inr (.endDrop k hm hk))
      · have hk' : s.workers[k]? = some (s.workers[k]'(by omega)) := List.getElem?_eq_getElem (by omega)
        by_cases hq : s.queue = []
        · have a := (hi.aJoining k hm).1
          rw [hq] at a
          have := all_stopped_tally (ws := s.workers) (by rw [hi.len]; simpa using a) k _ hk'
          rw [this] at hk'
          exact hst _ (.inr (.join k hm hk'))
        · by_cases hs : s.workers[k]'(by omega) = .stopped
          · rw [hs] at hk'; exact hst _ (.inr (.join k hm hk'))
          · have hd : s.workers[k]'(by omega) ≠ .dead := fun e =>
              hdead k (by rw [hm]; simp) (by rw [hk', e])
            obtain ⟨t, ht⟩ := live_moves hk' (by
              generalize s.workers[k]'(by omega) = w at *
              cases w <;> simp_all [Worker.live]) hq
            exact hst t (.inl ht)

/-- A pool of one thread that ran one job and was dropped. -/
def droppedPool : State :=
  { main := .dropped, queue := [], workers := [.stopped], submitted := 1, started := [0], finished := [0], crashed := [] }

theorem droppedPool_reachable : Reachable 1 droppedPool :=
  (.step (.step (.step (.step (.step (.step (.step (.step (.step (.step (.step .init
    (.inr (.execute rfl rfl)))
    (.inr (.beginDrop rfl)))
    (.inr (.sendStop 0 rfl rfl)))
    (.inl (.lock 0 rfl rfl)))
    (.inl (.takeJob 0 0 [.stop] rfl rfl)))
    (.inl (.finish 0 0 rfl)))
    (.inl (.lock 0 rfl rfl)))
    (.inl (.takeStop 0 [] rfl rfl)))
    (.inr (.beginJoin rfl)))
    (.inr (.join 0 rfl rfl)))
    (.inr (.endDrop 1 rfl (by decide))))

/-! ## Panicking jobs -/

/-- The full statement of C33. -/
def C33_statement : Prop :=
  ∀ (size : Nat) (s : State), 0 < size → Reachable size s →
    (s.main = .using → s.liveCount = size) ∧ s.main ≠ .panicked

/-- One job that panics kills the only thread. -/
def crashedPool : State :=
  { main := .using, queue := [], workers := [.dead], submitted := 1, started := [0], finished := [], crashed := [0] }

theorem crashedPool_reachable : Reachable 1 crashedPool :=
  .step (.step (.step (.step .init (.inr (.execute rfl rfl))) (.inl (.lock 0 rfl rfl)))
    (.inl (.takeJob 0 0 [] rfl rfl))) (.inl (.crash 0 0 rfl))

/-- C33 does not hold of the code: after as many panicking jobs as threads the next submission panics. -/
theorem C33_violated : ¬ C33_statement := fun h =>
  (h 1 _ (by decide) (.step crashedPool_reachable (.inr (.executePanic rfl rfl)))).2 rfl

theorem live_split (ws : List Worker) :
    ws.countP Worker.live + tally isDead ws + tally isStopped ws = ws.length := by
  induction ws with
  | nil => rfl
  | cons w ws ih =>
    unfold tally at ih ⊢
    rw [List.map_cons, List.sum_cons, List.map_cons, List.sum_cons, List.length_cons, List.countP_cons]
    cases w <;> simp [Worker.live, isDead, isStopped] <;> omega

/-- C33, what does hold: each panicking job costs exactly one thread, submissions cannot fail while fewer jobs have
panicked than there are threads, and the owner panics only if some job panicked before. Missing: threads are not
replaced. -/
theorem C33_panics_cost_one_worker_partial (size : Nat) (hsize : 0 < size) (s : State) (h : Reachable size s) :
    (s.main = .using → s.liveCount + s.crashed.length = size) ∧
    (s.main = .using → s.crashed.length < size → ∀ t, MainStep s t → t.main ≠ .panicked) ∧
    (s.main = .panicked → s.crashed ≠ []) := by
  have hi := inv_reachable hsize h
  have key : s.main = .using → s.liveCount + s.crashed.length = size := fun hm => by
    have a := live_split s.workers
    have b := hi.dead (by simp [hm]) (by simp [hm])
    have c := (hi.aUsing hm).2
    have d := hi.len
    unfold State.liveCount
    omega
  refine ⟨key, fun hm hc t ht => ?_, hi.noPanic⟩
  have k := key hm
  have hcon : s.connected = true := by
    unfold State.connected
    have : 0 < s.workers.countP Worker.live := by unfold State.liveCount at k; omega
    obtain ⟨w, hw, hl⟩ := List.countP_pos_iff.1 this
    exact List.any_eq_true.2 ⟨w, hw, hl⟩
  cases ht with
  | execute h1 h2 => simp [hm]
  | executePanic h1 h2 => rw [hcon] at h2; cases h2
  | beginDrop h1 => simp
  | sendStop k h1 h2 => simp
  | stopPanic k h1 h2 => rw [hm] at h1; cases h1
  | beginJoin h1 => simp
  | join k h1 h2 => simp
  | joinPanic k h1 h2 => rw [hm] at h1; cases h1
  | endDrop k h1 h2 => simp

end Ariadne.Props
