import Verif.Props.Pool

/-!
# C116: worker threads end, and only for a reason
-/

namespace Ariadne.Props

open Pool

/-- The owner is past sending `Stop` messages, or can send no more. -/
def Past (s : Pool.State) : Prop := s.main = .dropped ∨ s.main = .panicked ∨ ∃ k, s.main = .joining k

/-- What is added to the invariant of the pool: every death has a job to blame, and there is a `Stop` for every thread that is left. -/
structure Enough (size : Nat) (s : Pool.State) : Prop where
  dead : tally isDead s.workers = s.crashed.length
  stops : Past s → size ≤ tally isDead s.workers + tally isStopped s.workers + s.queue.countP isStop

theorem live_le {s : Pool.State} {i : Nat} {w : Worker} (h : s.workers[i]? = some w) (hw : w.live = true) :
    tally isDead s.workers + tally isStopped s.workers < s.workers.length := by
  have := live_split s.workers
  have hp : 0 < s.workers.countP Worker.live := List.countP_pos_iff.2 ⟨w, List.mem_of_getElem? h, hw⟩
  omega

theorem none_live {s : Pool.State} (h : s.connected = false) : tally isDead s.workers + tally isStopped s.workers = s.workers.length :=
  tally_dead_stopped h

theorem enough_worker {size : Nat} {s t : Pool.State} (hi : Inv size s) (h : Enough size s) (hs : WorkerStep s t) : Enough size t := by
  cases hs with
  | @lock i h1 h2 =>
    have a := tally_set (f := isDead) (w' := .holding) h1
    have b := tally_set (f := isStopped) (w' := .holding) h1
    simp only [isDead, isStopped] at a b
    exact ⟨by have := h.dead; simp only; omega, fun hp => by have := h.stops hp; simp only; omega⟩
  | @takeJob i n q h1 h2 =>
    have a := tally_set (f := isDead) (w' := .running n) h1
    have b := tally_set (f := isStopped) (w' := .running n) h1
    simp only [isDead, isStopped] at a b
    refine ⟨by have := h.dead; simp only; omega, fun hp => ?_⟩
    have := h.stops hp
    rw [h2, List.countP_cons_of_neg (by simp [isStop])] at this
    simp only; omega
  | @takeStop i q h1 h2 =>
    have a := tally_set (f := isDead) (w' := .stopped) h1
    have b := tally_set (f := isStopped) (w' := .stopped) h1
    simp only [isDead, isStopped] at a b
    refine ⟨by have := h.dead; simp only; omega, fun hp => ?_⟩
    have := h.stops hp
    rw [h2, List.countP_cons_of_pos (by simp [isStop])] at this
    simp only; omega
  | @finish i n h1 =>
    have a := tally_set (f := isDead) (w' := .idle) h1
    have b := tally_set (f := isStopped) (w' := .idle) h1
    simp only [isDead, isStopped] at a b
    exact ⟨by have := h.dead; simp only; omega, fun hp => by have := h.stops hp; simp only; omega⟩
  | @crash i n h1 =>
    have a := tally_set (f := isDead) (w' := .dead) h1
    have b := tally_set (f := isStopped) (w' := .dead) h1
    simp only [isDead, isStopped] at a b
    exact ⟨by have := h.dead; simp only [List.length_append, List.length_singleton]; omega, fun hp => by have := h.stops hp; simp only; omega⟩
  | @orphan i h1 h2 h3 =>
    have hm : Past s := by
      rcases (by simpa [State.disconnected] using h3 : s.main = .dropped ∨ s.main = .panicked) with e | e
      · exact .inl e
      · exact .inr (.inl e)
    have hl : tally isDead s.workers + tally isStopped s.workers < s.workers.length := by
      rcases h1 with h1 | h1 <;> exact live_le h1 rfl
    have := h.stops hm
    have := hi.len
    rw [h2] at *
    simp at *
    omega

theorem enough_main {size : Nat} {s t : Pool.State} (hi : Inv size s) (h : Enough size s) (hs : MainStep s t) : Enough size t := by
  have split := live_split s.workers
  have len := hi.len
  cases hs with
  | execute h1 h2 => exact ⟨h.dead, fun hp => by rcases hp with e | e | ⟨k, e⟩ <;> (simp only at e; rw [h1] at e; cases e)⟩
  | executePanic h1 h2 => exact ⟨h.dead, fun _ => by have := none_live h2; simp only; omega⟩
  | beginDrop h1 => exact ⟨h.dead, fun hp => by rcases hp with e | e | ⟨k, e⟩ <;> cases e⟩
  | sendStop k h1 h2 => exact ⟨h.dead, fun hp => by rcases hp with e | e | ⟨k, e⟩ <;> cases e⟩
  | stopPanic k h1 h2 => exact ⟨h.dead, fun _ => by have := none_live h2; simp only; omega⟩
  | beginJoin h1 => exact ⟨h.dead, fun _ => by have := hi.aStopping 0 h1; simp only; omega⟩
  | join k h1 h2 => exact ⟨h.dead, fun _ => h.stops (.inr (.inr ⟨k, h1⟩))⟩
  | joinPanic k h1 h2 => exact ⟨h.dead, fun _ => h.stops (.inr (.inr ⟨k, h1⟩))⟩
  | endDrop k h1 h2 => exact ⟨h.dead, fun _ => h.stops (.inr (.inr ⟨k, h1⟩))⟩

theorem enough_reachable {size : Nat} (hsize : 0 < size) {s : Pool.State} (h : Pool.Reachable size s) : Enough size s := by
  induction h with
  | init => exact ⟨by simp [Pool.init, tally_replicate, isDead], fun hp => by rcases hp with e | e | ⟨k, e⟩ <;> cases e⟩
  | step h hs ih =>
    have hi := inv_reachable hsize h
    rcases hs with hs | hs
    · exact enough_worker hi ih hs
    · exact enough_main hi ih hs

/-- A thread that has ended. -/
def Ended (w : Worker) : Prop := w = .stopped ∨ w = .dead

/-- C116. Threads die of panicking jobs only, one for each: also when the pool is dropped, when dropping panics, and afterwards, no thread
dies while it waits for work. And when the owner is done with the pool, in whatever way, the threads that are left come to an end by
themselves: after a limited number of their steps none can go on, and then all have ended. -/
theorem C116_workers_end (size : Nat) (hsize : 0 < size) (s : Pool.State) (h : Pool.Reachable size s) :
    s.workers.count .dead = s.crashed.length ∧
    (∀ t : Pool.State, WorkerStep s t → t.workers.count .dead = s.workers.count .dead ∨ ∃ i n : Nat, s.workers[i]? = some (Worker.running n) ∧ t.workers[i]? = some Worker.dead ∧
      t.crashed = s.crashed ++ [n]) ∧
    (s.main = .dropped ∨ s.main = .panicked →
      (∀ n t, WorkerRun n s t → n ≤ 4 * s.queue.length + 3 * size) ∧
      ∀ n t, WorkerRun n s t → Stuck t → ∀ w ∈ t.workers, Ended w) := by
  have hd : ∀ ws : List Worker, ws.count .dead = tally isDead ws := fun ws => by
    induction ws with
    | nil => rfl
    | cons w ws ih =>
      have e : tally isDead (w :: ws) = isDead w + tally isDead ws := by simp [tally]
      rw [List.count_cons, e, ih]
      cases w <;> simp [isDead] <;> omega
  have he := enough_reachable hsize h
  refine ⟨by rw [hd, he.dead], fun t ht => ?_, fun hm => ⟨(C34_no_deadlock_and_drains size hsize s h).2.1, fun n t hr hst => ?_⟩⟩
  · have het := enough_reachable hsize (.step h (.inl ht))
    by_cases hc : t.crashed = s.crashed
    · left; rw [hd, hd, het.dead, he.dead, hc]
    · right
      cases ht with
      | @crash i n h1 =>
        refine ⟨i, n, h1, ?_, rfl⟩
        have : i < s.workers.length := by
          apply Classical.byContradiction
          intro hlt
          rw [List.getElem?_eq_none (by omega)] at h1
          cases h1
        simp [this]
      | _ => exact absurd rfl hc
  · have ht := workerRun_reachable hr h
    have het := enough_reachable hsize ht
    have hmt : t.main = s.main := by
      clear hst ht het
      induction hr with
      | refl => rfl
      | step h1 h2 ih =>
        rw [ih (.step h (.inl h1)) (enough_reachable hsize (.step h (.inl h1))) (by cases h1 <;> exact hm)]
        cases h1 <;> rfl
    intro w hw
    apply Classical.byContradiction
    intro hne
    have hl : w.live = true := by
      cases w <;> first | rfl | exact absurd (Or.inl rfl) hne | exact absurd (Or.inr rfl) hne
    have hcon : t.connected = true := List.any_eq_true.2 ⟨w, hw, hl⟩
    by_cases hq : t.queue = []
    · obtain ⟨i, hlt, e⟩ := List.mem_iff_getElem.1 hw
      have h1 := live_le (s := t) (i := i) (by rw [List.getElem?_eq_getElem hlt, e]) hl
      have h2 := het.stops (by rw [Past, hmt]; exact hm.elim .inl fun e => .inr (.inl e))
      have h3 := (inv_reachable hsize ht).len
      rw [hq] at h2
      simp at h2
      omega
    · obtain ⟨u, hu⟩ := connected_moves hcon hq
      exact hst u hu

/-- A pool of two threads of which one died of job 0; dropping it panics on joining that thread, while the other still runs job 1 and job 2
waits. -/
def abandonedPool : Pool.State :=
  ⟨.panicked, [.job 2, .stop, .stop], [.dead, .running 1], 3, [0, 1], [], [0]⟩

theorem abandoned_reachable : Pool.Reachable 2 abandonedPool :=
  .step (.step (.step (.step (.step (.step busyPool_reachable (.inl (.crash 0 0 rfl))) (.inr (.beginDrop rfl))) (.inr (.sendStop 1 rfl rfl)))
    (.inr (.sendStop 0 rfl rfl))) (.inr (.beginJoin rfl))) (.inr (.joinPanic 0 rfl rfl))

/-- The other thread still finishes its job, does the waiting one and stops. -/
example : ∃ n t, WorkerRun n abandonedPool t ∧ Stuck t ∧ t.finished = [1, 2] ∧ ∀ w ∈ t.workers, Ended w := by
  have run : WorkerRun 6 abandonedPool ⟨.panicked, [.stop], [.dead, .stopped], 3, [0, 1, 2], [1, 2], [0]⟩ :=
    .step (.finish 1 1 rfl) (.step (.lock 1 rfl rfl) (.step (.takeJob 1 2 _ rfl rfl) (.step (.finish 1 2 rfl) (.step (.lock 1 rfl rfl)
      (.step (.takeStop 1 _ rfl rfl) .refl)))))
  exact ⟨6, _, run, (by
    have none : ∀ (i : Nat) (w : Worker), w.live = true → [Worker.dead, Worker.stopped][i]? ≠ some w := fun i w hl e => by
      have := List.mem_of_getElem? e
      simp only [List.mem_cons, List.not_mem_nil, or_false] at this
      rcases this with e | e <;> (subst e; cases hl)
    intro u hu
    cases hu with
    | orphan i h1 h2 h3 => cases h2
    | lock i h1 h2 => exact none _ _ rfl h1
    | takeJob i n q h1 h2 => exact none _ _ rfl h1
    | takeStop i q h1 h2 => exact none _ _ rfl h1
    | finish i n h1 => exact none _ _ rfl h1
    | crash i n h1 => exact none _ _ rfl h1), rfl, by simp [Ended]⟩

end Ariadne.Props
