import Verif.Spec.Pool
import Mathlib.Data.List.Basic
import Mathlib.Data.List.Count
import Mathlib.Data.List.Perm.Basic
import Mathlib.Data.List.Nodup
import Mathlib.Data.List.Range

/-! # Invariants of the thread pool -/

namespace Ariadne.Pool

/-- Sum of a weight over the workers. -/
def tally (f : Worker → Nat) (ws : List Worker) : Nat := (ws.map f).sum

theorem tally_set {f : Worker → Nat} {w w' : Worker} : ∀ {ws : List Worker} {i : Nat}, ws[i]? = some w →
    tally f (ws.set i w') + f w = tally f ws + f w'
  | [], i, h => by simp at h
  | x :: xs, 0, h => by simp at h; subst h; simp [tally]; omega
  | x :: xs, i + 1, h => by
    have := tally_set (f := f) (w := w) (w' := w') (ws := xs) (i := i) (by simpa using h)
    simp [tally] at this ⊢; omega

theorem tally_ge {f : Worker → Nat} {w : Worker} : ∀ {ws : List Worker} {i : Nat}, ws[i]? = some w → f w ≤ tally f ws
  | [], i, h => by simp at h
  | x :: xs, 0, h => by simp at h; subst h; simp [tally]
  | x :: xs, i + 1, h => by
    have := tally_ge (f := f) (w := w) (ws := xs) (i := i) (by simpa using h)
    simp [tally] at this ⊢; omega

def isStopped : Worker → Nat | .stopped => 1 | _ => 0
def isDead : Worker → Nat | .dead => 1 | _ => 0
def isHolding : Worker → Nat | .holding => 1 | _ => 0
def runs (n : Nat) : Worker → Nat | .running m => if m = n then 1 else 0 | _ => 0
def jobOf : Msg → Option Nat | .job n => some n | .stop => none
def isStop : Msg → Bool | .stop => true | _ => false

theorem waiting_eq (s : State) : s.waiting = s.queue.filterMap jobOf := by
  unfold State.waiting
  congr 1

/-- Invariant of all reachable states. -/
structure Inv (size : Nat) (s : State) : Prop where
  len : s.workers.length = size
  fifo : s.started ++ s.queue.filterMap jobOf = List.range s.submitted
  part : ∀ n, s.finished.count n + s.crashed.count n + tally (runs n) s.workers = s.started.count n
  lock : tally isHolding s.workers ≤ 1
  shape : ∃ (js : List Nat) (k : Nat), s.queue = js.map Msg.job ++ List.replicate k Msg.stop
  drained : 0 < tally isStopped s.workers → s.queue.filterMap jobOf = []
  aUsing : s.main = .using → s.queue.countP isStop = 0 ∧ tally isStopped s.workers = 0
  aStopping : ∀ k, s.main = .stopping k → s.queue.countP isStop + tally isStopped s.workers + k = size
  aJoining : ∀ k, s.main = .joining k → s.queue.countP isStop + tally isStopped s.workers = size ∧
    ∀ i, i < k → i < size → s.workers[i]? = some Worker.stopped
  aDropped : s.main = .dropped → ∀ (i : Nat) (w : Worker), s.workers[i]? = some w → w = Worker.stopped
  dead : s.main ≠ .dropped → s.main ≠ .panicked → tally isDead s.workers = s.crashed.length
  noPanic : s.main = .panicked → s.crashed ≠ []

theorem tally_replicate (f : Worker → Nat) (n : Nat) (w : Worker) : tally f (List.replicate n w) = n * f w := by
  simp [tally]

theorem inv_init (size : Nat) : Inv size (init size) where
  len := by simp [init]
  fifo := rfl
  part := fun n => by simp [init, tally_replicate, runs]
  lock := by simp [init, tally_replicate, isHolding]
  shape := ⟨[], 0, rfl⟩
  drained := fun _ => rfl
  aUsing := fun _ => by simp [init, tally_replicate, isStopped]
  aStopping := fun k h => by cases h
  aJoining := fun k h => by cases h
  aDropped := fun h => by cases h
  dead := fun _ _ => by simp [init, tally_replicate, isDead]
  noPanic := fun h => by cases h

theorem tally_unlocked {s : State} (h : s.unlocked = true) : tally isHolding s.workers = 0 := by
  unfold State.unlocked at h
  revert h
  generalize s.workers = ws
  intro h
  induction ws with
  | nil => rfl
  | cons w ws ih =>
    simp only [List.all_cons, Bool.and_eq_true] at h
    have := ih h.2
    unfold tally at this ⊢
    rw [List.map_cons, List.sum_cons, this]
    have h1 := h.1
    cases w <;> simp_all [isHolding]

theorem shape_tail {m : Msg} {q : List Msg} (h : ∃ (js : List Nat) (k : Nat), m :: q = js.map Msg.job ++ List.replicate k Msg.stop) :
    ∃ (js : List Nat) (k : Nat), q = js.map Msg.job ++ List.replicate k Msg.stop := by
  obtain ⟨js, k, h⟩ := h
  cases js with
  | nil =>
    cases k with
    | zero => simp at h
    | succ k => simp [List.replicate_succ] at h; exact ⟨[], k, by simpa using h.2⟩
  | cons j js => simp at h; exact ⟨js, k, h.2⟩

theorem shape_stop {q : List Msg} (h : ∃ (js : List Nat) (k : Nat), Msg.stop :: q = js.map Msg.job ++ List.replicate k Msg.stop) :
    q.filterMap jobOf = [] := by
  obtain ⟨js, k, h⟩ := h
  cases js with
  | nil =>
    cases k with
    | zero => simp at h
    | succ k =>
      simp [List.replicate_succ] at h; subst h
      simp [List.filterMap_eq_nil_iff, jobOf]
  | cons j js => simp at h

/-- A worker that has stopped stays. -/
theorem stopped_kept {ws : List Worker} {i : Nat} {w w' : Worker} (h : ws[i]? = some w) (hw : w ≠ .stopped) {j : Nat}
    (hj : ws[j]? = some .stopped) : (ws.set i w')[j]? = some .stopped := by
  by_cases e : i = j
  · subst e; rw [h] at hj; cases hj; exact absurd rfl hw
  · rw [List.getElem?_set_ne e]; exact hj

theorem inv_worker {size : Nat} {s t : State} (h : Inv size s) (hs : WorkerStep s t) : Inv size t := by
  cases hs with
  | @lock i h1 h2 =>
    have t1 := tally_set (f := isHolding) (w' := .holding) h1
    have t2 := tally_set (f := isStopped) (w' := .holding) h1
    have t3 := tally_set (f := isDead) (w' := .holding) h1
    have t4 := tally_unlocked h2
    simp only [isHolding, isStopped, isDead] at t1 t2 t3
    exact { len := by simp [h.len]
            fifo := h.fifo
            part := fun n => by
              have := tally_set (f := runs n) (w' := .holding) h1
              have := h.part n
              simp only [runs] at *; omega
            lock := by simp only; omega
            shape := h.shape
            drained := fun x => h.drained (by simp only at x; omega)
            aUsing := fun x => by have := h.aUsing x; simp only; omega
            aStopping := fun k x => by have := h.aStopping k x; simp only; omega
            aJoining := fun k x => ⟨by have := (h.aJoining k x).1; simp only; omega,
              fun j a b => stopped_kept h1 (by simp) ((h.aJoining k x).2 j a b)⟩
            aDropped := fun x => by have := h.aDropped x i _ h1; cases this
            dead := fun x y => by have := h.dead x y; simp only; omega
            noPanic := h.noPanic }
  | @takeJob i n q h1 h2 =>
    have t1 := tally_set (f := isHolding) (w' := .running n) h1
    have t2 := tally_set (f := isStopped) (w' := .running n) h1
    have t3 := tally_set (f := isDead) (w' := .running n) h1
    simp only [isHolding, isStopped, isDead] at t1 t2 t3
    have hf := h.fifo
    rw [h2] at hf
    have hsh := h.shape
    rw [h2] at hsh
    have hc : s.queue.countP isStop = q.countP isStop := by rw [h2]; simp [isStop]
    exact { len := by simp [h.len]
            fifo := by simpa [jobOf] using hf
            part := fun m => by
              have := tally_set (f := runs m) (w' := .running n) h1
              have := h.part m
              simp only [runs] at *
              simp only [List.count_append, List.count_singleton]
              by_cases e : n = m
              · subst e; simp at *; omega
              · have : ¬ (n == m) = true := by simpa using e
                simp [e] at *; omega
            lock := by have := h.lock; simp only; omega
            shape := shape_tail hsh
            drained := fun x => by
              have := h.drained (by simp only at x; omega)
              rw [h2] at this; simp [jobOf] at this
            aUsing := fun x => by have := h.aUsing x; simp only; omega
            aStopping := fun k x => by have := h.aStopping k x; simp only; omega
            aJoining := fun k x => ⟨by have := (h.aJoining k x).1; simp only; omega,
              fun j a b => stopped_kept h1 (by simp) ((h.aJoining k x).2 j a b)⟩
            aDropped := fun x => by have := h.aDropped x i _ h1; cases this
            dead := fun x y => by have := h.dead x y; simp only; omega
            noPanic := h.noPanic }
  | @takeStop i q h1 h2 =>
    have t1 := tally_set (f := isHolding) (w' := .stopped) h1
    have t2 := tally_set (f := isStopped) (w' := .stopped) h1
    have t3 := tally_set (f := isDead) (w' := .stopped) h1
    simp only [isHolding, isStopped, isDead] at t1 t2 t3
    have hf := h.fifo
    rw [h2] at hf
    have hsh := h.shape
    rw [h2] at hsh
    have hc : s.queue.countP isStop = q.countP isStop + 1 := by rw [h2]; exact List.countP_cons_of_pos rfl
    exact { len := by simp [h.len]
            fifo := hf
            part := fun m => by
              have := tally_set (f := runs m) (w' := .stopped) h1
              have := h.part m
              simp only [runs] at *; omega
            lock := by have := h.lock; simp only; omega
            shape := shape_tail hsh
            drained := fun _ => shape_stop hsh
            aUsing := fun x => by have := h.aUsing x; simp only; omega
            aStopping := fun k x => by have := h.aStopping k x; simp only; omega
            aJoining := fun k x => ⟨by have := (h.aJoining k x).1; simp only; omega,
              fun j a b => stopped_kept h1 (by simp) ((h.aJoining k x).2 j a b)⟩
            aDropped := fun x => by have := h.aDropped x i _ h1; cases this
            dead := fun x y => by have := h.dead x y; simp only; omega
            noPanic := h.noPanic }
  | @finish i n h1 =>
    have t1 := tally_set (f := isHolding) (w' := .idle) h1
    have t2 := tally_set (f := isStopped) (w' := .idle) h1
    have t3 := tally_set (f := isDead) (w' := .idle) h1
    simp only [isHolding, isStopped, isDead] at t1 t2 t3
    exact { len := by simp [h.len]
            fifo := h.fifo
            part := fun m => by
              have := tally_set (f := runs m) (w' := .idle) h1
              have := h.part m
              simp only [runs] at *
              simp only [List.count_append, List.count_singleton]
              by_cases e : n = m
              · subst e; simp at *; omega
              · have : ¬ (n == m) = true := by simpa using e
                simp [e] at *; omega
            lock := by have := h.lock; simp only; omega
            shape := h.shape
            drained := fun x => h.drained (by simp only at x; omega)
            aUsing := fun x => by have := h.aUsing x; simp only; omega
            aStopping := fun k x => by have := h.aStopping k x; simp only; omega
            aJoining := fun k x => ⟨by have := (h.aJoining k x).1; simp only; omega,
              fun j a b => stopped_kept h1 (by simp) ((h.aJoining k x).2 j a b)⟩
            aDropped := fun x => by have := h.aDropped x i _ h1; cases this
            dead := fun x y => by have := h.dead x y; simp only; omega
            noPanic := h.noPanic }
  | @crash i n h1 =>
    have t1 := tally_set (f := isHolding) (w' := .dead) h1
    have t2 := tally_set (f := isStopped) (w' := .dead) h1
    have t3 := tally_set (f := isDead) (w' := .dead) h1
    simp only [isHolding, isStopped, isDead] at t1 t2 t3
    exact { len := by simp [h.len]
            fifo := h.fifo
            part := fun m => by
              have := tally_set (f := runs m) (w' := .dead) h1
              have := h.part m
              simp only [runs] at *
              simp only [List.count_append, List.count_singleton]
              by_cases e : n = m
              · subst e; simp at *; omega
              · have : ¬ (n == m) = true := by simpa using e
                simp [e] at *; omega
            lock := by have := h.lock; simp only; omega
            shape := h.shape
            drained := fun x => h.drained (by simp only at x; omega)
            aUsing := fun x => by have := h.aUsing x; simp only; omega
            aStopping := fun k x => by have := h.aStopping k x; simp only; omega
            aJoining := fun k x => ⟨by have := (h.aJoining k x).1; simp only; omega,
              fun j a b => stopped_kept h1 (by simp) ((h.aJoining k x).2 j a b)⟩
            aDropped := fun x => by have := h.aDropped x i _ h1; cases this
            dead := fun x y => by have := h.dead x y; simp only [List.length_append, List.length_singleton]; omega
            noPanic := fun _ => by simp }
  | @orphan i h1 h2 h3 =>
    obtain ⟨w, hw, hw2, hw3⟩ : ∃ w, s.workers[i]? = some w ∧ (w = .holding ∨ w = .idle) ∧ w ≠ .stopped := by
      rcases h1 with h1 | h1
      · exact ⟨_, h1, .inl rfl, by simp⟩
      · exact ⟨_, h1, .inr rfl, by simp⟩
    have t1 := tally_set (f := isHolding) (w' := .dead) hw
    have t2 := tally_set (f := isStopped) (w' := .dead) hw
    have e0 : ∀ n, runs n w = 0 := by rcases hw2 with rfl | rfl <;> simp [runs]
    have e2 : isStopped w = 0 := by rcases hw2 with rfl | rfl <;> rfl
    rw [e2] at t2
    simp only [isHolding, isStopped] at t1 t2
    have hm : s.main = .dropped ∨ s.main = .panicked := by simpa [State.disconnected] using h3
    exact { len := by simp [h.len]
            fifo := h.fifo
            part := fun n => by
              have a := tally_set (f := runs n) (w' := .dead) hw
              have := h.part n
              rw [e0] at a
              simp only [runs] at *; omega
            lock := by have := h.lock; simp only; omega
            shape := h.shape
            drained := fun x => h.drained (by simp only at x; omega)
            aUsing := fun x => by rcases hm with m | m <;> (simp only at x; rw [m] at x; cases x)
            aStopping := fun k x => by rcases hm with m | m <;> (simp only at x; rw [m] at x; cases x)
            aJoining := fun k x => by rcases hm with m | m <;> (simp only at x; rw [m] at x; cases x)
            aDropped := fun x => by have := h.aDropped x i _ hw; exact absurd this hw3
            dead := fun x y => by rcases hm with m | m <;> (simp only at x y; rw [m] at x y; simp at x y)
            noPanic := h.noPanic }

theorem tally_dead_stopped {ws : List Worker} (h : (ws.any Worker.live) = false) :
    tally isDead ws + tally isStopped ws = ws.length := by
  induction ws with
  | nil => rfl
  | cons w ws ih =>
    simp only [List.any_cons, Bool.or_eq_false_iff] at h
    have := ih h.2
    simp [tally] at this ⊢
    cases w <;> simp_all [Worker.live, isDead, isStopped] <;> omega

theorem inv_main {size : Nat} (hsize : 0 < size) {s t : State} (h : Inv size s) (hs : MainStep s t) : Inv size t := by
  cases hs with
  | execute h1 h2 =>
    have hu := h.aUsing h1
    exact { len := h.len
            fifo := by
              have := h.fifo
              simp only [List.filterMap_append, List.range_succ, ← this, List.append_assoc]
              rfl
            part := h.part
            lock := h.lock
            shape := by
              obtain ⟨js, k, e⟩ := h.shape
              have hk : k = 0 := by
                have := hu.1
                rw [e] at this
                simp only [List.countP_append] at this
                have h3 : (List.replicate k Msg.stop).countP isStop = k := by
                  rw [List.countP_replicate]; rfl
                omega
              subst hk
              exact ⟨js ++ [s.submitted], 0, by simp [e]⟩
            drained := fun x => by have := hu.2; simp only at x; omega
            aUsing := fun _ => ⟨by simp only [List.countP_append, hu.1]; rfl, hu.2⟩
            aStopping := fun k x => by simp only [h1] at x; cases x
            aJoining := fun k x => by simp only [h1] at x; cases x
            aDropped := fun x => by simp only [h1] at x; cases x
            dead := h.dead
            noPanic := h.noPanic }
  | executePanic h1 h2 =>
    exact { len := h.len, fifo := h.fifo, part := h.part, lock := h.lock, shape := h.shape, drained := h.drained
            aUsing := fun x => by cases x
            aStopping := fun k x => by cases x
            aJoining := fun k x => by cases x
            aDropped := fun x => by cases x
            dead := fun _ y => absurd rfl y
            noPanic := fun _ hc => by
              have a := tally_dead_stopped h2
              have b := h.dead (by simp [h1]) (by simp [h1])
              have c := h.aUsing h1
              have d := h.len
              simp only at hc
              rw [hc] at b
              simp at b
              omega }
  | beginDrop h1 =>
    have hu := h.aUsing h1
    exact { len := h.len, fifo := h.fifo, part := h.part, lock := h.lock, shape := h.shape, drained := h.drained
            aUsing := fun x => by cases x
            aStopping := fun k x => by
              cases x
              have := h.len
              simp only; omega
            aJoining := fun k x => by cases x
            aDropped := fun x => by cases x
            dead := fun _ _ => h.dead (by simp [h1]) (by simp [h1])
            noPanic := fun x => by cases x }
  | sendStop k h1 h2 =>
    have hst := h.aStopping _ h1
    exact { len := h.len
            fifo := by
              have := h.fifo
              simp only [List.filterMap_append]
              rw [show [Msg.stop].filterMap jobOf = [] from rfl, List.append_nil]; exact this
            part := h.part
            lock := h.lock
            shape := by
              obtain ⟨js, k, e⟩ := h.shape
              exact ⟨js, k + 1, by simp [e, List.replicate_succ', List.append_assoc]⟩
            drained := fun x => by simp only [List.filterMap_append, h.drained x]; rfl
            aUsing := fun x => by cases x
            aStopping := fun j x => by
              cases x
              simp only [List.countP_append]
              have : [Msg.stop].countP isStop = 1 := rfl
              omega
            aJoining := fun k x => by cases x
            aDropped := fun x => by cases x
            dead := fun _ _ => h.dead (by simp [h1]) (by simp [h1])
            noPanic := fun x => by cases x }
  | stopPanic k h1 h2 =>
    exact { len := h.len, fifo := h.fifo, part := h.part, lock := h.lock, shape := h.shape, drained := h.drained
            aUsing := fun x => by cases x
            aStopping := fun k x => by cases x
            aJoining := fun k x => by cases x
            aDropped := fun x => by cases x
            dead := fun _ y => absurd rfl y
            noPanic := fun _ hc => by
              have a := tally_dead_stopped h2
              have b := h.dead (by simp [h1]) (by simp [h1])
              have c := h.aStopping _ h1
              have d := h.len
              simp only at hc
              rw [hc] at b
              simp at b
              omega }
  | beginJoin h1 =>
    have hst := h.aStopping _ h1
    exact { len := h.len, fifo := h.fifo, part := h.part, lock := h.lock, shape := h.shape, drained := h.drained
            aUsing := fun x => by cases x
            aStopping := fun k x => by cases x
            aJoining := fun k x => by
              cases x
              exact ⟨by simp only; omega, fun i a => by omega⟩
            aDropped := fun x => by cases x
            dead := fun _ _ => h.dead (by simp [h1]) (by simp [h1])
            noPanic := fun x => by cases x }
  | join k h1 h2 =>
    have hst := h.aJoining _ h1
    exact { len := h.len, fifo := h.fifo, part := h.part, lock := h.lock, shape := h.shape, drained := h.drained
            aUsing := fun x => by cases x
            aStopping := fun k x => by cases x
            aJoining := fun j x => by
              cases x
              refine ⟨hst.1, fun i a b => ?_⟩
              by_cases e : i = k
              · subst e; exact h2
              · exact hst.2 i (by omega) b
            aDropped := fun x => by cases x
            dead := fun _ _ => h.dead (by simp [h1]) (by simp [h1])
            noPanic := fun x => by cases x }
  | joinPanic k h1 h2 =>
    exact { len := h.len, fifo := h.fifo, part := h.part, lock := h.lock, shape := h.shape, drained := h.drained
            aUsing := fun x => by cases x
            aStopping := fun k x => by cases x
            aJoining := fun k x => by cases x
            aDropped := fun x => by cases x
            dead := fun _ y => absurd rfl y
            noPanic := fun _ hc => by
              have a := tally_ge (f := isDead) h2
              have b := h.dead (by simp [h1]) (by simp [h1])
              simp only at hc
              rw [hc] at b
              simp [isDead] at a b
              omega }
  | endDrop k h1 h2 =>
    have hst := h.aJoining _ h1
    exact { len := h.len, fifo := h.fifo, part := h.part, lock := h.lock, shape := h.shape, drained := h.drained
            aUsing := fun x => by cases x
            aStopping := fun k x => by cases x
            aJoining := fun j x => by cases x
            aDropped := fun _ i w hw => by
              have hi : i < s.workers.length := (List.getElem?_eq_some_iff.1 hw).1
              have := hst.2 i (by omega) (by have := h.len; omega)
              simp only at hw
              rw [this] at hw; cases hw; rfl
            dead := fun x _ => absurd rfl x
            noPanic := fun x => by cases x }

theorem inv_reachable {size : Nat} (hsize : 0 < size) {s : State} (h : Reachable size s) : Inv size s := by
  induction h with
  | init => exact inv_init size
  | step _ hs ih =>
    rcases hs with hs | hs
    · exact inv_worker ih hs
    · exact inv_main hsize ih hs

end Ariadne.Pool
