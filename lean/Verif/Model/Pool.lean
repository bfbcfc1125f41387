/-!
# Thread pool – models src/shared/thread_pool.rs as a transition system

All interleavings of the submitting thread and the workers. Jobs are numbered in the order of submission. A job may end
normally, panic, or run forever (no step ends it).
-/

namespace Ariadne.Pool

/-- thread_pool.rs:65-68 `enum WorkerMessage`. -/
inductive Msg
  | job (n : Nat)
  | stop
  deriving DecidableEq, Repr

/-- Where a worker thread (thread_pool.rs:74-82) is. -/
inductive Worker
  | idle             -- before or in `receiver.lock()`
  | holding          -- has the lock, in `recv()`
  | running (n : Nat)
  | stopped          -- returned after `Stop`
  | dead             -- unwound by a panic
  deriving DecidableEq, Repr

/-- Where the owner of the pool is. -/
inductive Main
  | using            -- may call `execute` or drop the pool
  | stopping (k : Nat) -- thread_pool.rs:44-46, `k` messages left to send
  | joining (k : Nat)  -- thread_pool.rs:47-52, next worker to join
  | dropped          -- `drop` has returned; the sender is gone
  | panicked         -- an `unwrap` failed in `execute` (38) or in `drop` (45, 50)
  deriving DecidableEq, Repr

/-- State of the pool. `queue` is the channel. -/
structure State where
  main : Main
  queue : List Msg
  workers : List Worker
  submitted : Nat
  started : List Nat
  finished : List Nat
  crashed : List Nat
  deriving DecidableEq, Repr

/-- The thread still owns a reference to the receiver. -/
def Worker.live : Worker → Bool
  | .stopped => false
  | .dead => false
  | _ => true

/-- `send` succeeds as long as the receiver exists, i.e. some worker thread still runs. -/
def State.connected (s : State) : Bool := s.workers.any Worker.live

/-- The mutex is free. -/
def State.unlocked (s : State) : Bool := s.workers.all fun w => w != .holding

/-- The sender is gone: the owner is past `drop` (its fields are dropped also when `drop` itself panics). A panic in
`execute` also ends the owner in this model. -/
def State.disconnected (s : State) : Bool := s.main == .dropped || s.main == .panicked

/-- thread_pool.rs:17-32 `ThreadPool::new`. -/
def init (size : Nat) : State :=
  { main := .using, queue := [], workers := List.replicate size .idle, submitted := 0, started := [], finished := [],
    crashed := [] }

/-- Steps of the worker threads, thread_pool.rs:73-85. Taking a message and releasing the lock (76-77) is one step:
nothing of it is visible to others in between. The lock is never poisoned while the owner has the sender, because the
guard is released before the job runs (77). -/
inductive WorkerStep : State → State → Prop
  /-- 75: `receiver.lock()`. -/
  | lock {s : State} (i : Nat) : s.workers[i]? = some .idle → s.unlocked = true →
      WorkerStep s { s with workers := s.workers.set i .holding }
  /-- 76-80: `recv()` yields a job; it starts. -/
  | takeJob {s : State} (i n : Nat) (q : List Msg) : s.workers[i]? = some .holding → s.queue = .job n :: q →
      WorkerStep s { s with queue := q, workers := s.workers.set i (.running n), started := s.started ++ [n] }
  /-- 76-79: `recv()` yields `Stop`. -/
  | takeStop {s : State} (i : Nat) (q : List Msg) : s.workers[i]? = some .holding → s.queue = .stop :: q →
      WorkerStep s { s with queue := q, workers := s.workers.set i .stopped }
  /-- 80: the job returns. -/
  | finish {s : State} (i n : Nat) : s.workers[i]? = some (.running n) →
      WorkerStep s { s with workers := s.workers.set i .idle, finished := s.finished ++ [n] }
  /-- 80: the job panics; nothing catches it, the thread ends. -/
  | crash {s : State} (i n : Nat) : s.workers[i]? = some (.running n) →
      WorkerStep s { s with workers := s.workers.set i .dead, crashed := s.crashed ++ [n] }
  /-- 76: `recv()` on a disconnected empty channel, `unwrap` panics (and poisons the lock: 75 then panics too). -/
  | orphan {s : State} (i : Nat) : (s.workers[i]? = some .holding ∨ s.workers[i]? = some .idle) → s.queue = [] →
      s.disconnected = true → WorkerStep s { s with workers := s.workers.set i .dead }

/-- Steps of the owner. -/
inductive MainStep : State → State → Prop
  /-- 36-39 `execute`. -/
  | execute {s : State} : s.main = .using → s.connected = true →
      MainStep s { s with queue := s.queue ++ [.job s.submitted], submitted := s.submitted + 1 }
  /-- 38: `send` fails, `unwrap` panics. -/
  | executePanic {s : State} : s.main = .using → s.connected = false → MainStep s { s with main := .panicked }
  /-- 43: `drop` begins. It takes the pool by value: no `execute` can follow. -/
  | beginDrop {s : State} : s.main = .using → MainStep s { s with main := .stopping s.workers.length }
  /-- 44-46. -/
  | sendStop {s : State} (k : Nat) : s.main = .stopping (k + 1) → s.connected = true →
      MainStep s { s with main := .stopping k, queue := s.queue ++ [.stop] }
  /-- 45: `send` fails, `unwrap` panics. -/
  | stopPanic {s : State} (k : Nat) : s.main = .stopping (k + 1) → s.connected = false →
      MainStep s { s with main := .panicked }
  | beginJoin {s : State} : s.main = .stopping 0 → MainStep s { s with main := .joining 0 }
  /-- 47-51: `join` returns once the thread has ended. -/
  | join {s : State} (k : Nat) : s.main = .joining k → s.workers[k]? = some .stopped →
      MainStep s { s with main := .joining (k + 1) }
  /-- 50: `join` returns the panic, `unwrap` panics. -/
  | joinPanic {s : State} (k : Nat) : s.main = .joining k → s.workers[k]? = some .dead →
      MainStep s { s with main := .panicked }
  /-- 55: end of `drop`. -/
  | endDrop {s : State} (k : Nat) : s.main = .joining k → s.workers.length ≤ k → MainStep s { s with main := .dropped }

/-- One step of anybody. -/
def Step (s t : State) : Prop := WorkerStep s t ∨ MainStep s t

/-- States of a pool of `size` threads reachable in any schedule. -/
inductive Reachable (size : Nat) : State → Prop
  | init : Reachable size (init size)
  | step {s t : State} : Reachable size s → Step s t → Reachable size t

/-- `n` steps of worker threads, in any order. -/
inductive WorkerRun : Nat → State → State → Prop
  | refl {s : State} : WorkerRun 0 s s
  | step {n : Nat} {s t u : State} : WorkerStep s t → WorkerRun n t u → WorkerRun (n + 1) s u

end Ariadne.Pool
