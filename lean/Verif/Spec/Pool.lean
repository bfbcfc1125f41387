import Verif.Model.Pool

/-! # Vocabulary for the thread pool -/

namespace Ariadne.Pool

/-- Jobs being executed. -/
def State.running (s : State) : List Nat :=
  s.workers.filterMap fun w => match w with | .running n => some n | _ => none

/-- Jobs waiting in the queue, in order. -/
def State.waiting (s : State) : List Nat :=
  s.queue.filterMap fun m => match m with | .job n => some n | .stop => none

/-- Number of worker threads that still serve jobs. -/
def State.liveCount (s : State) : Nat := s.workers.countP Worker.live

/-- No worker can do anything. -/
def Stuck (s : State) : Prop := ∀ t, ¬ WorkerStep s t

/-- `n` steps of anybody. -/
inductive Run : Nat → State → State → Prop
  | refl {s : State} : Run 0 s s
  | step {n : Nat} {s t u : State} : Step s t → Run n t u → Run (n + 1) s u

end Ariadne.Pool
