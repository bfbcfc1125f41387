import Verif.Model.Server

/-! # Vocabulary for the servers -/

namespace Ariadne.Server

variable {R O R' O' : Type}

/-- The request in the hands of the listening thread. -/
def Phase.inHand : Phase R → List R
  | .received r => [r]
  | .cleared r => [r]
  | _ => []

/-- A completed run of a job: for the request with this number it sent `outs`. -/
structure JobRun (O : Type) where
  number : Nat
  outs : List O
  panics : Bool

/-- `runs` explains everything the server has sent: each run is of an accepted request, no two are of the same one, each does
what the handler may do for that request, and together, in this order, they sent what has been sent. -/
structure Explains (k : Kind R O) (s : State R O) (runs : List (JobRun O)) : Prop where
  once : (runs.map (·.number)).Nodup
  real : ∀ run ∈ runs, ∃ r, s.jobs[run.number]? = some r ∧ k.serves r run.outs run.panics
  sent : s.sent = runs.flatMap (·.outs)

/-- `n` steps of the threads of a server, without new requests, not counting reads that fail and change nothing. -/
inductive Steps (k : Kind R O) (stop : Bool) : Nat → State R O → State R O → Prop
  | refl {s : State R O} : Steps k stop 0 s s
  | step {n : Nat} {s t u : State R O} : Step k stop s t → s ≠ t → Steps k stop n t u → Steps k stop (n + 1) s u

/-- The server waits for a request: its socket is open, nothing has arrived, and no thread can do anything. -/
def Idle (k : Kind R O) (stop : Bool) (s : State R O) : Prop :=
  s.phase.listening = true ∧ s.inbox = [] ∧ ∀ t, Step k stop s t → s = t

/-- Every one of these requests is handled without a panic and handling it ends. -/
def Harmless (k : Kind R O) (rs : List R) : Prop := ∀ r ∈ rs, (∀ outs, ¬ k.serves r outs true) ∧ ∃ outs, k.serves r outs false

/-- The server has ended, is about to, or still has something to read that will make it look at the stop flag. -/
def Woken (s : State R O) : Prop :=
  match s.phase with
  | .receiving => s.inbox ≠ []
  | .cleared _ => s.inbox ≠ []
  | .received _ => True
  | .dropping => True
  | .returned => True
  | _ => False

/-- A step of the main thread or a message to it. -/
def Process.Life (k : Kind R O) (k' : Kind R' O') (wake : R) (wake' : R') (s t : Process R O R' O') : Prop :=
  Process.Step k k' wake wake' s t ∧ (s.main ≠ t.main ∨ s.udpTold ≠ t.udpTold ∨ s.tcpTold ≠ t.tcpTold)

/-- An execution of the process, with arrivals, that has `n` steps of the main thread or messages to it. -/
inductive Process.Runs (k : Kind R O) (k' : Kind R' O') (wake : R) (wake' : R') : Nat → Process R O R' O' → Process R O R' O' → Prop
  | refl {s : Process R O R' O'} : Process.Runs k k' wake wake' 0 s s
  | life {n : Nat} {s t u : Process R O R' O'} : Process.Life k k' wake wake' s t → Process.Runs k k' wake wake' n t u →
      Process.Runs k k' wake wake' (n + 1) s u
  | step {n : Nat} {s t u : Process R O R' O'} : Process.Step k k' wake wake' s t → ¬ Process.Life k k' wake wake' s t →
      Process.Runs k k' wake wake' n t u → Process.Runs k k' wake wake' n s u
  | arrive {n : Nat} {s t u : Process R O R' O'} : Process.Arrive s t → Process.Runs k k' wake wake' n t u →
      Process.Runs k k' wake wake' n s u

/-- A step that changes something and is not the end of the four seconds of patience. -/
def Process.Quiet (k : Kind R O) (k' : Kind R' O') (wake : R) (wake' : R') (s t : Process R O R' O') : Prop :=
  Process.Step k k' wake wake' s t ∧ s ≠ t ∧ t.main ≠ .panicked

/-- `n` such steps. -/
inductive Process.Quietly (k : Kind R O) (k' : Kind R' O') (wake : R) (wake' : R') : Nat → Process R O R' O' → Process R O R' O' → Prop
  | refl {s : Process R O R' O'} : Process.Quietly k k' wake wake' 0 s s
  | step {n : Nat} {s t u : Process R O R' O'} : Process.Quiet k k' wake wake' s t → Process.Quietly k k' wake wake' n t u →
      Process.Quietly k k' wake wake' (n + 1) s u

end Ariadne.Server
