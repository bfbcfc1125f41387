import Verif.Spec.Daemon

/-! # Vocabulary for progress -/

namespace Ariadne.Spec

open Resolver Server Daemon

variable {R O : Type}

/-- A thread of the server can do something that changes something, without a turn of a worker that is serving a request. -/
def CanGoOn (π : Port R O) (p : Profile) (conf : Params) (fuel : Nat) (stop : Bool) (s : Server.State R O) (k : Work) : Prop :=
  ∃ t k', PortStep π p conf fuel stop s k t k' ∧ ¬ (t = s ∧ k' = k)

/-- A worker of the server is in the middle of its request. -/
def UnderWay (π : Port R O) (k : Work) : Prop :=
  ∃ n x, k (π.slot n) = some x ∧ ¬ ((∃ res, x.2.task = .done (.ok res)) ∨ ∃ e, x.2.task = .done (.panic e))

/-- The listening thread has ended, orderly or not. -/
def Ended (s : Server.State R O) : Prop := s.phase = .returned ∨ s.phase = .panicked ∨ s.phase = .aborted

/-- `n` steps of the threads of a server, one after another, that change something: nothing arrives, and no worker has a turn in the middle of its request. -/
inductive Alone (π : Port R O) (p : Profile) (conf : Params) (fuel : Nat) (stop : Bool) : Nat → Server.State R O → Work → Server.State R O → Work → Prop
  | refl {s : Server.State R O} {k : Work} : Alone π p conf fuel stop 0 s k s k
  | step {n : Nat} {s t u : Server.State R O} {k k' k'' : Work} : PortStep π p conf fuel stop s k t k' → ¬ (t = s ∧ k' = k) →
      Alone π p conf fuel stop n t k' u k'' → Alone π p conf fuel stop (n + 1) s k u k''

end Ariadne.Spec
