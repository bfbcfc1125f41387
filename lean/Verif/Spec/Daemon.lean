import Verif.Spec.AgeThreads
import Verif.Spec.Threads
import Verif.Spec.Told
import Verif.Spec.Server
import Verif.Model.Daemon

/-! # Vocabulary for the resolver as a whole -/

namespace Ariadne.Spec

open Resolver Server Daemon

variable {Addr R O : Type}

/-- A worker has received, from a server, a record that says the same. -/
def Known (p : Profile) (d : Daemon.State Addr) (x : Record) : Prop :=
  ∃ m y, d.work m = some y ∧ ∃ r ∈ receivedBy p y.2.log, content r = content x

/-- All that the message says was received from servers. -/
def AllKnown (p : Profile) (d : Daemon.State Addr) (m : Message) : Prop := ∀ x ∈ m.answers ++ m.authorities ++ m.additionals, Known p d x

/-- What comes next does not set an entry of the cache that lives for more than 2³² seconds from the moment `lo` on. -/
def Patient (S : Schedule) (lo : Nat) (d : Daemon.State Addr) : Prop :=
  ∀ j x key ttl records k, S.move d.events = .step j → d.work j = some x → x.2.task = .set key ttl records k →
    S.time d.events + ttl.toNat * NANOS < lo + 2 ^ 32 * NANOS

/-- Nothing has arrived that is not taken, no work is under way, and the server waits for a request: no thread of its can do anything else than
wait. -/
structure AtRest (π : Port R O) (p : Profile) (conf : Params) (fuel : Nat) (stop : Bool) (s : Server.State R O) (k : Work) : Prop where
  listening : s.phase.listening = true
  inbox : s.inbox = []
  still : ∀ t k', PortStep π p conf fuel stop s k t k' → t = s ∧ k' = k
  over : ∀ n x, k (π.slot n) = some x → (∃ res, x.2.task = .done (.ok res)) ∨ ∃ e, x.2.task = .done (.panic e)

/-- What the worker that served the job `n` sent to the client. -/
def sentFor (π : Port R O) (s : Server.State R O) (k : Work) (n : Nat) : List O :=
  match s.jobs[n]?, k (π.slot n) with
  | some r, some x => match x.2.task with
    | .done (.ok res) => π.result r res
    | _ => []
  | _, _ => []

end Ariadne.Spec
