import Verif.Model.Tasks
import Verif.Spec.WellRun

/-! # Vocabulary for lookups in several threads -/

namespace Ariadne

open Resolver

namespace Resolver.Task

variable {α : Type}

/-- What the task does if it is run by the one thread whose world this is. -/
def run (env : Env) : Task α → M α
  | done o => fun w => (o, w)
  | emit e k => fun w => k.run env { w with log := w.log ++ [e] }
  | now k => fun w => (k (env.clock w.ticks)).run env { w with ticks := w.ticks + 1 }
  | randomId k => fun w => (k (env.ids w.ticks)).run env { w with ticks := w.ticks + 1 }
  | send addr bytes k => fun w =>
    let reply := env.net w.log addr bytes
    (k reply).run env { w with log := w.log ++ [.exchange addr bytes reply] }
  | get key k => fun w =>
    let r := (env.others w.ticks w.cache).getClone key (env.clock (w.ticks + 1))
    (k r.2).run env { w with cache := r.1, ticks := w.ticks + 2 }
  | set key ttl records k => fun w =>
    let r := (env.others w.ticks w.cache).set key (ttl.toNat * NANOS) records (env.clock (w.ticks + 1)) (env.clock (w.ticks + 2))
    k.run env { w with cache := r.1, ticks := w.ticks + 3 }

/-- The task is this computation, in every environment. -/
def Is (t : Task α) (m : Env → M α) : Prop := ∀ env, t.run env = m env

end Resolver.Task

namespace Spec

/-- The event does not set an entry that lives for more than 2³² seconds from the moment `lo` on. -/
def Modest {α : Type} (S : Schedule) (lo : Nat) (n : Nat) (s : System α) : Prop :=
  ∀ i key ttl records k, S.move n = .step i → (s.threads i).task = .set key ttl records k → S.time n + ttl.toNat * NANOS < lo + 2 ^ 32 * NANOS

/-- The thread is given one turn after another. -/
def Fair (S : Schedule) (i : Nat) : Prop := ∀ n, ∃ m, n ≤ m ∧ S.move m = .step i

end Spec

end Ariadne
