import Verif.Spec.Age
import Verif.Model.Tasks

/-! # Vocabulary for the age of records, with several threads -/

namespace Ariadne.Spec

open Resolver

variable {α : Type} (S : Schedule) (net : Nat → List Event → Ip4 → List UInt8 → Option (List UInt8)) (p : Profile) (s : System α)

/-- The event `m` is a step of the thread `j`, which had not finished yet. -/
def Busy (m j : Nat) : Prop := S.move m = .step j ∧ ∀ o, ((System.after S net s m).threads j).task ≠ .done o

/-- Before the event `n`: a thread, not yet finished at the time of its step `m`, has received `r`. -/
def ReceivedInThread (n : Nat) (m : Nat) (r : Record) : Prop :=
  m < n ∧ ∃ j, Busy S net s m j ∧ r ∈ receivedBy p ((System.after S net s (m + 1)).threads j).log

/-- One of the threads has received a record that says the same. -/
def HasSourceInThread (n : Nat) (x : Record) : Prop := ∃ m r, ReceivedInThread S net p s n m r ∧ content r = content x

/-- One of the threads has received a record that says the same; and the TTL, from `now` on, ends no later than that of the received
record, from a moment on at which that thread had not finished yet. -/
def EndsInTime (n now : Nat) (x : Record) : Prop :=
  ∃ m r, ReceivedInThread S net p s n m r ∧ content r = content x ∧ now + x.ttl.toNat * NANOS ≤ S.time m + r.ttl.toNat * NANOS

/-- The same, and the TTL is not greater than that received. -/
def InTimeInThread (n now : Nat) (x : Record) : Prop :=
  ∃ m r, ReceivedInThread S net p s n m r ∧ content r = content x ∧ x.ttl.toNat ≤ r.ttl.toNat ∧
    now + x.ttl.toNat * NANOS ≤ S.time m + r.ttl.toNat * NANOS

end Ariadne.Spec
