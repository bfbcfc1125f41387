import Verif.Lemmas.Tasks
import Verif.Spec.OnlyQuestion

/-! # Tasks that take the same steps -/

namespace Ariadne.Resolver

open Spec

namespace Task

variable {α β γ : Type}

/-- The tasks take the same steps; if both come to results, these are related. -/
inductive Alike (R : α → β → Prop) : Task α → Task β → Prop
  | done {o : Out LookupErr α} {o' : Out LookupErr β} : (∀ r r', o = .ok r → o' = .ok r' → R r r') → Alike R (.done o) (.done o')
  | emit {e : Event} {k : Task α} {k' : Task β} : Alike R k k' → Alike R (.emit e k) (.emit e k')
  | now {k : Nat → Task α} {k' : Nat → Task β} : (∀ t, Alike R (k t) (k' t)) → Alike R (.now k) (.now k')
  | randomId {k : UInt16 → Task α} {k' : UInt16 → Task β} : (∀ t, Alike R (k t) (k' t)) → Alike R (.randomId k) (.randomId k')
  | send {addr : Ip4} {bytes : List UInt8} {k : Option (List UInt8) → Task α} {k' : Option (List UInt8) → Task β} :
      (∀ t, Alike R (k t) (k' t)) → Alike R (.send addr bytes k) (.send addr bytes k')
  | get {key : Name × RecordType} {k : Option (Nat × List Record) → Task α} {k' : Option (Nat × List Record) → Task β} :
      (∀ t, Alike R (k t) (k' t)) → Alike R (.get key k) (.get key k')
  | set {key : Name × RecordType} {ttl : UInt32} {records : List Record} {k : Task α} {k' : Task β} : Alike R k k' →
      Alike R (.set key ttl records k) (.set key ttl records k')

/-- The same steps, and then something alike. -/
theorem alike_bind {R : α → β → Prop} {f : γ → Task α} {g : γ → Task β} (h : ∀ x, Alike R (f x) (g x)) (t : Task γ) :
    Alike R (t.bind f) (t.bind g) := by
  induction t with
  | done o =>
    cases o with
    | ok a => exact h a
    | err e => exact .done fun r r' h => by cases h
    | panic k => exact .done fun r r' h => by cases h
    | diverge => exact .done fun r r' h => by cases h
  | emit e k ih => exact .emit ih
  | now k ih => exact .now ih
  | randomId k ih => exact .randomId ih
  | send addr bytes k ih => exact .send ih
  | get key k ih => exact .get ih
  | set key ttl records k ih => exact .set ih

theorem bind_assoc' (t : Task α) (f : α → Task β) (g : β → Task γ) : (t.bind f).bind g = t.bind fun x => (f x).bind g := by
  induction t with
  | done o => cases o <;> rfl
  | emit e k ih => exact congrArg _ ih
  | now k ih => exact congrArg _ (funext ih)
  | randomId k ih => exact congrArg _ (funext ih)
  | send addr bytes k ih => exact congrArg _ (funext ih)
  | get key k ih => exact congrArg _ (funext ih)
  | set key ttl records k ih => exact congrArg _ ih

/-- Threads that are alike make the same step. -/
theorem alike_step {R : α → β → Prop} {net : List Event → Ip4 → List UInt8 → Option (List UInt8)} {t t' : Nat} {id : UInt16}
    {c : RecordsCache} {log : List Event} {x : Task α} {y : Task β} (h : Alike R x y) :
    ((⟨x, log⟩ : Thread α).step net t t' id c).2 = ((⟨y, log⟩ : Thread β).step net t t' id c).2 ∧
    ((⟨x, log⟩ : Thread α).step net t t' id c).1.log = ((⟨y, log⟩ : Thread β).step net t t' id c).1.log ∧
    Alike R ((⟨x, log⟩ : Thread α).step net t t' id c).1.task ((⟨y, log⟩ : Thread β).step net t t' id c).1.task := by
  cases h with
  | done h => exact ⟨rfl, rfl, .done h⟩
  | emit h => exact ⟨rfl, rfl, h⟩
  | now h => exact ⟨rfl, rfl, h _⟩
  | randomId h => exact ⟨rfl, rfl, h _⟩
  | send h => exact ⟨rfl, rfl, h _⟩
  | get h => exact ⟨rfl, rfl, h _⟩
  | set h => exact ⟨rfl, rfl, h⟩

theorem Alike.done_iff {R : α → β → Prop} {x : Task α} {y : Task β} (h : Alike R x y) : (∃ o, x = .done o) ↔ ∃ o, y = .done o := by
  cases h <;> constructor <;> rintro ⟨o, ho⟩ <;> first | exact ⟨_, rfl⟩ | cases ho

theorem Alike.results {R : α → β → Prop} {r : α} {r' : β} (h : Alike R (.done (.ok r)) (.done (.ok r'))) : R r r' := by
  cases h with
  | done h => exact h r r' rfl rfl

end Task

/-- Systems whose threads are alike go through the same states of the cache, and their threads do the same. -/
theorem System.alike_after {α β : Type} {R : Nat → α → β → Prop} {S : Schedule}
    {net : Nat → List Event → Ip4 → List UInt8 → Option (List UInt8)} {s : System α} {s' : System β} (hc : s.cache = s'.cache)
    (ht : ∀ i, (s.threads i).log = (s'.threads i).log ∧ Task.Alike (R i) (s.threads i).task (s'.threads i).task) : ∀ n,
    (System.after S net s n).cache = (System.after S net s' n).cache ∧
    ∀ i, ((System.after S net s n).threads i).log = ((System.after S net s' n).threads i).log ∧
      Task.Alike (R i) ((System.after S net s n).threads i).task ((System.after S net s' n).threads i).task
  | 0 => ⟨hc, ht⟩
  | n + 1 => by
    obtain ⟨hc', ht'⟩ := alike_after hc ht n
    unfold System.after
    generalize System.after S net s n = a at hc' ht' ⊢
    generalize System.after S net s' n = b at hc' ht' ⊢
    unfold System.next
    cases hm : S.move n with
    | clean reading => exact ⟨by dsimp only; rw [hc'], ht'⟩
    | step i =>
      dsimp only
      obtain ⟨hl, hk⟩ := ht' i
      have key := Task.alike_step (net := net i) (t := S.time n) (t' := S.time' n) (id := S.id n) (c := b.cache) (log := (b.threads i).log) hk
      have e : a.threads i = ⟨(a.threads i).task, (b.threads i).log⟩ := by rw [← hl]
      rw [hc', e]
      refine ⟨key.1, fun j => ?_⟩
      by_cases hj : j = i
      · subst hj
        rw [if_pos rfl, if_pos rfl]
        exact key.2
      · rw [if_neg hj, if_neg hj]
        exact ht' j

end Ariadne.Resolver
