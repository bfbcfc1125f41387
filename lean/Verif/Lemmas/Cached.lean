import Verif.Lemmas.OnlyQuestion

/-! # Lookups that find what they look for in the cache -/

namespace Ariadne.Resolver

open Spec

namespace Task

variable {α β : Type}

/-- As long as the records are in the cache, the task sends no query. -/
inductive Brief (key : Name × RecordType) (Q : α → Prop) : Task α → Prop
  | done {o : Out LookupErr α} : (∀ a, o = .ok a → Q a) → Brief key Q (.done o)
  | emit {e : Event} {k : Task α} : (∀ addr query reply, Event.exchange addr query reply ≠ e) → Brief key Q k → Brief key Q (.emit e k)
  | now {k : Nat → Task α} : (∀ t, Brief key Q (k t)) → Brief key Q (.now k)
  | get {k : Option (Nat × List Record) → Task α} : (∀ exp records, records ≠ [] → Brief key Q (k (some (exp, records)))) →
      Brief key Q (.get key k)

theorem Brief.bind {key : Name × RecordType} {Q : α → Prop} {Q' : β → Prop} {f : α → Task β} {t : Task α} (h : Brief key Q t)
    (hf : ∀ a, Q a → Brief key Q' (f a)) : Brief key Q' (t.bind f) := by
  induction h with
  | @done o h =>
    cases o with
    | ok a => exact hf a (h a rfl)
    | err e => exact .done fun a h => by cases h
    | panic k => exact .done fun a h => by cases h
    | diverge => exact .done fun a h => by cases h
  | emit he _ ih => exact .emit he ih
  | now _ ih => exact .now ih
  | get _ ih => exact .get ih

theorem Brief.attempt {key : Name × RecordType} {Q : α → Prop} {t : Task α} (h : Brief key Q t) :
    Brief key (fun _ => True) t.attempt := by
  induction h with
  | @done o h => cases o <;> exact .done fun _ _ => trivial
  | emit he _ ih => exact .emit he ih
  | now _ ih => exact .now ih
  | get _ ih => exact .get ih

theorem getClone_inCache {key : Name × RecordType} {t : Nat} {c : RecordsCache} (h : InCache key t c) :
    ∃ exp records, records ≠ [] ∧ (c.getClone key t).2 = some (exp, records) := by
  obtain ⟨exp, records, h1, h2, h3⟩ := h
  refine ⟨exp, records, h3, ?_⟩
  unfold Cache.getClone
  rw [h1]
  dsimp only
  rw [if_neg]
  simp [Cache.isExpired]
  omega

theorem Brief.step {key : Name × RecordType} {Q : α → Prop} {net : List Event → Ip4 → List UInt8 → Option (List UInt8)} {t t' : Nat}
    {id : UInt16} {c : RecordsCache} {th : Thread α} (h : Brief key Q th.task) (hl : AskedNobody th.log) (hc : InCache key t c) :
    Brief key Q (th.step net t t' id c).1.task ∧ AskedNobody (th.step net t t' id c).1.log := by
  obtain ⟨task, log⟩ := th
  dsimp only at h hl
  cases h with
  | done h => exact ⟨.done h, hl⟩
  | emit he h =>
    refine ⟨h, fun addr query reply hm => ?_⟩
    rcases List.mem_append.1 hm with hm | hm
    · exact hl _ _ _ hm
    · exact he _ _ _ (List.mem_singleton.1 hm)
  | now h => exact ⟨h t, hl⟩
  | @get k h =>
    obtain ⟨exp, records, hne, e⟩ := getClone_inCache hc
    refine ⟨?_, hl⟩
    show Brief key Q (k (c.getClone key t).2)
    rw [e]
    exact h exp records hne

end Task

open Task

theorem serveCached_ne {before exp : Nat} {records l : List Record} (hne : records ≠ []) (h : serveCached before exp records = .ok l) : l ≠ [] := by
  unfold serveCached at h
  cases records with
  | nil => exact absurd rfl hne
  | cons r rs =>
    dsimp only at h
    split at h
    · cases h
    · split at h
      · cases h
      · split at h
        · cases h
        · rw [← Out.ok.inj h]
          simp

theorem Steps.search_brief {node : Name} {kind : RecordType} :
    Brief (node, kind) (fun l => l ≠ []) (Steps.searchRecordsInCache node kind) :=
  .now fun before => .get fun exp records hne => .done fun l h => serveCached_ne hne h

theorem Steps.lookup_brief {p : Profile} {conf : Params} {fuel : Nat} {node : Name} {kind : RecordType} :
    Brief (node, kind) (fun _ => True) (Steps.lookup p conf fuel node kind) := by
  unfold Steps.lookup
  cases fuel with
  | zero => exact .done fun _ h => by cases h
  | succ fuel =>
    unfold Steps.perform
    dsimp only
    cases conf.maxCnameRedir with
    | zero => exact .done fun _ h => by cases h
    | succ rounds =>
      unfold Steps.performLoop
      refine .emit (fun _ _ _ h => by cases h) ?_
      show Brief (node, kind) (fun _ => True) ((Steps.searchRecordsInCache node kind).bind _)
      refine Brief.bind Steps.search_brief fun l hl => ?_
      rw [if_pos (List.length_pos_iff.2 hl)]
      exact .done fun _ _ => trivial

end Ariadne.Resolver
