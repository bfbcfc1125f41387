import Verif.Spec.Zone
import Mathlib.Data.List.Basic
import Mathlib.Data.List.Count
import Mathlib.Data.List.Perm.Basic
import Mathlib.Data.List.Nodup

/-! # The zone store -/

namespace Ariadne

open Spec

section
variable {κ α β : Type} [DecidableEq κ]

theorem assocGet_upd (k k' : κ) (d : α) (f : α → α) (m : List (κ × α)) :
    assocGet k' (assocUpd k d f m) = if k' = k then some (f ((assocGet k m).getD d)) else assocGet k' m := by
  induction m with
  | nil =>
    by_cases h : k' = k
    · subst h; simp [assocUpd, assocGet]
    · simp [assocUpd, assocGet, h, Ne.symm h]
  | cons e m ih =>
    obtain ⟨k0, v⟩ := e
    unfold assocUpd
    by_cases h0 : k0 = k
    · subst h0
      simp only [if_true]
      by_cases h : k' = k0
      · subst h; simp [assocGet]
      · have : ¬ k0 = k' := fun e => h e.symm
        simp [assocGet, h, this]
    · simp only [if_neg h0, assocGet, ih]
      by_cases h : k0 = k'
      · subst h; simp [h0]
      · simp [h]

theorem keys_upd (k : κ) (d : α) (f : α → α) (m : List (κ × α)) :
    (assocUpd k d f m).map Prod.fst = if k ∈ m.map Prod.fst then m.map Prod.fst else m.map Prod.fst ++ [k] := by
  induction m with
  | nil => simp [assocUpd]
  | cons e m ih =>
    obtain ⟨k0, v⟩ := e
    unfold assocUpd
    by_cases h : k0 = k
    · subst h; simp
    · have h' : ¬ k = k0 := fun e => h e.symm
      simp only [if_neg h, List.map_cons, ih, List.mem_cons, h', false_or]
      split <;> simp

theorem nodup_upd {k : κ} {d : α} {f : α → α} {m : List (κ × α)} (h : (m.map Prod.fst).Nodup) :
    ((assocUpd k d f m).map Prod.fst).Nodup := by
  rw [keys_upd]
  split
  · exact h
  · rename_i hk
    rw [List.nodup_append]
    refine ⟨h, by simp, ?_⟩
    intro a ha b hb
    simp at hb; subst hb
    intro e; subst e; exact hk ha

theorem assocGet_mem {k : κ} {v : α} {m : List (κ × α)} (h : assocGet k m = some v) : (k, v) ∈ m := by
  induction m with
  | nil => simp [assocGet] at h
  | cons e m ih =>
    obtain ⟨k0, v0⟩ := e
    simp only [assocGet] at h
    by_cases hk : k0 = k
    · subst hk; simp at h; subst h; simp
    · rw [if_neg hk] at h; exact List.mem_cons_of_mem _ (ih h)

theorem mem_assocGet {k : κ} {v : α} {m : List (κ × α)} (hn : (m.map Prod.fst).Nodup) (h : (k, v) ∈ m) :
    assocGet k m = some v := by
  induction m with
  | nil => simp at h
  | cons e m ih =>
    obtain ⟨k0, v0⟩ := e
    simp only [List.map_cons, List.nodup_cons] at hn
    rcases List.mem_cons.1 h with h | h
    · cases h; simp [assocGet]
    · have : k0 ≠ k := fun e => hn.1 (e ▸ List.mem_map.2 ⟨_, h, rfl⟩)
      simp only [assocGet, if_neg this]
      exact ih hn.2 h

theorem assocGet_perm {k : κ} {m m' : List (κ × α)} (hp : m.Perm m') (hn : (m.map Prod.fst).Nodup) :
    assocGet k m = assocGet k m' := by
  have hn' : (m'.map Prod.fst).Nodup := (hp.map Prod.fst).nodup_iff.1 hn
  cases h : assocGet k m with
  | some v => exact (mem_assocGet hn' (hp.mem_iff.1 (assocGet_mem h))).symm
  | none =>
    cases h' : assocGet k m' with
    | none => rfl
    | some v =>
      have := mem_assocGet hn (hp.mem_iff.2 (assocGet_mem h'))
      rw [h] at this; cases this

theorem assocGet_none {k : κ} {m : List (κ × α)} (h : ∀ e ∈ m, e.1 ≠ k) : assocGet k m = none := by
  cases h' : assocGet k m with
  | none => rfl
  | some v => exact absurd rfl (h _ (assocGet_mem h'))

/-- Filtering what the entries contribute, when only the entry of one key can contribute. -/
theorem filter_flatMap_key {k : κ} {g : κ × α → List β} {P : β → Bool} : ∀ {m : List (κ × α)},
    (m.map Prod.fst).Nodup → (∀ e ∈ m, e.1 ≠ k → (g e).filter P = []) →
    (m.flatMap g).filter P = match assocGet k m with | none => [] | some v => (g (k, v)).filter P
  | [], _, _ => rfl
  | (k0, v) :: m, hn, h => by
    simp only [List.map_cons, List.nodup_cons] at hn
    have ih := filter_flatMap_key (k := k) (g := g) (P := P) (m := m) hn.2 fun e he => h e (List.mem_cons_of_mem _ he)
    simp only [List.flatMap_cons, List.filter_append, ih, assocGet]
    by_cases hk : k0 = k
    · subst hk
      have : assocGet k0 m = none :=
        assocGet_none fun e he e' => hn.1 (e' ▸ List.mem_map.2 ⟨_, he, rfl⟩)
      simp [this]
    · simp only [if_neg hk]
      rw [h (k0, v) (by simp) hk]; rfl

end

/-- What is stored for an owner and a type. -/
def Zone.lookup (z : Zone) (node : Name) (kind : RecordType) : Option (List Record) :=
  (assocGet node z.records).bind (assocGet kind)

/-- A store as the operations build it, holding the records of the log. -/
structure Holds (z : Zone) (log : List Record) : Prop where
  nodes : (z.records.map Prod.fst).Nodup
  types : ∀ e ∈ z.records, (e.2.map Prod.fst).Nodup
  look : ∀ node kind, z.lookup node kind =
    if recordsAt log node kind = [] then none else some (recordsAt log node kind)

theorem Holds.placed {z : Zone} {log : List Record} (h : Holds z log) {n : Name} {tm : TypeMap} (hn : (n, tm) ∈ z.records)
    {k : RecordType} {rs : List Record} (hk : (k, rs) ∈ tm) :
    rs = recordsAt log n k ∧ rs ≠ [] := by
  have a := mem_assocGet h.nodes hn
  have b := mem_assocGet (h.types _ hn) hk
  have c := h.look n k
  unfold Zone.lookup at c
  rw [a] at c
  simp only [Option.bind_some, b] at c
  split at c
  · cases c
  · rename_i hne
    simp at c; subst c
    exact ⟨rfl, hne⟩

theorem recordsAt_spec {log : List Record} {n : Name} {k : RecordType} {r : Record} (h : r ∈ recordsAt log n k) :
    r.node = n ∧ r.recordType = k := by
  unfold recordsAt at h
  have := (List.mem_filter.1 h).2
  simpa using this

theorem Holds.new (zone : Name) : Holds (Zone.new zone) [] where
  nodes := by simp [Zone.new]
  types := by simp [Zone.new]
  look := by intro n k; simp [Zone.lookup, Zone.new, assocGet, recordsAt]

theorem recordsAt_append (a b : List Record) (n : Name) (k : RecordType) :
    recordsAt (a ++ b) n k = recordsAt a n k ++ recordsAt b n k := by
  simp [recordsAt]

theorem mem_upd {κ α : Type} [DecidableEq κ] {k : κ} {d : α} {f : α → α} {m : List (κ × α)} {e : κ × α}
    (h : e ∈ assocUpd k d f m) : e ∈ m ∨ e.2 = f d ∨ ∃ v, (k, v) ∈ m ∧ e = (k, f v) := by
  induction m with
  | nil => simp [assocUpd] at h; subst h; right; left; rfl
  | cons x m ih =>
    obtain ⟨k0, v⟩ := x
    unfold assocUpd at h
    by_cases hk : k0 = k
    · subst hk
      rw [if_pos rfl] at h
      rcases List.mem_cons.1 h with h | h
      · right; right; exact ⟨v, by simp, h⟩
      · left; exact List.mem_cons_of_mem _ h
    · rw [if_neg hk] at h
      rcases List.mem_cons.1 h with h | h
      · left; rw [h]; simp
      · rcases ih h with h | h | ⟨w, h1, h2⟩
        · left; exact List.mem_cons_of_mem _ h
        · right; left; exact h
        · right; right; exact ⟨w, List.mem_cons_of_mem _ h1, h2⟩

theorem Holds.insert {z : Zone} {log : List Record} (h : Holds z log) (r : Record) : Holds (z.insert r) (log ++ [r]) where
  nodes := nodup_upd h.nodes
  types := by
    intro e he
    rcases mem_upd he with he | he | ⟨v, hv, he⟩
    · exact h.types e he
    · rw [he]; simp [assocUpd]
    · rw [he]; exact nodup_upd (h.types _ hv)
  look := by
    intro n k
    have hl := h.look n k
    unfold Zone.lookup at hl ⊢
    simp only [Zone.insert, assocGet_upd, recordsAt_append]
    by_cases hn : n = r.node
    · subst hn
      rw [if_pos rfl]
      simp only [Option.bind_some, assocGet_upd]
      by_cases hk : k = r.recordType
      · subst hk
        rw [if_pos rfl]
        have e1 : recordsAt [r] r.node r.recordType = [r] := by simp [recordsAt]
        rw [e1, if_neg (by simp)]
        congr 1
        cases hm : assocGet r.node z.records with
        | none =>
          rw [hm] at hl
          simp only [Option.bind_none] at hl
          split at hl
          · rename_i hE; rw [hE]; simp [assocGet]
          · cases hl
        | some tm =>
          rw [hm] at hl
          simp only [Option.bind_some] at hl
          simp only [Option.getD_some, hl]
          split
          · rename_i hE; rw [hE]; simp
          · simp
      · rw [if_neg hk]
        have e1 : recordsAt [r] r.node k = [] := by
          have : ¬ r.recordType = k := fun e => hk e.symm
          simp [recordsAt, this]
        rw [e1, List.append_nil, ← hl]
        cases assocGet r.node z.records with
        | none => rfl
        | some tm => rfl
    · rw [if_neg hn]
      have e1 : recordsAt [r] n k = [] := by
        have : ¬ r.node = n := fun e => hn e.symm
        simp [recordsAt, this]
      rw [e1, List.append_nil, hl]

theorem Holds.insertAll {z : Zone} {log : List Record} (h : Holds z log) (rs : List Record) :
    Holds (rs.foldl Zone.insert z) (log ++ rs) := by
  induction rs generalizing z log with
  | nil => simpa using h
  | cons r rs ih =>
    have := ih (h.insert r)
    simpa [List.append_assoc] using this

/-- Two logs are the same for the store. -/
theorem Holds.congr {z : Zone} {a b : List Record} (h : Holds z a) (e : ∀ n k, recordsAt a n k = recordsAt b n k) :
    Holds z b where
  nodes := h.nodes
  types := h.types
  look := by intro n k; rw [← e]; exact h.look n k

theorem Holds.typesOf {z : Zone} {log : List Record} (h : Holds z log) {n : Name} {tm : TypeMap}
    (hn : assocGet n z.records = some tm) : (tm.map Prod.fst).Nodup := h.types _ (assocGet_mem hn)

/-- Whatever the order, the records of one owner and type are visited in log order. -/
theorem Holds.visit_at {z : Zone} {log : List Record} (h : Holds z log) (o : HashOrder) (n : Name) (k : RecordType) :
    recordsAt (z.visit o) n k = recordsAt log n k := by
  have hp := o.nodes_perm z.records
  have hn : ((o.nodes z.records).map Prod.fst).Nodup := (hp.map Prod.fst).nodup_iff.2 h.nodes
  have inner : ∀ e ∈ z.records, ∀ k', ((o.types e.2).map Prod.fst).Nodup ∧
      assocGet k' (o.types e.2) = assocGet k' e.2 := fun e he k' => by
    have hp' := o.types_perm e.2
    have hn' := (hp'.map Prod.fst).nodup_iff.2 (h.types e he)
    exact ⟨hn', assocGet_perm hp' hn'⟩
  unfold Zone.visit
  have step1 := filter_flatMap_key (k := n) (m := o.nodes z.records)
    (g := fun e => (o.types e.2).flatMap fun e' => e'.2)
    (P := fun r : Record => r.node == n && r.recordType == k) hn (by
      intro e he hne
      rw [List.filter_eq_nil_iff]
      intro r hr
      obtain ⟨e', he', hr⟩ := List.mem_flatMap.1 hr
      have hm := (o.types_perm e.2).mem_iff.1 he'
      have pl := h.placed (n := e.1) (tm := e.2) (hp.mem_iff.1 he) (k := e'.1) (rs := e'.2) hm
      rw [pl.1] at hr
      have := (recordsAt_spec hr).1
      simp [this, hne])
  unfold recordsAt
  rw [step1, assocGet_perm hp hn]
  have hl := h.look n k
  unfold Zone.lookup at hl
  cases hm : assocGet n z.records with
  | none =>
    rw [hm] at hl
    simp only [Option.bind_none] at hl
    split at hl
    · rename_i hE; unfold recordsAt at hE; rw [hE]
    · cases hl
  | some tm =>
    rw [hm] at hl
    simp only [Option.bind_some] at hl
    have hmem := assocGet_mem hm
    have i2 := inner _ hmem k
    have step2 := filter_flatMap_key (k := k) (m := o.types tm) (g := fun e' => e'.2)
      (P := fun r : Record => r.node == n && r.recordType == k) i2.1 (by
        intro e' he' hne
        rw [List.filter_eq_nil_iff]
        intro r hr
        have pl := h.placed hmem (k := e'.1) (rs := e'.2) ((o.types_perm tm).mem_iff.1 he')
        rw [pl.1] at hr
        have := (recordsAt_spec hr).2
        simp [this, hne])
    simp only
    rw [step2, i2.2, hl]
    split
    · rename_i hE
      split at hE
      · rename_i hE'; unfold recordsAt at hE'; rw [hE']
      · cases hE
    · rename_i v hE
      split at hE
      · cases hE
      · simp at hE; subst hE
        simp [recordsAt]

theorem Holds.extend {z z' : Zone} {a b : List Record} (h : Holds z a) (h' : Holds z' b) (o : HashOrder) :
    Holds (z.extend o z') (a ++ b) := by
  refine (h.insertAll (z'.visit o)).congr fun n k => ?_
  rw [recordsAt_append, recordsAt_append, h'.visit_at o n k]

theorem holds_history (h : History) : Holds h.store h.log := by
  induction h with
  | new zone => exact Holds.new zone
  | insert h r ih => exact ih.insert r
  | extend h other o ih ih' => exact ih.extend ih' o

theorem Holds.get {z : Zone} {log : List Record} (h : Holds z log) {ε : Type} (p : Profile) (n : Name) (k : RecordType) :
    (z.get p n k : Out ε _) = .ok (if recordsAt log n k = [] then none else some (recordsAt log n k)) := by
  have hl := h.look n k
  unfold Zone.lookup at hl
  unfold Zone.get
  cases hm : assocGet n z.records with
  | none => rw [hm] at hl; rw [← hl]; rfl
  | some tm =>
    rw [hm] at hl
    simp only [Option.bind_some] at hl
    simp only
    cases hk : assocGet k tm with
    | none => rw [hk] at hl; rw [← hl]
    | some rs =>
      rw [hk] at hl
      rw [← hl]
      have pl := h.placed (assocGet_mem hm) (assocGet_mem hk)
      have e1 : (rs.all fun r => r.recordType == k) = true := by
        rw [List.all_eq_true]; intro r hr; rw [pl.1] at hr; simpa using (recordsAt_spec hr).2
      have e2 : (rs.all fun r => r.node == n) = true := by
        rw [List.all_eq_true]; intro r hr; rw [pl.1] at hr; simpa using (recordsAt_spec hr).1
      have e3 : rs.isEmpty = false := by
        cases rs with
        | nil => exact absurd rfl pl.2
        | cons => rfl
      simp [e1, e2, e3]

theorem Holds.all_at {z : Zone} {log : List Record} (h : Holds z log) (o : HashOrder) (k : RecordType) (n : Name) :
    (z.getAllOfType o k).filter (fun r => r.node == n) = recordsAt log n k := by
  have hp := o.nodes_perm z.records
  have hn : ((o.nodes z.records).map Prod.fst).Nodup := (hp.map Prod.fst).nodup_iff.2 h.nodes
  have e : z.getAllOfType o k = (o.nodes z.records).flatMap fun e => (assocGet k e.2).getD [] := by
    unfold Zone.getAllOfType
    induction o.nodes z.records with
    | nil => rfl
    | cons x l ih =>
      simp only [List.filterMap_cons, List.flatMap_cons]
      cases assocGet k x.2 with
      | none => simpa using ih
      | some v => simp only [List.flatten_cons, ih, Option.getD_some]
  rw [e, filter_flatMap_key (k := n) hn (by
    intro e he hne
    rw [List.filter_eq_nil_iff]
    intro r hr
    cases hk : assocGet k e.2 with
    | none => rw [hk] at hr; simp at hr
    | some v =>
      rw [hk] at hr
      simp only [Option.getD_some] at hr
      have pl := h.placed (n := e.1) (tm := e.2) (hp.mem_iff.1 he) (assocGet_mem hk)
      rw [pl.1] at hr
      have := (recordsAt_spec hr).1
      simp [this, hne]), assocGet_perm hp hn]
  have hl := h.look n k
  unfold Zone.lookup at hl
  cases hm : assocGet n z.records with
  | none =>
    rw [hm] at hl
    simp only [Option.bind_none] at hl
    split at hl
    · rename_i hE; rw [hE]
    · cases hl
  | some tm =>
    rw [hm] at hl
    simp only [Option.bind_some] at hl
    simp only [hl]
    split
    · rename_i hE; rw [hE]; rfl
    · simp only [Option.getD_some]
      rw [List.filter_eq_self]
      intro r hr
      simpa using (recordsAt_spec hr).1

theorem Holds.all_type {z : Zone} {log : List Record} (h : Holds z log) (o : HashOrder) (k : RecordType) :
    ∀ r ∈ z.getAllOfType o k, r.recordType = k := by
  intro r hr
  have : r ∈ (z.getAllOfType o k).filter (fun x => x.node == r.node) := List.mem_filter.2 ⟨hr, by simp⟩
  rw [h.all_at] at this
  exact (recordsAt_spec this).2

theorem Holds.all_perm {z : Zone} {log : List Record} (h : Holds z log) (o : HashOrder) (k : RecordType) :
    (z.getAllOfType o k).Perm (log.filter fun r => r.recordType == k) := by
  rw [List.perm_iff_count]
  intro r
  have c1 : ((z.getAllOfType o k).filter (fun x => x.node == r.node)).count r = (z.getAllOfType o k).count r :=
    List.count_filter (by simp)
  have c2 : ((log.filter fun r => r.recordType == k).filter (fun x => x.node == r.node)).count r =
      (log.filter fun r => r.recordType == k).count r := List.count_filter (by simp)
  rw [← c1, ← c2, h.all_at, List.filter_filter]
  rfl

end Ariadne
