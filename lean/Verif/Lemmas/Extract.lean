import Verif.Model.Resolver
import Mathlib.Data.List.Perm.Basic

/-! # Extraction of records and sorting of servers -/

namespace Ariadne.Resolver

theorem set_perm {α : Type} (x : α) : ∀ (l : List α) (i : Nat) (y : α), l[i]? = some y → (y :: l.set i x).Perm (x :: l)
  | [], i, y, h => by simp at h
  | a :: l, 0, y, h => by
    simp only [List.getElem?_cons_zero, Option.some.injEq] at h
    subst h
    exact List.Perm.swap _ _ _
  | a :: l, i + 1, y, h => by
    simp only [List.getElem?_cons_succ] at h
    have ih := set_perm x l i y h
    simp only [List.set_cons_succ]
    exact ((List.Perm.swap _ _ _).trans (ih.cons a)).trans (List.Perm.swap _ _ _)

theorem swapRemove_concat {α : Type} (l : List α) (x : α) (i : Nat) (h : i < l.length) :
    swapRemove (l ++ [x]) i = l.set i x := by
  unfold swapRemove
  simp [List.set_append, h]

theorem swapRemove_last {α : Type} (l : List α) (x : α) : swapRemove (l ++ [x]) l.length = l := by
  unfold swapRemove
  simp [List.set_append]

theorem swapRemove_perm {α : Type} {l : List α} {i : Nat} {y : α} (h : l[i]? = some y) : (y :: swapRemove l i).Perm l := by
  rcases List.eq_nil_or_concat l with rfl | ⟨init, x, rfl⟩
  · simp at h
  · rw [List.concat_eq_append] at h ⊢
    by_cases hi : i < init.length
    · simp only [List.getElem?_append_left hi] at h
      rw [swapRemove_concat _ _ _ hi]
      exact (set_perm x init i y h).trans (List.perm_append_singleton x init).symm
    · have : i < (init ++ [x]).length := by
        rcases Nat.lt_or_ge i (init ++ [x]).length with h' | h'
        · exact h'
        · rw [List.getElem?_eq_none h'] at h; cases h
      have hi' : i = init.length := by simp at this; omega
      subst hi'
      rw [swapRemove_last]
      simp at h
      subst h
      exact (List.perm_append_singleton x init).symm

theorem swapRemove_length {α : Type} {l : List α} {i : Nat} {y : α} (h : l[i]? = some y) :
    (swapRemove l i).length + 1 = l.length := by
  have := (swapRemove_perm h).length_eq
  simpa using this

theorem swapRemove_before {α : Type} {l : List α} {i j : Nat} {y : α} (h : l[i]? = some y) (hj : j < i) :
    (swapRemove l i)[j]? = l[j]? := by
  rcases List.eq_nil_or_concat l with rfl | ⟨init, x, rfl⟩
  · simp at h
  · rw [List.concat_eq_append] at h ⊢
    by_cases hi : i < init.length
    · rw [swapRemove_concat _ _ _ hi, List.getElem?_append_left (by omega), List.getElem?_set_ne (by omega)]
    · have : i < (init ++ [x]).length := by
        rcases Nat.lt_or_ge i (init ++ [x]).length with h' | h'
        · exact h'
        · rw [List.getElem?_eq_none h'] at h; cases h
      have hi' : i = init.length := by simp at this; omega
      subst hi'
      rw [swapRemove_last, List.getElem?_append_left (by omega)]

theorem extractLoop_spec (kind : RecordType) (node : Name) : ∀ (fuel : Nat) (records : List Record) (sf : Nat) (found : List Record),
    records.length < fuel → (∀ j r, j < sf → records[j]? = some r → isWanted kind node r = false) →
    ∃ ext, (extractLoop kind node fuel records sf found).1 = found ++ ext ∧
      (ext ++ (extractLoop kind node fuel records sf found).2).Perm records ∧
      (∀ r ∈ ext, isWanted kind node r = true) ∧
      ∀ r ∈ (extractLoop kind node fuel records sf found).2, isWanted kind node r = false
  | 0, _, _, _, h, _ => absurd h (Nat.not_lt_zero _)
  | fuel + 1, records, sf, found, hf, hsf => by
    unfold extractLoop
    by_cases h1 : sf ≥ records.length
    · rw [if_pos h1]
      refine ⟨[], by simp, by simp, by simp, ?_⟩
      intro r hr
      obtain ⟨j, hj⟩ := List.mem_iff_getElem?.1 hr
      have : j < records.length := by
        rcases Nat.lt_or_ge j records.length with h' | h'
        · exact h'
        · rw [List.getElem?_eq_none h'] at hj; cases hj
      exact hsf j r (by omega) hj
    · rw [if_neg h1]
      cases hi : (records.drop sf).findIdx? (isWanted kind node) with
      | none =>
        simp only
        refine ⟨[], by simp, by simp, by simp, ?_⟩
        intro r hr
        obtain ⟨j, hj⟩ := List.mem_iff_getElem?.1 hr
        rcases Nat.lt_or_ge j sf with h | h
        · exact hsf j r h hj
        · rw [List.findIdx?_eq_none_iff] at hi
          have := hi r (by
            rw [List.mem_iff_getElem?]
            exact ⟨j - sf, by rw [List.getElem?_drop]; rw [show sf + (j - sf) = j by omega]; exact hj⟩)
          simpa using this
      | some i =>
        simp only
        rw [List.findIdx?_eq_some_iff_getElem] at hi
        obtain ⟨hlt, hw, hbefore⟩ := hi
        have hlt' : i + sf < records.length := by simp at hlt; omega
        rw [List.getElem?_eq_getElem hlt']
        simp only
        have hget : records[i + sf]? = some records[i + sf] := List.getElem?_eq_getElem hlt'
        have hlen := swapRemove_length hget
        obtain ⟨ext, e1, e2, e3, e4⟩ := extractLoop_spec kind node fuel (swapRemove records (i + sf)) (i + sf)
          (found ++ [records[i + sf]]) (by omega) (by
            intro j r hj hr
            rw [swapRemove_before hget hj] at hr
            rcases Nat.lt_or_ge j sf with h | h
            · exact hsf j r h hr
            · have hb := hbefore (j - sf) (by omega)
              simp only [List.getElem_drop] at hb
              have hj' : j < records.length := by omega
              rw [List.getElem?_eq_getElem hj'] at hr
              cases hr
              have e : sf + (j - sf) = j := by omega
              simp only [e] at hb
              simpa using hb)
        refine ⟨records[i + sf] :: ext, by rw [e1]; simp, ?_, ?_, e4⟩
        · simp only [List.cons_append]
          exact (e2.cons _).trans (swapRemove_perm hget)
        · intro r hr
          rcases List.mem_cons.1 hr with rfl | hr
          · simp only [List.getElem_drop] at hw
            have e : sf + i = i + sf := by omega
            simp only [e] at hw
            exact hw
          · exact e3 r hr

theorem extractRecords_spec (records : List Record) (kind : RecordType) (node : Name) :
    ((extractRecords records kind node).1 ++ (extractRecords records kind node).2).Perm records ∧
    (∀ r ∈ (extractRecords records kind node).1, isWanted kind node r = true) ∧
    ∀ r ∈ (extractRecords records kind node).2, isWanted kind node r = false := by
  obtain ⟨ext, e1, e2, e3, e4⟩ := extractLoop_spec kind node (records.length + 1) records 0 [] (by omega) (by omega)
  unfold extractRecords
  rw [List.nil_append] at e1
  rw [e1]
  exact ⟨e2, e3, e4⟩

theorem isWanted_iff {kind : RecordType} {node : Name} {r : Record} :
    isWanted kind node r = true ↔ r.node = node ∧ r.recordType = kind := by
  unfold isWanted
  rw [Bool.and_eq_true, beq_iff_eq, beq_iff_eq]

theorem mem_extracted {records : List Record} {kind : RecordType} {node : Name} {r : Record}
    (h : r ∈ (extractRecords records kind node).1) : r ∈ records ∧ r.node = node ∧ r.recordType = kind := by
  obtain ⟨e1, e2, -⟩ := extractRecords_spec records kind node
  exact ⟨e1.mem_iff.1 (List.mem_append_left _ h), isWanted_iff.1 (e2 r h)⟩

theorem mem_left {records : List Record} {kind : RecordType} {node : Name} {r : Record}
    (h : r ∈ (extractRecords records kind node).2) : r ∈ records := by
  obtain ⟨e1, e2, -⟩ := extractRecords_spec records kind node
  exact e1.mem_iff.1 (List.mem_append_right _ h)

theorem extractRecord_spec {records : List Record} {kind : RecordType} {node : Name} {r : Record}
    (h : (extractRecord records kind node).1 = some r) : r ∈ records ∧ r.node = node ∧ r.recordType = kind := by
  unfold extractRecord at h
  cases hi : records.findIdx? (isWanted kind node) with
  | none => rw [hi] at h; cases h
  | some i =>
    rw [hi] at h
    rw [List.findIdx?_eq_some_iff_getElem] at hi
    obtain ⟨hlt, hw, -⟩ := hi
    simp only at h
    rw [List.getElem?_eq_getElem hlt] at h
    cases h
    exact ⟨List.getElem_mem hlt, isWanted_iff.1 hw⟩

/-! ## Sorting -/

/-- The server has an address. -/
def addressed (n : NextNs) : Bool := !n.aRecords.isEmpty

theorem nsLe_iff (a b : NextNs) : nsLe a b = (addressed a || !addressed b) := by
  unfold nsLe addressed
  cases a.aRecords.isEmpty <;> cases b.aRecords.isEmpty <;> rfl

theorem insertNs_addressed {n : NextNs} (h : addressed n = true) (l : List NextNs) : insertNs n l = n :: l := by
  cases l with
  | nil => rfl
  | cons m ms =>
    unfold insertNs
    rw [if_pos (by rw [nsLe_iff, h]; rfl)]

theorem insertNs_none {n : NextNs} (h : addressed n = false) : ∀ {a b : List NextNs}, (∀ x ∈ a, addressed x = true) →
    (∀ x ∈ b, addressed x = false) → insertNs n (a ++ b) = a ++ n :: b
  | [], b, _, hb => by
    cases b with
    | nil => rfl
    | cons m ms =>
      rw [List.nil_append, List.nil_append]
      unfold insertNs
      rw [if_pos (by rw [nsLe_iff, h, hb m (by simp)]; rfl)]
  | x :: a, b, ha, hb => by
    have hx := ha x (by simp)
    rw [List.cons_append]
    unfold insertNs
    rw [if_neg (by rw [nsLe_iff, h, hx]; simp), insertNs_none h (fun y hy => ha y (by simp [hy])) hb]
    rfl

theorem sortNameservers_eq (l : List NextNs) :
    sortNameservers l = l.filter addressed ++ l.filter (fun n => !addressed n) := by
  unfold sortNameservers
  induction l with
  | nil => rfl
  | cons n l ih =>
    rw [List.foldr_cons, ih]
    cases h : addressed n with
    | true => rw [insertNs_addressed h]; simp [h]
    | false =>
      rw [insertNs_none h]
      · simp [h]
      · intro x hx; exact (List.mem_filter.1 hx).2
      · intro x hx; have := (List.mem_filter.1 hx).2; simpa using this

theorem sortNameservers_perm (l : List NextNs) : (sortNameservers l).Perm l := by
  rw [sortNameservers_eq]
  exact List.filter_append_perm _ _

theorem mem_sortNameservers {l : List NextNs} {n : NextNs} : n ∈ sortNameservers l ↔ n ∈ l := (sortNameservers_perm l).mem_iff

end Ariadne.Resolver
