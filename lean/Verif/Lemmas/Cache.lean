import Verif.Spec.Cache

/-! # Lemmas about the cache -/

namespace Ariadne.Cache

open Spec

variable {K V : Type} [DecidableEq K]

/-- The keys are distinct. -/
def Distinct (c : Cache K V) : Prop := (c.data.map Prod.fst).Nodup

theorem find_erase (c : Cache K V) (k k' : K) : (c.erase k).find k' = if k = k' then none else c.find k' := by
  unfold erase find
  simp only
  generalize c.data = l
  induction l with
  | nil => simp [assocGet]
  | cons e l ih =>
    obtain ⟨a, b⟩ := e
    by_cases h : a = k
    · subst h
      rw [List.filter_cons_of_neg (by simp)]
      rw [ih]
      by_cases h2 : a = k'
      · simp [h2]
      · simp [h2, assocGet]
    · rw [List.filter_cons_of_pos (by simpa using h)]
      unfold assocGet
      by_cases h2 : a = k'
      · subst h2
        simp only [if_true]
        rw [if_neg (Ne.symm h)]
      · simp only [if_neg h2]
        exact ih

theorem find_put (c : Cache K V) (k k' : K) (e : Nat × V) : (c.put k e).find k' = if k = k' then some e else c.find k' := by
  have := find_erase c k k'
  show (if k = k' then some e else (c.erase k).find k') = _
  by_cases h : k = k'
  · simp [h]
  · rw [if_neg h, if_neg h, this, if_neg h]

theorem distinct_empty : Distinct (empty : Cache K V) := List.nodup_nil

theorem Distinct.filter {c : Cache K V} (h : Distinct c) (p : K × (Nat × V) → Bool) : Distinct (⟨c.data.filter p⟩ : Cache K V) := by
  unfold Distinct
  exact List.Nodup.sublist (List.Sublist.map _ List.filter_sublist) h

theorem Distinct.erase {c : Cache K V} (h : Distinct c) (k : K) : Distinct (c.erase k) := h.filter _

theorem Distinct.put {c : Cache K V} (h : Distinct c) (k : K) (e : Nat × V) : Distinct (c.put k e) := by
  unfold Distinct Cache.put
  rw [List.map_cons, List.nodup_cons]
  refine ⟨?_, h.erase k⟩
  unfold Cache.erase
  rw [List.mem_map]
  rintro ⟨x, hx, rfl⟩
  simpa using (List.mem_filter.1 hx).2

theorem mem_of_find {c : Cache K V} {k : K} {e : Nat × V} (h : c.find k = some e) : (k, e) ∈ c.data := by
  unfold find at h
  generalize c.data = l at *
  induction l with
  | nil => simp [assocGet] at h
  | cons x l ih =>
    obtain ⟨a, b⟩ := x
    unfold assocGet at h
    by_cases h2 : a = k
    · rw [if_pos h2] at h
      simp [h2, Option.some.inj h]
    · rw [if_neg h2] at h
      exact List.mem_cons_of_mem _ (ih h)

theorem find_of_mem {c : Cache K V} (hd : Distinct c) {k : K} {e : Nat × V} (h : (k, e) ∈ c.data) : c.find k = some e := by
  unfold find Distinct at *
  generalize c.data = l at *
  induction l with
  | nil => cases h
  | cons x l ih =>
    obtain ⟨a, b⟩ := x
    rw [List.map_cons, List.nodup_cons] at hd
    unfold assocGet
    rcases List.mem_cons.1 h with h | h
    · cases h; simp
    · rw [if_neg (by
        rintro rfl
        exact hd.1 (List.mem_map.2 ⟨_, h, rfl⟩)), ih hd.2 h]

theorem find_clean {c : Cache K V} (hd : Distinct c) (clock : K → Nat) (k : K) :
    (c.clean clock).find k = alive (clock k) (c.find k) := by
  have hd' : Distinct (c.clean clock) := hd.filter _
  cases h : (c.clean clock).find k with
  | some e =>
    obtain ⟨h1, h2⟩ := List.mem_filter.1 (mem_of_find h)
    rw [find_of_mem hd h1]
    simp only [isExpired, Bool.not_eq_true', decide_eq_false_iff_not, Nat.not_le] at h2
    simp [alive, Option.filter, h2]
  | none =>
    cases h2 : c.find k with
    | none => rfl
    | some e =>
      simp only [alive, Option.filter]
      rw [if_neg]
      intro h3
      rw [find_of_mem hd' (k := k) (e := e) (List.mem_filter.2 ⟨mem_of_find h2, by simpa [isExpired] using h3⟩)] at h
      cases h

theorem step_distinct {c : Cache K V} (h : Distinct c) (op : Op K V) : Distinct (c.step op).1 := by
  cases op with
  | onFound k f now =>
    simp only [step, onFound]
    split
    · exact h
    · split
      · exact h.erase _
      · exact h.put _ _
  | set k ttl v now now' =>
    simp only [step, set]
    split <;> exact h.put _ _
  | remove k now =>
    simp only [step, remove]
    split
    · exact h
    · exact h.erase _
  | clean clock => exact h.filter _
  | getClone k now =>
    simp only [step, getClone]
    split
    · exact h
    · split
      · exact h.erase _
      · exact h

/-- The cache agrees with the history for everything that can still be seen at `t` or later. -/
def Agrees (c : Cache K V) (before : List (Op K V)) (t : Nat) : Prop :=
  ∀ k now, t ≤ now → alive now (c.find k) = alive now (lastSet k before)

theorem alive_mono {a b : Option (Nat × V)} {t : Nat} (h : alive t a = alive t b) {now : Nat} (hn : t ≤ now) :
    alive now a = alive now b := by
  have key : ∀ x : Option (Nat × V), alive now x = alive now (alive t x) := by
    intro x
    cases x with
    | none => rfl
    | some e =>
      simp only [alive, Option.filter]
      by_cases h1 : t < e.1
      · simp [h1]
      · have : ¬ now < e.1 := by omega
        simp [h1, this]
  rw [key a, key b, h]

theorem Agrees.of {c : Cache K V} {before : List (Op K V)} {t : Nat}
    (h : ∀ k, alive t (c.find k) = alive t (lastSet k before)) : Agrees c before t :=
  fun k _ hn => alive_mono (h k) hn

theorem alive_ite (p : Prop) [Decidable p] (t : Nat) (a b : Option (Nat × V)) :
    alive t (if p then a else b) = if p then alive t a else alive t b := by split <;> rfl

theorem alive_none (t : Nat) : alive t (none : Option (Nat × V)) = none := rfl

theorem alive_some (t : Nat) (e : Nat × V) : alive t (some e) = if t < e.1 then some e else none := by
  simp only [alive, Option.filter, decide_eq_true_eq]

theorem expired_iff (a b : Nat) : (isExpired a b = true) ↔ a ≤ b := by simp [isExpired]

theorem step_agrees {c : Cache K V} {before : List (Op K V)} {lo hi : Nat} (hd : Distinct c) (h : Agrees c before lo)
    (op : Op K V) (ht : TakesPlace lo hi op) :
    (c.step op).2 = expected before op ∧ Agrees (c.step op).1 (op :: before) hi := by
  cases op with
  | getClone k now =>
    obtain ⟨h1, h2⟩ := ht
    have e := h k now h1
    simp only [step, getClone, expected, lastSet]
    cases hf : c.find k with
    | none =>
      rw [hf, alive_none] at e
      exact ⟨e, fun k' t ht => h k' t (by omega)⟩
    | some x =>
      rw [hf, alive_some] at e
      by_cases hx : x.1 ≤ now
      · simp only [if_pos ((expired_iff x.1 now).2 hx)]
        rw [if_neg (by omega)] at e
        refine ⟨e, .of fun k' => ?_⟩
        rw [find_erase]
        by_cases hk : k = k'
        · subst hk
          rw [if_pos rfl, alive_none]
          show _ = alive hi (lastSet k before)
          rw [← h k hi (by omega), hf, alive_some, if_neg (by omega)]
        · rw [if_neg hk]; exact h k' hi (by omega)
      · simp only [if_neg (show ¬ isExpired x.1 now = true by rw [expired_iff]; exact hx)]
        rw [if_pos (by omega)] at e
        exact ⟨e, fun k' t ht => h k' t (by omega)⟩
  | remove k now =>
    obtain ⟨h1, h2⟩ := ht
    have e := h k now h1
    simp only [step, remove, expected]
    cases hf : c.find k with
    | none =>
      rw [hf, alive_none] at e
      refine ⟨e, .of fun k' => ?_⟩
      simp only [lastSet]
      by_cases hk : k = k'
      · subst hk; rw [if_pos rfl, hf]
      · rw [if_neg hk]; exact h k' hi (by omega)
    | some x =>
      rw [hf, alive_some] at e
      refine ⟨?_, .of fun k' => ?_⟩
      · rw [← e]
        simp only
        by_cases hx : x.1 ≤ now
        · rw [if_pos ((expired_iff _ _).2 hx), if_neg (by omega)]
        · rw [if_neg (by rw [expired_iff]; exact hx), if_pos (by omega)]
      · simp only [lastSet]
        rw [find_erase]
        by_cases hk : k = k'
        · rw [if_pos hk, if_pos hk]
        · rw [if_neg hk, if_neg hk]; exact h k' hi (by omega)
  | set k ttl v now now' =>
    obtain ⟨h1, h2, h3⟩ := ht
    have e := h k now' (by omega)
    have ag : Agrees (c.put k (now + ttl, v)) (.set k ttl v now now' :: before) hi := .of fun k' => by
      simp only [lastSet]
      rw [find_put]
      by_cases hk : k = k'
      · rw [if_pos hk, if_pos hk]
      · rw [if_neg hk, if_neg hk]; exact h k' hi (by omega)
    simp only [step, set, expected]
    cases hf : c.find k with
    | none =>
      rw [hf, alive_none] at e
      exact ⟨e, ag⟩
    | some x =>
      rw [hf, alive_some] at e
      refine ⟨?_, ag⟩
      rw [← e]
      simp only
      by_cases hx : x.1 ≤ now'
      · rw [if_pos ((expired_iff _ _).2 hx), if_neg (by omega)]
      · rw [if_neg (by rw [expired_iff]; exact hx), if_pos (by omega)]
  | clean clock =>
    refine ⟨rfl, .of fun k => ?_⟩
    simp only [step, lastSet]
    rw [find_clean hd]
    have := (ht.2 k)
    have key : ∀ x : Option (Nat × V), alive hi (alive (clock k) x) = alive hi x := by
      intro x
      cases x with
      | none => rfl
      | some y =>
        rw [alive_some, alive_ite, alive_none, alive_some]
        by_cases h1 : clock k < y.1
        · rw [if_pos h1]
        · rw [if_neg h1, if_neg (by omega)]
    rw [key]
    exact h k hi (by omega)
  | onFound k f now =>
    obtain ⟨h1, h2⟩ := ht
    have e := h k now h1
    simp only [step, onFound, expected]
    cases hf : c.find k with
    | none =>
      rw [hf, alive_none] at e
      refine ⟨e, .of fun k' => ?_⟩
      simp only [lastSet]
      by_cases hk : k = k'
      · subst hk
        rw [if_pos rfl, hf, alive_none]
        cases hl : lastSet k before with
        | none => rfl
        | some y =>
          obtain ⟨ye, yv⟩ := y
          rw [hl, alive_some] at e
          by_cases hy : now < ye
          · rw [if_pos hy] at e; cases e
          · simp only [if_neg hy]
            rw [alive_some, if_neg (by simp only; omega)]
      · rw [if_neg hk]; exact h k' hi (by omega)
    | some x =>
      obtain ⟨xe, xv⟩ := x
      rw [hf, alive_some] at e
      by_cases hx : xe ≤ now
      · simp only [if_pos ((expired_iff xe now).2 hx)]
        rw [if_neg (by simp only; omega)] at e
        refine ⟨e, .of fun k' => ?_⟩
        simp only [lastSet]
        rw [find_erase]
        by_cases hk : k = k'
        · subst hk
          rw [if_pos rfl, if_pos rfl, alive_none]
          cases hl : lastSet k before with
          | none => rfl
          | some y =>
            obtain ⟨ye, yv⟩ := y
            rw [hl, alive_some] at e
            by_cases hy : now < ye
            · rw [if_pos hy] at e; cases e
            · simp only [if_neg hy]
              rw [alive_some, if_neg (by simp only; omega)]
        · rw [if_neg hk, if_neg hk]; exact h k' hi (by omega)
      · have hx' : ¬ isExpired xe now = true := by rw [expired_iff]; exact hx
        simp only [if_neg hx']
        rw [if_pos (by simp only; omega)] at e
        refine ⟨e, .of fun k' => ?_⟩
        simp only [lastSet]
        rw [find_put]
        by_cases hk : k = k'
        · subst hk
          rw [if_pos rfl, if_pos rfl]
          cases hl : lastSet k before with
          | none => rw [hl, alive_none] at e; cases e
          | some y =>
            obtain ⟨ye, yv⟩ := y
            rw [hl, alive_some] at e
            by_cases hy : now < ye
            · rw [if_pos hy] at e
              cases e
              simp only [if_pos hy]
            · rw [if_neg hy] at e; cases e
        · rw [if_neg hk, if_neg hk]; exact h k' hi (by omega)

theorem _root_.Ariadne.Spec.InOrder.le {lo hi : Nat} {ops : List (Op K V)} (h : InOrder lo ops hi) : lo ≤ hi := by
  induction ops generalizing lo with
  | nil => exact h
  | cons op ops ih =>
    obtain ⟨t, h1, h2⟩ := h
    have := ih h2
    have : lo ≤ t := by
      cases op <;> simp only [TakesPlace] at h1 <;> omega
    omega

/-- Running a history. -/
theorem run_agrees {c : Cache K V} {before : List (Op K V)} {lo hi : Nat} {ops : List (Op K V)} (hd : Distinct c)
    (h : Agrees c before lo) (ho : InOrder lo ops hi) :
    Distinct (runOps c ops).1 ∧ Agrees (runOps c ops).1 (ops.reverse ++ before) hi := by
  induction ops generalizing c before lo with
  | nil => exact ⟨hd, fun k n hn => h k n (Nat.le_trans ho hn)⟩
  | cons op ops ih =>
    obtain ⟨t, h1, h2⟩ := ho
    have := ih (step_distinct hd op) (step_agrees hd h op h1).2 h2
    simpa [runOps] using this

theorem agrees_empty (t : Nat) : Agrees (empty : Cache K V) [] t := fun _ _ _ => rfl

theorem runOps_append (c : Cache K V) (a b : List (Op K V)) :
    runOps c (a ++ b) = ((runOps (runOps c a).1 b).1, (runOps c a).2 ++ (runOps (runOps c a).1 b).2) := by
  induction a generalizing c with
  | nil => simp [runOps]
  | cons x a ih => simp [runOps, ih]

/-! ## Several threads -/

/-- A thread runs a program from time `lo` to time `hi` while nobody else touches the map. -/
inductive Exec : Nat → Cache K V → Prog K V → Nat → Cache K V → Prog K V → Prop
  | refl {lo hi : Nat} {c : Cache K V} {p : Prog K V} : lo ≤ hi → Exec lo c p hi c p
  | now {lo t hi : Nat} {c c' : Cache K V} {k : Nat → Prog K V} {p : Prog K V} : lo ≤ t → Exec t c (k t) hi c' p →
      Exec lo c (.now k) hi c' p
  | access {lo hi : Nat} {c c' : Cache K V} {upd : Cache K V → Cache K V} {k : Cache K V → Prog K V} {p : Prog K V} :
      Exec lo (upd c) (k c) hi c' p → Exec lo c (.access upd k) hi c' p

theorem Exec.le {lo hi : Nat} {c c' : Cache K V} {p q : Prog K V} (h : Exec lo c p hi c' q) : lo ≤ hi := by
  induction h with
  | refl h => exact h
  | now h _ ih => exact Nat.le_trans h ih
  | access _ ih => exact ih

theorem Exec.snoc_now {lo hi : Nat} {c c' : Cache K V} {p : Prog K V} {k : Nat → Prog K V}
    (h : Exec lo c p hi c' (.now k)) : Exec lo c p hi c' (k hi) := by
  generalize hq : Prog.now k = q at h
  induction h with
  | refl h => subst hq; exact .now h (.refl (Nat.le_refl _))
  | now h _ ih => exact .now h (ih hq)
  | access _ ih => exact .access (ih hq)

theorem Exec.snoc_access {lo hi : Nat} {c c' : Cache K V} {p : Prog K V} {upd : Cache K V → Cache K V}
    {k : Cache K V → Prog K V} (h : Exec lo c p hi c' (.access upd k)) : Exec lo c p hi (upd c') (k c') := by
  generalize hq : Prog.access upd k = q at h
  induction h with
  | refl h => subst hq; exact .access (.refl h)
  | now h _ ih => exact .now h (ih hq)
  | access _ ih => exact .access (ih hq)

theorem Exec.later {lo hi hi' : Nat} {c c' : Cache K V} {p q : Prog K V} (h : Exec lo c p hi c' q) (hh : hi ≤ hi') :
    Exec lo c p hi' c' q := by
  induction h with
  | refl h => exact .refl (by omega)
  | now h _ ih => exact .now h (ih hh)
  | access _ ih => exact .access (ih hh)

theorem Exec.ret {lo hi : Nat} {c c' : Cache K V} {r r' : Option (Nat × V)} (h : Exec lo c (.ret r) hi c' (.ret r')) :
    c' = c ∧ r' = r ∧ lo ≤ hi := by
  cases h with
  | refl h => exact ⟨rfl, rfl, h⟩

theorem Exec.of_now {lo hi : Nat} {c c' : Cache K V} {k : Nat → Prog K V} {r : Option (Nat × V)}
    (h : Exec lo c (.now k) hi c' (.ret r)) : ∃ t, lo ≤ t ∧ Exec t c (k t) hi c' (.ret r) := by
  cases h with
  | now h1 h2 => exact ⟨_, h1, h2⟩

theorem Exec.of_access {lo hi : Nat} {c c' : Cache K V} {upd : Cache K V → Cache K V} {k : Cache K V → Prog K V}
    {r : Option (Nat × V)} (h : Exec lo c (.access upd k) hi c' (.ret r)) : Exec lo (upd c) (k c) hi c' (.ret r) := by
  cases h with
  | access h => exact h

theorem erase_absent {c : Cache K V} {k : K} (h : c.find k = none) (hd : Distinct c) : c.erase k = c := by
  obtain ⟨l⟩ := c
  unfold erase
  congr 1
  rw [List.filter_eq_self]
  intro e he
  simp only [ne_eq, decide_eq_true_eq]
  rintro rfl
  rw [find_of_mem hd (k := e.1) (e := e.2) he] at h
  cases h

/-- `retain` key by key. -/
theorem exec_clean {keys : List K} {lo hi : Nat} {c c' : Cache K V} {r : Option (Nat × V)} (hd : Distinct c)
    (h : Exec lo c (cleanProg keys) hi c' (.ret r)) :
    r = none ∧ lo ≤ hi ∧ ∃ clock : K → Nat, (∀ k, lo ≤ clock k ∧ clock k ≤ hi) ∧
      (keys.Nodup → c' = ⟨c.data.filter fun e => !(decide (e.1 ∈ keys) && isExpired e.2.1 (clock e.1))⟩) := by
  induction keys generalizing lo c with
  | nil =>
    obtain ⟨rfl, rfl, h2⟩ := Exec.ret h
    refine ⟨rfl, h2, fun _ => lo, fun _ => ⟨Nat.le_refl _, h2⟩, fun _ => ?_⟩
    obtain ⟨l⟩ := c'
    congr 1
    rw [eq_comm, List.filter_eq_self]
    simp
  | cons key keys ih =>
    obtain ⟨t, h1, h2⟩ := Exec.of_now h
    have h3 := Exec.of_access h2
    have hd' : Distinct (match c.find key with
        | some (exp, _) => if isExpired exp t then c.erase key else c
        | none => c) := by
      split
      · split
        · exact hd.erase _
        · exact hd
      · exact hd
    obtain ⟨hr, hle, clock, g1, g2⟩ := ih hd' h3
    refine ⟨hr, by omega, fun k => if k = key then t else clock k, fun k => ?_, fun hn => ?_⟩
    · by_cases hk : k = key
      · simp only [if_pos hk]; omega
      · simp only [if_neg hk]; have := g1 k; omega
    · rw [List.nodup_cons] at hn
      rw [g2 hn.2]
      congr 1
      -- the part of `key`
      cases hf : c.find key with
      | none =>
        simp only
        refine List.filter_congr fun e he => ?_
        have hne : e.1 ≠ key := by
          rintro rfl
          rw [find_of_mem hd (k := e.1) (e := e.2) he] at hf
          cases hf
        simp [hne]
      | some x =>
        obtain ⟨exp, v⟩ := x
        simp only
        by_cases hx : isExpired exp t = true
        · rw [if_pos hx]
          unfold erase
          simp only [List.filter_filter]
          refine List.filter_congr fun e he => ?_
          by_cases hk : e.1 = key
          · have : c.find key = some e.2 := find_of_mem hd (by rw [← hk]; exact he)
            rw [hf] at this
            have h5 : e.2.1 = exp := by rw [← Option.some.inj this]
            simp [hk, h5, hx]
          · simp [hk]
        · rw [if_neg hx]
          refine List.filter_congr fun e he => ?_
          by_cases hk : e.1 = key
          · have : c.find key = some e.2 := find_of_mem hd (by rw [← hk]; exact he)
            rw [hf] at this
            have h5 : e.2.1 = exp := by rw [← Option.some.inj this]
            simp [hk, h5, hx, hn.1]
          · simp [hk]

/-- A method executed under the lock is a step of the sequential cache. -/
theorem exec_call {keys : Cache K V → List K} (hk : ∀ c, (keys c).Perm (c.data.map Prod.fst)) {lo hi : Nat}
    {c c' : Cache K V} {call : Call K V} {r : Option (Nat × V)} (hd : Distinct c)
    (h : Exec lo c (call.prog keys) hi c' (.ret r)) :
    ∃ op, callOf op = call ∧ TakesPlace lo hi op ∧ c.step op = (c', r) := by
  cases call with
  | onFound key f =>
    have h := Exec.of_access h
    simp only [id_eq] at h
    cases hf : c.find key with
    | none =>
      rw [hf] at h
      obtain ⟨rfl, rfl, h2⟩ := Exec.ret h
      exact ⟨.onFound key f lo, rfl, ⟨Nat.le_refl _, h2⟩, by simp [step, onFound, hf]⟩
    | some x =>
      obtain ⟨exp, v⟩ := x
      rw [hf] at h
      obtain ⟨t, h1, h2⟩ := Exec.of_now h
      by_cases hx : isExpired exp t = true
      · rw [if_pos hx] at h2
        obtain ⟨rfl, rfl, h3⟩ := Exec.ret (Exec.of_access h2)
        exact ⟨.onFound key f t, rfl, ⟨h1, h3⟩, by simp [step, onFound, hf, hx]⟩
      · rw [if_neg hx] at h2
        obtain ⟨rfl, rfl, h3⟩ := Exec.ret (Exec.of_access h2)
        exact ⟨.onFound key f t, rfl, ⟨h1, h3⟩, by simp [step, onFound, hf, hx]⟩
  | set key ttl v =>
    obtain ⟨t, h1, h⟩ := Exec.of_now h
    have h := Exec.of_access h
    cases hf : c.find key with
    | none =>
      rw [hf] at h
      obtain ⟨rfl, rfl, h2⟩ := Exec.ret h
      exact ⟨.set key ttl v t t, rfl, ⟨h1, Nat.le_refl _, h2⟩, by simp [step, set, hf]⟩
    | some x =>
      rw [hf] at h
      obtain ⟨t', h2, h3⟩ := Exec.of_now h
      obtain ⟨rfl, rfl, h4⟩ := Exec.ret h3
      exact ⟨.set key ttl v t t', rfl, ⟨h1, h2, h4⟩, by simp [step, set, hf]⟩
  | remove key =>
    have h := Exec.of_access h
    cases hf : c.find key with
    | none =>
      rw [hf] at h
      obtain ⟨rfl, rfl, h2⟩ := Exec.ret h
      exact ⟨.remove key lo, rfl, ⟨Nat.le_refl _, h2⟩, by simp [step, remove, hf, erase_absent hf hd]⟩
    | some x =>
      rw [hf] at h
      obtain ⟨t', h2, h3⟩ := Exec.of_now h
      obtain ⟨rfl, rfl, h4⟩ := Exec.ret h3
      exact ⟨.remove key t', rfl, ⟨h2, h4⟩, by simp [step, remove, hf]⟩
  | clean =>
    have h := Exec.of_access h
    simp only [id_eq] at h
    obtain ⟨rfl, h1, clock, h2, h3⟩ := exec_clean hd h
    refine ⟨.clean clock, rfl, ⟨h1, h2⟩, ?_⟩
    rw [h3 ((hk c).nodup_iff.2 hd)]
    simp only [step, clean]
    congr 2
    refine List.filter_congr fun e he => ?_
    have : e.1 ∈ keys c := (hk c).mem_iff.2 (List.mem_map.2 ⟨e, he, rfl⟩)
    simp [this]
  | getClone key =>
    have h := Exec.of_access h
    simp only [id_eq] at h
    cases hf : c.find key with
    | none =>
      rw [hf] at h
      obtain ⟨rfl, rfl, h2⟩ := Exec.ret h
      exact ⟨.getClone key lo, rfl, ⟨Nat.le_refl _, h2⟩, by simp [step, getClone, hf]⟩
    | some x =>
      rw [hf] at h
      obtain ⟨t, h1, h2⟩ := Exec.of_now h
      by_cases hx : isExpired x.1 t = true
      · rw [if_pos hx] at h2
        obtain ⟨rfl, rfl, h3⟩ := Exec.ret (Exec.of_access h2)
        exact ⟨.getClone key t, rfl, ⟨h1, h3⟩, by simp [step, getClone, hf, hx]⟩
      · rw [if_neg hx] at h2
        obtain ⟨rfl, rfl, h3⟩ := Exec.ret h2
        exact ⟨.getClone key t, rfl, ⟨h1, h3⟩, by simp [step, getClone, hf, hx]⟩

/-- Result of a call in a linearization. -/
def ResAt (lin : List (Nat × Op K V)) (id : Nat) (res : Option (Nat × V)) : Prop :=
  ∃ before op after, lin = before ++ (id, op) :: after ∧ ((runOps empty (before.map Prod.snd)).1.step op).2 = res

theorem ResAt.append {lin : List (Nat × Op K V)} {id : Nat} {res : Option (Nat × V)} (h : ResAt lin id res)
    (more : List (Nat × Op K V)) : ResAt (lin ++ more) id res := by
  obtain ⟨a, op, b, rfl, h2⟩ := h
  exact ⟨a, op, b ++ more, by simp, h2⟩

theorem ResAt.mem {lin : List (Nat × Op K V)} {id : Nat} {res : Option (Nat × V)} (h : ResAt lin id res) :
    ∃ op, (id, op) ∈ lin := by
  obtain ⟨a, op, b, rfl, -⟩ := h
  exact ⟨op, by simp⟩

/-- The map, relative to the operations linearized so far. -/
inductive MapOk (keys : Cache K V → List K) (t0 : Nat) (s : Conc K V) (lin : List (Nat × Op K V)) : Prop
  | free : s.holder = none → s.cache = (runOps empty (lin.map Prod.snd)).1 → InOrder t0 (lin.map Prod.snd) s.clock →
      MapOk keys t0 s lin
  | held (id : Nat) (c : Call K V) (p : Prog K V) (lo : Nat) : s.holder = some (id, c, p) →
      InOrder t0 (lin.map Prod.snd) lo →
      Exec lo (runOps empty (lin.map Prod.snd)).1 (c.prog keys) s.clock s.cache p →
      Event.call id c ∈ s.trace → (∀ op, (id, op) ∉ lin) → (∀ c', (id, c') ∉ s.blocked) → MapOk keys t0 s lin

/-- Invariant of the concurrent cache. -/
structure Lin (keys : Cache K V → List K) (t0 : Nat) (s : Conc K V) (lin : List (Nat × Op K V)) : Prop where
  map : MapOk keys t0 s lin
  once : (lin.map Prod.fst).Nodup
  called : ∀ id op, (id, op) ∈ lin → .call id (callOf op) ∈ s.trace
  blocked : ∀ id c, (id, c) ∈ s.blocked → .call id c ∈ s.trace ∧ ∀ op, (id, op) ∉ lin
  blockedOnce : (s.blocked.map Prod.fst).Nodup
  done : ∀ id res, (id, res) ∈ s.done → ResAt lin id res
  results : ∀ id res, .ret id res ∈ s.trace → ResAt lin id res
  realTime : ∀ b c t1 t2, s.trace = t1 ++ .call b c :: t2 → ∀ op before after, lin = before ++ (b, op) :: after →
    ∀ a res, .ret a res ∈ t1 → ∃ op', (a, op') ∈ before

theorem _root_.Ariadne.Spec.InOrder.snoc {lo t hi : Nat} {ops : List (Op K V)} {op : Op K V} (h : InOrder lo ops t) (h2 : TakesPlace t hi op) :
    InOrder lo (ops ++ [op]) hi := by
  induction ops generalizing lo with
  | nil =>
    refine ⟨hi, ?_, Nat.le_refl _⟩
    have h : lo ≤ t := h
    cases op with
    | clean clock => exact ⟨by have := h2.1; omega, fun k => by have := h2.2 k; omega⟩
    | _ => simp only [TakesPlace] at h2 ⊢; omega
  | cons x ops ih =>
    obtain ⟨u, h3, h4⟩ := h
    exact ⟨u, h3, ih h4⟩

theorem _root_.Ariadne.Spec.InOrder.later {lo t hi : Nat} {ops : List (Op K V)} (h : InOrder lo ops t) (h2 : t ≤ hi) : InOrder lo ops hi := by
  induction ops generalizing lo with
  | nil => exact Nat.le_trans h h2
  | cons x ops ih =>
    obtain ⟨u, h3, h4⟩ := h
    exact ⟨u, h3, ih h4⟩

theorem runOps_distinct {c : Cache K V} (h : Distinct c) (ops : List (Op K V)) : Distinct (runOps c ops).1 := by
  induction ops generalizing c with
  | nil => exact h
  | cons op ops ih => exact ih (step_distinct h op)

/-- Splitting a list with one more element at the end. -/
theorem split_snoc {α : Type} {l a b : List α} {x y : α} (h : l ++ [x] = a ++ y :: b) :
    (b = [] ∧ a = l ∧ y = x) ∨ ∃ b', b = b' ++ [x] ∧ l = a ++ y :: b' := by
  rcases List.eq_nil_or_concat b with rfl | ⟨b', z, rfl⟩
  · left
    have := List.append_inj' h rfl
    exact ⟨rfl, this.1.symm, (List.cons.inj this.2).1.symm⟩
  · right
    rw [List.concat_eq_append] at h
    have h' : l ++ [x] = (a ++ y :: b') ++ [z] := by rw [h]; simp
    have := List.append_inj' h' rfl
    exact ⟨b', by rw [(List.cons.inj this.2).1, List.concat_eq_append], this.1⟩

theorem lin_init (keys : Cache K V → List K) (t0 : Nat) : Lin keys t0 (Conc.init t0) [] where
  map := .free rfl rfl (Nat.le_refl _)
  once := List.nodup_nil
  called := fun _ _ h => by cases h
  blocked := fun _ _ h => by cases h
  blockedOnce := List.nodup_nil
  done := fun _ _ h => by cases h
  results := fun _ _ h => by cases h
  realTime := fun _ _ t1 t2 h => by cases t1 <;> cases h

theorem lin_step {keys : Cache K V → List K} (hk : ∀ c, (keys c).Perm (c.data.map Prod.fst)) {t0 : Nat} {s s' : Conc K V}
    {lin : List (Nat × Op K V)} (h : Lin keys t0 s lin) (hs : ConcStep keys s s') : ∃ lin', Lin keys t0 s' lin' := by
  cases hs with
  | @tick t ht =>
    refine ⟨lin, { h with map := ?_ }⟩
    cases h.map with
    | free h1 h2 h3 => exact .free h1 h2 (h3.later ht)
    | held id c p lo h1 h2 h3 h4 h5 h6 => exact .held id c p lo h1 h2 (h3.later ht) h4 h5 h6
  | @call id c hf =>
    have hnl : ∀ op, (id, op) ∉ lin := fun op hm => hf _ (h.called id op hm)
    refine ⟨lin, ⟨?_, h.once, ?_, ?_, ?_, h.done, ?_, ?_⟩⟩
    · cases h.map with
      | free h1 h2 h3 => exact .free h1 h2 h3
      | held id' c' p lo h1 h2 h3 h4 h5 h6 =>
        refine .held id' c' p lo h1 h2 h3 (List.mem_append_left _ h4) h5 fun c'' hm => ?_
        rcases List.mem_cons.1 hm with e | e
        · cases e; exact hf _ h4
        · exact h6 _ e
    · exact fun i op hm => List.mem_append_left _ (h.called i op hm)
    · intro i c' hm
      rcases List.mem_cons.1 hm with e | e
      · cases e; exact ⟨by simp, hnl⟩
      · exact ⟨List.mem_append_left _ (h.blocked i c' e).1, (h.blocked i c' e).2⟩
    · simp only [List.map_cons, List.nodup_cons]
      refine ⟨fun hm => ?_, h.blockedOnce⟩
      obtain ⟨⟨i, c'⟩, h1, rfl⟩ := List.mem_map.1 hm
      exact hf _ (h.blocked _ _ h1).1
    · intro i res hm
      rcases List.mem_append.1 hm with e | e
      · exact h.results i res e
      · simp at e
    · intro b c' t1 t2 ht op before after hl a res ha
      rcases split_snoc ht with ⟨rfl, rfl, e⟩ | ⟨t2', rfl, e⟩
      · cases e
        exact absurd (by rw [hl]; simp) (hnl op)
      · exact h.realTime b c' t1 t2' e op before after hl a res ha
  | @lock id c l r h1 h2 =>
    have hb := h.blocked id c (by rw [h2]; simp)
    have hn : (s.blocked.map Prod.fst).Nodup := h.blockedOnce
    have hsub : (l ++ r).Sublist (l ++ (id, c) :: r) := List.Sublist.append_left (List.sublist_cons_self _ _) _
    rw [h2] at hn
    refine ⟨lin, ⟨?_, h.once, h.called, ?_, ?_, h.done, h.results, h.realTime⟩⟩
    · cases h.map with
      | held id' c' p lo g1 _ _ _ _ _ => rw [h1] at g1; cases g1
      | free g1 g2 g3 =>
        refine .held id c _ s.clock rfl g3 ?_ hb.1 hb.2 fun c' hm => ?_
        · rw [← g2]; exact .refl (Nat.le_refl _)
        · have hm : (id, c') ∈ l ++ r := hm
          rw [List.map_append, List.map_cons] at hn
          have hm' : id ∈ l.map Prod.fst ++ r.map Prod.fst := by
            rw [← List.map_append]; exact List.mem_map.2 ⟨_, hm, rfl⟩
          have := (List.perm_middle.nodup_iff.1 hn)
          exact (List.nodup_cons.1 this).1 hm'
    · intro i c' hm
      exact h.blocked i c' (by rw [h2]; exact hsub.subset hm)
    · exact List.Nodup.sublist (hsub.map _) hn
  | @now id c k h1 =>
    refine ⟨lin, { h with map := ?_ }⟩
    cases h.map with
    | free g1 _ _ => rw [h1] at g1; cases g1
    | held id' c' p lo g1 g2 g3 g4 g5 g6 =>
      rw [h1] at g1
      cases g1
      exact .held id c _ lo rfl g2 g3.snoc_now g4 g5 g6
  | @access id c upd k h1 =>
    refine ⟨lin, { h with map := ?_ }⟩
    cases h.map with
    | free g1 _ _ => rw [h1] at g1; cases g1
    | held id' c' p lo g1 g2 g3 g4 g5 g6 =>
      rw [h1] at g1
      cases g1
      exact .held id c _ lo rfl g2 g3.snoc_access g4 g5 g6
  | @unlock id c res h1 =>
    cases h.map with
    | free g1 _ _ => rw [h1] at g1; cases g1
    | held id' c' p lo g1 g2 g3 g4 g5 g6 =>
      rw [h1] at g1
      cases g1
      obtain ⟨op, e1, e2, e3⟩ := exec_call hk (runOps_distinct distinct_empty _) g3
      refine ⟨lin ++ [(id, op)], ⟨?_, ?_, ?_, ?_, h.blockedOnce, ?_, ?_, ?_⟩⟩
      · refine .free rfl ?_ ?_
        · rw [List.map_append, runOps_append]
          simp [runOps, e3]
        · rw [List.map_append]
          exact g2.snoc e2
      · rw [List.map_append, List.nodup_append]
        refine ⟨h.once, by simp, ?_⟩
        intro x hx y hy hxy
        simp only [List.map_cons, List.map_nil, List.mem_singleton] at hy
        subst hy
        subst hxy
        obtain ⟨⟨i, o⟩, hx1, hx2⟩ := List.mem_map.1 hx
        cases hx2
        exact g5 _ hx1
      · intro i o hm
        rcases List.mem_append.1 hm with e | e
        · exact h.called i o e
        · rw [List.mem_singleton] at e
          cases e
          rw [e1]; exact g4
      · intro i c' hm
        refine ⟨(h.blocked i c' hm).1, fun o ho => ?_⟩
        rcases List.mem_append.1 ho with e | e
        · exact (h.blocked i c' hm).2 o e
        · rw [List.mem_singleton] at e
          cases e
          exact g6 c' hm
      · intro i r hm
        rcases List.mem_cons.1 hm with e | e
        · cases e
          exact ⟨lin, op, [], rfl, by rw [e3]⟩
        · exact (h.done i r e).append _
      · exact fun i r hm => (h.results i r hm).append _
      · intro b c' t1 t2 ht o before after hl a r ha
        rcases split_snoc hl with ⟨rfl, rfl, e⟩ | ⟨after', rfl, e⟩
        · exact (h.results a r (by have ht : s.trace = _ := ht; rw [ht]; exact List.mem_append_left _ ha)).mem
        · exact h.realTime b c' t1 t2 ht o before after' e a r ha
  | @ret id res l r h1 =>
    refine ⟨lin, ⟨?_, h.once, ?_, ?_, h.blockedOnce, ?_, ?_, ?_⟩⟩
    · cases h.map with
      | free g1 g2 g3 => exact .free g1 g2 g3
      | held id' c' p lo g1 g2 g3 g4 g5 g6 => exact .held id' c' p lo g1 g2 g3 (List.mem_append_left _ g4) g5 g6
    · exact fun i op hm => List.mem_append_left _ (h.called i op hm)
    · exact fun i c hm => ⟨List.mem_append_left _ (h.blocked i c hm).1, (h.blocked i c hm).2⟩
    · intro i rs hm
      refine h.done i rs ?_
      rw [h1]
      exact (List.Sublist.append_left (List.sublist_cons_self _ _) _).subset hm
    · intro i rs hm
      rcases List.mem_append.1 hm with e | e
      · exact h.results i rs e
      · rw [List.mem_singleton] at e
        cases e
        exact h.done _ _ (by rw [h1]; simp)
    · intro b c' t1 t2 ht op before after hl a rs ha
      rcases split_snoc ht with ⟨rfl, rfl, e⟩ | ⟨t2', rfl, e⟩
      · cases e
      · exact h.realTime b c' t1 t2' e op before after hl a rs ha

theorem lin_run {keys : Cache K V → List K} (hk : ∀ c, (keys c).Perm (c.data.map Prod.fst)) {t0 : Nat} {s : Conc K V}
    (h : ConcRun keys (Conc.init t0) s) : ∃ lin, Lin keys t0 s lin := by
  generalize hi : (Conc.init t0 : Conc K V) = i at h
  induction h with
  | refl => subst hi; exact ⟨[], lin_init keys t0⟩
  | step _ hs ih =>
    obtain ⟨lin, hl⟩ := ih
    exact lin_step hk hl hs

end Ariadne.Cache
