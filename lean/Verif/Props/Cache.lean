import Verif.Lemmas.Cache

/-!
# C53, C54, C56: the cache
-/

namespace Ariadne.Props

open Spec Cache

variable {K V : Type} [DecidableEq K]

/-! ## C53 -/

/-- C53: after any history of calls, whatever the clock showed (it does not go back), the next call sees under its key the
value and expiry of the last `set`, unless removed since or expired, and nothing otherwise. -/
theorem C53_last_unexpired (ops : List (Op K V)) (op : Op K V) (t0 t1 t2 : Nat) (ho : InOrder t0 ops t1)
    (ht : TakesPlace t1 t2 op) : ((runOps empty ops).1.step op).2 = expected ops.reverse op := by
  obtain ⟨h1, h2⟩ := run_agrees distinct_empty (agrees_empty t0) ho
  rw [List.append_nil] at h2
  exact (step_agrees h1 h2 op ht).1

/-- In particular, spelled out for `set` followed by lookups: the value is there strictly before its expiry and not from
then on, whatever else happens to other keys meanwhile. -/
theorem C53_set_get (before after : List (Op K V)) (key : K) (ttl : Nat) (val : V) (now now' t0 t1 t : Nat)
    (ho : InOrder t0 (before ++ .set key ttl val now now' :: after) t1) (ht : t1 ≤ t)
    (ha : ∀ op ∈ after, ∀ k', (∃ ttl v a b, op = .set k' ttl v a b) ∨ (∃ a, op = .remove k' a) ∨ (∃ f a, op = .onFound k' f a) →
      k' ≠ key) :
    ((runOps empty (before ++ .set key ttl val now now' :: after)).1.getClone key t).2 =
      if t < now + ttl then some (now + ttl, val) else none := by
  have h := C53_last_unexpired _ (.getClone key t) t0 t1 t ho ⟨ht, Nat.le_refl _⟩
  refine h.trans ?_
  have key : ∀ l : List (Op K V), (∀ op ∈ l, op ∈ after) →
      lastSet key (l ++ .set key ttl val now now' :: before.reverse) = some (now + ttl, val) := by
    intro l hl
    induction l with
    | nil => simp [lastSet]
    | cons op l ih =>
      have ih := ih fun o ho => hl o (List.mem_cons_of_mem _ ho)
      have hm := ha op (hl op (List.mem_cons_self ..))
      cases op with
      | set k' a b c d =>
        simp only [List.cons_append, lastSet]
        rw [if_neg (hm k' (.inl ⟨_, _, _, _, rfl⟩)), ih]
      | remove k' a =>
        simp only [List.cons_append, lastSet]
        rw [if_neg (hm k' (.inr (.inl ⟨_, rfl⟩))), ih]
      | onFound k' f a =>
        simp only [List.cons_append, lastSet]
        rw [if_neg (hm k' (.inr (.inr ⟨_, _, rfl⟩))), ih]
      | clean c => exact ih
      | getClone k' a => exact ih
  simp only [expected, List.reverse_append, List.reverse_cons, List.append_assoc, List.singleton_append]
  rw [key _ (fun op h => List.mem_reverse.1 h), alive_some]

/-- A history with a `set` that expires, one that does not, a change in place, a removal and a cleaning. -/
def sampleOps : List (Op Nat String) :=
  [.set 1 10 "a" 100 100, .set 2 50 "b" 101 102, .onFound 2 (fun _ v => v ++ "!") 105, .getClone 1 109, .clean fun _ => 110,
    .set 3 5 "c" 111 111, .remove 3 112]

example : InOrder 0 sampleOps 113 ∧ TakesPlace 113 120 (.getClone 2 115 : Op Nat String) ∧
    expected sampleOps.reverse (.getClone 2 115) = some (151, "b!") ∧ expected sampleOps.reverse (.getClone 1 115) = none ∧
    (runOps empty sampleOps).2 = [none, none, some (151, "b"), some (110, "a"), none, none, some (116, "c")] := by
  refine ⟨⟨100, ⟨by omega, by omega, by omega⟩, 102, ⟨by omega, by omega, by omega⟩, 105, ⟨by omega, by omega⟩, 109,
    ⟨by omega, by omega⟩, 110, ⟨by omega, fun _ => ⟨by simp only; omega, by simp only; omega⟩⟩, 111, ⟨by omega, by omega, by omega⟩, 112,
    ⟨by omega, by omega⟩, ?_⟩, ⟨by omega, by omega⟩, ?_, ?_, ?_⟩
  · show 112 ≤ 113; omega
  · decide +kernel
  · decide +kernel
  · decide +kernel

/-! ## C54 -/

theorem lastSet_no_clean (k : K) (ops : List (Op K V)) : lastSet k (ops.filter fun o => !isClean o) = lastSet k ops := by
  induction ops with
  | nil => rfl
  | cons op ops ih =>
    cases op with
    | clean c => rw [List.filter_cons_of_neg (by simp [isClean])]; exact ih
    | _ => rw [List.filter_cons_of_pos (by simp [isClean])]; simp only [lastSet, ih]

theorem expected_no_clean (ops : List (Op K V)) (op : Op K V) :
    expected (ops.filter fun o => !isClean o) op = expected ops op := by
  cases op <;> simp [expected, lastSet_no_clean]

theorem results_agree {c c' : Cache K V} {before : List (Op K V)} {lo hi : Nat} (ops : List (Op K V)) (hd : Distinct c)
    (hd' : Distinct c') (h : Agrees c before lo) (h' : Agrees c' (before.filter fun o => !isClean o) lo)
    (ho : InOrder lo ops hi) :
    ((ops.zip (runOps c ops).2).filter fun e => !isClean e.1).map Prod.snd =
      (runOps c' (ops.filter fun o => !isClean o)).2 := by
  induction ops generalizing c c' before lo with
  | nil => rfl
  | cons op ops ih =>
    obtain ⟨t, h1, h2⟩ := ho
    have s1 := step_agrees hd h op h1
    by_cases hc : isClean op = true
    · have hlo : lo ≤ t := by
        cases op <;> simp only [TakesPlace] at h1 <;> omega
      simp only [runOps, List.zip_cons_cons, List.filter_cons, hc, Bool.not_true, Bool.false_eq_true, if_false]
      refine ih (step_distinct hd op) hd' s1.2 ?_ h2
      rw [List.filter_cons_of_neg (by simp [hc])]
      exact fun k n hn => h' k n (by omega)
    · have s2 := step_agrees hd' h' op h1
      have e := ih (step_distinct hd op) (step_distinct hd' op) s1.2 (by
        rw [List.filter_cons_of_pos (by simp [hc])]; exact s2.2) h2
      simp only [Bool.not_eq_true] at hc
      simp only [runOps, List.zip_cons_cons, List.filter_cons, hc, Bool.not_false, if_true, List.map_cons]
      rw [e, s1.1, s2.1, expected_no_clean]

/-- C54: the results of all other calls are those of the history with the cleanings left out; and a cleaning that starts at
`t` leaves no entry in the map that was expired at `t`. -/
theorem C54_clean_unobservable (ops : List (Op K V)) (t0 t1 : Nat) (ho : InOrder t0 ops t1) :
    ((ops.zip (runOps empty ops).2).filter fun e => !isClean e.1).map Prod.snd =
      (runOps empty (ops.filter fun o => !isClean o)).2 ∧
    ∀ (clock : K → Nat) (t2 : Nat), TakesPlace t1 t2 (.clean clock : Op K V) →
      ∀ e ∈ ((runOps (empty : Cache K V) ops).1.clean clock).data, t1 < e.2.1 := by
  refine ⟨results_agree ops distinct_empty distinct_empty (agrees_empty t0) (agrees_empty t0) ho, ?_⟩
  intro clock t2 ht e he
  have h1 := (List.mem_filter.1 he).2
  have h2 := ht.2 e.1
  simp only [isExpired, Bool.not_eq_true', decide_eq_false_iff_not, Nat.not_le] at h1
  omega

example : ((runOps empty sampleOps).1.clean fun _ => 120).data = [(2, 151, "b!")] := by decide +kernel

/-! ## C56 -/

/-- C56: whatever the threads do in whatever order, and in whatever order `retain` visits the entries, what they see is what
one thread would see that makes the same calls one after the other. -/
theorem C56_linearizable (keys : Cache K V → List K) (hk : ∀ c, (keys c).Perm (c.data.map Prod.fst)) (t0 : Nat)
    (s : Conc K V) (h : ConcRun keys (Conc.init t0) s) : ∃ lin, Linearizes t0 s.clock s.trace lin := by
  obtain ⟨lin, hl⟩ := lin_run hk h
  refine ⟨lin, ?_, hl.once, hl.called, hl.results, ?_⟩
  · cases hl.map with
    | free h1 h2 h3 => exact h3
    | held id c p lo h1 h2 h3 _ _ _ =>
      exact h2.later h3.le
  · intro a b res c u1 u2 u3 ht op before after hb
    exact hl.realTime b c (u1 ++ .ret a res :: u2) u3 (by rw [ht]) op before after hb a res (by simp)

/-- Keys in the order of the list. -/
def listKeys (c : Cache Nat Nat) : List Nat := c.data.map Prod.fst

/-- Two calls at the same time: the lookup starts first but the `set` gets the lock first; the lookup sees its value. -/
example : ∃ s, ConcRun listKeys (Conc.init 5) s ∧ s.trace =
    [.call 0 (.getClone 1), .call 1 (.set 1 10 7), .ret 1 none, .ret 0 (some (16, 7))] := by
  let s1 : Conc Nat Nat := ⟨empty, 6, none, [(1, .set 1 10 7), (0, .getClone 1)], [], [.call 0 (.getClone 1), .call 1 (.set 1 10 7)]⟩
  have r1 : ConcRun listKeys (Conc.init 5) s1 := by
    refine .step (.step (.step .refl (.call (id := 0) (c := .getClone 1) ?_)) (.call (id := 1) (c := .set 1 10 7) ?_))
      (.tick (t := 6) ?_)
    · intro c' h; cases h
    · intro c' h; simp [Conc.init] at h
    · show 5 ≤ 6; omega
  refine ⟨_, .step (.step (.step (.step (.step (.step (.step (.step (.step (.step r1
    (.lock (id := 1) (c := .set 1 10 7) (l := []) rfl rfl)) (.now rfl)) (.access rfl)) (.unlock (res := none) rfl))
    (.ret (l := []) rfl)) (.lock (id := 0) (c := .getClone 1) (l := []) (r := []) rfl rfl)) (.access rfl)) (.now rfl))
    (.unlock (res := some (16, 7)) rfl)) (.ret (l := []) rfl), rfl⟩

end Ariadne.Props
