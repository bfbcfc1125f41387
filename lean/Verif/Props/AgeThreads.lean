import Verif.Lemmas.AgeThreads
import Verif.Spec.AgeThreads
import Verif.Props.Age
import Verif.Props.Threads

/-! # C98: records do not outlive their TTL, with several threads -/

namespace Ariadne.Props

open Spec Resolver

variable {α : Type} {S : Schedule} {net : Nat → List Event → Ip4 → List UInt8 → Option (List UInt8)} {p : Profile} {s : System α}

/-- Until when records may be kept: what the threads have received before the event `N` says so. -/
def keptBy (S : Schedule) (net : Nat → List Event → Ip4 → List UInt8 → Option (List UInt8)) (p : Profile) (s : System α) (N start : Nat) : Lifetimes where
  till x e := ∃ m r, ReceivedInThread S net p s N m r ∧ content r = content x ∧ e ≤ S.time m + r.ttl.toNat * NANOS
  start := start
  closed := by
    rintro r r' e e' ⟨m, x, h1, h2, h3⟩ hc he
    exact ⟨m, x, h1, h2.trans hc.symm, he.trans h3⟩

theorem times_mono (S : Schedule) {m n : Nat} (h : m ≤ n) : S.time m ≤ S.time n := by
  induction h with
  | refl => exact Nat.le_refl _
  | step _ ih => exact ih.trans ((S.forward _).1.trans (S.forward _).2)

/-- What a thread has received, it has received in one of its steps. -/
theorem received_step {i : Nat} (hl : (s.threads i).log = []) {r : Record} : ∀ {n : Nat}, r ∈ receivedBy p ((System.after S net s n).threads i).log →
    ∃ m, m < n ∧ Busy S net s m i ∧ r ∈ receivedBy p ((System.after S net s (m + 1)).threads i).log
  | 0, h => by
    have h' : r ∈ receivedBy p (s.threads i).log := h
    rw [hl] at h'
    cases h'
  | n + 1, h => by
    by_cases hb : Busy S net s n i
    · exact ⟨n, Nat.lt_succ_self n, hb, h⟩
    · have hsame : ((System.after S net s (n + 1)).threads i).log = ((System.after S net s n).threads i).log := by
        show ((System.next S net n (System.after S net s n)).threads i).log = _
        unfold System.next
        cases hm : S.move n with
        | clean r => rfl
        | step j =>
          dsimp only
          split
          · rename_i hij
            subst hij
            have : ∃ o, ((System.after S net s n).threads i).task = .done o := by
              by_contra hno
              exact hb ⟨hm, fun o ho => hno ⟨o, ho⟩⟩
            obtain ⟨o, ho⟩ := this
            unfold Thread.step
            rw [ho]
          · rfl
      rw [hsame] at h
      obtain ⟨m, h1, h2⟩ := received_step hl h
      exact ⟨m, by omega, h2⟩

/-- The entries of the cache may be there. -/
def KeptCache (S : Schedule) (net : Nat → List Event → Ip4 → List UInt8 → Option (List UInt8)) (p : Profile) (s : System α) (N : Nat)
    (c : RecordsCache) : Prop :=
  ∀ key exp rs, c.find key = some (exp, rs) → ∀ x ∈ rs, x.recordType = key.2 ∧
    (keptBy S net p s N 0).till x (if key.2 = .CNAME then 0 else exp)

theorem careful_after {N : Nat} {start : Nat → Nat} (hstart : ∀ m j, S.move m = .step j → start j ≤ S.time m) (hd : s.cache.Distinct)
    (hc : KeptCache S net p s N s.cache) {Q : Nat → List Event → α → Prop}
    (hs : ∀ j, Careful p (keptBy S net p s N (start j)) (Q j) (s.threads j).log (s.threads j).task) : ∀ n ≤ N,
      KeptCache S net p s N (System.after S net s n).cache ∧ ∀ j, Careful p (keptBy S net p s N (start j)) (Q j)
        ((System.after S net s n).threads j).log ((System.after S net s n).threads j).task
  | 0, _ => ⟨hc, hs⟩
  | n + 1, hn => by
    obtain ⟨h1, h2⟩ := careful_after hstart hd hc hs n (by omega)
    have hnext : System.after S net s (n + 1) = System.next S net n (System.after S net s n) := rfl
    cases hmv : S.move n with
    | clean reading =>
      have he : System.after S net s (n + 1) = { System.after S net s n with cache := (System.after S net s n).cache.clean reading } := by
        rw [hnext]; unfold System.next; rw [hmv]
      rw [he]
      exact ⟨fun key exp rs hf => h1 key exp rs (mem_clean (distinct_after hd n) hf), h2⟩
    | step i =>
      generalize hr : ((System.after S net s n).threads i).step (net i) (S.time n) (S.time' n) (S.id n) (System.after S net s n).cache = r
      have he : System.after S net s (n + 1) = ⟨r.2, fun j => if j = i then r.1 else (System.after S net s n).threads j⟩ := by
        rw [hnext]; unfold System.next; rw [hmv]; dsimp only; rw [hr]
      suffices h : KeptCache S net p s N r.2 ∧ Careful p (keptBy S net p s N (start i)) (Q i) r.1.log r.1.task by
        refine ⟨by rw [he]; exact h.1, fun j => ?_⟩
        rw [he]
        dsimp only
        by_cases hj : j = i
        · rw [if_pos hj, hj]; exact h.2
        · rw [if_neg hj]; exact h2 j
      have hi := h2 i
      have hsame : (System.after S net s (n + 1)).threads i = r.1 := by rw [he]; exact if_pos rfl
      unfold Thread.step at hr
      cases htask : ((System.after S net s n).threads i).task with
      | done o => rw [htask] at hr; subst hr; exact ⟨h1, hi⟩
      | emit x k => rw [htask] at hr hi; subst hr; exact ⟨h1, hi⟩
      | now k => rw [htask] at hr hi; subst hr; exact ⟨h1, hi _ (hstart n i hmv)⟩
      | randomId k => rw [htask] at hr hi; subst hr; exact ⟨h1, hi _⟩
      | send addr bytes k => rw [htask] at hr hi; subst hr; exact ⟨h1, hi _⟩
      | get key k =>
        rw [htask] at hr hi
        subst hr
        refine ⟨fun key' exp rs hf => h1 key' exp rs (mem_getClone hf), hi _ fun exp rs hg => ?_⟩
        exact h1 key exp rs (getClone_some hg).1
      | set key ttl records k =>
        rw [htask] at hr hi
        subst hr
        refine ⟨fun key' exp rs hf => ?_, hi.2⟩
        simp only [find_set, Cache.find_put] at hf
        by_cases hk : key = key'
        · rw [if_pos hk] at hf
          injection hf with hf
          injection hf with g1 g2
          subst g1 g2 hk
          intro x hx
          obtain ⟨e1, e2⟩ := hi.1 x hx
          refine ⟨e1, ?_⟩
          rcases e2 with ⟨r, hr, e2, e3⟩ | ⟨hk, e2⟩
          · refine ⟨n, r, ⟨by omega, i, ⟨hmv, fun o ho => ?_⟩, ?_⟩, e2, ?_⟩
            · rw [htask] at ho; cases ho
            · rw [hsame]; exact hr
            · have : ttl.toNat * NANOS ≤ r.ttl.toNat * NANOS := Nat.mul_le_mul_right _ e3
              split <;> omega
          · rw [if_pos hk]
            exact e2
        · rw [if_neg hk] at hf
          exact h1 key' exp rs hf

/-- C98 in full: whatever the servers answer, and in whatever order the threads make their steps, with a cache that was empty at first: every record
of the response of one lookup comes from a record that one of the threads has received by then, says the same and has no smaller
TTL; and the TTL given out, from the beginning of the lookup on, ends no later than the TTL received, from some moment on at
which the thread that received it had not finished yet. -/
def C98_statement : Prop :=
  ∀ (S : Schedule) (net : Nat → List Event → Ip4 → List UInt8 → Option (List UInt8)) (p : Profile) (conf : Params) (fuel : Nat)
    (questions : Nat → Name × RecordType) (n i first : Nat) (r : Response), (∀ m < first, S.move m ≠ .step i) →
    ((System.after S net (.start p conf fuel questions .empty) n).threads i).task = .done (.ok r) →
    ∀ x ∈ r.answers ++ r.authorities ++ r.additionals, InTimeInThread S net p (.start p conf fuel questions .empty) n (S.time first) x

/-- C98, part: all records have a source; records other than CNAME records do not outlive it; but their TTL may be greater than that
received. -/
theorem C98_ttl_in_threads_partial (S : Schedule) (net : Nat → List Event → Ip4 → List UInt8 → Option (List UInt8)) (p : Profile) (conf : Params)
    (fuel : Nat) (questions : Nat → Name × RecordType) (n i first : Nat) (r : Response) (hf : ∀ m < first, S.move m ≠ .step i)
    (h : ((System.after S net (.start p conf fuel questions .empty) n).threads i).task = .done (.ok r)) :
    ∀ x ∈ r.answers ++ r.authorities ++ r.additionals, HasSourceInThread S net p (.start p conf fuel questions .empty) n x ∧
      (x.recordType ≠ .CNAME → EndsInTime S net p (.start p conf fuel questions .empty) n (S.time first) x) := by
  intro x hx
  have hall := (careful_after (S := S) (net := net) (p := p) (s := .start p conf fuel questions .empty) (N := n)
    (start := fun j => if j = i then S.time first else S.time 0)
    (fun m j hm => by
      split
      · rename_i hj
        subst hj
        refine times_mono S ?_
        by_contra hlt
        exact hf m (by omega) hm
      · exact times_mono S (Nat.zero_le m))
    Cache.distinct_empty (fun key exp rs hf => by cases hf) (Q := fun j => Steps.TimelyAll p (keptBy S net p _ n (if j = i then S.time first else S.time 0)))
    (fun j => Steps.perform_careful fuel _ [] (by simp)) n (Nat.le_refl n)).2 i
  rw [h] at hall
  rcases hall r rfl x hx with ⟨r₀, hr, e1, e2⟩ | ⟨m, r₀, h1, h2, h3⟩
  · obtain ⟨m, g1, g2, g3⟩ := received_step (S := S) (net := net) (s := .start p conf fuel questions .empty) rfl hr
    refine ⟨⟨m, r₀, ⟨g1, i, g2, g3⟩, e1⟩, fun _ => ⟨m, r₀, ⟨g1, i, g2, g3⟩, e1, ?_⟩⟩
    have : S.time first ≤ S.time m := by
      refine times_mono S ?_
      by_contra hlt
      exact hf m (by omega) g2.1
    have : x.ttl.toNat * NANOS ≤ r₀.ttl.toNat * NANOS := Nat.mul_le_mul_right _ e2
    omega
  · refine ⟨⟨m, r₀, h1, h2⟩, fun hk => ⟨m, r₀, h1, h2, ?_⟩⟩
    rw [if_neg hk] at h3
    have h4 : (if i = i then S.time first else S.time 0) + x.ttl.toNat * NANOS ≤ S.time m + r₀.ttl.toNat * NANOS := h3
    rw [if_pos rfl] at h4
    exact h4

/-! ## A race -/

/-- Thread 0 begins, and reads the clock to see what remains of an alias; then thread 1 gets its turns, 100 seconds later; then thread 0 goes on. Thread 2 comes 95
seconds later. -/
def race : Schedule where
  move n := if n < 4 then .step 0 else if n < 28 then .step 1 else if n < 36 then .step 0 else .step 2
  time n := if n < 4 then 1 else if n < 36 then 100 * NANOS else 195 * NANOS
  time' n := if n < 4 then 1 else if n < 36 then 100 * NANOS else 195 * NANOS
  id _ := 7
  forward n := by
    refine ⟨Nat.le_refl _, ?_⟩
    have : 1 ≤ 100 * NANOS := by decide
    have : 100 * NANOS ≤ 195 * NANOS := by decide
    split <;> split <;> (try split) <;> (try split) <;> omega
  readings n r h := by
    split at h
    · cases h
    split at h
    · cases h
    split at h <;> cases h

/-- All of them look up `a.`, an alias (for 90 seconds) of `b.`. -/
def raceSystem (n : Nat) : System Response :=
  System.after race (fun _ => lazyEnv.net) (.start .debug ⟨1, 1, 3, false⟩ 5 (fun _ => (⟨"a.".toList⟩, .A)) .empty) n

/-- No thread has received the record in time. -/
def unsourced (S : Schedule) (net : Nat → List Event → Ip4 → List UInt8 → Option (List UInt8)) (p : Profile) (s : System α) (n now : Nat) (x : Record) : Bool :=
  (List.range n).all fun m => match S.move m with
    | .clean _ => true
    | .step j => (receivedBy p ((System.after S net s (m + 1)).threads j).log).all fun r =>
        !decide (content r = content x ∧ now ≤ S.time m + r.ttl.toNat * NANOS)

theorem of_unsourced {n now : Nat} {x : Record} (h : unsourced S net p s n now x = true) {m : Nat} {r : Record} (hr : ReceivedInThread S net p s n m r)
    (hc : content r = content x) : S.time m + r.ttl.toNat * NANOS < now := by
  obtain ⟨hm, j, ⟨hj, -⟩, hr⟩ := hr
  have := List.all_eq_true.1 h m (List.mem_range.2 hm)
  rw [hj] at this
  have := List.all_eq_true.1 this r hr
  simp only [Bool.not_eq_true', decide_eq_false_iff_not] at this
  by_contra hno
  exact this ⟨hc, by omega⟩

/-- A finished thread gave out a record whose sources had all expired at that time. -/
def tooLate (S : Schedule) (net : Nat → List Event → Ip4 → List UInt8 → Option (List UInt8)) (p : Profile) (s : System Response) (n now : Nat) (i : Nat) :
    Bool :=
  match doneWith ((System.after S net s n).threads i).task with
  | none => false
  | some l => l.any fun x => unsourced S net p s n now x

set_option maxRecDepth 100000 in
theorem race_late : tooLate race (fun _ => lazyEnv.net) .debug (.start .debug ⟨1, 1, 3, false⟩ 5 (fun _ => (⟨"a.".toList⟩, .A)) .empty) 50 (195 * NANOS) 2 = true := by
  decide +kernel

/-- C98 does not hold: thread 0 has read the clock when thread 1 saves an alias for 90 seconds, 100 seconds later. Thread 0 finds it and thinks that 189 seconds
remain; it saves it anew for 189 seconds. Thread 2, which begins after the end of the only TTL with which the alias was ever
received, is given it. -/
theorem C98_violated : ¬ C98_statement := by
  intro h
  have bad := race_late
  unfold tooLate at bad
  split at bad
  · cases bad
  · rename_i l hl
    obtain ⟨r, hr, rfl⟩ := doneWith_some hl
    obtain ⟨x, hx, hu⟩ := List.any_eq_true.1 bad
    obtain ⟨m, y, h1, h2, h3, h4⟩ := h race (fun _ => lazyEnv.net) .debug ⟨1, 1, 3, false⟩ 5 (fun _ => (⟨"a.".toList⟩, .A)) 50 2 36 r
      (fun m hm => by
        show (if m < 4 then Move.step 0 else if m < 28 then .step 1 else if m < 36 then .step 0 else .step 2) ≠ .step 2
        split
        · exact fun e => nomatch e
        split
        · exact fun e => nomatch e
        exact fun e => nomatch e) hr x (by simp [hx])
    have := of_unsourced hu h1 h2
    have ht : race.time 36 = 195 * NANOS := rfl
    rw [ht] at h4
    omega

set_option maxRecDepth 100000 in
/-- The hypotheses of the theorem are met: the address given out last, for 205 more seconds, is in time. -/
example : ∃ r, ((raceSystem 50).threads 2).task = .done (.ok r) ∧ ∃ x ∈ r.answers, x.recordType = .A ∧ x.ttl = 205 ∧
    EndsInTime race (fun _ => lazyEnv.net) .debug (.start .debug ⟨1, 1, 3, false⟩ 5 (fun _ => (⟨"a.".toList⟩, .A)) .empty) 50 (195 * NANOS) x := by
  have run : (doneWith ((raceSystem 50).threads 2).task).map (fun l => l.any fun x => decide (x.recordType = .A) && decide (x.ttl = 205)) = some true := by
    decide +kernel
  cases hd : doneWith ((raceSystem 50).threads 2).task with
  | none => rw [hd] at run; cases run
  | some l =>
    rw [hd] at run
    obtain ⟨r, hr, rfl⟩ := doneWith_some hd
    obtain ⟨x, hx, hk⟩ := List.any_eq_true.1 (Option.some.inj run)
    simp only [Bool.and_eq_true, decide_eq_true_eq] at hk
    refine ⟨r, hr, x, hx, hk.1, hk.2, ?_⟩
    exact (C98_ttl_in_threads_partial race (fun _ => lazyEnv.net) .debug ⟨1, 1, 3, false⟩ 5 (fun _ => (⟨"a.".toList⟩, .A)) 50 2 36 r
      (fun m hm => by
        show (if m < 4 then Move.step 0 else if m < 28 then .step 1 else if m < 36 then .step 0 else .step 2) ≠ .step 2
        split
        · exact fun e => nomatch e
        split
        · exact fun e => nomatch e
        exact fun e => nomatch e) hr x (by simp [hx])).2 (by rw [hk.1]; decide)

set_option maxRecDepth 100000 in
/-- Thread 0 has given out the alias, received with a TTL of 90, with a TTL of 189. -/
example : (doneWith ((raceSystem 50).threads 0).task).map (fun l => l.map fun x => (x.node.s, x.ttl)) =
    some [("a.".toList, 189), ("b.".toList, 300)] := by decide +kernel

end Ariadne.Props
