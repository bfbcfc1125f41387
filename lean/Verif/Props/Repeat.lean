import Verif.Lemmas.Repeat
import Verif.Props.Lookup

/-! # C84: answers are kept -/

namespace Ariadne.Props

open Spec Resolver

/-! ## C84 -/

/-- C84: a successful lookup ends with a name (the queried one, or the last alias' target) and its records; whoever asks for
that name and type again, before the smallest of their TTLs has passed since the start of the first lookup, gets the same
records with TTLs that are not larger, and no packet is sent; unless another thread has changed the entry. -/
theorem C84_answers_are_kept (env : Env) (p : Profile) (conf : Params) (fuel : Nat) (node : Name) (kind : RecordType) (w w1 : World)
    (r : Response) (h : lookup env p conf fuel node kind w = (.ok r, w1)) (hno : r.noRecords = false) :
    ∃ aliases final records, r.answers = aliases ++ records ∧ EndsAt node aliases final ∧ records ≠ [] ∧
      ∀ (conf' : Params) (fuel' : Nat) (w2 : World) (ttl : UInt32), Shortest records ttl → conf'.maxCnameRedir ≠ 0 → fuel' ≠ 0 →
        w1.ticks ≤ w2.ticks → env.clock (w2.ticks + 2) < env.clock w.ticks + ttl.toNat * NANOS →
        (env.others (w2.ticks + 1) w2.cache).find (final, kind) = w1.cache.find (final, kind) →
        ∃ ttl' r2 w3, lookup env p conf' fuel' final kind w2 = (.ok r2, w3) ∧ r2.answers = records.map (fun x => { x with ttl := ttl' }) ∧
          r2.noRecords = false ∧ ttl' ≤ ttl ∧ w3.log = w2.log ++ [.start [] conf'.noFollowCname final kind] := by
  obtain ⟨pre, final, recs, h1, h2, h3⟩ := perform_kept h hno
  refine ⟨pre, final, recs, by simpa using h1, h2, h3.ne, ?_⟩
  intro conf' fuel' w2 ttl hs hc hf ht hlive hsame
  obtain ⟨f, rfl⟩ : ∃ f, fuel' = f + 1 := ⟨fuel' - 1, by omega⟩
  obtain ⟨T, cache, ticks, e, hT⟩ := kept_served (p := p) (conf := conf') (fuel := f) h3 hc ht hsame ⟨ttl, hs, hlive⟩
  obtain ⟨x, hx, rfl⟩ := hs.1
  exact ⟨T, _, _, e, rfl, rfl, hT x hx, rfl⟩

/-- A lookup for two addresses, answered at once; the same again sends nothing. -/
def keepEnv : Env := scripted fun _ => response .NoError true
  [⟨⟨"a.".toList⟩, .IN, 20, 4, .A ⟨1, 2, 3, 4⟩⟩, ⟨⟨"a.".toList⟩, .IN, 10, 4, .A ⟨5, 6, 7, 8⟩⟩] [] []

/-- The first lookup. -/
def keepFirst : Out LookupErr Response × World := lookup keepEnv .debug ⟨1, 1, 3, false⟩ 5 ⟨"a.".toList⟩ .A ⟨.empty, 0, []⟩

theorem ends_of_no_alias {node : Name} {aliases recs answers : List Record} {final : Name} (h : answers = aliases ++ recs)
    (hends : EndsAt node aliases final) (hno : answers.all (fun r => decide (r.recordType ≠ .CNAME)) = true) :
    final = node ∧ recs = answers := by
  rcases hends with ⟨rfl, rfl⟩ | ⟨c, hc, hd⟩
  · exact ⟨rfl, by simpa using h.symm⟩
  · have hm : c ∈ answers := by rw [h]; exact List.mem_append_left _ (List.mem_of_getLast? hc)
    rw [List.all_eq_true] at hno
    have := hno c hm
    simp only [decide_eq_true_eq] at this
    exact absurd (by unfold Record.recordType; rw [hd]; rfl) this

theorem shortest_of {l : List Record} {m : UInt32} (h1 : l.any (fun r => r.ttl == m) = true) (h2 : l.all (fun r => decide (m ≤ r.ttl)) = true) :
    Shortest l m := by
  rw [List.any_eq_true] at h1
  rw [List.all_eq_true] at h2
  obtain ⟨r, hr, he⟩ := h1
  exact ⟨⟨r, hr, by simpa using he⟩, fun r hr => by simpa using h2 r hr⟩

example : ∃ r w1, keepFirst = (.ok r, w1) ∧ ∃ ttl r2 w3, ttl ≤ 10 ∧
    lookup keepEnv .debug ⟨1, 1, 3, false⟩ 5 ⟨"a.".toList⟩ .A w1 = (.ok r2, w3) ∧ r2.answers = r.answers.map (fun x => { x with ttl := ttl }) ∧
    w3.log = w1.log ++ [.start [] false ⟨"a.".toList⟩ .A] := by
  have run : (okOf keepFirst.1).map (fun r => (r.noRecords, r.answers.all (fun r => decide (r.recordType ≠ .CNAME)),
      r.answers.any (fun r => r.ttl == 10), r.answers.all (fun r => decide (10 ≤ r.ttl)))) = some (false, true, true, true) := by decide +kernel
  have hticks : keepFirst.2.ticks ≤ 100 := by decide +kernel
  cases hx : keepFirst with
  | mk o w1 =>
  rw [hx] at run hticks
  cases o with
  | ok r =>
    have run' := Option.some.inj run
    simp only [Prod.mk.injEq] at run'
    obtain ⟨a1, a2, a3, a4⟩ := run'
    obtain ⟨aliases, final, recs, h1, h2, -, h4⟩ := C84_answers_are_kept _ _ _ _ _ _ _ _ _ hx a1
    obtain ⟨rfl, rfl⟩ := ends_of_no_alias h1 h2 a2
    have hclock : keepEnv.clock (w1.ticks + 2) < keepEnv.clock 0 + (10 : UInt32).toNat * NANOS := by
      show w1.ticks + 2 < 0 + 10 * 1000000000
      have : w1.ticks ≤ 100 := hticks
      omega
    obtain ⟨ttl', r2, w3, e1, e2, -, e4, e5⟩ := h4 ⟨1, 1, 3, false⟩ 5 w1 10 (shortest_of a3 a4) (by decide) (by decide) (Nat.le_refl _) hclock rfl
    exact ⟨r, w1, rfl, ttl', r2, w3, e4, e1, e2, e5⟩
  | err e => cases run
  | panic k => cases run
  | diverge => cases run

end Ariadne.Props
