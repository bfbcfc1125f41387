import Verif.Lemmas.Age
import Verif.Props.Lookup

/-! # C95: records do not outlive their TTL -/

namespace Ariadne.Props

open Spec Resolver

/-- What the earlier lookups of the history have received. -/
def pastOf (env : Env) (p : Profile) (past : List Visit) (w : World) : Past :=
  ⟨fun r T => ∃ v ∈ past, r ∈ receivedBy p (v.after.log.drop v.before.log.length) ∧ T = env.clock v.after.ticks, w.log.length, env.clock w.ticks⟩

theorem backed_next {env : Env} {p : Profile} {past : List Visit} {w : World} {v : Visit} {r : Record} {e : Nat} {H : Past}
    (hH : H = pastOf env p past v.before) (h : Backed env p H v.after r e) : Backed env p (pastOf env p (past ++ [v]) w) w r e := by
  subst hH
  obtain ⟨r₀, h1, h2, ⟨T, ⟨u, hu, hr, rfl⟩, h4⟩ | ⟨h3, h4⟩⟩ := h
  · exact ⟨r₀, h1, h2, .inl ⟨_, ⟨u, List.mem_append_left _ hu, hr, rfl⟩, h4⟩⟩
  · exact ⟨r₀, h1, h2, .inl ⟨_, ⟨v, List.mem_append_right _ (List.mem_singleton.2 rfl), h3, rfl⟩, h4⟩⟩

theorem backed_source {env : Env} {p : Profile} {past : List Visit} {v : Visit} {r : Record} {e : Nat}
    (h : Backed env p (pastOf env p past v.before) v.after r e) :
    ∃ u ∈ past ++ [v], ∃ x ∈ receivedBy p (u.after.log.drop u.before.log.length), content x = content r ∧ r.ttl.toNat ≤ x.ttl.toNat ∧
      e ≤ env.clock u.after.ticks + x.ttl.toNat * NANOS := by
  obtain ⟨r₀, h1, h2, ⟨T, ⟨u, hu, hr, rfl⟩, h4⟩ | ⟨h3, h4⟩⟩ := h
  · exact ⟨u, List.mem_append_left _ hu, r₀, hr, h1, h2, h4⟩
  · exact ⟨v, List.mem_append_right _ (List.mem_singleton.2 rfl), r₀, h3, h1, h2, h4⟩

theorem visits_ages {env : Env} (ho : ∀ i c, env.others i c = c) (p : Profile) (conf : Params) (fuel : Nat) :
    ∀ (qs : List (Name × RecordType)) (w : World) (past : List Visit), Aged env p (pastOf env p past w) w →
      ∀ pre v post, visits env p conf fuel qs w = pre ++ v :: post → ∀ r, v.result = .ok r →
        ∀ x ∈ r.answers ++ r.authorities ++ r.additionals, HasSource p (past ++ pre ++ [v]) x ∧
          (x.recordType ≠ .CNAME → InTime env p (past ++ pre ++ [v]) (env.clock v.before.ticks) x)
  | [], w, past, _, pre, v, post, h => by
    have := congrArg List.length h
    simp [visits] at this
  | q :: qs, w, past, hw, pre, v, post, h => by
    obtain ⟨-, h2, h3⟩ := perform_ages (H := pastOf env p past w) ho fuel
      { node := q.1, kind := q.2, previousZones := [], previousCnames := [], conf := conf } w (by simp) hw
    unfold visits at h
    cases pre with
    | nil =>
      injection h with g1 g2
      subst g1
      intro r hr x hx
      rw [List.append_nil]
      have hl := h3 r hr x hx
      obtain ⟨u, hu, r₀, hr₀, e1, e2, e3⟩ := backed_source
        (v := ⟨w, (lookup env p conf fuel q.1 q.2 w).1, (lookup env p conf fuel q.1 q.2 w).2⟩) hl
      refine ⟨⟨u, hu, r₀, hr₀, e1, e2⟩, fun hk => ⟨u, hu, r₀, hr₀, e1, e2, ?_⟩⟩
      rw [if_neg hk] at e3
      exact e3
    | cons v₀ pre =>
      injection h with g1 g2
      have hnext : Aged env p (pastOf env p (past ++ [v₀]) (lookup env p conf fuel q.1 q.2 w).2) (lookup env p conf fuel q.1 q.2 w).2 := by
        refine ⟨⟨Nat.le_refl _, Nat.le_refl _⟩, fun key exp rs hf r hr => ?_⟩
        obtain ⟨a1, a2, a3⟩ := h2.2 key exp rs hf r hr
        subst g1
        exact ⟨a1, backed_next rfl a2, a3⟩
      have ih := visits_ages ho p conf fuel qs _ (past ++ [v₀]) hnext pre v post g2
      have e : past ++ v₀ :: pre ++ [v] = past ++ [v₀] ++ pre ++ [v] := by simp
      rw [e]
      exact ih

/-- C95 in full: whatever the servers answer, every record of a response, by one lookup of many made one after the other with a cache that
was empty at first, comes from a record that one of these lookups received, says the same and has no smaller TTL; and the TTL
given out, from the beginning of the lookup on, ends no later than the TTL received, from the end of the lookup that received it
on. -/
def C95_statement : Prop :=
  ∀ (env : Env) (p : Profile) (conf : Params) (fuel : Nat) (qs : List (Name × RecordType)) (pre post : List Visit) (v : Visit) (r : Response),
    (∀ i c, env.others i c = c) → visits env p conf fuel qs ⟨.empty, 0, []⟩ = pre ++ v :: post → v.result = .ok r →
    ∀ x ∈ r.answers ++ r.authorities ++ r.additionals, InTime env p (pre ++ [v]) (env.clock v.before.ticks) x

/-- C95, part: all records have such a source; but it is only shown for records other than CNAME records that they do not outlive it. -/
theorem C95_ttl_partial (env : Env) (p : Profile) (conf : Params) (fuel : Nat) (qs : List (Name × RecordType)) (pre post : List Visit) (v : Visit)
    (r : Response) (ho : ∀ i c, env.others i c = c) (h : visits env p conf fuel qs ⟨.empty, 0, []⟩ = pre ++ v :: post) (hr : v.result = .ok r) :
    ∀ x ∈ r.answers ++ r.authorities ++ r.additionals, HasSource p (pre ++ [v]) x ∧
      (x.recordType ≠ .CNAME → InTime env p (pre ++ [v]) (env.clock v.before.ticks) x) := by
  have := visits_ages ho p conf fuel qs ⟨.empty, 0, []⟩ []
    ⟨⟨Nat.le_refl _, Nat.le_refl _⟩, fun key exp rs hf => by cases hf⟩ pre v post h r hr
  simpa using this

/-- Half a second passes between any two steps; `a.` is an alias, for 90 seconds. -/
def lazyEnv : Env where
  clock k := k * (NANOS / 2)
  mono _ _ h := Nat.mul_le_mul_right _ h
  others _ c := c
  ids _ := 7
  net := (scripted fun k => match k with
    | 0 => response .NoError true [⟨⟨"a.".toList⟩, .IN, 90, 8, .CNAME ⟨"b.".toList⟩⟩] [] []
    | _ => response .NoError true [⟨⟨"b.".toList⟩, .IN, 300, 4, .A ⟨1, 2, 3, 4⟩⟩] [] []).net

/-- `a.`, again and again. -/
def lazyVisits (n : Nat) : List Visit := visits lazyEnv .debug ⟨1, 1, 3, false⟩ 5 (List.replicate n (⟨"a.".toList⟩, .A)) ⟨.empty, 0, []⟩

instance (env : Env) (p : Profile) (history : List Visit) (now : Nat) (x : Record) : Decidable (InTime env p history now x) := by
  unfold InTime; infer_instance

/-- The last of the lookups gave out a record whose source had expired before the lookup began. -/
def lastExpired (env : Env) (p : Profile) (l : List Visit) : Bool :=
  match l.getLast? with
  | none => false
  | some v => match v.result with
    | .ok r => r.answers.any fun x => !decide (InTime env p l (env.clock v.before.ticks - x.ttl.toNat * NANOS) x)
    | _ => false

theorem of_lastExpired {env : Env} {p : Profile} {l : List Visit} (h : lastExpired env p l = true) :
    ∃ pre v r, l = pre ++ v :: [] ∧ v.result = .ok r ∧ ∃ x ∈ r.answers, ¬ InTime env p l (env.clock v.before.ticks - x.ttl.toNat * NANOS) x := by
  unfold lastExpired at h
  cases hl : l.getLast? with
  | none => rw [hl] at h; cases h
  | some v =>
    rw [hl] at h
    simp only at h
    obtain ⟨pre, hpre⟩ := List.getLast?_eq_some_iff.1 hl
    cases hv : v.result with
    | ok r =>
      rw [hv] at h
      simp only at h
      obtain ⟨x, hx, hn⟩ := List.any_eq_true.1 h
      exact ⟨pre, v, r, hpre, hv, x, hx, by simpa using hn⟩
    | err e => rw [hv] at h; cases h
    | panic k => rw [hv] at h; cases h
    | diverge => rw [hv] at h; cases h

/-- C95 does not hold: `a.` is looked up 21 times, always within the TTL of its CNAME record as the resolver counts it; but each time the
resolver saves the record anew, with the whole seconds that remained when it found it, counted from now on. In the end it is
given out (with 5 seconds left) although the TTL with which it was received, once, ended before that lookup began. -/
theorem C95_violated : ¬ C95_statement := by
  intro h
  have bad : lastExpired lazyEnv .debug (lazyVisits 21) = true := by decide +kernel
  obtain ⟨pre, v, r, h1, h2, x, hx, hn⟩ := of_lastExpired bad
  have hin := h lazyEnv .debug ⟨1, 1, 3, false⟩ 5 (List.replicate 21 (⟨"a.".toList⟩, .A)) pre [] v r (fun _ _ => rfl) h1 h2 x (by simp [hx])
  refine hn ?_
  rw [h1]
  obtain ⟨u, hu, y, hy, e1, e2, e3⟩ := hin
  exact ⟨u, hu, y, hy, e1, e2, by omega⟩

/-- In the same history, the address, received with the TTL 300, is given out with 180 the last time, and the theorem tells us that this is in
time. -/
example : ∃ pre v r, lazyVisits 21 = pre ++ [v] ∧ v.result = .ok r ∧ ∃ x ∈ r.answers, x.recordType = .A ∧ x.ttl = 180 ∧
    InTime lazyEnv .debug (lazyVisits 21) (lazyEnv.clock v.before.ticks) x := by
  have run : (lazyVisits 21).getLast?.bind (fun v => (okOf v.result).map fun r => r.answers.any fun x =>
      decide (x.recordType = .A) && decide (x.ttl = 180)) = some true := by decide +kernel
  cases hl : (lazyVisits 21).getLast? with
  | none => rw [hl] at run; cases run
  | some v =>
    rw [hl] at run
    obtain ⟨pre, hpre⟩ := List.getLast?_eq_some_iff.1 hl
    cases hv : v.result with
    | ok r =>
      simp only [Option.bind_some, hv] at run
      obtain ⟨x, hx, hk⟩ := List.any_eq_true.1 (Option.some.inj run)
      simp only [Bool.and_eq_true, decide_eq_true_eq] at hk
      refine ⟨pre, v, r, hpre, hv, x, hx, hk.1, hk.2, ?_⟩
      have := (C95_ttl_partial lazyEnv .debug ⟨1, 1, 3, false⟩ 5 (List.replicate 21 (⟨"a.".toList⟩, .A)) pre [] v r (fun _ _ => rfl) hpre hv x
        (by simp [hx])).2 (by rw [hk.1]; decide)
      rw [hpre]
      exact this
    | err e => simp [hv, okOf] at run
    | panic k => simp [hv, okOf] at run
    | diverge => simp [hv, okOf] at run

end Ariadne.Props
