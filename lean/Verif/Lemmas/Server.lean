import Verif.Spec.Server
import Verif.Lemmas.Pool
import Verif.Props.Pool

namespace Ariadne.Server

variable {R O R' O' : Type}

/-- What the phase of the listening thread says about the owner of the pool. -/
def Fits : Phase R → Pool.Main → Prop
  | .starting, m => m = .using
  | .receiving, m => m = .using
  | .received _, m => m = .using
  | .cleared _, m => m = .using
  | .aborted, m => m = .using
  | .dropping, m => m ≠ .using
  | .returned, m => m = .dropped
  | .panicked, m => m = .panicked

/-- Invariant of a server. -/
structure Inv (k : Kind R O) (threads : Nat) (s : State R O) (runs : List (JobRun O)) : Prop where
  pool : Pool.Reachable threads s.pool
  jobs : s.pool.submitted = s.jobs.length
  fits : Fits s.phase s.pool.main
  real : ∀ run ∈ runs, ∃ r, s.jobs[run.number]? = some r ∧ k.serves r run.outs run.panics
  sent : s.sent = runs.flatMap (·.outs)
  fin : s.pool.finished = (runs.filter fun r => !r.panics).map (·.number)
  crash : s.pool.crashed = (runs.filter fun r => r.panics).map (·.number)
  sub : (s.jobs ++ s.phase.inHand).Sublist s.seen
  all : k.mayDrop = false → s.phase = .starting ∨ s.phase.listening = true → s.seen = s.jobs ++ s.phase.inHand
  gone : s.phase = .aborted → s.pool.connected = false

theorem inv_init (k : Kind R O) (threads : Nat) : Inv k threads (init threads) [] where
  pool := .init
  jobs := rfl
  fits := rfl
  real := by simp
  sent := rfl
  fin := rfl
  crash := rfl
  sub := List.Sublist.refl _
  all := fun _ _ => rfl
  gone := fun h => by cases h

theorem real_mono {k : Kind R O} {jobs more : List R} {runs : List (JobRun O)}
    (h : ∀ run ∈ runs, ∃ r, jobs[run.number]? = some r ∧ k.serves r run.outs run.panics) :
    ∀ run ∈ runs, ∃ r, (jobs ++ more)[run.number]? = some r ∧ k.serves r run.outs run.panics := fun run hr => by
  obtain ⟨r, h1, h2⟩ := h run hr
  obtain ⟨hl, -⟩ := List.getElem?_eq_some_iff.1 h1
  exact ⟨r, by rw [List.getElem?_append_left hl]; exact h1, h2⟩

/-- The owner's steps in `drop` never go back to `using`. -/
theorem main_not_using {s t : Pool.State} (h : Pool.MainStep s t) (hm : s.main ≠ .using) :
    t.main ≠ .using ∧ t.submitted = s.submitted ∧ t.finished = s.finished ∧ t.crashed = s.crashed := by
  cases h <;> first | (exact absurd ‹_› hm) | simp

theorem live_connected {s : Pool.State} {i : Nat} {w : Pool.Worker} (hi : s.workers[i]? = some w) (hw : w.live = true) :
    ¬ s.connected = false := fun h => by
  unfold Pool.State.connected at h
  rw [List.any_eq_false] at h
  exact h _ (List.mem_of_getElem? hi) hw

theorem inv_step {k : Kind R O} {threads : Nat} {stop : Bool} {s t : State R O} {runs : List (JobRun O)} (h : Inv k threads s runs)
    (hs : Step k stop s t) : ∃ more, Inv k threads t (runs ++ more) := by
  obtain ⟨hp, hj, hf, hr, hse, hfi, hcr, hsub, hall, hgone⟩ := h
  have same : runs = runs ++ [] := (List.append_nil _).symm
  cases hs with
  | bound h1 =>
    rw [h1] at hf hsub hall
    exact ⟨[], same ▸ ⟨hp, hj, hf, hr, hse, hfi, hcr, hsub, fun hd _ => hall hd (.inl rfl), fun h => by cases h⟩⟩
  | bindErr h1 =>
    rw [h1] at hf hsub hall
    exact ⟨[], same ▸ ⟨.step hp (.inr (.beginDrop hf)), hj, (fun h => by cases h), hr, hse, hfi, hcr, hsub,
      (fun _ h => by rcases h with h | h <;> cases h), (fun h => by cases h)⟩⟩
  | recv r rest h1 h2 =>
    rw [h1] at hf hsub hall
    refine ⟨[], same ▸ ⟨hp, hj, hf, hr, hse, hfi, hcr, ?_, fun hd _ => ?_, fun h => by cases h⟩⟩
    · have : s.jobs.Sublist s.seen := by simpa [Phase.inHand] using hsub
      exact this.append (List.Sublist.refl _)
    · have := hall hd (.inr rfl)
      simp only [Phase.inHand, List.append_nil] at this ⊢
      rw [this]
  | recvErr h1 => exact ⟨[], same ▸ ⟨hp, hj, hf, hr, hse, hfi, hcr, hsub, hall, hgone⟩⟩
  | seeStop r h1 h2 =>
    rw [h1] at hf hsub hall
    exact ⟨[], same ▸ ⟨.step hp (.inr (.beginDrop hf)), hj, (fun h => by cases h), hr, hse, hfi, hcr,
      (by have := (List.sublist_append_left s.jobs (Phase.inHand (.received r))).trans hsub; simpa [Phase.inHand] using this),
      (fun _ h => by rcases h with h | h <;> cases h), (fun h => by cases h)⟩⟩
  | clear r h1 h2 =>
    rw [h1] at hf hsub hall
    exact ⟨[], same ▸ ⟨hp, hj, hf, hr, hse, hfi, hcr, hsub, fun hd _ => hall hd (.inr rfl), fun h => by cases h⟩⟩
  | cloneErr r h1 h2 =>
    rw [h1] at hf hsub hall
    exact ⟨[], same ▸ ⟨hp, hj, hf, hr, hse, hfi, hcr,
      (by have := (List.sublist_append_left s.jobs (Phase.inHand (.received r))).trans hsub; simpa [Phase.inHand] using this),
      (fun hd => by rw [h2] at hd; cases hd), fun h => by cases h⟩⟩
  | submit r h1 h2 =>
    rw [h1] at hf hsub hall
    refine ⟨[], same ▸ ⟨.step hp (.inr (.execute hf h2)), ?_, hf, real_mono hr, hse, hfi, hcr, ?_, fun hd _ => ?_, fun h => by cases h⟩⟩
    · simp only [List.length_append, List.length_singleton]; omega
    · simpa [Phase.inHand] using hsub
    · simpa [Phase.inHand] using hall hd (.inr rfl)
  | abort r h1 h2 =>
    rw [h1] at hf hsub hall
    exact ⟨[], same ▸ ⟨hp, hj, hf, hr, hse, hfi, hcr,
      (by have := (List.sublist_append_left s.jobs (Phase.inHand (.received r))).trans hsub; simpa [Phase.inHand] using this),
      (fun _ h => by rcases h with h | h <;> cases h), fun _ => h2⟩⟩
  | drop h1 h2 =>
    rw [h1] at hf hsub hall
    obtain ⟨a, b, c, d⟩ := main_not_using h2 hf
    exact ⟨[], same ▸ ⟨.step hp (.inr h2), (by simp only [b]; exact hj), (by simp only [h1]; exact a), hr, hse, (by simp only [c]; exact hfi),
      (by simp only [d]; exact hcr), (by simp only [h1]; exact hsub), (fun _ h => by simp only [h1] at h; rcases h with h | h <;> cases h),
      (fun h => by simp only [h1] at h; cases h)⟩⟩
  | dropEnd h1 h2 =>
    rw [h1] at hf hsub hall
    exact ⟨[], same ▸ ⟨hp, hj, h2, hr, hse, hfi, hcr, hsub, (fun _ h => by rcases h with h | h <;> cases h), fun h => by cases h⟩⟩
  | dropPanic h1 h2 =>
    rw [h1] at hf hsub hall
    exact ⟨[], same ▸ ⟨hp, hj, h2, hr, hse, hfi, hcr, hsub, (fun _ h => by rcases h with h | h <;> cases h), fun h => by cases h⟩⟩
  | lock i h1 h2 =>
    exact ⟨[], same ▸ ⟨.step hp (.inl (.lock i h1 h2)), hj, hf, hr, hse, hfi, hcr, hsub, hall,
      fun h => absurd (hgone h) (live_connected h1 rfl)⟩⟩
  | takeJob i n q h1 h2 =>
    exact ⟨[], same ▸ ⟨.step hp (.inl (.takeJob i n q h1 h2)), hj, hf, hr, hse, hfi, hcr, hsub, hall,
      fun h => absurd (hgone h) (live_connected h1 rfl)⟩⟩
  | takeStop i q h1 h2 =>
    exact ⟨[], same ▸ ⟨.step hp (.inl (.takeStop i q h1 h2)), hj, hf, hr, hse, hfi, hcr, hsub, hall,
      fun h => absurd (hgone h) (live_connected h1 rfl)⟩⟩
  | finish i n r outs h1 h2 h3 =>
    refine ⟨[⟨n, outs, false⟩], .step hp (.inl (.finish i n h1)), hj, hf, ?_, ?_, ?_, ?_, hsub, hall,
      fun h => absurd (hgone h) (live_connected h1 rfl)⟩
    · intro run hm
      rcases List.mem_append.1 hm with hm | hm
      · exact hr run hm
      · rw [List.mem_singleton] at hm; subst hm; exact ⟨r, h2, h3⟩
    · simp [hse]
    · simp [hfi]
    · simp [hcr]
  | crash i n r outs h1 h2 h3 =>
    refine ⟨[⟨n, outs, true⟩], .step hp (.inl (.crash i n h1)), hj, hf, ?_, ?_, ?_, ?_, hsub, hall,
      fun h => absurd (hgone h) (live_connected h1 rfl)⟩
    · intro run hm
      rcases List.mem_append.1 hm with hm | hm
      · exact hr run hm
      · rw [List.mem_singleton] at hm; subst hm; exact ⟨r, h2, h3⟩
    · simp [hse]
    · simp [hfi]
    · simp [hcr]
  | orphan i h1 h2 h3 =>
    refine ⟨[], same ▸ ⟨.step hp (.inl (.orphan i h1 h2 h3)), hj, hf, hr, hse, hfi, hcr, hsub, hall, fun h => ?_⟩⟩
    rcases h1 with h1 | h1
    · exact absurd (hgone h) (live_connected h1 rfl)
    · exact absurd (hgone h) (live_connected h1 rfl)

theorem inv_arrive {k : Kind R O} {threads : Nat} {s t : State R O} {runs : List (JobRun O)} (h : Inv k threads s runs)
    (hs : Arrive s t) : Inv k threads t runs := by
  cases hs with
  | mk r _ => exact ⟨h.pool, h.jobs, h.fits, h.real, h.sent, h.fin, h.crash, h.sub, h.all, h.gone⟩

theorem inv_reachable {k : Kind R O} {threads : Nat} {stop : Bool} {s : State R O} (h : Reachable k threads stop s) :
    ∃ runs, Inv k threads s runs := by
  induction h with
  | init => exact ⟨[], inv_init k threads⟩
  | step _ hs ih =>
    obtain ⟨runs, ih⟩ := ih
    obtain ⟨more, h⟩ := inv_step ih hs
    exact ⟨_, h⟩
  | arrive _ hs ih =>
    obtain ⟨runs, ih⟩ := ih
    exact ⟨runs, inv_arrive ih hs⟩
  | setStop _ ih => exact ih

end Ariadne.Server
