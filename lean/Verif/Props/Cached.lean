import Verif.Lemmas.Cached
import Verif.Props.OnlyQuestion

/-! # C109: requests that do not ask for recursion -/

namespace Ariadne.Props

open Spec Resolver

variable {p : Profile}

/-- **C109.** No query is sent for a client that does not desire recursion. -/
def C109_statement : Prop :=
  ∀ (S : Schedule) (net : Nat → List Event → Ip4 → List UInt8 → Option (List UInt8)) (p : Profile) (conf : Params) (fuel : Nat)
    (jobs : Nat → Job) (c : RecordsCache) (n i : Nat) (req : Message), Delivers p req (jobs i) → req.header.recursionDesired = false →
    AskedNobody ((System.after S net (.serving p conf fuel jobs c) n).threads i).log

theorem serve_brief {conf : Params} {fuel : Nat} {job : Job} {question : Name × RecordType} (h : Queries p question job) :
    Task.Brief question (fun _ => True) (Steps.serve p conf fuel job) := by
  obtain ⟨req, q, rest, h1, h2, h3, rfl⟩ := h
  rw [serve_query h1 h2 h3]
  exact (Steps.lookup_brief.attempt).bind fun x _ => .done fun _ _ => trivial

/-- **C109, partially.** No query is sent for a client, whether it desires recursion or not, if the records it asks for are in the cache, not expired, whenever the thread
that serves it makes a step; and a client whose message is not a request with a question never causes one. Missing: if they are not, queries are sent, whether recursion is desired or not
(`C109_violated`; that this does not depend on the flag is in `C108_only_the_question`). -/
theorem C109_cached_partial (S : Schedule) (net : Nat → List Event → Ip4 → List UInt8 → Option (List UInt8)) (p : Profile) (conf : Params)
    (fuel : Nat) (jobs : Nat → Job) (c : RecordsCache) (n i : Nat)
    (h : ∀ question, Queries p question (jobs i) → ∀ m < n, S.move m = .step i →
      InCache question (S.time m) (System.after S net (.serving p conf fuel jobs c) m).cache) :
    AskedNobody ((System.after S net (.serving p conf fuel jobs c) n).threads i).log := by
  by_cases hq : ∃ question, Queries p question (jobs i)
  · obtain ⟨question, hq⟩ := hq
    have h := h question hq
    have key : ∀ m ≤ n, Task.Brief question (fun _ => True) ((System.after S net (.serving p conf fuel jobs c) m).threads i).task ∧
        AskedNobody ((System.after S net (.serving p conf fuel jobs c) m).threads i).log := by
      intro m
      induction m with
      | zero => exact fun _ => ⟨serve_brief hq, fun _ _ _ hm => by cases hm⟩
      | succ m ih =>
        intro hm
        obtain ⟨i1, i2⟩ := ih (by omega)
        have hc := h m (by omega)
        unfold System.after
        generalize System.after S net (.serving p conf fuel jobs c) m = s at i1 i2 hc ⊢
        unfold System.next
        cases hmv : S.move m with
        | clean r => exact ⟨i1, i2⟩
        | step j =>
          dsimp only
          by_cases hj : i = j
          · subst hj
            rw [if_pos rfl]
            exact i1.step i2 (hc hmv)
          · rw [if_neg hj]
            exact ⟨i1, i2⟩
    exact (key n (Nat.le_refl n)).2
  · obtain ⟨o, e, -⟩ := serve_other (p := p) (conf := conf) (fuel := fuel) (job := jobs i) fun question hx => hq ⟨question, hx⟩
    have e0 : ((System.serving p conf fuel jobs c).threads i) = ⟨.done o, []⟩ := by
      show (⟨Steps.serve p conf fuel (jobs i), []⟩ : Thread _) = _
      rw [e]
    have key : ∀ m, ((System.after S net (.serving p conf fuel jobs c) m).threads i) = ⟨.done o, []⟩ := by
      intro m
      induction m with
      | zero => exact e0
      | succ m ih =>
        unfold System.after
        generalize System.after S net (.serving p conf fuel jobs c) m = s at ih ⊢
        unfold System.next
        cases hmv : S.move m with
        | clean r => exact ih
        | step j =>
          dsimp only
          by_cases hj : i = j
          · subst hj
            rw [if_pos rfl, ih]
            rfl
          · rw [if_neg hj]
            exact ih
    rw [key n]
    exact fun _ _ _ hm => by cases hm

/-- Does the log have an exchange? -/
def hasExchange : List Event → Bool
  | [] => false
  | .exchange .. :: _ => true
  | _ :: log => hasExchange log

theorem hasExchange_sound {log : List Event} (h : hasExchange log = true) : ¬ AskedNobody log := by
  induction log with
  | nil => cases h
  | cons e log ih =>
    intro hn
    cases e with
    | exchange a q r => exact hn a q r List.mem_cons_self
    | start _ _ _ _ => exact ih h fun a q r hm => hn a q r (List.mem_cons_of_mem _ hm)
    | contact _ _ _ _ => exact ih h fun a q r hm => hn a q r (List.mem_cons_of_mem _ hm)
    | saved _ _ _ => exact ih h fun a q r hm => hn a q r (List.mem_cons_of_mem _ hm)

/-- The request of the first client in the example of C94, which does not desire recursion, causes queries. -/
theorem C109_violated : ¬ C109_statement := by
  intro h
  have h1 := h turns (fun _ _ a q => orderNet a q) .release ⟨2, 3, 2, false⟩ 259 turnJobs .empty 168 0 (queryMessage 6 nB .A)
    (addressQuery_read .release 6 nB_encodable) rfl
  have h2 : hasExchange ((turnService 168).threads 0).log = true := by decide +kernel
  exact hasExchange_sound h2 h1

/-! ## An example -/

/-- Is the address of a.com. in the cache? -/
def knownNow (t : Nat) (c : RecordsCache) : Bool := match c.find (nA, .A) with
  | some (exp, _ :: _) => decide (t < exp)
  | _ => false

theorem knownNow_sound {t : Nat} {c : RecordsCache} (h : knownNow t c = true) : InCache (nA, .A) t c := by
  unfold knownNow at h
  cases hf : c.find (nA, .A) with
  | none => rw [hf] at h; cases h
  | some e =>
    obtain ⟨exp, records⟩ := e
    rw [hf] at h
    cases records with
    | nil => cases h
    | cons r rs => exact ⟨exp, r :: rs, hf, of_decide_eq_true h, List.cons_ne_nil _ _⟩

set_option maxRecDepth 100000 in
theorem cached_known (net : Nat → List Event → Ip4 → List UInt8 → Option (List UInt8)) (fuel : Nat) :
    (List.range 20).all (fun m => knownNow (turns.time m) (cachedService net fuel m).cache) = true := by kernel_rfl

/-- A client asks for a record that is in the cache from the start: it is answered, and nobody is asked. -/
example (net : Nat → List Event → Ip4 → List UInt8 → Option (List UInt8)) (fuel : Nat) :
    AskedNobody ((cachedService net fuel 20).threads 0).log ∧ ∃ l, ((cachedService net fuel 20).threads 0).task = .done (.ok (l, true)) := by
  refine ⟨C109_cached_partial _ _ _ _ _ _ _ 20 0 fun question hq m hm _ => ?_, ?_⟩
  · obtain ⟨req, q, rest, h1, h2, h3, rfl⟩ := hq
    obtain rfl := delivers_unique (job := .udp (addressQuery 6 nA) [some 512]) (addressQuery_read .release 6 nA_encodable) h1
    obtain rfl : q = ⟨nA, .A, .IN⟩ := ((List.cons.inj h3).1).symm
    exact knownNow_sound (List.all_eq_true.1 (cached_known net fuel) m (List.mem_range.2 hm))
  · have hs := cached_sent net fuel
    rw [Bool.and_eq_true] at hs
    exact sentBy_isSome hs.1

end Ariadne.Props
