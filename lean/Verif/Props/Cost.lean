import Verif.Spec.Cost
import Verif.Lemmas.Cost
import Verif.Props.Queries

/-! # C107: how much work a request causes -/

namespace Ariadne.Props

open Spec Resolver

variable {α : Type} {S : Schedule} {net : Nat → List Event → Ip4 → List UInt8 → Option (List UInt8)} {p : Profile} {s : System α}

/-- What the events bring, altogether. -/
def balance (V : Event → Int) (log : List Event) : Int := (log.map V).sum

theorem balance_snoc (V : Event → Int) (log : List Event) (e : Event) : balance V (log ++ [e]) = balance V log + V e := by
  unfold balance
  rw [List.map_append, List.sum_append, List.map_singleton, List.sum_singleton]

theorem pays_after {V : Event → Int} {Q : α → Prop} {b : Nat → Int} (hs : ∀ j, Pays V Q (b j + balance V (s.threads j).log) (s.threads j).task) :
    ∀ n j, Pays V Q (b j + balance V ((System.after S net s n).threads j).log) ((System.after S net s n).threads j).task
  | 0 => hs
  | n + 1 => by
    have ih := pays_after hs n
    intro j
    show Pays V Q (b j + balance V ((System.next S net n (System.after S net s n)).threads j).log)
      ((System.next S net n (System.after S net s n)).threads j).task
    unfold System.next
    cases S.move n with
    | clean reading => exact ih j
    | step i =>
      dsimp only
      by_cases hj : j = i
      · subst hj
        rw [if_pos rfl]
        have h := ih j
        unfold Thread.step
        cases htask : ((System.after S net s n).threads j).task with
        | done o => rw [htask] at h; dsimp only; rw [htask]; exact h
        | emit e k => rw [htask] at h; dsimp only; rw [balance_snoc, ← Int.add_assoc]; exact h.2
        | now k => rw [htask] at h; exact h.2 _
        | randomId k => rw [htask] at h; exact h.2 _
        | send addr bytes k => rw [htask] at h; dsimp only; rw [balance_snoc, ← Int.add_assoc]; exact h.2 _
        | get key k => rw [htask] at h; exact h.2 _
        | set key ttl records k => rw [htask] at h; exact h.2
      · rw [if_neg hj]
        exact ih j

theorem handle_pays {conf : Params} {fuel : Nat} {read : ReadResult} (T : Tariff conf.maxNsQueried conf.maxUdpRetries) :
    Pays T.value (fun _ => True) ((conf.maxCnameRedir * T.nested 0 : Nat) : Int) (Steps.handle p conf fuel read) := by
  have h0 : (0 : Int) ≤ ((conf.maxCnameRedir * T.nested 0 : Nat) : Int) := Int.natCast_nonneg _
  cases read with
  | fullMessage req =>
    unfold Steps.handle
    dsimp only
    by_cases hv : (!validate req) = true
    · rw [if_pos hv]
      exact Pays.pure h0 trivial
    · rw [if_neg hv]
      cases hq : req.questions with
      | nil => exact Pays.panic h0
      | cons q qs => exact (Pays.attempt (Steps.lookup_pays conf fuel q.node q.recordType T)).bind₀ fun _ _ => Pays.pure (Int.le_refl 0) trivial
  | headerOnly h e => exact Pays.pure h0 trivial
  | parseErr a b => exact Pays.pure h0 trivial
  | ioErr => exact Pays.pure h0 trivial

theorem serve_pays {conf : Params} {fuel : Nat} {job : Job} (T : Tariff conf.maxNsQueried conf.maxUdpRetries) :
    Pays T.value (fun _ => True) ((conf.maxCnameRedir * T.nested 0 : Nat) : Int) (Steps.serve p conf fuel job) := by
  have h0 : (0 : Int) ≤ ((conf.maxCnameRedir * T.nested 0 : Nat) : Int) := Int.natCast_nonneg _
  cases job with
  | udp datagram sends =>
    show Pays T.value _ _ (Steps.serveUdp p conf fuel datagram sends)
    unfold Steps.serveUdp
    refine Pays.free h0 Pays.skip fun read _ => ?_
    refine (handle_pays T).bind₀ fun reply _ => ?_
    cases reply with
    | none => exact Pays.pure (Int.le_refl 0) trivial
    | some m => exact Pays.skip
  | tcp stream room =>
    show Pays T.value _ _ (Steps.serveTcp p conf fuel stream room >>= fun r => pure ([r.1], r.2))
    refine Pays.bind₀ (Q := fun _ => True) ?_ fun _ _ => Pays.pure (Int.le_refl 0) trivial
    unfold Steps.serveTcp
    refine Pays.free h0 Pays.skip fun read _ => ?_
    refine (handle_pays T).bind₀ fun reply _ => ?_
    cases reply with
    | none => exact Pays.pure (Int.le_refl 0) trivial
    | some m => exact Pays.skip

/-- A thread never gets into debt. -/
theorem serving_pays {conf : Params} {fuel : Nat} {jobs : Nat → Job} {c : RecordsCache} (T : Tariff conf.maxNsQueried conf.maxUdpRetries) (n i : Nat) :
    -((conf.maxCnameRedir * T.nested 0 : Nat) : Int) ≤ balance T.value ((System.after S net (.serving p conf fuel jobs c) n).threads i).log := by
  have := (pays_after (S := S) (net := net) (s := .serving p conf fuel jobs c) (V := T.value) (Q := fun _ => True)
    (b := fun _ => ((conf.maxCnameRedir * T.nested 0 : Nat) : Int)) (fun j => by
      show Pays T.value _ (_ + balance T.value []) (Steps.serve p conf fuel (jobs j))
      rw [show balance T.value [] = 0 from rfl, Int.add_zero]
      exact serve_pays T) n i).nonneg
  omega

/-! ## Three tariffs -/

/-- Resolutions for the client cost 1, all else is free. -/
def ownTariff (servers retries : Nat) : Tariff servers retries where
  value
    | .start zones _ _ _ => if zones.length = 0 then -1 else 0
    | _ => 0
  query := 0
  nested d := if d = 0 then 1 else 0
  exchange _ _ _ := rfl
  saved _ _ _ := rfl
  contact _ _ _ _ := rfl
  start zones nf node kind := by
    simp only [Nat.mul_zero, Nat.add_eq_zero_iff, Nat.one_ne_zero, and_false, if_false, Nat.add_zero]
    by_cases h : zones.length = 0
    · simp [h]
    · simp [h]

/-- Resolutions at the depth `d` + 1 cost 1, those at depth `d` pay for them. -/
def depthTariff (d servers retries : Nat) : Tariff servers retries where
  value
    | .start zones _ node _ => if zones.length = d then (mayTry servers node : Int) else if zones.length = d + 1 then -1 else 0
    | _ => 0
  query := 0
  nested e := if e = d + 1 then 1 else 0
  exchange _ _ _ := rfl
  saved _ _ _ := rfl
  contact _ _ _ _ := rfl
  start zones nf node kind := by
    simp only [Nat.mul_zero, Nat.zero_add, Nat.add_right_cancel_iff]
    by_cases h : zones.length = d
    · rw [if_pos h, if_pos h, if_neg (by omega)]
      unfold mayTry
      simp
    · rw [if_neg h, if_neg h]
      by_cases h' : zones.length = d + 1
      · rw [if_pos h', if_pos h']; simp
      · rw [if_neg h', if_neg h']; simp

/-- Queries cost 1, resolutions pay for them. -/
def queryTariff (servers retries : Nat) : Tariff servers retries where
  value
    | .start _ _ node _ => ((mayTry servers node * retries : Nat) : Int)
    | .exchange _ _ _ => -1
    | _ => 0
  query := 1
  nested _ := 0
  exchange _ _ _ := rfl
  saved _ _ _ := rfl
  contact _ _ _ _ := rfl
  start zones nf node kind := by
    simp only [Nat.mul_one, Nat.add_zero]
    unfold mayTry
    rw [Nat.mul_assoc]
    simp

theorem own_balance (servers retries : Nat) : ∀ log, balance (ownTariff servers retries).value log = -(atDepth 0 log : Int)
  | [] => rfl
  | e :: log => by
    have ih := own_balance servers retries log
    have hb : balance (ownTariff servers retries).value (e :: log) = (ownTariff servers retries).value e + balance (ownTariff servers retries).value log := rfl
    rw [hb, ih]
    cases e with
    | start zones nf node kind =>
      show (if zones.length = 0 then -1 else 0) + _ = -((((zones.length, node) :: resolutions log).countP fun r => r.1 == 0 : Nat) : Int)
      rw [List.countP_cons]
      unfold atDepth
      by_cases h : zones.length = 0 <;> simp [h] <;> omega
    | _ => show 0 + _ = _; rw [Int.zero_add]; rfl

theorem depth_balance (d servers retries : Nat) : ∀ log, balance (depthTariff d servers retries).value log =
    ((((resolutions log).filter fun r => r.1 == d).map fun r => mayTry servers r.2).sum : Nat) - (atDepth (d + 1) log : Int)
  | [] => rfl
  | e :: log => by
    have ih := depth_balance d servers retries log
    have hb : balance (depthTariff d servers retries).value (e :: log) =
      (depthTariff d servers retries).value e + balance (depthTariff d servers retries).value log := rfl
    rw [hb, ih]
    cases e with
    | start zones nf node kind =>
      show (if zones.length = d then (mayTry servers node : Int) else if zones.length = d + 1 then -1 else 0) + _ =
        (((((zones.length, node) :: resolutions log).filter fun r => r.1 == d).map fun r => mayTry servers r.2).sum : Nat) -
          ((((zones.length, node) :: resolutions log).countP fun r => r.1 == d + 1 : Nat) : Int)
      rw [List.countP_cons, List.filter_cons]
      unfold atDepth
      by_cases h : zones.length = d
      · have h' : d ≠ d + 1 := by omega
        simp [h]
        omega
      · by_cases h' : zones.length = d + 1
        · simp [h']
          omega
        · simp [h, h']
    | _ => show 0 + _ = _; rw [Int.zero_add]; rfl

theorem query_balance (servers retries : Nat) : ∀ log, balance (queryTariff servers retries).value log =
    (((resolutions log).map fun r => mayTry servers r.2 * retries).sum : Nat) - (queriesSent log : Int)
  | [] => rfl
  | e :: log => by
    have ih := query_balance servers retries log
    have hb : balance (queryTariff servers retries).value (e :: log) =
      (queryTariff servers retries).value e + balance (queryTariff servers retries).value log := rfl
    rw [hb, ih]
    cases e with
    | start zones nf node kind =>
      show ((mayTry servers node * retries : Nat) : Int) + _ =
        ((((zones.length, node) :: resolutions log).map fun r => mayTry servers r.2 * retries).sum : Nat) - (queriesSent (_ :: log) : Int)
      have : queriesSent (Event.start zones nf node kind :: log) = queriesSent log := by
        unfold queriesSent
        rw [List.countP_cons]
        simp
      rw [this, List.map_cons, List.sum_cons, Int.natCast_add]
      dsimp only
      omega
    | exchange addr bytes reply =>
      show -1 + _ = (((resolutions log).map fun r => mayTry servers r.2 * retries).sum : Nat) - (queriesSent (_ :: log) : Int)
      have : queriesSent (Event.exchange addr bytes reply :: log) = queriesSent log + 1 := by
        unfold queriesSent
        rw [List.countP_cons]
        simp
      rw [this]
      omega
    | contact a b c d =>
      have : queriesSent (Event.contact a b c d :: log) = queriesSent log := by
        unfold queriesSent
        rw [List.countP_cons]
        simp
      rw [this]
      exact Int.zero_add _
    | saved a b c =>
      have : queriesSent (Event.saved a b c :: log) = queriesSent log := by
        unfold queriesSent
        rw [List.countP_cons]
        simp
      rw [this]
      exact Int.zero_add _

/-- C107 in full: whatever the clients and the servers send, and whatever is in the cache, the queries sent for a request are no more than the
configuration allows for the names the client is led through: (octets of the name + 1) × the limit on servers × the limit
on retries for each of them; and those are no more than the limit on redirections. -/
def C107_statement : Prop :=
  ∀ (S : Schedule) (net : Nat → List Event → Ip4 → List UInt8 → Option (List UInt8)) (p : Profile) (conf : Params) (fuel : Nat) (jobs : Nat → Job)
    (c : RecordsCache) (n i : Nat), ∀ log, log = ((System.after S net (.serving p conf fuel jobs c) n).threads i).log →
    atDepth 0 log ≤ conf.maxCnameRedir ∧
    queriesSent log ≤ (((resolutions log).filter fun r => r.1 == 0).map fun r => mayTry conf.maxNsQueried r.2 * conf.maxUdpRetries).sum

/-- C107, part: whatever the clients and the servers send, whatever is in the cache, and at any moment: a request makes the resolver resolve no more names, for the
client, than the limit on redirections; for each of these no more names of servers than (octets of the name + 1) × the limit
on servers; for each of these again; and for each of all these names no more queries than that number × the limit on retries.
Missing: a bound on the depth. -/
theorem C107_work_partial (S : Schedule) (net : Nat → List Event → Ip4 → List UInt8 → Option (List UInt8)) (p : Profile) (conf : Params) (fuel : Nat)
    (jobs : Nat → Job) (c : RecordsCache) (n i : Nat) :
    Moderate conf ((System.after S net (.serving p conf fuel jobs c) n).threads i).log where
  own := by
    have := serving_pays (S := S) (net := net) (p := p) (fuel := fuel) (jobs := jobs) (c := c) (ownTariff conf.maxNsQueried conf.maxUdpRetries) n i
    rw [own_balance] at this
    have e : (ownTariff conf.maxNsQueried conf.maxUdpRetries).nested 0 = 1 := rfl
    rw [e, Nat.mul_one] at this
    omega
  servers d := by
    have := serving_pays (S := S) (net := net) (p := p) (fuel := fuel) (jobs := jobs) (c := c) (depthTariff d conf.maxNsQueried conf.maxUdpRetries) n i
    rw [depth_balance] at this
    have e : (depthTariff d conf.maxNsQueried conf.maxUdpRetries).nested 0 = 0 := rfl
    rw [e, Nat.mul_zero] at this
    omega
  queries := by
    have := serving_pays (S := S) (net := net) (p := p) (fuel := fuel) (jobs := jobs) (c := c) (queryTariff conf.maxNsQueried conf.maxUdpRetries) n i
    rw [query_balance] at this
    have e : (queryTariff conf.maxNsQueried conf.maxUdpRetries).nested 0 = 0 := rfl
    rw [e, Nat.mul_zero] at this
    omega

/-- If no addresses of name servers have to be found out, the statement holds. -/
theorem C107_with_addresses (S : Schedule) (net : Nat → List Event → Ip4 → List UInt8 → Option (List UInt8)) (p : Profile) (conf : Params) (fuel : Nat)
    (jobs : Nat → Job) (c : RecordsCache) (n i : Nat) (log : List Event) (hl : log = ((System.after S net (.serving p conf fuel jobs c) n).threads i).log)
    (h : ∀ r ∈ resolutions log, r.1 = 0) :
    atDepth 0 log ≤ conf.maxCnameRedir ∧
    queriesSent log ≤ (((resolutions log).filter fun r => r.1 == 0).map fun r => mayTry conf.maxNsQueried r.2 * conf.maxUdpRetries).sum := by
  have hm := C107_work_partial S net p conf fuel jobs c n i
  rw [← hl] at hm
  refine ⟨hm.own, ?_⟩
  rw [List.filter_eq_self.2 fun r hr => by rw [beq_iff_eq]; exact h r hr]
  exact hm.queries

/-! ## A server that leads from one name to the next -/

/-- The name of two letters after this one. -/
def nextLetters (a b : UInt8) : UInt8 × UInt8 := if b = 122 then (a + 1, 97) else (a, b + 1)

/-- Whoever asks for a name of two letters is told that its name server has the next such name, but not the address. -/
def endlessNet (q : List UInt8) : Option (List UInt8) :=
  match q with
  | i :: j :: _ :: _ :: _ :: _ :: _ :: _ :: _ :: _ :: _ :: _ :: _ :: a :: b :: _ =>
    some [i, j, 128, 0, 0, 1, 0, 0, 0, 1, 0, 0, 2, a, b, 0, 0, 1, 0, 1, 2, a, b, 0, 0, 2, 0, 1, 0, 0, 0, 9, 0, 4, 2, (nextLetters a b).1,
      (nextLetters a b).2, 0]
  | _ => none

/-- A client asks for the address of "aa.". One server may be tried for each name and zone, and once. -/
def endless (n : Nat) : System (List (List UInt8) × Bool) :=
  System.after alone (fun _ _ _ q => endlessNet q) (.serving .release ⟨1, 1, 1, false⟩ 300
    (fun _ => .udp [0, 7, 1, 0, 0, 1, 0, 0, 0, 0, 0, 0, 2, 97, 97, 0, 0, 1, 0, 1] [some 512]) .empty) n

/-- What is compared. -/
def workOf (log : List Event) : Nat × Nat × List (Nat × Name) :=
  (queriesSent log, (((resolutions log).filter fun r => r.1 == 0).map fun r => mayTry 1 r.2 * 1).sum, resolutions log)

set_option maxRecDepth 100000 in
theorem endless_work : workOf ((endless 120).threads 0).log = (10, 4, [(0, ⟨"aa.".toList⟩), (1, ⟨"ab.".toList⟩), (2, ⟨"ac.".toList⟩), (3, ⟨"ad.".toList⟩), (4, ⟨"ae.".toList⟩),
    (5, ⟨"af.".toList⟩), (6, ⟨"ag.".toList⟩), (7, ⟨"ah.".toList⟩), (8, ⟨"ai.".toList⟩), (9, ⟨"aj.".toList⟩)]) := by decide +kernel

theorem work_within (h : C107_statement) (n : Nat) : (workOf ((endless n).threads 0).log).1 ≤ (workOf ((endless n).threads 0).log).2.1 :=
  (h alone (fun _ _ _ q => endlessNet q) .release ⟨1, 1, 1, false⟩ 300 _ .empty n 0 _ rfl).2

/-- C107 does not hold: servers can lead the resolver from name server to name server; 4 queries would be allowed for "aa.", and 10 have been sent, with no
end in sight. -/
theorem C107_violated : ¬ C107_statement := by
  intro h
  have := work_within h 120
  rw [endless_work] at this
  have h' : 10 ≤ 4 := this
  omega

set_option maxRecDepth 100000 in
theorem oneClient_work : (resolutions ((oneClient askACom 14).threads 0).log, queriesSent ((oneClient askACom 14).threads 0).log) =
    ([(0, ⟨"a.com.".toList⟩)], 1) := by decide +kernel

/-- The hypothesis of `C107_with_addresses` is met when nobody answers. -/
example : ∀ r ∈ resolutions ((oneClient askACom 14).threads 0).log, r.1 = 0 := by
  rw [(Prod.mk.inj oneClient_work).1]
  intro r hr
  rw [List.mem_singleton.1 hr]

/-- This is moderate in the sense of the theorem, which has no hypotheses. -/
example : Moderate ⟨1, 1, 1, false⟩ ((endless 120).threads 0).log := C107_work_partial ..

end Ariadne.Props
