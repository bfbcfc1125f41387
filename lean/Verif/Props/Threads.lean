import Verif.Lemmas.Threads
import Verif.Props.Truth
import Verif.Props.WellRun

/-! # C90, C91, C92: lookups in several threads that share the cache

There is no limit to the number of threads, nor to the orders in which they make their steps. -/

namespace Ariadne.Props

open Spec Resolver NameSpace

/-! ## What the limits are -/

variable {α : Type}

/-- No entry lives too long, and no key occurs twice. -/
def Limited (lo t : Nat) (c : RecordsCache) : Prop := Fresh t c ∧ ExpiresBy lo c ∧ c.Distinct

theorem fresh_mono {t t' : Nat} {c : RecordsCache} (h : t ≤ t') (hf : Fresh t c) : Fresh t' c := fun k e r hk => (hf k e r hk).trans (by omega)

theorem limited_next {S : Schedule} {net : Nat → List Event → Ip4 → List UInt8 → Option (List UInt8)} {n lo : Nat} {s : System α}
    (h : Limited lo (S.time n) s.cache) (hm : Modest S lo n s) : Limited lo (S.time (n + 1)) (System.next S net n s).cache := by
  have ht : S.time n ≤ S.time (n + 1) := (S.forward n).1.trans (S.forward n).2
  suffices h' : Limited lo (S.time n) (System.next S net n s).cache from ⟨fresh_mono ht h'.1, h'.2⟩
  unfold System.next
  cases hmv : S.move n with
  | clean r =>
    have hd := Cache.step_distinct h.2.2 (.clean r)
    refine ⟨fun k e v hk => ?_, fun k e v hk => ?_, hd⟩
    · have hk' : (s.cache.clean r).find k = some (e, v) := hk
      rw [Cache.find_clean h.2.2] at hk'
      exact h.1 k e v (Option.filter_eq_some_iff.1 hk').1
    · have hk' : (s.cache.clean r).find k = some (e, v) := hk
      rw [Cache.find_clean h.2.2] at hk'
      exact h.2.1 k e v (Option.filter_eq_some_iff.1 hk').1
  | step i =>
    dsimp only
    unfold Thread.step
    cases htask : (s.threads i).task with
    | get key k =>
      exact ⟨fun k e v hk => h.1 k e v (mem_getClone hk), fun k e v hk => h.2.1 k e v (mem_getClone hk), Cache.step_distinct h.2.2 (.getClone key (S.time n))⟩
    | set key ttl records k =>
      have hmo := hm i key ttl records k hmv htask
      have httl : ttl.toNat ≤ 2 ^ 32 - 1 := by have := ttl.toNat_lt; omega
      have httl' : ttl.toNat * NANOS ≤ (2 ^ 32 - 1) * NANOS := Nat.mul_le_mul_right _ httl
      refine ⟨fun k e v hk => ?_, fun k e v hk => ?_, Cache.step_distinct h.2.2 (.set key (ttl.toNat * NANOS) records (S.time n) (S.time' n))⟩
      · dsimp only at hk
        rw [find_set, Cache.find_put] at hk
        split at hk
        · injection hk with hk
          injection hk with hk1 hk2
          omega
        · exact h.1 k e v hk
      · dsimp only at hk
        rw [find_set, Cache.find_put] at hk
        split at hk
        · injection hk with hk
          injection hk with hk1 hk2
          omega
        · exact h.2.1 k e v hk
    | done o => exact h
    | emit x k => exact h
    | now k => exact h
    | randomId k => exact h
    | send addr bytes k => exact h

theorem limited_after {S : Schedule} {net : Nat → List Event → Ip4 → List UInt8 → Option (List UInt8)} {lo : Nat} {s : System α}
    (h : Limited lo (S.time 0) s.cache) : ∀ n, (∀ m < n, Modest S lo m (System.after S net s m)) → Limited lo (S.time n) (System.after S net s n).cache
  | 0, _ => h
  | n + 1, hm => limited_next (limited_after h n fun m h' => hm m (by omega)) (hm n (by omega))

theorem distinct_next {S : Schedule} {net : Nat → List Event → Ip4 → List UInt8 → Option (List UInt8)} {n : Nat} {s : System α}
    (h : s.cache.Distinct) : (System.next S net n s).cache.Distinct := by
  unfold System.next
  cases hmv : S.move n with
  | clean r => exact Cache.step_distinct h (.clean r)
  | step i =>
    dsimp only
    unfold Thread.step
    cases htask : (s.threads i).task with
    | get key k => exact Cache.step_distinct h (.getClone key (S.time n))
    | set key ttl records k => exact Cache.step_distinct h (.set key (ttl.toNat * NANOS) records (S.time n) (S.time' n))
    | done o => exact h
    | emit x k => exact h
    | now k => exact h
    | randomId k => exact h
    | send addr bytes k => exact h

theorem distinct_after {S : Schedule} {net : Nat → List Event → Ip4 → List UInt8 → Option (List UInt8)} {s : System α}
    (h : s.cache.Distinct) : ∀ n, (System.after S net s n).cache.Distinct
  | 0 => h
  | n + 1 => distinct_next (distinct_after h n)

theorem mem_clean {c : RecordsCache} (hd : c.Distinct) {r : Name × RecordType → Nat} {key : Name × RecordType} {e : Nat × List Record}
    (h : (c.clean r).find key = some e) : c.find key = some e := by
  rw [Cache.find_clean hd] at h
  exact (Option.filter_eq_some_iff.1 h).1

/-- Records that do not belong where they are. -/
def junkRecords : List Record := [⟨⟨['a', '.']⟩, .IN, 0, 3, .CNAME ⟨['a', '.']⟩⟩]

theorem bad_find_iff {θ : Theory} {t : Nat} {key : Name × RecordType} {e : Nat} {v : List Record} (h : (θ.bad t).find key = some (e, v)) : e = t + 1 := by
  unfold Theory.bad at h
  rw [Cache.find_put, Cache.find_put] at h
  split at h
  · injection h with h; injection h with h1 h2; exact h1.symm
  · split at h
    · injection h with h; injection h with h1 h2; exact h1.symm
    · cases h

/-! ## C90 -/

/-- What the cache is like with lookups in any world. -/
def usualTheory (lo : Nat) : Theory where
  I := GoodCache
  L := Limited lo
  K _ _ := True
  R t := lo < t ∧ t < lo + 2 ^ 32 * NANOS
  k₁ := (⟨['a', '.']⟩, .A)
  k₂ := (⟨['b', '.']⟩, .A)
  junk := junkRecords
  apart := by decide
  spoils _ _ h hI := by
    rcases h with h | h
    · exact absurd ((hI _ _ _ h).type _ (List.mem_singleton.2 rfl)) (by decide)
    · exact absurd ((hI _ _ _ h).type _ (List.mem_singleton.2 rfl)) (by decide)
  monoI h _ _ hI := fun k e v hk => by
    obtain ⟨h1, h2, h3, t, ttl, h4, h5⟩ := hI k e v hk
    exact ⟨h1, h2, h3, t, ttl, h4.trans h, h5⟩
  monoL h _ _ hL := ⟨fresh_mono h hL.1, hL.2⟩
  refl _ := trivial
  trans _ _ := trivial
  get _ hI _ := ⟨fun k e v hk => hI k e v (mem_getClone hk), trivial⟩
  clean _ _ h _ hI hL := ⟨fun k e v hk => by
    obtain ⟨h1, h2, h3, t, ttl, h4, h5⟩ := hI k e v (mem_clean hL.2.2 hk)
    exact ⟨h1, h2, h3, t, ttl, h4.trans h, h5⟩, trivial⟩
  set _ _ _ _ _ _ := trivial

theorem usual_friendly {lo : Nat} {env : Env} (hR : ∀ k, (usualTheory lo).R (env.clock k)) (h : (usualTheory lo).Meddles env) : Friendly env where
  good i c hc := by
    rcases h i c with h1 | h1 | h1
    · rw [h1]; exact hc
    · exact h1.1
    · exact absurd hc h1.1
  prompt i c hc := by
    rcases h (i + 1) c with h1 | h1 | h1
    · rw [h1]; exact hc
    · intro k e v hk
      have := h1.2.2.2.1 k e v hk
      have := (hR i).1
      omega
    · intro k e v hk
      rw [h1.2] at hk
      have h2 := bad_find_iff hk
      have h3 := (hR i).1
      have h4 := (hR (i + 1)).2
      omega

/-- Threads that look up names, in any order of steps, for less than 2³² seconds, with a good cache at the start, not too long
TTLs, and limits that are not 0. -/
structure Concurrent (S : Schedule) (net : Nat → List Event → Ip4 → List UInt8 → Option (List UInt8)) (p : Profile) (conf : Params) (fuel : Nat)
    (q : Nat → Name × RecordType) (c : RecordsCache) (lo n : Nat) : Prop where
  times : ∀ m, lo < S.time m ∧ S.time' m < lo + 2 ^ 32 * NANOS
  good : GoodCache (S.time 0) c
  distinct : c.Distinct
  expires : ExpiresBy lo c
  modest : ∀ m < n, Modest S lo m (System.after S net (.start p conf fuel q c) m)
  names : ∀ i, ValidName (q i).1.s ∧ (q i).2.isSupportedForQuestion = true
  nsq : conf.maxNsQueried ≠ 0
  retries : conf.maxUdpRetries ≠ 0

theorem good_fresh {t : Nat} {c : RecordsCache} (h : GoodCache t c) : Fresh t c := by
  intro k e v hk
  obtain ⟨-, -, -, t', ttl, h4, h5, rfl, -⟩ := h k e v hk
  have : ttl * NANOS ≤ (2 ^ 32 - 1) * NANOS := Nat.mul_le_mul_right _ (by omega)
  omega

/-- The setting of C90. -/
def Concurrent.setting {S : Schedule} {net : Nat → List Event → Ip4 → List UInt8 → Option (List UInt8)} {p : Profile} {conf : Params} {fuel : Nat}
    {q : Nat → Name × RecordType} {c : RecordsCache} {lo n : Nat} (h : Concurrent S net p conf fuel q c lo n) : (usualTheory lo).Setting Response where
  S := S
  net := net
  s := .start p conf fuel q c
  Post i o log := ∃ env w', env.net = net i ∧ Ready env conf (q i).1 (q i).2 ⟨c, 0, []⟩ ∧
    lookup env p conf fuel (q i).1 (q i).2 ⟨c, 0, []⟩ = (o, w') ∧ w'.log = log
  times m := ⟨⟨(h.times m).1, Nat.lt_of_le_of_lt (S.forward m).1 (h.times m).2⟩, ⟨Nat.lt_of_lt_of_le (h.times m).1 (S.forward m).1, (h.times m).2⟩⟩
  allowed := h.good
  logs _ := rfl
  single i env o w' hn hR hm hI hL hr := by
    have hready : Ready env conf (q i).1 (q i).2 ⟨c, 0, []⟩ := ⟨usual_friendly hR hm, hI, rfl, (h.names i).1, (h.names i).2, h.nsq, h.retries⟩
    have e : lookup env p conf fuel (q i).1 (q i).2 ⟨c, 0, []⟩ = (o, w') := by
      rw [← hr]
      exact (congrFun (lookupTask_is p conf fuel (q i).1 (q i).2 env) _).symm
    obtain ⟨o1, w1, new, e1, -, h1, -⟩ := lookup_tri (p := p) hready fuel
    rw [e] at e1
    injection e1 with e2 e3
    subst e3
    exact ⟨h1, env, w', hn, hready, e, rfl⟩

/-- C90: whatever the other threads and the servers do, and in whatever order, the cache stays good, and every lookup that has
ended has gone as a single lookup goes in a world in which its companions keep the cache good: all that is said of such
lookups (C55–C69) holds of it. -/
theorem C90_lookups_in_threads {S : Schedule} {net : Nat → List Event → Ip4 → List UInt8 → Option (List UInt8)} {p : Profile} {conf : Params} {fuel : Nat}
    {q : Nat → Name × RecordType} {c : RecordsCache} {lo n : Nat} (h : Concurrent S net p conf fuel q c lo n) :
    GoodCache (S.time n) (System.after S net (.start p conf fuel q c) n).cache ∧
    ∀ i o, ((System.after S net (.start p conf fuel q c) n).threads i).task = .done o →
      ∃ env w', env.net = net i ∧ Ready env conf (q i).1 (q i).2 ⟨c, 0, []⟩ ∧ lookup env p conf fuel (q i).1 (q i).2 ⟨c, 0, []⟩ = (o, w') ∧
        w'.log = ((System.after S net (.start p conf fuel q c) n).threads i).log := by
  have hL : ∀ m ≤ n, (usualTheory lo).L (S.time m) (h.setting.after m).cache := fun m hm =>
    limited_after ⟨good_fresh h.good, h.expires, h.distinct⟩ m fun k hk => h.modest k (by omega)
  exact ⟨(h.setting.all n hL).1, fun i o ho => h.setting.result n hL ho⟩

/-- In particular a thread panics only if it received a datagram on which the decoder panics, or if a server answered its query
for the address of a server with NXDOMAIN and the AA flag. -/
theorem C90_panics {S : Schedule} {net : Nat → List Event → Ip4 → List UInt8 → Option (List UInt8)} {p : Profile} {conf : Params} {fuel : Nat}
    {q : Nat → Name × RecordType} {c : RecordsCache} {lo n : Nat} (h : Concurrent S net p conf fuel q c lo n) (i : Nat) (k : Panic)
    (hd : ((System.after S net (.start p conf fuel q c) n).threads i).task = .done (.panic k)) :
    PoisonedBy p ((System.after S net (.start p conf fuel q c) n).threads i).log ∨
    AddrDenied p ((System.after S net (.start p conf fuel q c) n).threads i).log := by
  obtain ⟨env, w', -, h1, h2, h3⟩ := (C90_lookups_in_threads h).2 i _ hd
  have := C64_panics_partial env p conf fuel (q i).1 (q i).2 _ h1 (by rw [h2]; trivial)
  rw [h2] at this
  rw [← h3]
  exact this

/-- And a response consists of CNAME records that lead from the queried name to another, and of records of that name, of the
queried type (but for the owners of NS records). -/
theorem C90_answers {S : Schedule} {net : Nat → List Event → Ip4 → List UInt8 → Option (List UInt8)} {p : Profile} {conf : Params} {fuel : Nat}
    {q : Nat → Name × RecordType} {c : RecordsCache} {lo n : Nat} (h : Concurrent S net p conf fuel q c lo n) (i : Nat) (r : Response)
    (hd : ((System.after S net (.start p conf fuel q c) n).threads i).task = .done (.ok r)) :
    ∃ chain final recs, r.answers = chain ++ recs ∧ Aliases (q i).1 chain final ∧ chain.length < conf.maxCnameRedir ∧
      (∀ x ∈ recs, x.recordType = (q i).2 ∧ ((q i).2 ≠ .NS → x.node = final)) ∧ (r.noRecords = false → recs ≠ []) := by
  obtain ⟨env, w', -, h1, h2, h3⟩ := (C90_lookups_in_threads h).2 i _ hd
  obtain ⟨chain, final, recs, h4, h5, h6, -, h8, h9, -⟩ := C59_chain_partial env p conf fuel (q i).1 (q i).2 _ _ r h1 h2
  exact ⟨chain, final, recs, h4, h5, h6, h8, h9⟩

/-- And a thread that is given one turn after another ends, with enough fuel (independent of everything) in other ways than that
the decoder never returns: that it does only in release builds, for a WKS record with a port bit (C60). -/
theorem C90_ends : ∃ N, ∀ {S : Schedule} {net : Nat → List Event → Ip4 → List UInt8 → Option (List UInt8)} {p : Profile} {conf : Params} {fuel : Nat}
    {q : Nat → Name × RecordType} {c : RecordsCache} {lo : Nat}, (∀ n, Concurrent S net p conf fuel q c lo n) → N ≤ fuel → ∀ i, Fair S i →
    ∃ n o, ((System.after S net (.start p conf fuel q c) n).threads i).task = .done o ∧
      (o = .diverge → p = .release ∧ ∃ addr query reply r,
        .exchange addr query (some reply) ∈ ((System.after S net (.start p conf fuel q c) n).threads i).log ∧
        Reached p (reply.take 512) r ∧ WksBit p (reply.take 512) r) := by
  obtain ⟨N, hN⟩ := C60_terminates_partial
  refine ⟨N, fun {S net p conf fuel q c lo} h hf i hi => ?_⟩
  obtain ⟨n, o, ho⟩ := System.finishes (net := net) (s := .start p conf fuel q c) hi
  refine ⟨n, o, ho, fun hd => ?_⟩
  subst hd
  obtain ⟨env, w', -, h1, h2, h3⟩ := (C90_lookups_in_threads (h n)).2 i _ ho
  obtain ⟨h4, addr, query, reply, r, h5, h6⟩ := hN env p conf _ _ _ h1 fuel hf (by rw [h2])
  rw [h2] at h5
  rw [← h3]
  exact ⟨h4, addr, query, reply, r, h5, h6⟩

/-! ## C91 -/

/-- What the cache is like in a world of honest servers; `B`: no response is truncated. -/
def honestTheory (U : Facts) (B : Prop) : Theory where
  I _ c := FactualCache U c ∧ (B → WholeCache U c)
  L _ c := c.Distinct
  K _ _ := True
  R _ := True
  k₁ := (⟨['a', '.']⟩, .A)
  k₂ := (⟨['b', '.']⟩, .A)
  junk := junkRecords
  apart := by decide
  spoils _ _ h hI := by
    rcases h with h | h
    · exact absurd ((hI.1 _ _ _ h _ (List.mem_singleton.2 rfl)).2 (by decide)).2 (by decide)
    · exact absurd ((hI.1 _ _ _ h _ (List.mem_singleton.2 rfl)).2 (by decide)).2 (by decide)
  monoI _ _ _ hI := hI
  monoL _ _ _ hL := hL
  refl _ := trivial
  trans _ _ := trivial
  get _ hI _ := ⟨⟨fun k e v hk => hI.1 k e v (mem_getClone hk), fun hB k e v hk => hI.2 hB k e v (mem_getClone hk)⟩, trivial⟩
  clean _ _ _ _ hI hL := ⟨⟨fun k e v hk => hI.1 k e v (mem_clean hL hk), fun hB k e v hk => hI.2 hB k e v (mem_clean hL hk)⟩, trivial⟩
  set _ _ _ _ _ _ := trivial

theorem honest_others {U : Facts} {B : Prop} {env : Env} (h : (honestTheory U B).Meddles env) (i : Nat) (c : RecordsCache)
    (hc : FactualCache U c ∧ (B → WholeCache U c)) : FactualCache U (env.others i c) ∧ (B → WholeCache U (env.others i c)) := by
  rcases h i c with h1 | h1 | h1
  · rw [h1]; exact hc
  · exact h1.1
  · exact absurd hc h1.1

/-- The response is nothing but facts: CNAME records that lead from the queried name to a final one, and records of that name and
type (but for the owners of NS records), or that there are none; if `B`, then all of its records of the type (but for NS). -/
def TellsFacts (U : Facts) (B : Prop) (q : Name × RecordType) (r : Response) : Prop :=
  (∀ x ∈ r.answers ++ r.authorities ++ r.additionals, Factual U x) ∧
  ∃ chain final recs, r.answers = chain ++ recs ∧ Aliases q.1 chain final ∧
    (q.2 ≠ .NS → ∀ x ∈ recs, x.node = final ∧ x.recordType = q.2) ∧
    (r.noRecords = true → recs = [] ∧ ∀ t, U final t = []) ∧
    (r.noRecords = false → recs ≠ [] ∧ (B → q.2 ≠ .NS → HasAll U final q.2 recs))

/-- C91: threads that look up names with honest servers, in any order of steps: no response is a lie, nor is anything in the
cache; and if no response of a server is truncated, all responses are complete (but for NS records, see C82). -/
theorem C91_facts_in_threads (U : Facts) (B : Prop) (S : Schedule) (net : Nat → List Event → Ip4 → List UInt8 → Option (List UInt8)) (p : Profile)
    (conf : Params) (fuel : Nat) (q : Nat → Name × RecordType) (c : RecordsCache) (n : Nat) (hu : B → ∀ m, (U m .CNAME).length ≤ 1)
    (hon : ∀ i env, env.net = net i → HonestWorld U env p) (hnt : B → ∀ i env, env.net = net i → NeverTruncated env p)
    (hd : c.Distinct) (hc : FactualCache U c) (hw : B → WholeCache U c) :
    FactualCache U (System.after S net (.start p conf fuel q c) n).cache ∧ (B → WholeCache U (System.after S net (.start p conf fuel q c) n).cache) ∧
    ∀ i r, ((System.after S net (.start p conf fuel q c) n).threads i).task = .done (.ok r) → TellsFacts U B (q i) r := by
  let A : (honestTheory U B).Setting Response := {
    S := S, net := net, s := .start p conf fuel q c
    Post := fun i o _ => ∀ r, o = .ok r → TellsFacts U B (q i) r
    times := fun _ => ⟨trivial, trivial⟩
    allowed := ⟨hc, hw⟩
    logs := fun _ => rfl
    single := by
      intro i env o w' hn _ hm hI _ hr
      have e : lookup env p conf fuel (q i).1 (q i).2 ⟨c, 0, []⟩ = (o, w') := by
        rw [← hr]
        exact (congrFun (lookupTask_is p conf fuel (q i).1 (q i).2 env) _).symm
      have ha : Around U B env p := ⟨hu, hon i env hn, fun hB => hnt hB i env hn, honest_others hm⟩
      obtain ⟨h1, h2⟩ := perform_keeps ha fuel ⟨(q i).1, (q i).2, [], [], conf⟩ (by simp) ⟨c, 0, []⟩ ⟨hc, hw⟩
      have e' : perform env p fuel ⟨(q i).1, (q i).2, [], [], conf⟩ ⟨c, 0, []⟩ = (o, w') := e
      rw [e'] at h1 h2
      refine ⟨h1, fun r hr => ?_⟩
      obtain ⟨h3, chain, final, recs, h4, h5, h6, h7, h8⟩ := h2 r hr
      exact ⟨h3, chain, final, recs, by simpa using h4, h5, h6, h7, h8⟩ }
  have hL : ∀ m ≤ n, (honestTheory U B).L (S.time m) (A.after m).cache := fun m _ => distinct_after hd m
  have h1 := (A.all n hL).1
  exact ⟨h1.1, h1.2, fun i r hr => A.result n hL hr r rfl⟩

/-! ## C92 -/

theorem clean_living {stop : Nat} {c : RecordsCache} (hd : c.Distinct) {r : Name × RecordType → Nat} (hr : ∀ key, r key ≤ stop) {key : Name × RecordType}
    (h : Alive stop c key) : Alive stop (c.clean r) key := by
  obtain ⟨e, rs, hf, he⟩ := h
  refine ⟨e, rs, ?_, he⟩
  rw [Cache.find_clean hd, hf]
  have := hr key
  exact Option.filter_eq_some_iff.2 ⟨rfl, decide_eq_true (by show r key < e; omega)⟩

theorem clean_coherent {N : NameSpace} {start stop : Nat} {c : RecordsCache} (hd : c.Distinct) {r : Name × RecordType → Nat}
    (hr : ∀ key, r key ≤ stop) (h : N.Coherent start stop c) : N.Coherent start stop (c.clean r) where
  uniform hf := h.uniform (mem_clean hd hf)
  answers ha hf := h.answers ha (mem_clean hd hf)
  aliases ha hf := h.aliases ha (mem_clean hd hf)
  hosts ha hf := h.hosts ha (mem_clean hd hf)
  zones ha hu hf hs := by
    obtain ⟨h1, h2, h3, h4, h5⟩ := h.zones ha hu (mem_clean hd hf) hs
    exact ⟨h1, h2, h3, h4, fun t ht' => (h5 t ht').imp_left (clean_living hd hr)⟩

/-- What the cache is like with lookups in a name space that is in order. -/
def orderTheory (N : NameSpace) (start stop : Nat) : Theory where
  I _ c := N.Coherent start stop c
  L t c := Limited start t c
  K c c' := ∀ t z, t ∈ N.nameservers z → Alive stop c (t, .A) → Alive stop c' (t, .A)
  R t := start < t ∧ t ≤ stop
  k₁ := (⟨['a', '.']⟩, .A)
  k₂ := (⟨['b', '.']⟩, .A)
  junk := junkRecords
  apart := by decide
  spoils hR ht h hI := by
    rcases h with h | h
    · exact absurd ((hI.uniform h (Nat.lt_trans hR.1 ht)).1 _ (List.mem_singleton.2 rfl)) (by decide)
    · exact absurd ((hI.uniform h (Nat.lt_trans hR.1 ht)).1 _ (List.mem_singleton.2 rfl)) (by decide)
  monoI _ _ _ hI := hI
  monoL h _ _ hL := ⟨fresh_mono h hL.1, hL.2⟩
  refl _ := fun _ _ _ h => h
  trans h h' := fun t z ht ha => h' t z ht (h t z ht ha)
  get hR hI _ := ⟨getClone_coherent hR.2 hI, fun _ _ _ ha => getClone_living hR.2 ha⟩
  clean _ hR _ hr hI hL := ⟨clean_coherent hL.2.2 (fun key => (hr key).2.trans hR.2) hI, fun _ _ _ ha => clean_living hL.2.2 (fun key => (hr key).2.trans hR.2) ha⟩
  set {t t' c key ttl records} hR _ _ _ _ hI' := fun host z hz ha => by
    by_cases hk : key = (host, .A)
    · have hf : (c.set key ttl records t t').1.find (host, .A) = some (t + ttl, records) := by
        rw [find_set, Cache.find_put, if_pos hk]
      exact ⟨_, _, hf, (hI'.hosts hz hf (by have := hR.1; omega)).1⟩
    · obtain ⟨e, rs, hf, he⟩ := ha
      exact ⟨e, rs, by rw [find_set, Cache.find_put, if_neg hk]; exact hf, he⟩

theorem order_companions {N : NameSpace} {start stop : Nat} (hp : stop < start + 2 ^ 32 * NANOS) {env : Env}
    (hR : ∀ k, (orderTheory N start stop).R (env.clock k)) (h : (orderTheory N start stop).Meddles env) : N.Companions env start stop where
  coherent i c hc := by
    rcases h i c with h1 | h1 | h1
    · rw [h1]; exact hc
    · exact h1.1
    · exact absurd hc h1.1
  alive i c t z hz hc ha := by
    rcases h i c with h1 | h1 | h1
    · rw [h1]; exact ha
    · exact h1.2.1 t z hz ha
    · exact absurd hc h1.1
  fresh i c hc := by
    rcases h i c with h1 | h1 | h1
    · rw [h1]; exact hc
    · exact h1.2.2.1
    · intro k e v hk
      rw [h1.2] at hk
      have h2 := bad_find_iff hk
      have h3 : 1 ≤ (2 ^ 32 - 1) * NANOS := by decide
      omega
  prompt i c hc := by
    rcases h (i + 1) c with h1 | h1 | h1
    · rw [h1]; exact hc
    · intro k e v hk
      have := h1.2.2.2.1 k e v hk
      have := (hR i).1
      omega
    · intro k e v hk
      rw [h1.2] at hk
      have h2 := bad_find_iff hk
      have h3 := (hR i).1
      have h4 := (hR (i + 1)).2
      omega

/-- Threads that look up names of a name space that is in order, in any order of steps, for a period of time shorter than the
TTLs of NS records and of server addresses, with a cache that is in order at the start. -/
structure InOrderThreads (N : NameSpace) (S : Schedule) (net : Nat → List Event → Ip4 → List UInt8 → Option (List UInt8)) (p : Profile) (conf : Params)
    (fuel : Nat) (q : Nat → Name × RecordType) (c : RecordsCache) (start stop : Nat) (n : Nat) : Prop where
  times : ∀ m, start < S.time m ∧ S.time' m ≤ stop
  period : stop < start + 2 ^ 32 * NANOS
  run : ∀ i env, env.net = net i → N.WellRun env p conf.maxUdpRetries conf.maxNsQueried (stop - start)
  follow : conf.noFollowCname = false
  retries : conf.maxUdpRetries ≠ 0
  enough : 256 + N.depth < fuel
  coherent : N.Coherent start stop c
  distinct : c.Distinct
  fresh : Fresh (S.time 0) c
  expires : ExpiresBy start c
  modest : ∀ m < n, Modest S start m (System.after S net (.start p conf fuel q c) m)
  questions : ∀ i, Resolvable N conf.maxCnameRedir (q i)

/-- C92: the cache stays in order, and every lookup that has ended has returned what the servers say. -/
theorem C92_all_resolved {N : NameSpace} {S : Schedule} {net : Nat → List Event → Ip4 → List UInt8 → Option (List UInt8)} {p : Profile} {conf : Params}
    {fuel : Nat} {q : Nat → Name × RecordType} {c : RecordsCache} {start stop n : Nat} (h : InOrderThreads N S net p conf fuel q c start stop n) :
    N.Coherent start stop (System.after S net (.start p conf fuel q c) n).cache ∧
    ∀ i o, ((System.after S net (.start p conf fuel q c) n).threads i).task = .done o → Resolved N (q i) o := by
  let A : (orderTheory N start stop).Setting Response := {
    S := S, net := net, s := .start p conf fuel q c
    Post := fun i o _ => Resolved N (q i) o
    times := fun m => ⟨⟨(h.times m).1, (S.forward m).1.trans (h.times m).2⟩, ⟨Nat.lt_of_lt_of_le (h.times m).1 (S.forward m).1, (h.times m).2⟩⟩
    allowed := h.coherent
    logs := fun _ => rfl
    single := by
      intro i env o w' hn hR hm hI hL hr
      have e : lookup env p conf fuel (q i).1 (q i).2 ⟨c, 0, []⟩ = (o, w') := by
        rw [← hr]
        exact (congrFun (lookupTask_is p conf fuel (q i).1 (q i).2 env) _).symm
      have ho : InOrder N env p conf start stop 0 :=
        ⟨fun k _ => ⟨Nat.le_of_lt (hR k).1, (hR k).2⟩, h.run i env hn, order_companions h.period hR hm, h.follow, h.retries⟩
      obtain ⟨ha, cs, f, h1, h2⟩ := h.questions i
      obtain ⟨r, w1, e1, hr1, -, hc1, -⟩ := C88_partial N env p conf start stop ⟨c, 0, []⟩ (q i).1 (q i).2 cs f fuel ho hI hL.1 ha h1 h2 h.enough
      rw [e] at e1
      injection e1 with e2 e3
      subst e2 e3
      exact ⟨hc1, r, cs, f, rfl, h1, hr1⟩ }
  have hL : ∀ m ≤ n, (orderTheory N start stop).L (S.time m) (A.after m).cache := fun m hm =>
    limited_after ⟨h.fresh, h.expires, h.distinct⟩ m fun k hk => h.modest k (by omega)
  exact ⟨(A.all n hL).1, fun i o ho => A.result n hL ho⟩

/-- C92: and every lookup that is given one turn after another ends. -/
theorem C92_all_answered {N : NameSpace} {S : Schedule} {net : Nat → List Event → Ip4 → List UInt8 → Option (List UInt8)} {p : Profile} {conf : Params}
    {fuel : Nat} {q : Nat → Name × RecordType} {c : RecordsCache} {start stop : Nat} (h : ∀ n, InOrderThreads N S net p conf fuel q c start stop n)
    (i : Nat) (hi : Fair S i) :
    ∃ n o, ((System.after S net (.start p conf fuel q c) n).threads i).task = .done o ∧ Resolved N (q i) o := by
  obtain ⟨n, o, ho⟩ := System.finishes (net := net) (s := .start p conf fuel q c) hi
  exact ⟨n, o, ho, (C92_all_resolved (h n)).2 i o ho⟩

/-! ## Examples

Two threads that look up names of `orderSpace` in turns, from time to time interrupted by the cleaner. -/

theorem respondsWithin_congr {env env' : Env} (h : env'.net = env.net) {p : Profile} {n : Name} {k : RecordType} {P : Message → Prop} {a : Ip4} :
    ∀ (t : Nat) (hist : List Event), RespondsWithin env p n k P a t hist → RespondsWithin env' p n k P a t hist
  | 0, _, hr => hr
  | t + 1, hist, hr => by
    intro id q hq
    rw [h]
    exact (hr id q hq).imp_right fun hx => ⟨hx.1, respondsWithin_congr h t _ hx.2⟩

theorem served_congr {env env' : Env} (h : env'.net = env.net) {p : Profile} {m : Name} {k : RecordType} {t n : Nat} {P : Message → Prop}
    {l : List (List Ip4)} (hs : Served env p m k t n P l) : Served env' p m k t n P l := by
  obtain ⟨u, h1, h2, h3, h4⟩ := hs
  refine ⟨u, h1, fun s hs a ha => ⟨fun hu hist => respondsWithin_congr h _ _ ((h2 s hs a ha).1 hu hist), fun hd hist id q reply hq hn => ?_⟩, h3, h4⟩
  rw [h] at hn
  exact (h2 s hs a ha).2 hd hist id q reply hq hn

/-- Whether a name space is in order depends on the servers only. -/
theorem wellRun_congr {N : NameSpace} {env env' : Env} (h : env'.net = env.net) {p : Profile} {t n d : Nat} (hw : N.WellRun env p t n d) :
    N.WellRun env' p t n d :=
  ⟨hw.names, hw.found, hw.aliases, hw.uniform, hw.hosts, hw.agree, hw.ranks, fun ha => served_congr h (hw.root ha),
    fun ha hz hu => served_congr h (hw.zones ha hz hu)⟩

/-- The time of each event: five seconds at most. -/
def turnTime (n : Nat) : Nat := min (n + 1) span

/-- The two threads and the cleaner in turns. -/
def turns : Schedule where
  move n := if n % 8 = 7 then .clean (fun _ => turnTime n) else .step (n % 2)
  time := turnTime
  time' := turnTime
  id n := UInt16.ofNat n
  forward n := by unfold turnTime; omega
  readings n r h key := by
    split at h
    · injection h with h
      subst h
      exact ⟨Nat.le_refl _, Nat.le_refl _⟩
    · cases h

/-- What they look up. -/
def turnQuestions (i : Nat) : Name × RecordType := if i = 0 then (nA, .A) else (nB, .A)

/-- The system after so many steps. -/
def turnSystem (n : Nat) : System Response :=
  System.after turns (fun _ _ a q => orderNet a q) (.start .release ⟨2, 3, 2, false⟩ 259 turnQuestions .empty) n

/-- What a finished thread returned. -/
def doneWith : Resolver.Task Response → Option (List Record)
  | .done (.ok r) => some r.answers
  | _ => none

/-- Whether the step is modest. -/
def modestNow (S : Schedule) (lo m : Nat) (s : System α) : Bool := match S.move m with
  | .clean _ => true
  | .step i => match (s.threads i).task with
    | .set _ ttl _ _ => decide (S.time m + ttl.toNat * NANOS < lo + 2 ^ 32 * NANOS)
    | _ => true

theorem modest_of_now {S : Schedule} {lo m : Nat} {s : System α} (h : modestNow S lo m s = true) : Modest S lo m s := by
  intro i key ttl records k hm ht
  unfold modestNow at h
  rw [hm] at h
  dsimp only at h
  rw [ht] at h
  exact of_decide_eq_true h

theorem done_stays {S : Schedule} {net : Nat → List Event → Ip4 → List UInt8 → Option (List UInt8)} {s : System α} {i n : Nat} {o : Out LookupErr α}
    (h : ((System.after S net s n).threads i).task = .done o) : ∀ d, ((System.after S net s (n + d)).threads i).task = .done o
  | 0 => h
  | d + 1 => by
    have ih := done_stays h d
    show ((System.next S net (n + d) (System.after S net s (n + d))).threads i).task = _
    unfold System.next
    cases S.move (n + d) with
    | clean r => exact ih
    | step j =>
      dsimp only
      split
      · rename_i hj
        subst hj
        unfold Thread.step
        rw [ih]
        exact ih
      · exact ih

theorem doneWith_some {t : Resolver.Task Response} {l : List Record} (h : doneWith t = some l) : ∃ r, t = .done (.ok r) ∧ r.answers = l := by
  unfold doneWith at h
  split at h
  · injection h with h
    exact ⟨_, rfl, h⟩
  · cases h

set_option maxRecDepth 100000 in
theorem turns_modest_first : ∀ m < 168, modestNow turns 0 m (turnSystem m) = true := by
  have : (List.range 168).all (fun m => modestNow turns 0 m (turnSystem m)) = true := by decide +kernel
  exact fun m hm => List.all_eq_true.1 this m (List.mem_range.2 hm)

set_option maxRecDepth 100000 in
theorem turns_done : doneWith ((turnSystem 168).threads 0).task = some [addrRecord nA ⟨5, 6, 7, 8⟩] ∧
    doneWith ((turnSystem 168).threads 1).task = some [⟨nB, .IN, 9, 7, .CNAME nA⟩, { addrRecord nA ⟨5, 6, 7, 8⟩ with ttl := 8 }] := by decide +kernel

theorem turns_modest (m : Nat) : Modest turns 0 m (turnSystem m) := by
  by_cases hm : m < 168
  · exact modest_of_now (turns_modest_first m hm)
  · intro i key ttl records k hmv ht
    exfalso
    have hi : i = 0 ∨ i = 1 := by
      have hmv' : (if m % 8 = 7 then Move.clean (fun _ => turnTime m) else Move.step (m % 2)) = .step i := hmv
      split at hmv'
      · cases hmv'
      · injection hmv' with h
        omega
    obtain ⟨d, rfl⟩ := Nat.le.dest (Nat.le_of_not_lt hm)
    obtain ⟨r0, h0, -⟩ := doneWith_some turns_done.1
    obtain ⟨r1, h1, -⟩ := doneWith_some turns_done.2
    rcases hi with rfl | rfl
    · have := done_stays h0 d
      exact Resolver.Task.noConfusion rfl (heq_of_eq (this.symm.trans ht))
    · have := done_stays h1 d
      exact Resolver.Task.noConfusion rfl (heq_of_eq (this.symm.trans ht))

theorem turns_fair {i : Nat} (hi : i = 0 ∨ i = 1) : Fair turns i := by
  intro n
  refine ⟨8 * n + i, by omega, ?_⟩
  show (if (8 * n + i) % 8 = 7 then Move.clean _ else Move.step ((8 * n + i) % 2)) = _
  rw [if_neg (by omega), show (8 * n + i) % 2 = i by omega]

theorem turns_times (m : Nat) : 0 < turns.time m ∧ turns.time' m ≤ span := by
  show 0 < turnTime m ∧ turnTime m ≤ span
  unfold turnTime
  have : 0 < span := by decide
  omega

theorem empty_limited (lo t : Nat) : Limited lo t .empty := ⟨(fun _ _ _ h => nomatch h), (fun _ _ _ h => nomatch h), Cache.distinct_empty⟩

/-- The hypotheses of C90 are met. -/
theorem turns_concurrent (n : Nat) : Concurrent turns (fun _ _ a q => orderNet a q) .release ⟨2, 3, 2, false⟩ 259 turnQuestions .empty 0 n where
  times m := ⟨(turns_times m).1, Nat.lt_of_le_of_lt (turns_times m).2 (by decide)⟩
  good := fun _ _ _ h => nomatch h
  distinct := Cache.distinct_empty
  expires := fun _ _ _ h => nomatch h
  modest m _ := turns_modest m
  names i := by
    unfold turnQuestions
    split
    · exact ⟨⟨by decide, _, nA_encodable.2.choose_spec.1⟩, rfl⟩
    · exact ⟨⟨by decide, _, nB_encodable.2.choose_spec.1⟩, rfl⟩
  nsq := by decide
  retries := by decide

/-- The hypotheses of C92 are met. -/
theorem turns_inOrder (n : Nat) :
    InOrderThreads orderSpace turns (fun _ _ a q => orderNet a q) .release ⟨2, 3, 2, false⟩ 259 turnQuestions .empty 0 span n where
  times := turns_times
  period := by decide
  run i env h := wellRun_congr (env := orderEnv) h (order_wellRun .release)
  follow := rfl
  retries := by decide
  enough := by decide
  coherent := empty_coherent ..
  distinct := Cache.distinct_empty
  fresh := (empty_limited 0 _).1
  expires := (empty_limited 0 0).2.1
  modest m _ := turns_modest m
  questions i := by
    unfold turnQuestions
    split
    · exact ⟨⟨rfl, .inl rfl⟩, _, _, .last (order_fateA _) (by simp), by decide⟩
    · exact ⟨⟨rfl, .inr (.inl rfl)⟩, _, _, .follow (order_fateB _) rfl (.last (order_fateA _) (by simp)), by decide⟩

/-- Both threads are done after 168 steps; the second has found in the cache what the first has put there. -/
example : (∃ r, ((turnSystem 168).threads 0).task = .done (.ok r) ∧ r.answers = [addrRecord nA ⟨5, 6, 7, 8⟩]) ∧
    (∃ r, ((turnSystem 168).threads 1).task = .done (.ok r) ∧
      r.answers = [⟨nB, .IN, 9, 7, .CNAME nA⟩, { addrRecord nA ⟨5, 6, 7, 8⟩ with ttl := 8 }]) ∧
    ∀ i, i = 0 ∨ i = 1 → ∃ n o, ((turnSystem n).threads i).task = .done o ∧ Resolved orderSpace (turnQuestions i) o :=
  ⟨doneWith_some turns_done.1, doneWith_some turns_done.2, fun i hi => C92_all_answered turns_inOrder i (turns_fair hi)⟩

/-- The same order of events, with the ids of `smallEnv`. -/
def sevens : Schedule := { turns with id := fun _ => 7 }

/-- Two threads with honest servers. -/
def honestSystem (n : Nat) : System Response :=
  System.after sevens (fun _ => smallEnv.net)
    (.start .release ⟨1, 1, 3, false⟩ 5 (fun i => if i = 0 then (⟨"w.b.".toList⟩, .A) else (⟨"h.b.".toList⟩, .A)) .empty) n

set_option maxRecDepth 100000 in
/-- The hypotheses of C91 are met by threads with honest servers. -/
example : (∀ i n r, ((honestSystem n).threads i).task = .done (.ok r) →
      TellsFacts smallZone True (if i = 0 then (⟨"w.b.".toList⟩, .A) else (⟨"h.b.".toList⟩, .A)) r) ∧
    doneWith ((honestSystem 80).threads 0).task = some [⟨⟨"w.b.".toList⟩, .IN, 9, 5, .CNAME ⟨"h.b.".toList⟩⟩,
      ⟨⟨"h.b.".toList⟩, .IN, 9, 4, .A ⟨5, 6, 7, 8⟩⟩, ⟨⟨"h.b.".toList⟩, .IN, 9, 4, .A ⟨5, 6, 7, 9⟩⟩] :=
  ⟨fun i n r h => (C91_facts_in_threads smallZone True sevens (fun _ => smallEnv.net) .release ⟨1, 1, 3, false⟩ 5
      (fun i => if i = 0 then (⟨"w.b.".toList⟩, .A) else (⟨"h.b.".toList⟩, .A)) .empty n (fun _ => small_cname)
      (fun _ env he => by unfold HonestWorld; rw [he]; exact small_honest .release)
      (fun _ _ env he => by unfold NeverTruncated; rw [he]; exact small_whole .release)
      Cache.distinct_empty (fun _ _ _ hf => (by cases hf)) (fun _ _ _ _ hf => (by cases hf))).2.2 i r h, by decide +kernel⟩

end Ariadne.Props
