import Verif.Lemmas.KernelRfl
import Verif.Props.Referrals
import Verif.Lemmas.DecodeHalts
import Verif.Lemmas.Fuel

/-!
# C59, C60, C63, C64, C66, C69: whole lookups

The other threads are assumed to be `Friendly`; `friendly_of_calls` at the end shows that threads that only do what lookups
and the cleaner do with the cache are.
-/

namespace Ariadne.Props

open Spec Resolver

theorem lookup_tri {env : Env} {p : Profile} {conf : Params} {node : Name} {kind : RecordType} {w : World}
    (h : Ready env conf node kind w) (fuel : Nat) :
    Tri env (lkRules p [] conf.noFollowCname node kind (fuel < validCount + 258)) w (lookup env p conf fuel node kind)
      (fun r w' => Result p ⟨node, kind, [], [], conf⟩ conf.maxCnameRedir r w'.log) := by
  have hlk : LkOk ⟨node, kind, [], [], conf⟩ :=
    ⟨h.node, h.kind, List.nodup_nil, by simp, by simp, List.Pairwise.nil, h.nsq, h.retries⟩
  exact perform_tri h.friendly fuel hlk h.cache

/-- The environment in which the answer to query number `k` is `replies k`. -/
def scripted (replies : Nat → Option (List UInt8)) : Env where
  clock n := n
  mono _ _ h := h
  others _ c := c
  ids _ := 7
  net log _ _ := replies (log.countP fun e => match e with
    | .exchange _ _ _ => true
    | _ => false)

theorem scripted_friendly (replies : Nat → Option (List UInt8)) : Friendly (scripted replies) where
  good _ _ h := h
  prompt _ _ h := h

/-- A response with id 7. -/
def response (code : RespCode) (aa : Bool) (answers authorities additionals : List Record) : Option (List UInt8) :=
  datagram ⟨⟨7, true, .STD, aa, false, false, false, 0, code, 0, UInt16.ofNat answers.length, UInt16.ofNat authorities.length,
    UInt16.ofNat additionals.length⟩, [], answers, authorities, additionals⟩

theorem ready_scripted (replies : Nat → Option (List UInt8)) {conf : Params} {node : Name} {kind : RecordType}
    (hn : Name.validateName node.s = .ok ()) (hk : kind.isSupportedForQuestion = true) (h1 : conf.maxNsQueried ≠ 0)
    (h2 : conf.maxUdpRetries ≠ 0) : Ready (scripted replies) conf node kind ⟨.empty, 0, []⟩ where
  friendly := scripted_friendly replies
  cache := by intro k e r hf; cases hf
  log := rfl
  node := (validateName_iff _).1 hn
  kind := hk
  nsq := h1
  retries := h2

/-! ## C59 -/

/-- The full statement of C59: a successful lookup returns a chain of CNAME records, without cycles and shorter than the
configured limit, that leads from the queried name to a final name, and then records of the queried type owned by that. -/
def C59_statement : Prop :=
  ∀ (env : Env) (p : Profile) (conf : Params) (fuel : Nat) (node : Name) (kind : RecordType) (w w' : World) (r : Response),
    Ready env conf node kind w → lookup env p conf fuel node kind w = (.ok r, w') →
    ∃ chain final recs, r.answers = chain ++ recs ∧ Aliases node chain final ∧ chain.length < conf.maxCnameRedir ∧
      (chain.map Record.node ++ [final]).Nodup ∧ ∀ x ∈ recs, x.recordType = kind ∧ x.node = final

/-- No cycle except that a CNAME record may point to its own owner. -/
theorem noWayBack_nodup {n m : Name} {cs : List Record} (h : Aliases n cs m) (hw : NoWayBack cs)
    (hs : ∀ c ∈ cs, c.data ≠ .CNAME c.node) : (cs.map Record.node ++ [m]).Nodup := by
  -- the owners are the name itself and the targets but the last; the targets are not owners of earlier ones
  have key : ∀ {n m : Name} {cs : List Record}, Aliases n cs m → ∀ x : Name, (∀ c ∈ cs, c.data ≠ .CNAME x) → x ≠ n →
      x ∉ cs.map Record.node ++ [m] := by
    intro n m cs h
    induction h with
    | nil => intro x _ hx; simpa using hx
    | cons h1 h2 _ ih =>
      intro x hx hn hm
      rw [List.map_cons, List.cons_append, List.mem_cons] at hm
      rcases hm with rfl | hm
      · exact hn h1
      · refine ih x (fun c hc => hx c (by simp [hc])) ?_ hm
        rintro rfl
        exact hx _ (by simp) h2
  induction h with
  | nil => simp
  | @cons n t m c cs h1 h2 h3 ih =>
    unfold NoWayBack at hw
    rw [List.pairwise_cons] at hw
    rw [List.map_cons, List.cons_append, List.nodup_cons]
    refine ⟨key h3 _ hw.1 ?_, ih hw.2 fun d hd => hs d (by simp [hd])⟩
    rintro rfl
    exact hs c (by simp) h2

/-- C59, part: the statement except that a CNAME record that points to its own owner is not always recognised, and that NS
records may have other owners. -/
theorem C59_chain_partial (env : Env) (p : Profile) (conf : Params) (fuel : Nat) (node : Name) (kind : RecordType) (w w' : World)
    (r : Response) (h : Ready env conf node kind w) (hr : lookup env p conf fuel node kind w = (.ok r, w')) :
    ∃ chain final recs, r.answers = chain ++ recs ∧ Aliases node chain final ∧ chain.length < conf.maxCnameRedir ∧
      ((∀ c ∈ chain, c.data ≠ .CNAME c.node) → (chain.map Record.node ++ [final]).Nodup) ∧
      (∀ x ∈ recs, x.recordType = kind ∧ (kind ≠ .NS → x.node = final)) ∧ (r.noRecords = false → recs ≠ []) ∧
      (conf.noFollowCname = true → chain = []) := by
  obtain ⟨o, w1, new, e, -, -, -, hq⟩ := lookup_tri (p := p) h fuel
  rw [hr] at e
  cases e
  obtain ⟨chain, final, recs, h1, h2, h3, h4, h5, -, h7, h8, -⟩ := hq
  exact ⟨chain, final, recs, h1, h2, h3, noWayBack_nodup h2 h5, h7, h8, h4⟩

/-- The answers of a lookup. -/
def answersOf : Out LookupErr Response → Option (List Record)
  | .ok r => some r.answers
  | _ => none

/-- A chain of two CNAME records, the second of them from another server. -/
def chainEnv : Env := scripted fun k => match k with
  | 0 => response .NoError true [⟨⟨"a.com.".toList⟩, .IN, 9, 8, .CNAME ⟨"b.com.".toList⟩⟩] [] []
  | 1 => response .NoError true [⟨⟨"b.com.".toList⟩, .IN, 9, 8, .CNAME ⟨"c.org.".toList⟩⟩] [] []
  | _ => response .NoError true [⟨⟨"c.org.".toList⟩, .IN, 9, 4, .A ⟨1, 2, 3, 4⟩⟩] [] []

example : answersOf (lookup chainEnv .debug ⟨1, 1, 3, false⟩ 5 ⟨"a.com.".toList⟩ .A ⟨.empty, 0, []⟩).1 =
    some [⟨⟨"a.com.".toList⟩, .IN, 9, 7, .CNAME ⟨"b.com.".toList⟩⟩, ⟨⟨"b.com.".toList⟩, .IN, 9, 7, .CNAME ⟨"c.org.".toList⟩⟩,
      ⟨⟨"c.org.".toList⟩, .IN, 9, 4, .A ⟨1, 2, 3, 4⟩⟩] := by decide +kernel

/-- With one redirection less it fails. -/
example : answersOf (lookup chainEnv .debug ⟨1, 1, 2, false⟩ 5 ⟨"a.com.".toList⟩ .A ⟨.empty, 0, []⟩).1 = none := by decide +kernel

/-- The name is first an alias for itself, with TTL 0, and then it has an address. -/
def selfEnv : Env := scripted fun k => match k with
  | 0 => response .NoError true [⟨⟨"a.".toList⟩, .IN, 0, 8, .CNAME ⟨"a.".toList⟩⟩] [] []
  | _ => response .NoError true [⟨⟨"a.".toList⟩, .IN, 9, 4, .A ⟨1, 2, 3, 4⟩⟩] [] []

/-- C59 does not hold: `a.` is an alias for itself, but the lookup succeeds. -/
theorem C59_violated : ¬ C59_statement := by
  intro h
  have run : answersOf (lookup selfEnv .debug ⟨1, 1, 3, false⟩ 5 ⟨"a.".toList⟩ .A ⟨.empty, 0, []⟩).1 =
      some [⟨⟨"a.".toList⟩, .IN, 0, 3, .CNAME ⟨"a.".toList⟩⟩, ⟨⟨"a.".toList⟩, .IN, 9, 4, .A ⟨1, 2, 3, 4⟩⟩] := by decide +kernel
  have hrd : Ready selfEnv ⟨1, 1, 3, false⟩ ⟨"a.".toList⟩ .A ⟨.empty, 0, []⟩ :=
    ready_scripted _ (by decide) (by decide) (by decide) (by decide)
  cases hx : lookup selfEnv .debug ⟨1, 1, 3, false⟩ 5 ⟨"a.".toList⟩ .A ⟨.empty, 0, []⟩ with
  | mk o w' =>
  rw [hx] at run
  cases o with
  | ok r =>
    have e : r.answers = [⟨⟨"a.".toList⟩, .IN, 0, 3, .CNAME ⟨"a.".toList⟩⟩, ⟨⟨"a.".toList⟩, .IN, 9, 4, .A ⟨1, 2, 3, 4⟩⟩] :=
      Option.some.inj run
    obtain ⟨chain, final, recs, h1, h2, h3, h4, h5⟩ := h _ _ _ _ _ _ _ _ _ hrd hx
    rw [e] at h1
    cases chain with
    | nil =>
      have := (h5 _ (by rw [List.nil_append] at h1; rw [← h1]; exact List.mem_cons_self)).1
      cases this
    | cons c chain =>
      injection h1 with h1 h6
      subst h1
      cases h2 with
      | cons h7 h8 h9 =>
        injection h8 with h8
        subst h8
        have hm : (⟨"a.".toList⟩ : Name) ∈ chain.map Record.node ++ [final] := by
          cases h9 with
          | nil => exact List.mem_singleton.2 rfl
          | cons h10 _ _ => rw [List.map_cons, h10]; exact List.mem_cons_self
        rw [List.map_cons, List.cons_append, List.nodup_cons] at h4
        exact h4.1 hm
  | err _ => cases run
  | panic _ => cases run
  | diverge => cases run

/-- A referral with the servers of two zones. -/
def mixedEnv : Env := scripted fun k => match k with
  | 0 => response .NoError false [] [⟨⟨"b.com.".toList⟩, .IN, 9, 8, .NS ⟨"ns.org.".toList⟩⟩, ⟨⟨"com.".toList⟩, .IN, 9, 8, .NS ⟨"ns.net.".toList⟩⟩]
      [⟨⟨"ns.org.".toList⟩, .IN, 9, 4, .A ⟨1, 2, 3, 4⟩⟩, ⟨⟨"ns.net.".toList⟩, .IN, 9, 4, .A ⟨5, 6, 7, 8⟩⟩]
  | _ => response .NoError true [⟨⟨"a.b.com.".toList⟩, .IN, 9, 4, .A ⟨1, 2, 3, 4⟩⟩] [] []

/-- The other deviation: after a lookup of `a.b.com.` whose referral named servers of two zones, the lookup of the servers of
`b.com.` also returns those of `com.`, from the cache. -/
theorem C59_wrong_owner :
    let w1 := (lookup mixedEnv .debug ⟨1, 1, 3, false⟩ 5 ⟨"a.b.com.".toList⟩ .A ⟨.empty, 0, []⟩).2
    answersOf (lookup mixedEnv .debug ⟨1, 1, 3, false⟩ 5 ⟨"b.com.".toList⟩ .NS w1).1 =
      some [⟨⟨"b.com.".toList⟩, .IN, 8, 8, .NS ⟨"ns.org.".toList⟩⟩, ⟨⟨"com.".toList⟩, .IN, 8, 8, .NS ⟨"ns.net.".toList⟩⟩] := by
  decide +kernel

/-! ## C60

`perform` takes fuel for the nesting of lookups and for the rounds of a referral chain; a lookup that runs out of it counts
as one that does not terminate (`.diverge`), as does the endless loop of the decoder. By `perform_le` the outcome of a lookup
that terminates does not depend on the fuel. -/

/-- The full statement of C60. -/
def C60_statement : Prop :=
  ∀ (env : Env) (p : Profile) (conf : Params) (node : Name) (kind : RecordType) (w : World), Ready env conf node kind w →
    ∃ N, ∀ fuel, N ≤ fuel → (lookup env p conf fuel node kind w).1 ≠ .diverge

/-- The outcome and the state after it do not depend on the fuel, if there is enough. -/
theorem C60_fuel_irrelevant (env : Env) (p : Profile) (conf : Params) (node : Name) (kind : RecordType) (w : World) (f f' : Nat)
    (h : f ≤ f') (hd : (lookup env p conf f node kind w).1 ≠ .diverge) :
    lookup env p conf f' node kind w = lookup env p conf f node kind w :=
  (perform_le f f' _ h w hd)

/-- C60, part: with a fuel that depends on nothing, a lookup terminates, unless a datagram was received in which the decoder
(of a release build) comes upon a WKS record with a port bit. -/
theorem C60_terminates_partial : ∃ N, ∀ (env : Env) (p : Profile) (conf : Params) (node : Name) (kind : RecordType) (w : World),
    Ready env conf node kind w → ∀ fuel, N ≤ fuel → (lookup env p conf fuel node kind w).1 = .diverge →
    p = .release ∧ ∃ addr query reply r, .exchange addr query (some reply) ∈ (lookup env p conf fuel node kind w).2.log ∧
      Reached p (reply.take 512) r ∧ WksBit p (reply.take 512) r := by
  refine ⟨validCount + 258, fun env p conf node kind w h fuel hf hd => ?_⟩
  obtain ⟨o, w1, new, e, -, -, -, hq⟩ := lookup_tri (p := p) h fuel
  rw [e] at hd ⊢
  simp only at hd
  subst hd
  rcases hq with hq | ⟨addr, query, reply, h1, h2⟩
  · omega
  · obtain ⟨h3, r, h4, h5⟩ := decode_hangs h2
    exact ⟨h3, addr, query, reply, r, h1, h4, h5⟩

/-- In particular debug builds always terminate. -/
theorem C60_debug (env : Env) (conf : Params) (node : Name) (kind : RecordType) (w : World) (h : Ready env conf node kind w) :
    ∃ N, ∀ fuel, N ≤ fuel → (lookup env .debug conf fuel node kind w).1 ≠ .diverge := by
  obtain ⟨N, hN⟩ := C60_terminates_partial
  refine ⟨N, fun fuel hf hd => ?_⟩
  have := (hN env .debug conf node kind w h fuel hf hd).1
  cases this

/-- A response with id 7: one WKS record with a port bit. -/
def wksReply : List UInt8 := [0, 7, 0x80, 0, 0, 0, 0, 1, 0, 0, 0, 0, 0, 0, 11, 0, 1, 0, 0, 0, 0, 0, 6, 1, 2, 3, 4, 6, 0x40]

/-- Somebody answers every query with it. -/
def hangEnv : Env := scripted fun _ => some wksReply

/-- Whether it does not terminate. -/
def hung {ε α : Type} : Out ε α → Bool
  | .diverge => true
  | _ => false

theorem hang (n : Nat) : hung (lookup hangEnv .release ⟨1, 1, 1, false⟩ (Nat.succ (Nat.succ n)) ⟨"a.".toList⟩ .A ⟨.empty, 0, []⟩).1 = true := by
  kernel_rfl

/-- C60 does not hold. -/
theorem C60_violated : ¬ C60_statement := by
  intro h
  obtain ⟨N, hN⟩ := h hangEnv .release ⟨1, 1, 1, false⟩ ⟨"a.".toList⟩ .A ⟨.empty, 0, []⟩
    (ready_scripted _ (by decide) (by decide) (by decide) (by decide))
  have h1 := hN (Nat.succ (Nat.succ N)) (by omega)
  have h2 := hang N
  generalize (lookup hangEnv .release ⟨1, 1, 1, false⟩ (Nat.succ (Nat.succ N)) ⟨"a.".toList⟩ .A ⟨.empty, 0, []⟩).1 = o at h1 h2
  cases o with
  | diverge => exact h1 rfl
  | ok _ => cases h2
  | err _ => cases h2
  | panic _ => cases h2

/-! ## C63 -/

/-- The full statement of C63: whatever is cached from a referral by a server of a zone has an owner in that zone. -/
def C63_statement : Prop :=
  ∀ (env : Env) (p : Profile) (ns : NextNs) (node : Name) (kind : RecordType) (retries : Nat) (w w1 w2 : World) (nss : List NextNs)
    (o : Out LookupErr Unit), ValidName node.s → Under node ns.zone →
    performRequest env p ns node kind retries w = (.ok (.delegation nss), w1) → saveNssInCache env nss w1 = (o, w2) →
    ∃ new, w2.log = w1.log ++ new ∧ ∀ e ∈ new, ∃ n k recs, e = .saved n k recs ∧ ∀ r ∈ recs, Under r.node ns.zone

/-- What a save logs: at most the records themselves. -/
theorem saveRecords_logs (env : Env) (rs : List Record) (w : World) : ∃ new, (saveRecordsInCache env rs w).2.log = w.log ++ new ∧
    ∀ e ∈ new, ∃ n k recs ttl, e = .saved n k recs ∧ recs = rs.map (fun r => r.setTtl ttl) := by
  cases rs with
  | nil => exact ⟨[], by simp [saveRecordsInCache, M.panic, M.lift], by simp⟩
  | cons r0 rs =>
    by_cases h : ∀ r ∈ rs, r.recordType = r0.recordType
    · refine ⟨[.saved r0.node r0.recordType ((r0 :: rs).map fun r => r.setTtl (minTtl r0.ttl rs))], ?_, ?_⟩
      · rw [saveRecords_eq h]
      · intro e he
        simp only [List.mem_singleton] at he
        exact ⟨_, _, _, _, he, rfl⟩
    · refine ⟨[], ?_, by simp⟩
      unfold saveRecordsInCache
      simp only
      rw [if_pos]
      · simp [M.panic, M.lift]
      · simp only [Bool.not_eq_true', List.all_eq_false]
        push Not at h
        obtain ⟨r, h1, h2⟩ := h
        exact ⟨r, by simp [h1], by simpa using h2⟩

/-- What is logged while the servers of a referral are saved: their NS and A records. -/
theorem saveNss_logs (env : Env) (nss : List NextNs) (w : World) : ∃ new, (saveNssInCache env nss w).2.log = w.log ++ new ∧
    ∀ e ∈ new, ∃ n k recs, e = .saved n k recs ∧ ∀ r ∈ recs, ∃ ns ∈ nss, ∃ old ttl, r = old.setTtl ttl ∧ (old = ns.nsRecord ∨ old ∈ ns.aRecords) := by
  let P : Event → Prop := fun e => ∃ n k recs, e = .saved n k recs ∧ ∀ r ∈ recs, ∃ ns ∈ nss, ∃ old ttl, r = old.setTtl ttl ∧
    (old = ns.nsRecord ∨ old ∈ ns.aRecords)
  have hadd : Additive fun l => ∀ e ∈ l, P e := ⟨by simp, fun a b ha hb e he => by
    rcases List.mem_append.1 he with he | he
    · exact ha e he
    · exact hb e he⟩
  have hsave : ∀ rs : List Record, (∀ r ∈ rs, ∃ ns ∈ nss, r = ns.nsRecord ∨ r ∈ ns.aRecords) →
      Logs (fun l => ∀ e ∈ l, P e) (saveRecordsInCache env rs) := by
    intro rs h w
    obtain ⟨new, h1, h2⟩ := saveRecords_logs env rs w
    refine ⟨new, h1, fun e he => ?_⟩
    obtain ⟨n, k, recs, ttl, h3, h4⟩ := h2 e he
    refine ⟨n, k, recs, h3, fun r hr => ?_⟩
    rw [h4] at hr
    obtain ⟨old, ho, rfl⟩ := List.mem_map.1 hr
    obtain ⟨ns, hn, hcase⟩ := h old ho
    exact ⟨ns, hn, old, ttl, rfl, hcase⟩
  have haddrs : ∀ l : List NextNs, (∀ ns ∈ l, ns ∈ nss) → Logs (fun l => ∀ e ∈ l, P e) (saveAddrs env l) := by
    intro l
    induction l with
    | nil => intro _; exact Logs.pure hadd _
    | cons ns l ih =>
      intro h
      rw [saveAddrs]
      by_cases h0 : ns.aRecords.length > 0
      · simp only [if_pos h0]
        exact Logs.bind hadd (hsave _ fun r hr => ⟨ns, h ns (by simp), .inr hr⟩) fun _ => ih fun x hx => h x (by simp [hx])
      · simp only [if_neg h0]
        exact ih fun x hx => h x (by simp [hx])
  have : Logs (fun l => ∀ e ∈ l, P e) (saveNssInCache env nss) := by
    unfold saveNssInCache
    refine Logs.bind hadd (haddrs nss fun _ h => h) fun _ => hsave _ fun r hr => ?_
    obtain ⟨ns, hn, rfl⟩ := List.mem_map.1 hr
    exact ⟨ns, hn, .inl rfl⟩
  exact this w

/-- C63, part: whatever is cached from a referral is a record of that response (with another TTL): an NS record whose owner's
text ends that of the queried name and is longer than that of the zone (so it is inside the zone, if it begins at a label
boundary), or an A record of the target of such an NS record. -/
theorem C63_cached_partial (env : Env) (p : Profile) (ns : NextNs) (node : Name) (kind : RecordType) (retries : Nat)
    (w w1 w2 : World) (nss : List NextNs) (o : Out LookupErr Unit)
    (h1 : performRequest env p ns node kind retries w = (.ok (.delegation nss), w1)) (h2 : saveNssInCache env nss w1 = (o, w2)) :
    ∃ new, w2.log = w1.log ++ new ∧ ∀ e ∈ new, ∃ n k recs, e = .saved n k recs ∧ ∀ r ∈ recs, ∃ (ttl : UInt32) (nsr : Record) (target : Name),
      nsr.data = .NS target ∧ nsr.node.s <:+ node.s ∧ strLen ns.zone.s < strLen nsr.node.s ∧
      (Under node ns.zone → ValidName nsr.node.s → AtLabel node nsr.node → Below nsr.node ns.zone) ∧
      (r = nsr.setTtl ttl ∨ r.node = target ∧ r.recordType = .A) := by
  obtain ⟨new, h3, h4⟩ := saveNss_logs env nss w1
  rw [h2] at h3
  refine ⟨new, h3, fun e he => ?_⟩
  obtain ⟨n, k, recs, rfl, h5⟩ := h4 e he
  refine ⟨n, k, recs, rfl, fun r hr => ?_⟩
  obtain ⟨next, hn, old, ttl, rfl, hcase⟩ := h5 r hr
  obtain ⟨-, hdown⟩ := C62_downwards_partial env p ns node kind retries w w1 nss h1
  obtain ⟨d1, d2, d3⟩ := hdown next hn
  obtain ⟨resp, -, -, -, -, hall⟩ := referral_of h1
  obtain ⟨hfrom, -⟩ := hall next hn
  obtain ⟨-, hns, hA⟩ := hfrom
  obtain ⟨target, ht⟩ := nsData_of hns
  refine ⟨ttl, next.nsRecord, target, ht, d1, d2, fun a b c => (d3 a b c).1, ?_⟩
  rcases hcase with rfl | hold
  · exact .inl rfl
  · obtain ⟨-, a2, a3⟩ := hA old hold
    rw [ht] at a3
    injection a3 with a3
    exact .inr ⟨a3.symm, a2⟩

/-- A referral with an address for a server that is none of the zone's business. -/
def glueEnv : Env := scripted fun _ =>
  response .NoError false [] [⟨⟨"a.com.".toList⟩, .IN, 9, 8, .NS ⟨"bank.org.".toList⟩⟩] [⟨⟨"bank.org.".toList⟩, .IN, 9, 4, .A ⟨6, 6, 6, 6⟩⟩]

/-- The names with saved records. -/
def savedNames (l : List Event) : List Name := l.flatMap fun e => match e with
  | .saved _ _ rs => rs.map Record.node
  | _ => []

/-- A request followed by saving the referral. -/
def referAndSave (env : Env) (w : World) : List Name :=
  match performRequest env .debug comServer ⟨"a.com.".toList⟩ .A 1 w with
  | (.ok (.delegation nss), w1) => savedNames (saveNssInCache env nss w1).2.log
  | _ => []

theorem glue_run : referAndSave glueEnv ⟨.empty, 0, []⟩ = [⟨"bank.org.".toList⟩, ⟨"a.com.".toList⟩] := by decide +kernel

/-- C63 does not hold: a server of `com.` is asked for `a.com.`, and an address for `bank.org.` is cached. -/
theorem C63_violated : ¬ C63_statement := by
  intro h
  have run := glue_run
  unfold referAndSave at run
  cases hx : performRequest glueEnv .debug comServer ⟨"a.com.".toList⟩ .A 1 ⟨.empty, 0, []⟩ with
  | mk o w1 =>
  rw [hx] at run
  cases o with
  | ok r =>
    cases r with
    | delegation nss =>
      have hn : NameOf "a.com.".toList ["a".toList, "com".toList] := nameOf_alpha _ (by decide) (by decide)
      have hcom : NameOf "com.".toList ["com".toList] := nameOf_alpha _ (by decide) (by decide)
      have hbank : NameOf "bank.org.".toList ["bank".toList, "org".toList] := nameOf_alpha _ (by decide) (by decide)
      have hv : ValidName (⟨"a.com.".toList⟩ : Name).s := ⟨by decide, _, hn⟩
      have hu : Under ⟨"a.com.".toList⟩ comServer.zone := ⟨["a".toList], ["com".toList], hn, hcom⟩
      obtain ⟨new, h1, h2⟩ := h glueEnv .debug comServer ⟨"a.com.".toList⟩ .A 1 ⟨.empty, 0, []⟩ w1 (saveNssInCache glueEnv nss w1).2 nss
        (saveNssInCache glueEnv nss w1).1 hv hu hx (Prod.mk.eta).symm
      have hl : savedNames w1.log = [] := by
        obtain ⟨new', e1, e2, e3⟩ := request_logs (env := glueEnv) (p := .debug) comServer ⟨"a.com.".toList⟩ .A 1 ⟨.empty, 0, []⟩
        rw [hx] at e1
        simp only [List.nil_append] at e1
        rw [e1]
        unfold savedNames
        rw [List.flatMap_eq_nil_iff]
        intro e he
        obtain ⟨_, _, _, _, _, _, _, rfl, _⟩ := e3 e he
        rfl
      have run' : savedNames (saveNssInCache glueEnv nss w1).2.log = [⟨"bank.org.".toList⟩, ⟨"a.com.".toList⟩] := run
      rw [h1] at run'
      have hs : savedNames (w1.log ++ new) = savedNames w1.log ++ savedNames new := by unfold savedNames; rw [List.flatMap_append]
      rw [hs, hl, List.nil_append] at run'
      have hm : (⟨"bank.org.".toList⟩ : Name) ∈ savedNames new := by rw [run']; exact List.mem_cons_self
      unfold savedNames at hm
      obtain ⟨e, he, hm⟩ := List.mem_flatMap.1 hm
      obtain ⟨n, k, recs, rfl, h3⟩ := h2 e he
      obtain ⟨r, hr, hrn⟩ := List.mem_map.1 hm
      obtain ⟨M, L, h4, h5⟩ := h3 r hr
      rw [hrn] at h4
      have e2 : L = ["com".toList] := nameOf_unique h5 hcom
      subst e2
      have e1 := nameOf_unique h4 hbank
      have := congrArg List.getLast? e1
      rw [List.getLast?_append] at this
      simp at this
    | _ => cases run
  | _ => cases run

/-- The consequence: after a lookup of `a.com.`, whose server the root server said to be `bank.org.`, the lookup of
`bank.org.` is answered with the address from that referral; no packet is sent. -/
theorem C63_poisoned :
    let env := scripted fun k => match k with
      | 0 => response .NoError false [] [⟨⟨"a.com.".toList⟩, .IN, 9, 8, .NS ⟨"bank.org.".toList⟩⟩]
          [⟨⟨"bank.org.".toList⟩, .IN, 9, 4, .A ⟨6, 6, 6, 6⟩⟩]
      | 1 => response .NoError true [⟨⟨"a.com.".toList⟩, .IN, 9, 4, .A ⟨6, 6, 6, 7⟩⟩] [] []
      | _ => none
    let w1 := (lookup env .debug ⟨1, 1, 3, false⟩ 5 ⟨"a.com.".toList⟩ .A ⟨.empty, 0, []⟩).2
    answersOf (lookup env .debug ⟨1, 1, 3, false⟩ 5 ⟨"bank.org.".toList⟩ .A w1).1 =
      some [⟨⟨"bank.org.".toList⟩, .IN, 8, 4, .A ⟨6, 6, 6, 6⟩⟩] := by decide +kernel

/-! ## C64 -/

/-- The full statement of C64. -/
def C64_statement : Prop :=
  ∀ (env : Env) (p : Profile) (conf : Params) (fuel : Nat) (node : Name) (kind : RecordType) (w : World),
    Ready env conf node kind w → ¬ (lookup env p conf fuel node kind w).1.Panics

/-- C64, part: a lookup panics only if a datagram was received on which the decoder panics (C22), or a server answered a query
for an address with NXDOMAIN and the AA flag. -/
theorem C64_panics_partial (env : Env) (p : Profile) (conf : Params) (fuel : Nat) (node : Name) (kind : RecordType) (w : World)
    (h : Ready env conf node kind w) (hp : (lookup env p conf fuel node kind w).1.Panics) :
    PoisonedBy p (lookup env p conf fuel node kind w).2.log ∨ AddrDenied p (lookup env p conf fuel node kind w).2.log := by
  obtain ⟨o, w1, new, e, -, -, -, hq⟩ := lookup_tri (p := p) h fuel
  rw [e] at hp ⊢
  cases o with
  | panic k => exact hq
  | ok _ => exact absurd hp (by simp [Out.Panics])
  | err _ => exact absurd hp (by simp [Out.Panics])
  | diverge => exact absurd hp (by simp [Out.Panics])

/-- A referral to a server without an address; that server's name does not exist. -/
def deniedEnv : Env := scripted fun k => match k with
  | 0 => response .NoError false [] [⟨⟨"a.com.".toList⟩, .IN, 9, 8, .NS ⟨"ns.org.".toList⟩⟩] []
  | _ => response .NxDomain true [] [] []

/-- C64 does not hold: if the name of a server does not exist, the lookup panics. -/
theorem C64_violated : ¬ C64_statement := by
  intro h
  have run : panicked (lookup deniedEnv .release ⟨1, 1, 3, false⟩ 5 ⟨"a.com.".toList⟩ .A ⟨.empty, 0, []⟩).1 = true := by decide +kernel
  have := h deniedEnv .release ⟨1, 1, 3, false⟩ 5 ⟨"a.com.".toList⟩ .A ⟨.empty, 0, []⟩
    (ready_scripted _ (by decide) (by decide) (by decide) (by decide))
  generalize (lookup deniedEnv .release ⟨1, 1, 3, false⟩ 5 ⟨"a.com.".toList⟩ .A ⟨.empty, 0, []⟩).1 = o at run this
  cases o with
  | panic k => exact this trivial
  | ok _ => cases run
  | err _ => cases run
  | diverge => cases run

/-! ## C66 -/

/-- C66: a lookup that reports a non-existing domain returns the CNAME records that lead to some name, and a query for that
name was answered with the id of the query, NXDOMAIN and the AA flag. -/
theorem C66_denied (env : Env) (p : Profile) (conf : Params) (fuel : Nat) (node : Name) (kind : RecordType) (w w' : World)
    (r : Response) (h : Ready env conf node kind w) (hr : lookup env p conf fuel node kind w = (.ok r, w'))
    (hno : r.noRecords = true) : ∃ final, Aliases node r.answers final ∧ Denied p final kind w'.log := by
  obtain ⟨o, w1, new, e, -, -, -, hq⟩ := lookup_tri (p := p) h fuel
  rw [hr] at e
  cases e
  obtain ⟨chain, final, recs, h1, h2, -, -, -, -, -, -, h9⟩ := hq
  obtain ⟨h10, h11⟩ := h9 hno
  subst h10
  have e : r.answers = chain := by simpa using h1
  exact ⟨final, by rw [e]; exact h2, h11⟩

/-- The response, if any. -/
def okOf {ε α : Type} : Out ε α → Option α
  | .ok a => some a
  | _ => none

/-- An alias for a name that does not exist. -/
example : okOf (lookup (scripted fun k => match k with
      | 0 => response .NoError true [⟨⟨"a.".toList⟩, .IN, 9, 8, .CNAME ⟨"b.".toList⟩⟩] [] []
      | _ => response .NxDomain true [] [] []) .release ⟨1, 1, 3, false⟩ 5 ⟨"a.".toList⟩ .A ⟨.empty, 0, []⟩).1 =
    some ⟨[⟨⟨"a.".toList⟩, .IN, 9, 3, .CNAME ⟨"b.".toList⟩⟩], [], [], true⟩ := by decide +kernel

/-- Without the AA flag the same answer is an error. -/
example : okOf (lookup (scripted fun k => match k with
      | 0 => response .NoError true [⟨⟨"a.".toList⟩, .IN, 9, 8, .CNAME ⟨"b.".toList⟩⟩] [] []
      | _ => response .NxDomain false [] [] []) .release ⟨1, 1, 3, false⟩ 5 ⟨"a.".toList⟩ .A ⟨.empty, 0, []⟩).1 = none := by decide +kernel

/-! ## C69 -/

/-- C69, nesting: whenever a lookup (`zones = []`) or, on its behalf, a lookup for the address of a server (`zones`: the zones
whose servers are being looked up, outermost first) starts or contacts a server, these zones are pairwise distinct; and all
but the outermost lookup look for addresses and do not follow CNAMEs. -/
theorem C69_distinct_zones (env : Env) (p : Profile) (conf : Params) (fuel : Nat) (node : Name) (kind : RecordType) (w : World)
    (h : Ready env conf node kind w) :
    (∀ zones nf n k, .start zones nf n k ∈ (lookup env p conf fuel node kind w).2.log →
      zones.Nodup ∧ (zones ≠ [] → nf = true ∧ k = .A)) ∧
    (∀ zones ns n k, .contact zones ns n k ∈ (lookup env p conf fuel node kind w).2.log →
      zones.Nodup ∧ (zones ≠ [] → k = .A)) := by
  obtain ⟨o, w1, new, e, hl, -, hE, -⟩ := lookup_tri (p := p) h fuel
  rw [e]
  simp only
  rw [hl, h.log, List.nil_append]
  constructor
  · intro zones nf n k hm
    obtain ⟨-, h2, h3, -⟩ := hE _ hm
    refine ⟨h2, fun h0 => ?_⟩
    rcases h3 with ⟨h4, -⟩ | ⟨-, h5, h6⟩
    · exact absurd h4 h0
    · exact ⟨h5, h6⟩
  · intro zones ns n k hm
    obtain ⟨-, h2, h3, -⟩ := hE _ hm
    refine ⟨h2, fun h0 => ?_⟩
    rcases h3 with ⟨h4, -⟩ | ⟨-, h5⟩
    · exact absurd h4 h0
    · exact h5

/-- C69, CNAMEs: a lookup for the address of a server, as made on behalf of `zones`, only ever asks for the name it was
started for, and returns no CNAME record. -/
theorem C69_no_cname (env : Env) (p : Profile) (conf : Params) (fuel : Nat) (node : Name) (zones : List Name) (w : World)
    (h : Ready env conf node .A w) (hz : zones.Nodup) (hv : ∀ z ∈ zones, ValidName z.s) :
    ∃ o w', perform env p fuel ⟨node, .A, zones, [], { conf with noFollowCname := true }⟩ w = (o, w') ∧
      (∀ nf n k, .start zones nf n k ∈ w'.log → n = node) ∧
      ∀ r, o = .ok r → ∀ x ∈ r.answers, x.recordType = .A ∧ x.node = node := by
  have hlk : LkOk ⟨node, .A, zones, [], { conf with noFollowCname := true }⟩ :=
    ⟨h.node, h.kind, hz, hv, by simp, List.Pairwise.nil, h.nsq, h.retries⟩
  obtain ⟨o, w1, new, e, hl, -, hE, hq⟩ := perform_tri (p := p) h.friendly fuel hlk h.cache
  refine ⟨o, w1, e, ?_, ?_⟩
  · intro nf n k hm
    rw [hl, h.log, List.nil_append] at hm
    obtain ⟨-, -, h3, -⟩ := hE _ hm
    rcases h3 with ⟨-, -, -, h4⟩ | ⟨h4, -⟩
    · exact h4 rfl
    · exact absurd rfl h4
  · rintro r rfl x hx
    obtain ⟨chain, final, recs, h1, h2, -, h4, -, -, h7, -⟩ := hq
    have hc := h4 rfl
    subst hc
    cases h2
    rw [h1] at hx
    simp only [List.nil_append] at hx
    exact ⟨(h7 x hx).1, (h7 x hx).2 (by simp)⟩

/-- The events of the example: a server without an address, found by a nested lookup. -/
def nestedEnv : Env := scripted fun k => match k with
  | 0 => response .NoError false [] [⟨⟨"com.".toList⟩, .IN, 9, 8, .NS ⟨"ns.org.".toList⟩⟩] []
  | 1 => response .NoError true [⟨⟨"ns.org.".toList⟩, .IN, 9, 4, .A ⟨1, 2, 3, 4⟩⟩] [] []
  | _ => response .NoError true [⟨⟨"a.com.".toList⟩, .IN, 9, 4, .A ⟨5, 6, 7, 8⟩⟩] [] []

example : (lookup nestedEnv .release ⟨1, 1, 3, false⟩ 5 ⟨"a.com.".toList⟩ .A ⟨.empty, 0, []⟩).2.log.filterMap (fun e => match e with
      | .start z nf n _ => some (z, nf, n)
      | _ => none) =
    [([], false, ⟨"a.com.".toList⟩), ([⟨"com.".toList⟩], true, ⟨"ns.org.".toList⟩)] := by decide +kernel

/-! ## What the other threads do -/

/-- What lookups and the cleaner do with the cache, between times `lo` and `hi`: they look for entries, remove expired ones,
and store records of the type of the key, owned by its name (NS records may have other owners), with valid names and equal
TTLs, for the time of that TTL, which ends less than 2³² seconds after `lo`. -/
def Usual (lo hi : Nat) : Cache.Op (Name × RecordType) (List Record) → Prop
  | .getClone _ _ => True
  | .clean _ => True
  | .set key ttl records now _ => now ≤ hi ∧ now + ttl < lo + 2 ^ 32 * NANOS ∧ (∀ r ∈ records, r.recordType = key.2) ∧
      (key.2 ≠ .NS → ∀ r ∈ records, r.node = key.1) ∧ (∀ r ∈ records, WellFormed r) ∧
      ∃ secs, secs < 2 ^ 32 ∧ ttl = secs * NANOS ∧ ∀ r ∈ records, r.ttl.toNat = secs
  | .onFound _ _ _ => False
  | .remove _ _ => False

theorem usual_good {lo hi : Nat} {c : RecordsCache} (hd : c.Distinct) {op : Cache.Op (Name × RecordType) (List Record)} (h : Usual lo hi op)
    (hg : GoodCache hi c) : GoodCache hi (c.step op).1 := by
  intro key exp records hf
  cases op with
  | getClone k t => exact hg key exp records (mem_getClone hf)
  | clean clock =>
    have hf' : (c.clean clock).find key = some (exp, records) := hf
    have hm := Cache.mem_of_find hf'
    unfold Cache.clean at hm
    exact hg key exp records (Cache.find_of_mem hd (List.mem_filter.1 hm).1)
  | set k ttl v t t' =>
    have hf' : (c.set k ttl v t t').1.find key = some (exp, records) := hf
    rw [find_set, Cache.find_put] at hf'
    obtain ⟨h1, h2, h3, h4, h5, secs, h6, h7, h8⟩ := h
    by_cases hk : k = key
    · rw [if_pos hk] at hf'
      cases hf'
      subst hk
      exact ⟨h3, h4, h5, t, secs, h1, h6, by rw [h7], h8⟩
    · rw [if_neg hk] at hf'
      exact hg key exp records hf'
  | onFound _ _ _ => exact h.elim
  | remove _ _ => exact h.elim

theorem usual_expires {lo hi : Nat} {c : RecordsCache} (hd : c.Distinct) {op : Cache.Op (Name × RecordType) (List Record)} (h : Usual lo hi op)
    (hg : ExpiresBy lo c) : ExpiresBy lo (c.step op).1 := by
  intro key exp records hf
  cases op with
  | getClone k t => exact hg key exp records (mem_getClone hf)
  | clean clock =>
    have hf' : (c.clean clock).find key = some (exp, records) := hf
    have hm := Cache.mem_of_find hf'
    unfold Cache.clean at hm
    exact hg key exp records (Cache.find_of_mem hd (List.mem_filter.1 hm).1)
  | set k ttl v t t' =>
    have hf' : (c.set k ttl v t t').1.find key = some (exp, records) := hf
    rw [find_set, Cache.find_put] at hf'
    by_cases hk : k = key
    · rw [if_pos hk] at hf'
      cases hf'
      exact h.2.1
    · rw [if_neg hk] at hf'
      exact hg key exp records hf'
  | onFound _ _ _ => exact h.elim
  | remove _ _ => exact h.elim

/-- Threads that do only that, in any order and any number of times, are friendly. (Caches are maps: lists in which keys occur twice
do not occur.) -/
theorem friendly_of_calls (env : Env) (ops : Nat → List (Cache.Op (Name × RecordType) (List Record)))
    (ho : ∀ i c, c.Distinct → env.others i c = (c.runOps (ops i)).1) (hn : ∀ i c, ¬ c.Distinct → env.others i c = c)
    (hu : ∀ i, ∀ op ∈ ops i, Usual (env.clock (i - 1)) (env.clock i) op) : Friendly env where
  good i c h := by
    by_cases hd : c.Distinct
    · rw [ho _ _ hd]
      have key : ∀ (l : List (Cache.Op (Name × RecordType) (List Record))) (c : RecordsCache), c.Distinct →
          (∀ op ∈ l, Usual (env.clock (i - 1)) (env.clock i) op) → GoodCache (env.clock i) c → GoodCache (env.clock i) (c.runOps l).1 := by
        intro l
        induction l with
        | nil => intro c _ _ h; exact h
        | cons op l ih =>
          intro c hd hl hc
          exact ih _ (Cache.step_distinct hd op) (fun x hx => hl x (by simp [hx])) (usual_good hd (hl op (by simp)) hc)
      exact key (ops i) c hd (hu i) h
    · rw [hn _ _ hd]; exact h
  prompt i c h := by
    by_cases hd : c.Distinct
    · rw [ho _ _ hd]
      have key : ∀ (l : List (Cache.Op (Name × RecordType) (List Record))) (c : RecordsCache), c.Distinct →
          (∀ op ∈ l, Usual (env.clock i) (env.clock (i + 1)) op) → ExpiresBy (env.clock i) c → ExpiresBy (env.clock i) (c.runOps l).1 := by
        intro l
        induction l with
        | nil => intro c _ _ h; exact h
        | cons op l ih =>
          intro c hd hl hc
          exact ih _ (Cache.step_distinct hd op) (fun x hx => hl x (by simp [hx])) (usual_expires hd (hl op (by simp)) hc)
      exact key (ops (i + 1)) c hd (hu (i + 1)) h
    · rw [hn _ _ hd]; exact h

end Ariadne.Props
