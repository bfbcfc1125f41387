import Verif.Lemmas.Within
import Verif.Lemmas.Logs

/-!
# C55, C57, C58, C61, C62, C65, C70: parts of a lookup
-/

namespace Ariadne.Props

open Spec Resolver

/-! ## C57 -/

/-- C57: `extract_records` returns all and only the records with that type and owner, and leaves exactly the others: what it
returns and what it leaves are, up to order, the two halves into which the records fall. -/
theorem C57_extract (records : List Record) (kind : RecordType) (node : Name) :
    (extractRecords records kind node).1.Perm (records.filter fun r => r.node = node ∧ r.recordType = kind) ∧
    (extractRecords records kind node).2.Perm (records.filter fun r => ¬ (r.node = node ∧ r.recordType = kind)) := by
  obtain ⟨e1, e2, e3⟩ := extractRecords_spec records kind node
  have a1 : (extractRecords records kind node).1.filter (fun r => r.node = node ∧ r.recordType = kind) =
      (extractRecords records kind node).1 := by
    rw [List.filter_eq_self]
    intro r hr
    simpa using isWanted_iff.1 (e2 r hr)
  have a2 : (extractRecords records kind node).2.filter (fun r => r.node = node ∧ r.recordType = kind) = [] := by
    rw [List.filter_eq_nil_iff]
    intro r hr h
    have h' := isWanted_iff.2 (of_decide_eq_true h)
    rw [e3 r hr] at h'
    cases h'
  have b1 : (extractRecords records kind node).1.filter (fun r => ¬ (r.node = node ∧ r.recordType = kind)) = [] := by
    rw [List.filter_eq_nil_iff]
    intro r hr h
    exact (of_decide_eq_true h) (isWanted_iff.1 (e2 r hr))
  have b2 : (extractRecords records kind node).2.filter (fun r => ¬ (r.node = node ∧ r.recordType = kind)) =
      (extractRecords records kind node).2 := by
    rw [List.filter_eq_self]
    intro r hr
    rw [decide_eq_true_iff]
    intro h'
    have := isWanted_iff.2 h'
    rw [e3 r hr] at this
    cases this
  constructor
  · have := e1.filter fun r => decide (r.node = node ∧ r.recordType = kind)
    rwa [List.filter_append, a1, a2, List.append_nil] at this
  · have := e1.filter fun r => decide (¬ (r.node = node ∧ r.recordType = kind))
    rwa [List.filter_append, b1, b2, List.nil_append] at this

/-- The first, the last and two neighbouring records are wanted. -/
example :
    let a : Record := ⟨⟨"a.".toList⟩, .IN, 1, 4, .A ⟨1, 1, 1, 1⟩⟩
    let b : Record := ⟨⟨"b.".toList⟩, .IN, 1, 4, .A ⟨2, 2, 2, 2⟩⟩
    let c : Record := ⟨⟨"a.".toList⟩, .IN, 1, 3, .NS ⟨"b.".toList⟩⟩
    extractRecords [a, b, a, a, c, a] .A ⟨"a.".toList⟩ = ([a, a, a, a], [c, b]) := by decide

/-! ## C58 -/

/-- C58: the servers with an address, in their order, and then the servers without, in theirs. -/
theorem C58_sorted (nss : List NextNs) : sortNameservers nss =
    nss.filter (fun n => n.aRecords ≠ []) ++ nss.filter (fun n => n.aRecords = []) := by
  rw [sortNameservers_eq]
  congr 1
  · apply List.filter_congr
    intro n _
    unfold addressed
    cases n.aRecords <;> simp
  · apply List.filter_congr
    intro n _
    unfold addressed
    cases n.aRecords <;> simp

/-- In particular nothing is lost or duplicated. -/
theorem C58_perm (nss : List NextNs) : (sortNameservers nss).Perm nss := sortNameservers_perm nss

example :
    let a : Record := ⟨⟨"a.".toList⟩, .IN, 1, 4, .A ⟨1, 1, 1, 1⟩⟩
    let ns (s : String) : Record := ⟨⟨"z.".toList⟩, .IN, 1, 3, .NS ⟨s.toList⟩⟩
    sortNameservers [⟨ns "x.", []⟩, ⟨ns "a.", [a]⟩, ⟨ns "y.", []⟩, ⟨ns "b.", [a]⟩] =
      [⟨ns "a.", [a]⟩, ⟨ns "b.", [a]⟩, ⟨ns "x.", []⟩, ⟨ns "y.", []⟩] := by decide

/-! ## C55 -/

/-- The full statement of C55: a record served by a search that begins at some time comes from an unexpired entry of the
cache, stored at some moment with some TTL, and its TTL is at most the remaining part of that one (zero if the record was
stored after the search began). -/
def C55_statement : Prop :=
  ∀ (env : Env) (w w' : World) (node : Name) (kind : RecordType) (rs : List Record), Friendly env →
    GoodCache (env.clock w.ticks) w.cache → searchRecordsInCache env node kind w = (.ok rs, w') → ∀ r ∈ rs,
    ∃ exp stored old t, (env.others (w.ticks + 1) w.cache).find (node, kind) = some (exp, stored) ∧ old ∈ stored ∧
      r = old.setTtl r.ttl ∧ exp = t + old.ttl.toNat * NANOS ∧ env.clock (w.ticks + 2) < exp ∧
      r.ttl.toNat * NANOS + (env.clock w.ticks - t) ≤ old.ttl.toNat * NANOS

theorem served_of {env : Env} {w w' : World} {node : Name} {kind : RecordType} {rs : List Record}
    (h : searchRecordsInCache env node kind w = (.ok rs, w')) : ∀ r ∈ rs, ∃ exp stored old,
      (env.others (w.ticks + 1) w.cache).find (node, kind) = some (exp, stored) ∧ old ∈ stored ∧ r = old.setTtl r.ttl ∧
      env.clock (w.ticks + 2) < exp ∧ r.ttl.toNat * NANOS + env.clock w.ticks ≤ exp := by
  intro r hr
  rw [searchRecords_eq] at h
  simp only at h
  have h1 := (Prod.mk.inj h).1
  cases hg : ((env.others (w.ticks + 1) w.cache).getClone (node, kind) (env.clock (w.ticks + 2))).2 with
  | none => rw [hg] at h1; cases h1; simp at hr
  | some e =>
    obtain ⟨exp, stored⟩ := e
    rw [hg] at h1
    simp only at h1
    obtain ⟨hf, hlt⟩ := getClone_some hg
    cases stored with
    | nil => cases h1; simp at hr
    | cons r0 rest =>
      unfold serveCached at h1
      simp only at h1
      by_cases c1 : (!((r0 :: rest).all fun r => r.recordType == r0.recordType && r.ttl == r0.ttl)) = true
      · rw [if_pos c1] at h1; cases h1
      · rw [if_neg c1] at h1
        by_cases c2 : exp ≤ env.clock w.ticks
        · rw [if_pos c2] at h1; cases h1
        · rw [if_neg c2] at h1
          by_cases c3 : (exp - env.clock w.ticks) / NANOS ≥ 2 ^ 32
          · rw [if_pos c3] at h1; cases h1
          · rw [if_neg c3] at h1
            injection h1 with h1
            subst h1
            obtain ⟨old, ho, rfl⟩ := List.mem_map.1 hr
            refine ⟨exp, r0 :: rest, old, hf, ho, rfl, hlt, ?_⟩
            have e : (UInt32.ofNat ((exp - env.clock w.ticks) / NANOS)).toNat = (exp - env.clock w.ticks) / NANOS := by
              rw [UInt32.toNat_ofNat']
              exact Nat.mod_eq_of_lt (by omega)
            show (UInt32.ofNat ((exp - env.clock w.ticks) / NANOS)).toNat * NANOS + env.clock w.ticks ≤ exp
            rw [e]
            have := Nat.div_mul_le_self (exp - env.clock w.ticks) NANOS
            omega

/-- C55, part: all of it for entries that other threads did not touch while this one waited for the lock; for the others all
but the comparison with the stored TTL, instead of which the TTL is at most the life of the entry from the start of the
search on. -/
theorem C55_served_ttl_partial (env : Env) (w w' : World) (node : Name) (kind : RecordType) (rs : List Record)
    (hc : GoodCache (env.clock w.ticks) w.cache) (h : searchRecordsInCache env node kind w = (.ok rs, w')) (r : Record)
    (hr : r ∈ rs) :
    ∃ exp stored old, (env.others (w.ticks + 1) w.cache).find (node, kind) = some (exp, stored) ∧ old ∈ stored ∧
      r = old.setTtl r.ttl ∧ env.clock (w.ticks + 2) < exp ∧ r.ttl.toNat * NANOS + env.clock w.ticks ≤ exp ∧
      ((env.others (w.ticks + 1) w.cache).find (node, kind) = w.cache.find (node, kind) →
        ∃ t, t ≤ env.clock w.ticks ∧ exp = t + old.ttl.toNat * NANOS ∧
          r.ttl.toNat * NANOS + (env.clock w.ticks - t) ≤ old.ttl.toNat * NANOS) := by
  obtain ⟨exp, stored, old, h1, h2, h3, h4, h5⟩ := served_of h r hr
  refine ⟨exp, stored, old, h1, h2, h3, h4, h5, fun hsame => ?_⟩
  rw [hsame] at h1
  obtain ⟨-, -, -, t, ttl, h6, h7, h8, h9⟩ := hc _ _ _ h1
  refine ⟨t, h6, by rw [h9 old h2]; exact h8, ?_⟩
  rw [h9 old h2]
  omega

/-- The clock of the counterexample: the search begins at time 0 and gets the lock five seconds later. -/
def slowClock (i : Nat) : Nat := if i = 0 then 0 else 5 * NANOS

/-- What another thread stores meanwhile. -/
def storedMeanwhile : RecordsCache := ⟨[((⟨"a.".toList⟩, .A), (15 * NANOS, [⟨⟨"a.".toList⟩, .IN, 10, 4, .A ⟨1, 1, 1, 1⟩⟩]))]⟩

/-- The environment of the counterexample. -/
def slowEnv : Env where
  clock := slowClock
  mono i j h := by
    unfold slowClock
    by_cases hi : i = 0
    · rw [if_pos hi]; exact Nat.zero_le _
    · rw [if_neg hi, if_neg (by omega)]
  others i c := if i = 1 then storedMeanwhile else c
  ids _ := 7
  net _ _ _ := none

theorem stored_only {key : Name × RecordType} {exp : Nat} {rs : List Record} (h : storedMeanwhile.find key = some (exp, rs)) :
    key = (⟨"a.".toList⟩, .A) ∧ exp = 15 * NANOS ∧ rs = [⟨⟨"a.".toList⟩, .IN, 10, 4, .A ⟨1, 1, 1, 1⟩⟩] := by
  unfold storedMeanwhile Cache.find assocGet at h
  by_cases hk : (⟨"a.".toList⟩, RecordType.A) = key
  · rw [if_pos hk] at h
    cases h
    exact ⟨hk.symm, rfl, rfl⟩
  · rw [if_neg hk] at h
    cases h

theorem slowEnv_friendly : Friendly slowEnv where
  good i c h := by
    show GoodCache (slowClock i) (if i = 1 then storedMeanwhile else c)
    by_cases hi : i = 1
    · subst hi
      rw [if_pos rfl]
      intro key exp rs hf
      obtain ⟨rfl, rfl, rfl⟩ := stored_only hf
      refine ⟨by simp [Record.recordType, RData.recordType], by simp, ?_, 5 * NANOS, 10, by decide, by decide, by decide, by simp⟩
      intro r hr
      simp only [List.mem_singleton] at hr
      subst hr
      exact ⟨(validateName_iff _).1 (by decide), by simp [dataNames], rfl, trivial⟩
    · rw [if_neg hi]; exact h
  prompt i c h := by
    show ExpiresBy (slowClock i) (if i + 1 = 1 then storedMeanwhile else c)
    by_cases hi : i + 1 = 1
    · rw [if_pos hi]
      intro key exp rs hf
      obtain ⟨rfl, rfl, rfl⟩ := stored_only hf
      have : 15 * NANOS < 2 ^ 32 * NANOS := by decide
      omega
    · rw [if_neg hi]; exact h

/-- C55 does not hold: a record stored by another thread with a TTL of 10 seconds, while the search waited for the lock, is
served with 15 seconds. -/
theorem C55_violated : ¬ C55_statement ∧ (searchRecordsInCache slowEnv ⟨"a.".toList⟩ .A ⟨.empty, 0, []⟩).1 =
    .ok [⟨⟨"a.".toList⟩, .IN, 15, 4, .A ⟨1, 1, 1, 1⟩⟩] := by
  have run : searchRecordsInCache slowEnv ⟨"a.".toList⟩ .A ⟨.empty, 0, []⟩ =
      (.ok [⟨⟨"a.".toList⟩, .IN, 15, 4, .A ⟨1, 1, 1, 1⟩⟩], ⟨storedMeanwhile, 3, []⟩) := by decide +kernel
  refine ⟨fun h => ?_, by rw [run]⟩
  obtain ⟨exp, stored, old, t, h1, h2, -, h4, -, h6⟩ := h slowEnv _ _ _ _ _ slowEnv_friendly
    (by intro k e r hf; cases hf) run _ (List.mem_singleton.2 rfl)
  obtain ⟨-, -, rfl⟩ := stored_only h1
  simp only [List.mem_singleton] at h2
  subst h2
  have e1 : (15 : UInt32).toNat = 15 := rfl
  have e2 : (10 : UInt32).toNat = 10 := rfl
  simp only [e1, e2] at h6
  have : NANOS = 1000000000 := rfl
  omega

/-- The clock of the example: five seconds pass between storing and searching. -/
def quietEnv : Env := ⟨fun i => 5 * NANOS + i, fun _ _ h => Nat.add_le_add_left h _, fun _ c => c, fun _ => 7, fun _ _ _ => none⟩

/-- A record stored at time 0 with a TTL of 10 is served five seconds later with one of 5. -/
example : (searchRecordsInCache quietEnv ⟨"a.".toList⟩ .A
    ⟨⟨[((⟨"a.".toList⟩, .A), (10 * NANOS, [⟨⟨"a.".toList⟩, .IN, 10, 4, .A ⟨1, 1, 1, 1⟩⟩]))]⟩, 0, []⟩).1 =
    .ok [⟨⟨"a.".toList⟩, .IN, 5, 4, .A ⟨1, 1, 1, 1⟩⟩] := by decide +kernel

/-! ## C61 -/

theorem disciplined_append {n : Nat} {a b : List Event} (ha : Disciplined n a) (hb : Disciplined n b) : Disciplined n (a ++ b) := by
  induction ha with
  | nil => exact hb
  | start _ ih => exact .start ih
  | saved _ ih => exact .saved ih
  | contact h1 h2 _ ih => rw [List.cons_append, List.append_assoc]; exact .contact h1 h2 ih

theorem disciplined_fits (n : Nat) (zs : List Name) : Fits (Disciplined n) zs n where
  nil := .nil
  append _ _ := disciplined_append
  saved _ _ _ := .saved .nil
  start _ _ _ _ _ := .start .nil
  request z ns node kind l _ h := by
    have := Disciplined.contact (z := z) (ns := ns) h.1 h.2 .nil
    rwa [List.append_nil] at this

/-- C61, packets: in whatever world, the packets of a lookup are sent in bursts, each directly after a server was chosen,
with at most `max_ns_retries` packets, all to that server's first address. -/
theorem C61_packets (env : Env) (p : Profile) (conf : Params) (fuel : Nat) (node : Name) (kind : RecordType) (w : World) :
    ∃ new, (lookup env p conf fuel node kind w).2.log = w.log ++ new ∧ Disciplined conf.maxUdpRetries new :=
  perform_logs (disciplined_fits conf.maxUdpRetries []) fuel _ (List.prefix_refl _) rfl w

theorem above_fits (n : Nat) (zs : List Name) :
    Fits (fun l => ∀ z ns node kind, Event.contact z ns node kind ∈ l → zs <+: z) zs n where
  nil := by simp
  append a b ha hb := by
    intro z ns node kind h
    rcases List.mem_append.1 h with h | h
    · exact ha _ _ _ _ h
    · exact hb _ _ _ _ h
  saved := by simp
  start := by simp
  request z ns node kind l hz h := by
    intro z' ns' node' kind' hm
    rcases List.mem_cons.1 hm with hm | hm
    · cases hm; exact hz
    · obtain ⟨_, _, _, _, _, _, _, he, _⟩ := h.2 _ hm
      cases he

theorem contactsFor_append (zs : List Name) (a b : List Event) : contactsFor zs (a ++ b) = contactsFor zs a + contactsFor zs b := by
  unfold contactsFor
  rw [List.countP_append]

theorem contactsFor_zero {zs : List Name} {l : List Event} (h : ∀ ns node kind, Event.contact zs ns node kind ∉ l) :
    contactsFor zs l = 0 := by
  unfold contactsFor
  rw [List.countP_eq_zero]
  intro e he
  cases e with
  | contact z ns node kind =>
    simp only [decide_eq_true_eq]
    rintro rfl
    exact h _ _ _ he
  | _ => simp

theorem fewer_contacts {env : Env} {p : Profile} {fuel : Nat} {lk : Lookup} (ns : NextNs) :
    Logs (fun l => contactsFor lk.previousZones l ≤ 1) (tryServer env p (perform env p fuel) lk ns) := by
  have hsub : ∀ node zone, Logs (fun l => contactsFor lk.previousZones l = 0) (perform env p fuel
      ⟨node, .A, lk.previousZones ++ [zone], [], { lk.conf with noFollowCname := true }⟩) := by
    intro node zone
    refine (perform_logs (above_fits lk.conf.maxUdpRetries (lk.previousZones ++ [zone])) fuel
      ⟨node, .A, lk.previousZones ++ [zone], [], { lk.conf with noFollowCname := true }⟩ (List.prefix_refl _) rfl).mono ?_
    intro l hl
    apply contactsFor_zero
    intro ns n k hm
    have := (hl _ _ _ _ hm).length_le
    simp at this
  have hadd : Additive fun l => contactsFor lk.previousZones l = 0 :=
    ⟨rfl, fun a b ha hb => by rw [contactsFor_append, ha, hb]⟩
  have hres : Logs (fun l => contactsFor lk.previousZones l = 0) (resolveAddrs (perform env p fuel) lk ns) := by
    unfold resolveAddrs
    refine Logs.bind hadd (Logs.lift hadd _) fun as => ?_
    by_cases h0 : as.isEmpty
    · rw [if_pos h0]
      refine Logs.bind hadd (Logs.lift hadd _) fun node => Logs.bind hadd (Logs.attempt ?_) fun x => ?_
      · unfold resolveNsSubquery
        exact Logs.bind hadd (Logs.lift hadd _) fun _ => Logs.bind hadd (hsub _ _) fun _ => Logs.pure hadd _
      · cases x with
        | inl e => exact Logs.throw hadd _
        | inr r => exact Logs.pure hadd _
    · rw [if_neg h0]; exact Logs.pure hadd _
  intro w
  obtain ⟨new, h1, h2⟩ := hres w
  unfold tryServer
  simp only [bind, M.bind]
  generalize resolveAddrs (perform env p fuel) lk ns w = x at h1
  obtain ⟨o, w'⟩ := x
  have small : ∀ l, contactsFor lk.previousZones l = 0 → contactsFor lk.previousZones l ≤ 1 := fun l h => by omega
  cases o with
  | ok ns' =>
    obtain ⟨new2, h3, h4, h5⟩ := request_logs (env := env) (p := p) ns' lk.node lk.kind lk.conf.maxUdpRetries
      { w' with log := w'.log ++ [.contact lk.previousZones ns' lk.node lk.kind] }
    refine ⟨new ++ .contact lk.previousZones ns' lk.node lk.kind :: new2, ?_, ?_⟩
    · simp only [M.emit] at h1 ⊢
      rw [h3, h1]
      simp
    · show contactsFor _ _ ≤ 1
      rw [contactsFor_append, h2, ← List.singleton_append, contactsFor_append, contactsFor_zero (l := new2)]
      · simp [contactsFor]
      · intro ns n k hm
        obtain ⟨_, _, _, _, _, _, _, he, _⟩ := h5 _ hm
        cases he
  | err _ => exact ⟨new, h1, small _ h2⟩
  | panic _ => exact ⟨new, h1, small _ h2⟩
  | diverge => exact ⟨new, h1, small _ h2⟩

/-- C61, servers: in whatever world, one step of a lookup (querying the servers of a zone in turn, as `queryIteratively` does
for the first `max_ns_queried` servers of the sorted list) contacts at most `max_ns_queried` servers, not counting those
contacted by sub-lookups for the addresses of servers. -/
theorem C61_servers (env : Env) (p : Profile) (fuel : Nat) (lk : Lookup) (nss : List NextNs) (w : World) :
    ∃ new, (tryServers env p (perform env p fuel) lk ((sortNameservers nss).take lk.conf.maxNsQueried) none w).2.log =
      w.log ++ new ∧ contactsFor lk.previousZones new ≤ lk.conf.maxNsQueried := by
  have key : ∀ (l : List NextNs) (e : Option LookupErr) (w : World),
      ∃ new, (tryServers env p (perform env p fuel) lk l e w).2.log = w.log ++ new ∧ contactsFor lk.previousZones new ≤ l.length := by
    intro l
    induction l with
    | nil => intro e w; cases e <;> exact ⟨[], by simp [tryServers, M.throw, M.panic, M.lift], by simp [contactsFor]⟩
    | cons ns l ih =>
      intro e w
      unfold tryServers
      obtain ⟨new, h1, h2⟩ := Logs.attempt (fewer_contacts (env := env) (p := p) (fuel := fuel) (lk := lk) ns) w
      simp only [bind, M.bind]
      generalize M.attempt (tryServer env p (perform env p fuel) lk ns) w = x at h1
      obtain ⟨o, w'⟩ := x
      have one : contactsFor lk.previousZones new ≤ (ns :: l).length := by simp only [List.length_cons]; omega
      cases o with
      | ok r =>
        cases r with
        | inr r => exact ⟨new, h1, one⟩
        | inl e' =>
          obtain ⟨new2, h4, h5⟩ := ih (some (e.getD e')) w'
          refine ⟨new ++ new2, by simp only at h1 ⊢; rw [h4, h1, List.append_assoc], ?_⟩
          rw [contactsFor_append, List.length_cons]
          omega
      | err _ => exact ⟨new, h1, one⟩
      | panic _ => exact ⟨new, h1, one⟩
      | diverge => exact ⟨new, h1, one⟩
  obtain ⟨new, h1, h2⟩ := key ((sortNameservers nss).take lk.conf.maxNsQueried) none w
  refine ⟨new, h1, Nat.le_trans h2 ?_⟩
  rw [List.length_take]
  exact Nat.min_le_left _ _

/-- Nobody answers: with two servers and two retries allowed, the first two root servers get two packets each. -/
example : ((lookup quietEnv .release ⟨2, 2, 10, false⟩ 3 ⟨"a.".toList⟩ .A ⟨.empty, 0, []⟩).2.log.filterMap fun e => match e with
    | .exchange a _ _ => some a
    | _ => none) = [⟨198, 41, 0, 4⟩, ⟨198, 41, 0, 4⟩, ⟨199, 9, 14, 201⟩, ⟨199, 9, 14, 201⟩] := by decide +kernel

/-! ## C62 -/

/-- The full statement of C62: if a server of a zone above the queried name answers with a referral that is followed, then to
zones that lie below that zone and that the queried name lies in. -/
def C62_statement : Prop :=
  ∀ (env : Env) (p : Profile) (ns : NextNs) (node : Name) (kind : RecordType) (retries : Nat) (w w' : World) (nss : List NextNs),
    ValidName node.s → Under node ns.zone → performRequest env p ns node kind retries w = (.ok (.delegation nss), w') →
    ∀ next ∈ nss, Below next.zone ns.zone ∧ Under node next.zone

theorem referral_of {env : Env} {p : Profile} {ns : NextNs} {node : Name} {kind : RecordType} {retries : Nat} {w w' : World}
    {r : NsResponse} (h : performRequest env p ns node kind retries w = (.ok r, w')) :
    ∃ resp, (sendQueryWithRetries env p ns node kind retries none w).1 = .ok resp ∧ Means resp node kind ns.zone r := by
  unfold performRequest at h
  simp only [bind, M.bind] at h
  cases hx : sendQueryWithRetries env p ns node kind retries none w with
  | mk o w1 =>
  rw [hx] at h
  cases o with
  | ok resp =>
    refine ⟨resp, rfl, ?_⟩
    have hs := interpret_sat resp node kind ns.zone
    have h1 : interpret resp node kind ns.zone = .ok r := (Prod.mk.inj h).1
    rw [h1] at hs
    exact hs
  | err _ => cases h
  | panic _ => cases h
  | diverge => cases h

theorem labels_of_text : ∀ {L K : List Str} {t : Str}, (∀ l ∈ L, ValidLabel l) → (∀ l ∈ K, ValidLabel l) →
    flat L = t ++ flat K → (t = [] ∨ t.getLast? = some '.') → K ≠ [] → ∃ M, L = M ++ K
  | L, K, [], hL, hK, h, _, h0 => by
    refine ⟨[], ?_⟩
    have hL0 : L ≠ [] := by
      rintro rfl
      exact h0 (flat_eq_nil h.symm)
    have e1 : NameOf (flat L) L := ⟨hL, by unfold render flat; rw [if_neg hL0]⟩
    have e2 : NameOf (flat L) K := ⟨hK, by rw [h]; unfold render flat; rw [if_neg h0]; rfl⟩
    rw [List.nil_append]
    exact nameOf_unique e1 e2
  | [], K, c :: t, hL, hK, h, _, h0 => by cases h
  | l :: L, K, c :: t, hL, hK, h, ht, h0 => by
    have ht : (c :: t).getLast? = some '.' := ht.resolve_left (by simp)
    have hm : '.' ∈ c :: t := List.mem_of_getLast? ht
    have hl := (hL l (by simp)).no_dot
    rw [flat_cons] at h
    -- the first dot of the text ends the first label
    have key : ∀ (l : Str) (t : Str), '.' ∉ l → '.' ∈ t → ∀ rest k : Str, l ++ '.' :: rest = t ++ k → t.getLast? = some '.' →
        ∃ t', t = l ++ '.' :: t' ∧ (t' = [] ∨ t'.getLast? = some '.') := by
      intro l
      induction l with
      | nil =>
        intro t _ hm rest k h hlast
        cases t with
        | nil => simp at hm
        | cons c t =>
          rw [List.nil_append, List.cons_append] at h
          injection h with h1 h2
          subst h1
          refine ⟨t, rfl, ?_⟩
          cases t with
          | nil => exact .inl rfl
          | cons d t => exact .inr (by rwa [List.getLast?_cons_cons] at hlast)
      | cons d l ih =>
        intro t hnd hm rest k h hlast
        cases t with
        | nil => simp at hm
        | cons c t =>
          rw [List.cons_append, List.cons_append] at h
          injection h with h1 h2
          subst h1
          have hd : d ≠ '.' := fun e => hnd (by simp [e])
          have hm' : '.' ∈ t := by
            rcases List.mem_cons.1 hm with e | e
            · exact absurd e.symm hd
            · exact e
          have hlast' : t.getLast? = some '.' := by
            cases t with
            | nil => simp at hm'
            | cons x t => rwa [List.getLast?_cons_cons] at hlast
          obtain ⟨t', e, h3⟩ := ih t (fun h => hnd (by simp [h])) hm' rest k h2 hlast'
          exact ⟨t', by rw [e]; rfl, h3⟩
    obtain ⟨t', e, ht'⟩ := key l (c :: t) hl hm (flat L) (flat K) h ht
    rw [e, List.append_assoc, List.cons_append] at h
    have h := List.append_cancel_left h
    injection h with _ h
    obtain ⟨M, hM⟩ := labels_of_text (L := L) (K := K) (t := t') (fun x hx => hL x (by simp [hx])) hK h ht' h0
    exact ⟨l :: M, by rw [hM]; rfl⟩
  termination_by L => L.length

theorem flat_length_le {M L : List Str} : (flat L).length ≤ (flat (M ++ L)).length := by
  unfold flat
  rw [List.flatMap_append, List.length_append]
  omega

/-- C62, part: the text of the zone referred to ends the text of the queried name, and is longer than that of the current
zone; if it begins at a label boundary, the statement holds. -/
theorem C62_downwards_partial (env : Env) (p : Profile) (ns : NextNs) (node : Name) (kind : RecordType) (retries : Nat)
    (w w' : World) (nss : List NextNs) (h : performRequest env p ns node kind retries w = (.ok (.delegation nss), w')) :
    nss ≠ [] ∧ ∀ next ∈ nss, next.zone.s <:+ node.s ∧ strLen ns.zone.s < strLen next.zone.s ∧
      (Under node ns.zone → ValidName next.zone.s → AtLabel node next.zone → Below next.zone ns.zone ∧ Under node next.zone) := by
  obtain ⟨resp, -, -, hne, -, hall⟩ := referral_of h
  refine ⟨hne, fun next hn => ?_⟩
  obtain ⟨-, h2, h3, -⟩ := hall next hn
  have hsuf : next.zone.s <:+ node.s := by
    unfold endsWith at h2
    exact List.isSuffixOf_iff_suffix.1 h2
  refine ⟨hsuf, h3, ?_⟩
  rintro ⟨M, L, hML, hL⟩ ⟨-, K, hK⟩ ⟨t, ht, hb⟩
  have l1 : strLen ns.zone.s = (render L).length := by rw [strLen_ascii hL.ascii, hL.2]
  have l2 : strLen next.zone.s = (render K).length := by rw [strLen_ascii hK.ascii, hK.2]
  have hK0 : K ≠ [] := by
    rintro rfl
    have : 0 < (render L).length := by
      unfold render
      by_cases h : L = []
      · rw [if_pos h]; simp
      · rw [if_neg h]
        cases L with
        | nil => exact absurd rfl h
        | cons l L => simp
    have : (render []).length = 1 := rfl
    omega
  have rK : render K = flat K := by unfold render flat; rw [if_neg hK0]
  have hML0 : M ++ L ≠ [] := by
    intro h0
    rw [hML.2, h0, hK.2] at ht
    have e : render ([] : List Str) = ['.'] := rfl
    rw [e, rK] at ht
    have hlen := congrArg List.length ht
    rw [List.length_append] at hlen
    have : 2 ≤ (flat K).length := by
      cases K with
      | nil => exact absurd rfl hK0
      | cons k K =>
        rw [flat_cons, List.length_append, List.length_cons]
        have := (hK.1 k (by simp)).ne_nil
        have := List.length_pos_of_ne_nil this
        omega
    simp at hlen
    omega
  have rML : render (M ++ L) = flat (M ++ L) := by unfold render flat; rw [if_neg hML0]
  have hf : flat (M ++ L) = t ++ flat K := by rw [← rML, ← rK, ← hML.2, ← hK.2]; exact ht
  obtain ⟨M', hM'⟩ := labels_of_text hML.1 hK.1 hf hb hK0
  refine ⟨?_, M', K, by rw [← hM']; exact hML, hK⟩
  -- both are tails of the labels of the queried name, and one is longer
  by_cases hL0 : L = []
  · subst hL0
    exact ⟨K, [], hK0, by rw [List.append_nil]; exact hK, hL⟩
  have rL : render L = flat L := by unfold render flat; rw [if_neg hL0]
  rw [rL] at l1
  rw [rK] at l2
  have hs1 : L <:+ M ++ L := ⟨M, rfl⟩
  have hs2 : K <:+ M ++ L := ⟨M', hM'.symm⟩
  rcases List.suffix_or_suffix_of_suffix hs1 hs2 with ⟨T, hT⟩ | ⟨T, hT⟩
  · refine ⟨T, L, ?_, by rw [hT]; exact hK, hL⟩
    rintro rfl
    rw [List.nil_append] at hT
    subst hT
    omega
  · have := flat_length_le (M := T) (L := K)
    rw [hT] at this
    omega

end Ariadne.Props
