import Verif.Lemmas.Truth
import Verif.Lemmas.Extract
import Verif.Lemmas.Steps

/-! # What the records of a lookup inherit from the datagrams they came in -/

namespace Ariadne.Resolver

open Spec

/-- At most 45 records in every entry, and all of them with the property. -/
def SmallCache (P : Record → Prop) (c : RecordsCache) : Prop :=
  ∀ k e rs, c.find k = some (e, rs) → rs.length ≤ 45 ∧ ∀ r ∈ rs, P r

/-- The surroundings: a property of records that does not depend on the TTL and that all records of the datagrams of servers have;
the other threads respect it. -/
structure Bounding (P : Record → Prop) (env : Env) (p : Profile) : Prop where
  ttl : ∀ r t, P r → P (r.setTtl t)
  decoded : ∀ hist addr query raw m, env.net hist addr query = some raw → Message.decodeFromBytes p (raw.take 512) = .ok m →
    m.answers.length + m.authorities.length + m.additionals.length ≤ 45 ∧
    ∀ r ∈ m.answers ++ m.authorities ++ m.additionals, P r
  others : ∀ i c, SmallCache P c → SmallCache P (env.others i c)

variable {I : RecordsCache → Prop} {env : Env} {p : Profile} {P : Record → Prop}

/-- A list of records as it can be cached. -/
def SmallSet (P : Record → Prop) (rs : List Record) : Prop := rs.length ≤ 45 ∧ ∀ r ∈ rs, P r

theorem SmallSet.map_ttl (ha : Bounding P env p) {rs : List Record} (h : SmallSet P rs) (t : UInt32) :
    SmallSet P (rs.map fun r => r.setTtl t) := by
  refine ⟨by rw [List.length_map]; exact h.1, fun r hr => ?_⟩
  obtain ⟨r', hr', rfl⟩ := List.mem_map.1 hr
  exact ha.ttl _ _ (h.2 r' hr')

theorem searchRecords_small (ha : Bounding P env p) (node : Name) (kind : RecordType) :
    Keeps (SmallCache P) (searchRecordsInCache env node kind) (SmallSet P) := by
  intro w hw
  have h1 := ha.others (w.ticks + 1) _ hw
  have heq := searchRecords_eq (env := env) (w := w) node kind
  simp only at heq
  rw [heq]
  refine ⟨fun k e r hf => h1 k e r (mem_getClone hf), ?_⟩
  intro rs hrs
  cases hr : ((env.others (w.ticks + 1) w.cache).getClone (node, kind) (env.clock (w.ticks + 2))).2 with
  | none =>
    rw [hr] at hrs
    cases hrs
    exact ⟨by simp, by simp⟩
  | some e =>
    obtain ⟨exp, recs⟩ := e
    rw [hr] at hrs
    simp only at hrs
    obtain ⟨hfind, -⟩ := getClone_some hr
    have hset : SmallSet P recs := h1 _ _ _ hfind
    unfold serveCached at hrs
    cases recs with
    | nil => cases hrs; exact hset
    | cons r0 rest =>
      simp only at hrs
      split at hrs
      · cases hrs
      split at hrs
      · cases hrs
      split at hrs
      · cases hrs
      cases hrs
      exact hset.map_ttl ha _

theorem saveRecords_small (ha : Bounding P env p) {rs : List Record} {kind : RecordType}
    (ht : ∀ r ∈ rs, r.recordType = kind) (hs : SmallSet P rs) :
    Keeps (SmallCache P) (saveRecordsInCache env rs) (fun _ => True) := by
  cases rs with
  | nil => exact Keeps.panic
  | cons r0 rest =>
    intro w hw
    have ht0 := ht r0 (by simp)
    have heq := saveRecords_eq (env := env) (w := w) (r0 := r0) (rs := rest) fun r hr => by rw [ht r (by simp [hr]), ht0]
    rw [heq]
    have h1 := ha.others w.ticks _ hw
    have hset := hs.map_ttl ha (minTtl r0.ttl rest)
    refine ⟨?_, fun _ _ => trivial⟩
    intro k e r hfd
    simp only [find_set, Cache.find_put] at hfd
    by_cases hk : (r0.node, r0.recordType) = k
    · rw [if_pos hk] at hfd
      injection hfd with hfd
      injection hfd with h2 h3
      subst h2 h3 hk
      exact hset
    · rw [if_neg hk] at hfd
      exact h1 _ _ _ hfd

/-- What is known of a response. -/
def SmallReply (P : Record → Prop) (m : Message) : Prop :=
  m.answers.length + m.authorities.length + m.additionals.length ≤ 45 ∧
    ∀ r ∈ m.answers ++ m.authorities ++ m.additionals, P r

theorem sendQuery_small (ha : Bounding P env p) (ns : NextNs) (node : Name) (kind : RecordType) :
    Keeps I (sendQuery env p ns node kind) (SmallReply P) := by
  unfold sendQuery
  refine Keeps.randomId.bind fun id _ => ?_
  refine Keeps.bind (Keeps.lift (Q := fun _ => True) fun _ _ => trivial) fun bytes _ => ?_
  refine Keeps.bind sendUdpPacket_keeps fun reply hr => ?_
  obtain ⟨hist, addr, raw, hnet, rfl⟩ := hr
  refine Keeps.lift fun m hm => ?_
  unfold acceptResponse at hm
  cases hd : Message.decodeFromBytes p (raw.take 512) with
  | ok resp =>
    rw [hd] at hm
    simp only at hm
    by_cases hid : resp.header.id ≠ id
    · rw [if_pos hid] at hm; cases hm
    · rw [if_neg hid] at hm
      cases hm
      exact ha.decoded _ _ _ _ _ hnet hd
  | err e => rw [hd] at hm; cases hm
  | panic k => rw [hd] at hm; cases hm
  | diverge => rw [hd] at hm; cases hm

theorem sendRetries_small (ha : Bounding P env p) (ns : NextNs) (node : Name) (kind : RecordType) :
    ∀ (n : Nat) (e : Option LookupErr), Keeps I (sendQueryWithRetries env p ns node kind n e) (SmallReply P)
  | 0, some e => Keeps.throw
  | 0, none => Keeps.panic
  | n + 1, e => by
    unfold sendQueryWithRetries
    refine (Keeps.attempt (sendQuery_small ha ns node kind)).bind fun x hx => ?_
    cases x with
    | inr resp => exact Keeps.pure (hx _ rfl)
    | inl e' => exact sendRetries_small ha ns node kind n _

/-- What is known of an interpreted response. -/
def SmallMeaning (P : Record → Prop) (kind : RecordType) : NsResponse → Prop
  | .noDomain soa => ∀ r ∈ soa, P r
  | .answer answers additionals => answers.length + additionals.length ≤ 45 ∧ (∀ r ∈ answers, r.recordType = kind ∧ P r) ∧
      ∀ r ∈ additionals, P r
  | .alias cname _ => P cname
  | .delegation nss => nss.length ≤ 45 ∧ (∀ ns ∈ nss, P ns.nsRecord ∧ ns.nsRecord.recordType = .NS ∧
      SmallSet P ns.aRecords ∧ ∀ r ∈ ns.aRecords, r.recordType = .A)

theorem extracted_length (rs : List Record) (kind : RecordType) (node : Name) :
    (extractRecords rs kind node).1.length ≤ rs.length ∧ (extractRecords rs kind node).2.length ≤ rs.length := by
  obtain ⟨h, -, -⟩ := extractRecords_spec rs kind node
  have := h.length_eq
  rw [List.length_append] at this
  omega

theorem pairWithAddrs_small {keep : NextNs → Out LookupErr Bool} : ∀ {rs ad : List Record} {nss : List NextNs},
    SmallSet P ad → pairWithAddrs keep rs ad = .ok nss →
    nss.length ≤ rs.length ∧ ∀ ns ∈ nss, ns.nsRecord ∈ rs ∧ SmallSet P ns.aRecords ∧ ∀ r ∈ ns.aRecords, r.recordType = .A
  | [], ad, nss, _, h => by unfold pairWithAddrs at h; cases h; simp
  | r :: rs, ad, nss, hf, h => by
    unfold pairWithAddrs at h
    obtain ⟨t, ht, h⟩ := Out.of_bind_ok h
    simp only at h
    obtain ⟨b, hb, h⟩ := Out.of_bind_ok h
    obtain ⟨rest, hrest, h⟩ := Out.of_bind_ok h
    have hl := extracted_length ad .A t
    have h45 := hf.1
    obtain ⟨ih1, ih⟩ := pairWithAddrs_small (keep := keep) (rs := rs) ⟨by omega, fun x hx => hf.2 x (mem_left hx)⟩ hrest
    have old : ∀ ns ∈ rest, ns.nsRecord ∈ r :: rs ∧ SmallSet P ns.aRecords ∧ ∀ r ∈ ns.aRecords, r.recordType = .A :=
      fun ns hns => ⟨List.mem_cons_of_mem _ (ih ns hns).1, (ih ns hns).2⟩
    cases b with
    | false => cases h; exact ⟨by simp only [List.length_cons, Bool.false_eq_true, if_false]; omega, old⟩
    | true =>
      cases h
      refine ⟨by simp only [List.length_cons, if_true]; omega, fun ns hns => ?_⟩
      rcases List.mem_cons.1 hns with rfl | hns
      · refine ⟨List.mem_cons_self, ⟨by have := hf.1; simp only; omega, fun x hx => hf.2 x (mem_extracted hx).1⟩, fun x hx => (mem_extracted hx).2.2⟩
      · exact old ns hns

theorem interpret_small {resp : Message} {node : Name} {kind : RecordType} {zone : Name} {r : NsResponse}
    (hr : SmallReply P resp) (h : interpret resp node kind zone = .ok r) : SmallMeaning P kind r := by
  obtain ⟨hlen, hr⟩ := hr
  have hans : ∀ r ∈ resp.answers, P r := fun r hr' => hr r (by simp [hr'])
  have haut : ∀ r ∈ resp.authorities, P r := fun r hr' => hr r (by simp [hr'])
  have hadd : ∀ r ∈ resp.additionals, P r := fun r hr' => hr r (by simp [hr'])
  unfold interpret at h
  cases hc : resp.header.respCode with
  | NoError =>
    rw [hc] at h
    simp only at h
    by_cases hl : (extractRecords resp.answers kind node).1.length > 0
    · rw [if_pos hl] at h
      cases h
      have := extracted_length resp.answers kind node
      exact ⟨by omega, fun x hx => ⟨(mem_extracted hx).2.2, hans x (mem_extracted hx).1⟩, hadd⟩
    · rw [if_neg hl] at h
      cases he : extractRecord (extractRecords resp.answers kind node).2 .CNAME node with
      | mk o l =>
      rw [he] at h
      cases o with
      | some cname =>
        simp only at h
        obtain ⟨t, -, h⟩ := Out.of_bind_ok h
        obtain ⟨nss, -, h⟩ := Out.of_bind_ok h
        cases h
        have hs := extractRecord_spec (r := cname) (congrArg Prod.fst he)
        exact hans _ (mem_left hs.1)
      | none =>
        simp only at h
        obtain ⟨nss, h1, h⟩ := Out.of_bind_ok h
        by_cases h0 : nss.length > 0
        · rw [if_pos h0] at h
          cases h
          unfold extractNextNssForSubzone at h1
          obtain ⟨a0, a1⟩ := pairWithAddrs_small (P := P) ⟨by omega, hadd⟩ h1
          have := List.length_filter_le (fun r => r.recordType == .NS && (isAuthoritativeOver r.node node && isSubzone r.node zone)) resp.authorities
          refine ⟨by omega, fun ns hns => ?_⟩
          obtain ⟨a1, a2, a3⟩ := a1 ns hns
          have hm := List.mem_filter.1 a1
          have hk := hm.2
          rw [Bool.and_eq_true, beq_iff_eq] at hk
          exact ⟨haut _ hm.1, hk.1, a2, a3⟩
        · rw [if_neg h0] at h; cases h
  | NxDomain =>
    rw [hc] at h
    simp only at h
    by_cases haa : resp.header.authAnswer = true
    · rw [if_pos haa] at h
      cases h
      exact fun r hr' => haut _ (extractRecord_spec hr').1
    · rw [if_neg haa] at h; cases h
  | FormErr => rw [hc] at h; cases h
  | ServFail => rw [hc] at h; cases h
  | NotImp => rw [hc] at h; cases h
  | Refused => rw [hc] at h; cases h

theorem performRequest_small (ha : Bounding P env p) (ns : NextNs) (node : Name) (kind : RecordType) (n : Nat) :
    Keeps I (performRequest env p ns node kind n) (SmallMeaning P kind) := by
  unfold performRequest
  refine (sendRetries_small ha ns node kind n none).bind fun resp hr => ?_
  exact Keeps.lift fun r h => interpret_small hr h

theorem saveAddrs_small (ha : Bounding P env p) : ∀ {nss : List NextNs},
    (∀ ns ∈ nss, SmallSet P ns.aRecords ∧ ∀ r ∈ ns.aRecords, r.recordType = .A) →
    Keeps (SmallCache P) (saveAddrs env nss) (fun _ => True)
  | [], _ => Keeps.pure trivial
  | ns :: nss, h => by
    unfold saveAddrs
    have ih := saveAddrs_small ha (nss := nss) fun x hx => h x (List.mem_cons_of_mem _ hx)
    show Keeps (SmallCache P) (if ns.aRecords.length > 0 then (saveRecordsInCache env ns.aRecords >>= fun _ => saveAddrs env nss)
      else saveAddrs env nss) _
    by_cases h0 : ns.aRecords.length > 0
    · rw [if_pos h0]
      obtain ⟨h1, h2⟩ := h ns (by simp)
      exact (saveRecords_small ha h2 h1).bind fun _ _ => ih
    · rw [if_neg h0]
      exact ih

theorem saveNss_small (ha : Bounding P env p) {kind : RecordType} {nss : List NextNs}
    (h : SmallMeaning P kind (.delegation nss)) : Keeps (SmallCache P) (saveNssInCache env nss) (fun _ => True) := by
  unfold saveNssInCache
  refine (saveAddrs_small ha fun ns hns => (h.2 ns hns).2.2).bind fun _ _ => ?_
  refine saveRecords_small ha (kind := .NS) (fun r hr => ?_) ⟨by rw [List.length_map]; exact h.1, fun r hr => ?_⟩
  · obtain ⟨ns, hns, rfl⟩ := List.mem_map.1 hr
    exact (h.2 ns hns).2.1
  · obtain ⟨ns, hns, rfl⟩ := List.mem_map.1 hr
    exact (h.2 ns hns).1

theorem findNsRecords_small (ha : Bounding P env p) : ∀ (ds : List Str),
    Keeps (SmallCache P) (findNsRecords env ds) (fun _ => True)
  | [] => Keeps.pure trivial
  | d :: ds => by
    unfold findNsRecords
    refine (Keeps.lift (Q := fun _ => True) fun _ _ => trivial).bind fun n _ => ?_
    refine (searchRecords_small ha n .NS).bind fun rs _ => ?_
    by_cases h0 : rs.length > 0
    · simp only [if_pos h0]; exact Keeps.pure trivial
    · simp only [if_neg h0]; exact findNsRecords_small ha ds

theorem findAddrs_small (ha : Bounding P env p) : ∀ (rs : List Record),
    Keeps (SmallCache P) (findAddrs env rs) (fun _ => True)
  | [] => Keeps.pure trivial
  | r :: rs => by
    unfold findAddrs
    refine (Keeps.lift (Q := fun _ => True) fun _ _ => trivial).bind fun n _ => ?_
    refine (searchRecords_small ha n .A).bind fun as _ => ?_
    exact (findAddrs_small ha rs).bind fun _ _ => Keeps.pure trivial

theorem startingServers_small (ha : Bounding P env p) (lk : Lookup) (nss : List NextNs) :
    Keeps (SmallCache P) (startingServers env lk nss) (fun _ => True) := by
  unfold startingServers
  by_cases h0 : nss.isEmpty
  · rw [if_pos h0]
    unfold searchNssInCache
    exact Keeps.bind (Q := fun _ => True) ((findNsRecords_small ha _).bind fun rs _ => findAddrs_small ha rs)
      fun _ _ => Keeps.pure trivial
  · rw [if_neg h0]
    exact Keeps.pure trivial

/-- The sub-lookups keep the cache small. -/
def SubsSmall (P : Record → Prop) (sub : Lookup → M Response) : Prop :=
  ∀ lk : Lookup, lk.previousCnames = [] → Keeps (SmallCache P) (sub lk) (fun _ => True)

theorem resolveAddrs_small {sub : Lookup → M Response} (hsub : SubsSmall P sub) (lk : Lookup) (ns : NextNs) :
    Keeps (SmallCache P) (resolveAddrs sub lk ns) (fun _ => True) := by
  unfold resolveAddrs
  refine (Keeps.lift (Q := fun _ => True) fun _ _ => trivial).bind fun as _ => ?_
  by_cases h0 : as.isEmpty
  · rw [if_pos h0]
    refine (Keeps.lift (Q := fun _ => True) fun _ _ => trivial).bind fun n _ => ?_
    refine (Keeps.attempt (Q := fun _ => True) ?_).bind fun x _ => ?_
    · unfold resolveNsSubquery
      refine (Keeps.lift (Q := fun _ => True) fun _ _ => trivial).bind fun _ _ => ?_
      exact (hsub _ rfl).bind fun _ _ => Keeps.pure trivial
    · cases x with
      | inl e => exact Keeps.throw
      | inr rs => exact Keeps.pure trivial
  · rw [if_neg h0]
    exact Keeps.pure trivial

theorem tryServers_small (ha : Bounding P env p) {sub : Lookup → M Response} (hsub : SubsSmall P sub) (lk : Lookup) :
    ∀ (nss : List NextNs) (e : Option LookupErr),
      Keeps (SmallCache P) (tryServers env p sub lk nss e) (SmallMeaning P lk.kind)
  | [], some e => Keeps.throw
  | [], none => Keeps.panic
  | ns :: nss, e => by
    unfold tryServers
    refine (Keeps.attempt (Q := SmallMeaning P lk.kind) ?_).bind fun x hx => ?_
    · unfold tryServer
      refine (resolveAddrs_small hsub lk ns).bind fun ns' _ => ?_
      exact Keeps.emit.bind fun _ _ => performRequest_small ha ns' _ _ _
    · cases x with
      | inr r => exact Keeps.pure (hx _ rfl)
      | inl e' => exact tryServers_small ha hsub lk nss _

theorem query_small (ha : Bounding P env p) {sub : Lookup → M Response} (hsub : SubsSmall P sub) (lk : Lookup) :
    ∀ (fuel : Nat) (nss : List NextNs),
      Keeps (SmallCache P) (queryIteratively env p sub lk fuel nss) (SmallMeaning P lk.kind)
  | 0, _ => Keeps.lift fun _ h => by cases h
  | fuel + 1, nss => by
    unfold queryIteratively
    by_cases h0 : nss.length = 0
    · rw [if_pos h0]; exact Keeps.panic
    · rw [if_neg h0]
      refine (tryServers_small ha hsub lk _ none).bind fun r hr => ?_
      cases r with
      | delegation nextNss =>
        refine (saveNss_small ha hr).bind fun _ _ => ?_
        exact query_small ha hsub lk fuel nextNss
      | answer a b => exact Keeps.pure hr
      | «alias» a b => exact Keeps.pure hr
      | noDomain a => exact Keeps.pure hr

/-- What is known of the response of a lookup, `n` rounds before the limit. -/
def SmallResponse (P : Record → Prop) (n : Nat) (lk : Lookup) (r : Response) : Prop :=
  (∀ x ∈ r.answers ++ r.authorities ++ r.additionals, P x) ∧
  ∃ cnames recs, r.answers = lk.previousCnames ++ cnames ++ recs ∧ (∀ x ∈ cnames, x.recordType = .CNAME) ∧ cnames.length < n ∧
    recs.length + r.additionals.length + r.authorities.length ≤ 45 ∧ (r.noRecords = false → r.authorities = [])

theorem cnameData_type {r : Record} {t : Name} (h : (r.cnameData : Out LookupErr Name) = .ok t) : r.recordType = .CNAME := by
  obtain ⟨n, c, tt, l, d⟩ := r
  cases d <;> first | rfl | cases h

theorem handleCname_small (ha : Bounding P env p) {lk : Lookup} {cname : Record} (hf : P cname) :
    Keeps (SmallCache P) (handleCname env lk cname) (fun lk' => cname.recordType = .CNAME ∧
      ∃ t, lk' = { lk with node := t, previousCnames := lk.previousCnames ++ [cname] }) := by
  unfold handleCname
  refine (Keeps.lift (Q := fun _ => cname.recordType = .CNAME) fun _ h => cnameData_type h).bind fun t hk => ?_
  refine (Keeps.lift (Q := fun _ => True) fun _ _ => trivial).bind fun _ _ => ?_
  by_cases h0 : lk.conf.noFollowCname
  · rw [if_pos h0]; exact Keeps.throw
  · rw [if_neg h0]
    refine Keeps.bind (Q := fun _ => True) ?_ fun _ _ => Keeps.pure ⟨hk, t, rfl⟩
    exact saveRecords_small ha (kind := .CNAME) (by simpa using hk) ⟨by simp, by simpa using hf⟩

theorem performLoop_small (ha : Bounding P env p) {sub : Lookup → M Response} (hsub : SubsSmall P sub) (fuel : Nat) :
    ∀ (rounds : Nat) (lk : Lookup) (nss : List NextNs), (∀ x ∈ lk.previousCnames, P x) →
      Keeps (SmallCache P) (performLoop env p sub fuel rounds lk nss) (SmallResponse P rounds lk)
  | 0, _, _, _ => Keeps.throw
  | rounds + 1, lk, nss, hp => by
    unfold performLoop
    have again : ∀ (cname : Record) (nss : List NextNs), P cname →
        Keeps (SmallCache P) (handleCname env lk cname >>= fun lk' => performLoop env p sub fuel rounds lk' nss) (SmallResponse P (rounds + 1) lk) := by
      intro cname nss hf
      refine (handleCname_small ha hf).bind ?_
      rintro _ ⟨hk, t, rfl⟩
      refine (performLoop_small ha hsub fuel rounds _ nss ?_).mono ?_
      · intro x hx
        rcases List.mem_append.1 hx with h | h
        · exact hp x h
        · rw [List.mem_singleton.1 h]; exact hf
      · rintro r ⟨h1, cnames, recs, h2, h3, h4, h5⟩
        refine ⟨h1, cname :: cnames, recs, ?_, ?_, by simp only [List.length_cons]; omega, h5⟩
        · rw [h2]; simp
        · intro x hx
          rcases List.mem_cons.1 hx with rfl | hx
          · exact hk
          · exact h3 x hx
    refine Keeps.emit.bind fun _ _ => ?_
    refine (searchRecords_small ha lk.node lk.kind).bind fun cached hc => ?_
    by_cases h0 : cached.length > 0
    · simp only [if_pos h0]
      refine Keeps.pure ⟨?_, [], cached, by simp, by simp, by simp, by simpa using hc.1, fun _ => rfl⟩
      intro x hx
      simp only [List.append_nil, List.mem_append] at hx
      rcases hx with h | h
      · exact hp x h
      · exact hc.2 x h
    · simp only [if_neg h0]
      refine (searchRecords_small ha lk.node .CNAME).bind fun cnames hcn => ?_
      cases cnames with
      | cons cname rest =>
        exact again cname [] (hcn.2 cname (by simp))
      | nil =>
        simp only
        refine (startingServers_small ha lk nss).bind fun nss' _ => ?_
        refine (query_small ha hsub lk fuel nss').bind fun r hr => ?_
        cases r with
        | answer answers additionals =>
          simp only
          have := hr.1
          refine (saveRecords_small ha (fun r hr' => (hr.2.1 r hr').1) ⟨by omega, fun r hr' => (hr.2.1 r hr').2⟩).bind fun _ _ => ?_
          refine Keeps.pure ⟨?_, [], answers, by simp, by simp, by simp, by simpa using hr.1, fun _ => rfl⟩
          intro x hx
          simp only [List.append_nil, List.mem_append] at hx
          rcases hx with (h | h) | h
          · exact hp x h
          · exact (hr.2.1 x h).2
          · exact hr.2.2 x h
        | «alias» cname nextNss => exact again cname nextNss hr
        | noDomain soa =>
          simp only
          refine Keeps.pure ⟨?_, [], [], by simp, by simp, by simp, ?_, fun h => by cases h⟩
          · intro x hx
            simp only [List.append_nil, List.mem_append] at hx
            rcases hx with h | h
            · exact hp x h
            · exact hr x (by simpa using h)
          · cases soa <;> simp
        | delegation nss'' => exact Keeps.panic

theorem perform_small (ha : Bounding P env p) : ∀ (fuel : Nat) (lk : Lookup), (∀ x ∈ lk.previousCnames, P x) →
    Keeps (SmallCache P) (perform env p fuel lk) (SmallResponse P lk.conf.maxCnameRedir lk)
  | 0, _, _ => Keeps.lift fun _ h => by cases h
  | fuel + 1, lk, hp => by
    unfold perform
    exact performLoop_small ha (fun lk' h => (perform_small ha fuel lk' (by rw [h]; simp)).mono fun _ _ => trivial) fuel _ lk [] hp

end Ariadne.Resolver
