import Verif.Lemmas.Delegation

/-! # From the root to the answer -/

namespace Ariadne.Resolver

open Spec

variable {env : Env} {p : Profile} {node : Name} {kind : RecordType}

/-! ## Referrals -/

theorem under_endsWith {d z : Name} (h : Under d z) : endsWith d z = true := by
  obtain ⟨M, L, ⟨hv, hd⟩, -, hz⟩ := h
  unfold endsWith
  rw [List.isSuffixOf_iff_suffix, hd, hz]
  unfold render
  by_cases hL : L = []
  · subst hL
    rw [if_pos rfl, List.append_nil]
    by_cases hM : M = []
    · rw [if_pos hM]
    · rw [if_neg hM]
      rcases List.eq_nil_or_concat M with h | ⟨M', x, h⟩
      · exact absurd h hM
      · subst h
        rw [List.concat_eq_append, List.flatMap_append]
        exact ⟨M'.flatMap (fun l => l ++ ['.']) ++ x, by simp⟩
  · rw [if_neg hL, if_neg (by simp [hL]), List.flatMap_append]
    exact List.suffix_append _ _

theorem below_longer {d z : Name} (h : Below d z) : isSubzone d z = true := by
  obtain ⟨M, L, hM, ⟨hv, hd⟩, -, hz⟩ := h
  have key : strLen z.s < strLen d.s := by
    rw [hd, hz]
    unfold render
    rw [if_neg (c := M ++ L = []) (by simp [hM])]
    cases M with
    | nil => exact absurd rfl hM
    | cons l M =>
      obtain ⟨-, a, _, ha, -⟩ := hv l (by simp)
      obtain ⟨l', rfl⟩ : ∃ l', l = a :: l' := by
        cases l with
        | nil => cases ha
        | cons x l' => exact ⟨l', by simp at ha; rw [ha]⟩
      have hp : 0 < a.utf8Size := Char.utf8Size_pos a
      have hd : ('.' : Char).utf8Size = 1 := by decide
      by_cases hL : L = []
      · subst hL
        rw [if_pos rfl]
        simp only [List.append_nil, List.flatMap_cons, strLen_append, strLen_cons, List.cons_append, hd]
        omega
      · rw [if_neg hL]
        simp only [List.flatMap_append, List.flatMap_cons, strLen_append, strLen_cons, List.cons_append, hd]
        omega
  unfold isSubzone
  simp only [Bool.not_eq_true', decide_eq_false_iff_not]
  omega

theorem addressesOf_append (n : Name) (l l' : List Record) : addressesOf n (l ++ l') = addressesOf n l ++ addressesOf n l' := by
  unfold addressesOf
  rw [List.filterMap_append]

theorem addressesOf_perm (n : Name) {l l' : List Record} (h : l.Perm l') : (addressesOf n l).Perm (addressesOf n l') := by
  unfold addressesOf
  exact h.filterMap _

theorem addressesOf_none {n : Name} {l : List Record} (h : ∀ r ∈ l, ¬ (r.node = n ∧ r.recordType = .A)) : addressesOf n l = [] := by
  unfold addressesOf
  rw [List.filterMap_eq_nil_iff]
  intro r hr
  have := h r hr
  cases hd : r.data <;> simp only
  rw [if_neg]
  intro hn
  exact this ⟨hn, by unfold Record.recordType; rw [hd]; rfl⟩

theorem left_addresses {ad : List Record} {t t' : Name} (h : t' ≠ t) :
    (addressesOf t' (extractRecords ad .A t).2).Perm (addressesOf t' ad) := by
  obtain ⟨h1, h2, h3⟩ := extractRecords_spec ad .A t
  have h4 := addressesOf_perm t' h1
  rw [addressesOf_append, addressesOf_none (l := (extractRecords ad .A t).1) fun r hr hx => h (hx.1.symm.trans (isWanted_iff.1 (h2 r hr)).1),
    List.nil_append] at h4
  exact h4

theorem extracted_addresses {ad : List Record} {t : Name} (r : Record) :
    (theAddrs ⟨r, (extractRecords ad .A t).1⟩).Perm (addressesOf t ad) := by
  obtain ⟨h1, h2, h3⟩ := extractRecords_spec ad .A t
  have h4 := addressesOf_perm t h1
  rw [addressesOf_append, addressesOf_none (l := (extractRecords ad .A t).2) fun r hr hx => Bool.false_ne_true ((h3 r hr).symm.trans (isWanted_iff.2 hx)), List.append_nil] at h4
  refine List.Perm.trans (List.Perm.of_eq ?_) h4
  unfold theAddrs addressesOf
  refine List.filterMap_congr fun x hx => ?_
  obtain ⟨hn, hk⟩ := isWanted_iff.1 (h2 x hx)
  cases hd : x.data <;> simp only
  rw [if_pos hn]

/-- The target of an NS record, or a default. -/
def targetOf (r : Record) : Option Name := match r.data with
  | .NS t => some t
  | _ => none

theorem pair_glue : ∀ {rs ad ad' : List Record} {S : List (List Ip4)},
    (∀ r ∈ rs, r.recordType = .NS) → rs.Pairwise (fun r r' => r.data ≠ r'.data) →
    (∀ r ∈ rs, ∀ t, r.data = .NS t → (addressesOf t ad').Perm (addressesOf t ad)) →
    S = rs.filterMap (fun r => match r.data with | .NS t => some (addressesOf t ad) | _ => none) → (∀ s ∈ S, s ≠ []) →
    ∃ nss, pairWithAddrs hasGlueIfNeeded rs ad' = .ok nss ∧ Are nss S ∧ nss.map NextNs.nsRecord = rs
  | [], ad, ad', S, _, _, _, hS, _ => by
    subst hS
    exact ⟨[], rfl, List.Forall₂.nil, rfl⟩
  | r :: rs, ad, ad', S, hns, hpw, had, hS, hne => by
    obtain ⟨t, ht⟩ := nsData_of (hns r (by simp))
    rw [List.filterMap_cons] at hS
    simp only [ht] at hS
    subst hS
    have hp := List.pairwise_cons.1 hpw
    obtain ⟨nss, e1, e2, e3⟩ := pair_glue (rs := rs) (ad := ad) (ad' := (extractRecords ad' .A t).2) (fun x hx => hns x (by simp [hx])) hp.2
      (fun x hx t' ht' => (left_addresses fun h => hp.1 x hx (by rw [ht, ht', h])).trans (had x (by simp [hx]) t' ht')) rfl
      (fun s hs => hne s (by simp [hs]))
    have hA : ∀ x ∈ (extractRecords ad' .A t).1, x.recordType = .A := fun x hx => (mem_extracted hx).2.2
    have hperm : (theAddrs ⟨r, (extractRecords ad' .A t).1⟩).Perm (addressesOf t ad) :=
      (extracted_addresses r).trans (had r (by simp) t ht)
    have hne0 : addressesOf t ad ≠ [] := hne _ (by simp)
    have hat : AtAll (fun _ => True) ⟨r, (extractRecords ad' .A t).1⟩ :=
      atAll_of hA (fun h => hne0 (by rw [h] at hperm; exact hperm.symm.eq_nil)) fun _ _ => trivial
    obtain ⟨a, as, eadd, -⟩ := hat.addrs LookupErr
    have hkeep : hasGlueIfNeeded ⟨r, (extractRecords ad' .A t).1⟩ = .ok true := by
      unfold hasGlueIfNeeded NextNs.node Record.nsData
      simp only [ht]
      rw [eadd]
      show Out.ok (!(_ && (a :: as).isEmpty)) = _
      simp
    refine ⟨⟨r, (extractRecords ad' .A t).1⟩ :: nss, ?_, List.Forall₂.cons ⟨hA, hperm⟩ e2, by rw [List.map_cons, e3]⟩
    unfold pairWithAddrs Record.nsData
    simp only [ht]
    show (hasGlueIfNeeded ⟨r, (extractRecords ad' .A t).1⟩ >>= fun k => pairWithAddrs hasGlueIfNeeded rs (extractRecords ad' .A t).2 >>= fun rest =>
      Out.ok (if k = true then _ else _)) = _
    rw [hkeep, e1]
    rfl

theorem interpret_referral {m : Message} {next zone : Name} (h : IsReferral m next) (hu : Under node next) (hb : Below next zone) :
    ∃ nss, interpret m node kind zone = .ok (.delegation nss) ∧ Are nss (glueOf m) ∧ nss ≠ [] ∧
      (∀ ns ∈ nss, ns.zone = next) ∧ ∀ ns ∈ nss, ns.nsRecord.recordType = .NS := by
  have hf : (m.authorities.filter fun r => r.recordType == .NS && (isAuthoritativeOver r.node node && isSubzone r.node zone)) =
      nsRecords m.authorities := by
    unfold nsRecords
    refine List.filter_congr fun r hr => ?_
    by_cases hk : r.recordType = .NS
    · have hn : r.node = next := h.owner r (List.mem_filter.2 ⟨hr, by simpa using hk⟩)
      unfold isAuthoritativeOver
      rw [hn, under_endsWith hu, below_longer hb, hk]
      rfl
    · simp [hk]
  have hns : ∀ r ∈ nsRecords m.authorities, r.recordType = .NS := fun r hr => by
    have := (List.mem_filter.1 hr).2
    simpa using this
  obtain ⟨nss, e1, e2, e3⟩ := pair_glue (rs := nsRecords m.authorities) (ad := m.additionals) (ad' := m.additionals) (S := glueOf m) hns h.hosts
    (fun _ _ _ _ => List.Perm.refl _) rfl h.glue
  have hne : nss ≠ [] := fun h0 => h.some (by rw [← e3, h0]; rfl)
  have hrec : ∀ ns ∈ nss, ns.nsRecord ∈ nsRecords m.authorities := fun ns hns => by rw [← e3]; exact List.mem_map_of_mem hns
  refine ⟨nss, ?_, e2, hne, fun ns hm => h.owner _ (hrec ns hm), fun ns hm => hns _ (hrec ns hm)⟩
  unfold interpret
  rw [h.code, h.answers]
  show (extractNextNssForSubzone m node zone >>= fun nextNss => if nextNss.length > 0 then Out.ok (NsResponse.delegation nextNss) else _) = _
  have e4 : extractNextNssForSubzone m node zone = .ok nss := by
    unfold extractNextNssForSubzone
    rw [hf, e1]
  rw [e4]
  show (if nss.length > 0 then Out.ok (NsResponse.delegation nss) else _) = _
  rw [if_pos (List.length_pos_iff.2 hne)]

theorem interpret_answer {m : Message} {zone : Name} {records : List Record} (h : IsAnswer node kind records m) (hne : records ≠ []) :
    ∃ answers additionals, interpret m node kind zone = .ok (.answer answers additionals) ∧ answers.Perm records ∧
      ∀ r ∈ answers, r.recordType = kind := by
  obtain ⟨h1, h2, h3⟩ := extractRecords_spec m.answers kind node
  have hp : (extractRecords m.answers kind node).1.Perm (m.answers.filter fun r => r.node = node ∧ r.recordType = kind) := by
    have h4 := h1.filter fun r => decide (r.node = node ∧ r.recordType = kind)
    rw [List.filter_append, List.filter_eq_self.2 fun r hr => by simpa using isWanted_iff.1 (h2 r hr),
      List.filter_eq_nil_iff.2 fun r hr hx => Bool.false_ne_true ((h3 r hr).symm.trans (isWanted_iff.2 (by simpa using hx))), List.append_nil] at h4
    exact h4
  have hp := hp.trans h.2
  refine ⟨(extractRecords m.answers kind node).1, m.additionals, ?_, hp, fun r hr => (mem_extracted hr).2.2⟩
  unfold interpret
  rw [h.1]
  simp only
  rw [if_pos]
  rw [hp.length_eq]
  exact List.length_pos_iff.2 hne

theorem interpret_denial {m : Message} {zone : Name} (h : IsDenial m) :
    ∃ soa, interpret m node kind zone = .ok (.noDomain soa) := by
  refine ⟨(extractRecord m.authorities .SOA node).1, ?_⟩
  unfold interpret
  rw [h.1]
  simp only
  rw [if_pos h.2]

/-! ## Saving -/

theorem saveRecords_does {l : List Record} {k : RecordType} (h0 : l ≠ []) (h : ∀ r ∈ l, r.recordType = k) :
    Does (saveRecordsInCache env l) (fun _ => True) := by
  intro w
  cases l with
  | nil => exact absurd rfl h0
  | cons r0 rs =>
    rw [saveRecords_eq fun r hr => (h r (by simp [hr])).trans (h r0 (by simp)).symm]
    exact ⟨_, _, rfl, trivial⟩

theorem saveAddrs_does : ∀ {nss : List NextNs}, (∀ ns ∈ nss, ∀ r ∈ ns.aRecords, r.recordType = .A) →
    Does (saveAddrs env nss) (fun _ => True)
  | [], _ => Does.pure trivial
  | ns :: nss, h => by
    unfold saveAddrs
    have rest : Does (saveAddrs env nss) (fun _ => True) := saveAddrs_does fun x hx => h x (by simp [hx])
    show Does (if ns.aRecords.length > 0 then (saveRecordsInCache env ns.aRecords >>= fun _ => saveAddrs env nss) else saveAddrs env nss) _
    by_cases h0 : ns.aRecords.length > 0
    · rw [if_pos h0]
      exact (saveRecords_does (List.length_pos_iff.1 h0) (h ns (by simp))).bind fun _ _ => rest
    · rw [if_neg h0]
      exact rest

theorem saveNss_does {nss : List NextNs} (h0 : nss ≠ []) (hA : ∀ ns ∈ nss, ∀ r ∈ ns.aRecords, r.recordType = .A)
    (hN : ∀ ns ∈ nss, ns.nsRecord.recordType = .NS) : Does (saveNssInCache env nss) (fun _ => True) := by
  unfold saveNssInCache
  refine (saveAddrs_does hA).bind fun _ _ => saveRecords_does (k := .NS) (by simpa using h0) ?_
  intro r hr
  obtain ⟨ns, hns, rfl⟩ := List.mem_map.1 hr
  exact hN ns hns

/-! ## The iteration -/

/-- What the iteration returns is no referral. -/
def NoReferral (r : NsResponse) : Prop := ∀ nss, r ≠ .delegation nss

theorem served_mono {t n : Nat} {P P' : Message → Prop} {S : List (List Ip4)} (h : ∀ m, P m → P' m)
    (hs : Served env p node kind t n P S) : Served env p node kind t n P' S := by
  obtain ⟨up, h1, h2, h3, h4⟩ := hs
  exact ⟨up, h1, fun s hs a ha => ⟨fun hu => ((h2 s hs a ha).1 hu).mono h, (h2 s hs a ha).2⟩, h3, h4⟩

theorem tryServers_served {sub : Lookup → M Response} {lk : Lookup} (hk : lk.kind.isSupportedForQuestion = true)
    (hn : lk.conf.maxUdpRetries ≠ 0) {P : Message → Prop} {Q : NsResponse → Prop} {zone : Name}
    (hi : ∀ m, P m → ∃ r, interpret m lk.node lk.kind zone = .ok r ∧ Q r) {nss : List NextNs} {S : List (List Ip4)} (hare : Are nss S)
    (hz : ∀ ns ∈ nss, ns.zone = zone) (hs : Served env p lk.node lk.kind lk.conf.maxUdpRetries lk.conf.maxNsQueried P S) :
    Does (tryServers env p sub lk ((sortNameservers nss).take lk.conf.maxNsQueried) none) Q := by
  obtain ⟨h1, h2⟩ := some_up hare hs
  exact tryServers_does hk hn hi (fun ns h => hz ns (mem_sortNameservers.1 (List.mem_of_mem_take h))) h1 h2

theorem served_ne {t n : Nat} {P : Message → Prop} {S : List (List Ip4)} (hs : Served env p node kind t n P S) : S ≠ [] := by
  obtain ⟨up, -, -, ⟨s, hs, -⟩, -⟩ := hs
  intro h
  rw [h] at hs
  cases hs

theorem are_ne {nss : List NextNs} {S : List (List Ip4)} (h : Are nss S) (h0 : S ≠ []) : nss ≠ [] := by
  intro hn
  subst hn
  cases h
  exact h0 rfl

/-- The last of the computation's steps, if reached, succeeds; nothing else is reported. -/
def Ends (m : M NsResponse) (Q : Out LookupErr NsResponse → Prop) : Prop := ∀ w, ∃ o w', m w = (o, w') ∧ Q o

theorem Does.then_ends {α : Type} {m : M α} {f : α → M NsResponse} {Q : α → Prop} {Q' : Out LookupErr NsResponse → Prop} (h : Does m Q)
    (hf : ∀ a, Q a → Ends (f a) Q') : Ends (m >>= f) Q' := by
  intro w
  obtain ⟨a, w', e, hq⟩ := h w
  rw [bind_at e]
  exact hf a hq w'

theorem queryIteratively_ends {sub : Lookup → M Response} {lk : Lookup} (hk : lk.kind.isSupportedForQuestion = true)
    (hn : lk.conf.maxUdpRetries ≠ 0) {last : List (List Ip4) → Prop} {Q : Out LookupErr NsResponse → Prop}
    (hi : ∀ fuel zone nss S, Are nss S → (∀ ns ∈ nss, ns.zone = zone) → last S → Ends (queryIteratively env p sub lk (fuel + 1) nss) Q) :
    ∀ {depth fuel : Nat} {zone : Name} {nss : List NextNs} {S : List (List Ip4)}, depth < fuel → Are nss S → (∀ ns ∈ nss, ns.zone = zone) →
      LeadsTo env p lk.node lk.kind lk.conf.maxUdpRetries lk.conf.maxNsQueried last depth zone S → Ends (queryIteratively env p sub lk fuel nss) Q
  | _, 0, _, _, _, hf, _, _, _ => absurd hf (by omega)
  | 0, fuel + 1, zone, nss, S, hf, hare, hz, hl => hi fuel zone nss S hare hz hl
  | depth + 1, fuel + 1, zone, nss, S, hf, hare, hz, hl => by
    unfold queryIteratively
    have hs : Served env p lk.node lk.kind lk.conf.maxUdpRetries lk.conf.maxNsQueried (fun m => ∃ next, IsReferral m next ∧ Under lk.node next ∧ Below next zone ∧
      LeadsTo env p lk.node lk.kind lk.conf.maxUdpRetries lk.conf.maxNsQueried last depth next (glueOf m)) S := hl
    rw [if_neg (by simpa using are_ne hare (served_ne hs))]
    refine Does.then_ends (Q := fun r => ∃ nss' next S', r = .delegation nss' ∧ Are nss' S' ∧ (∀ ns ∈ nss', ns.zone = next) ∧
      (∀ ns ∈ nss', ns.nsRecord.recordType = .NS) ∧ nss' ≠ [] ∧
      LeadsTo env p lk.node lk.kind lk.conf.maxUdpRetries lk.conf.maxNsQueried last depth next S') ?_ ?_
    · refine tryServers_served hk hn ?_ hare hz hs
      rintro m ⟨next, h1, h2, h3, h4⟩
      obtain ⟨nss', e1, e2, e3, e4, e5⟩ := interpret_referral (kind := lk.kind) h1 h2 h3
      exact ⟨_, e1, nss', next, _, rfl, e2, e4, e5, e3, h4⟩
    · rintro _ ⟨nss', next, S', rfl, h1, h2, h3, h4, h5⟩
      refine (saveNss_does h4 (fun ns hns => ?_) h3).then_ends fun _ _ => ?_
      · obtain ⟨_, _, h, _⟩ := are_mem h1 hns
        exact h
      · exact queryIteratively_ends hk hn hi (by omega) h1 h2 h5

theorem last_served {sub : Lookup → M Response} {lk : Lookup} (hk : lk.kind.isSupportedForQuestion = true)
    (hn : lk.conf.maxUdpRetries ≠ 0) {P : Message → Prop} {Q : NsResponse → Prop}
    (hi : ∀ m zone, P m → ∃ r, interpret m lk.node lk.kind zone = .ok r ∧ NoReferral r ∧ Q r) {fuel : Nat} {zone : Name} {nss : List NextNs}
    {S : List (List Ip4)} (hare : Are nss S) (hz : ∀ ns ∈ nss, ns.zone = zone)
    (hs : Served env p lk.node lk.kind lk.conf.maxUdpRetries lk.conf.maxNsQueried P S) :
    Ends (queryIteratively env p sub lk (fuel + 1) nss) (fun o => ∃ r, o = .ok r ∧ Q r) := by
  unfold queryIteratively
  rw [if_neg (by simpa using are_ne hare (served_ne hs))]
  refine (tryServers_served hk hn (hi · zone) hare hz hs).then_ends ?_
  rintro r ⟨hr, hq⟩ w
  cases r with
  | delegation nss' => exact absurd rfl (hr nss')
  | noDomain s => exact ⟨_, w, rfl, _, rfl, hq⟩
  | answer a b => exact ⟨_, w, rfl, _, rfl, hq⟩
  | «alias» a b => exact ⟨_, w, rfl, _, rfl, hq⟩

theorem tryServers_down {sub : Lookup → M Response} {lk : Lookup} (hk : lk.kind.isSupportedForQuestion = true)
    (hn : lk.conf.maxUdpRetries ≠ 0) : ∀ {nss : List NextNs} {e : Option LookupErr}, (nss = [] → e ≠ none) →
    (∀ ns ∈ nss, AtAll (Useless env p lk.node lk.kind) ns) → Fails (tryServers env p sub lk nss e)
  | [], some e, _, _ => fun w => ⟨e, w, rfl⟩
  | [], none, h, _ => absurd rfl (h rfl)
  | ns :: nss, e, _, hall => by
    unfold tryServers
    have hdown := hall ns (by simp)
    have : Fails (tryServer env p sub lk ns) := by
      unfold tryServer
      refine (resolveAddrs_at hdown sub lk).then_fails ?_
      rintro _ rfl
      exact Does.emit.then_fails fun _ _ => performRequest_down hdown hk hn
    refine this.attempt.then_fails ?_
    rintro _ ⟨e', rfl⟩
    exact tryServers_down hk hn (by simp) fun x hx => hall x (by simp [hx])

theorem last_down {sub : Lookup → M Response} {lk : Lookup} (hk : lk.kind.isSupportedForQuestion = true)
    (hn : lk.conf.maxUdpRetries ≠ 0) (hm : lk.conf.maxNsQueried ≠ 0) {fuel : Nat} {nss : List NextNs}
    {S : List (List Ip4)} (hare : Are nss S) (hs : AllDown env p lk.node lk.kind S) :
    Ends (queryIteratively env p sub lk (fuel + 1) nss) (fun o => ∃ e, o = .err e) := by
  unfold queryIteratively
  have hne := are_ne hare hs.1
  rw [if_neg (by simpa using hne)]
  intro w
  obtain ⟨e, w', he⟩ := tryServers_down (env := env) (p := p) (sub := sub) hk hn (nss := (sortNameservers nss).take lk.conf.maxNsQueried) (e := none)
    (fun h => by
      rcases List.take_eq_nil_iff.1 h with h | h
      · exact absurd h hm
      · exact absurd ((sortNameservers_perm nss).symm.trans (List.Perm.of_eq h)).eq_nil hne)
    (fun ns hns => by
      obtain ⟨s, hs', hA, hp⟩ := are_mem hare (mem_sortNameservers.1 (List.mem_of_mem_take hns))
      obtain ⟨h0, h1⟩ := hs.2 s hs'
      exact atAll_of hA (fun h => h0 (by rw [h] at hp; exact hp.symm.eq_nil)) fun a ha => h1 a (hp.mem_iff.1 ha)) w
  exact ⟨_, _, bind_err_at he, e, rfl⟩

/-! ## A cold cache -/

theorem nothing_getClone {c : RecordsCache} {key : Name × RecordType} {t : Nat} (h : NothingAbout node kind c) :
    NothingAbout node kind (c.getClone key t).1 := by
  have key' : ∀ k, c.find k = none → (c.getClone key t).1.find k = none := by
    intro k hk
    cases hf : (c.getClone key t).1.find k with
    | none => rfl
    | some e => rw [mem_getClone hf] at hk; cases hk
  exact ⟨key' _ h.1, key' _ h.2.1, fun z hz => key' _ (h.2.2 z hz)⟩

theorem search_cold (hoth : ∀ i c, NothingAbout node kind c → NothingAbout node kind (env.others i c)) {w : World}
    (h : NothingAbout node kind w.cache) {n : Name} {k : RecordType}
    (hk : ∀ c, NothingAbout node kind c → c.find (n, k) = none) :
    ∃ w', searchRecordsInCache env n k w = (.ok [], w') ∧ NothingAbout node kind w'.cache := by
  rw [searchRecords_eq]
  have h1 := hoth (w.ticks + 1) _ h
  have h2 : ((env.others (w.ticks + 1) w.cache).getClone (n, k) (env.clock (w.ticks + 2))).2 = none := by
    unfold Cache.getClone
    rw [hk _ h1]
  refine ⟨⟨((env.others (w.ticks + 1) w.cache).getClone (n, k) (env.clock (w.ticks + 2))).1, w.ticks + 3, w.log⟩, ?_, nothing_getClone h1⟩
  simp only [h2]

theorem findNs_cold (hoth : ∀ i c, NothingAbout node kind c → NothingAbout node kind (env.others i c)) :
    ∀ {ds : List Str}, (∀ d ∈ ds, ValidName d ∧ Under node ⟨d⟩) → ∀ {w : World}, NothingAbout node kind w.cache →
    ∃ w', findNsRecords env ds w = (.ok [], w') ∧ NothingAbout node kind w'.cache
  | [], _, w, h => ⟨w, rfl, h⟩
  | d :: ds, hd, w, h => by
    unfold findNsRecords
    have e : nameUnwrap d = .ok ⟨d⟩ := by
      unfold nameUnwrap
      rw [(fromString_iff d ⟨d⟩).2 ⟨rfl, (hd d (by simp)).1⟩]
    rw [bind_at (w := w) (w' := w) (a := ⟨d⟩) (by rw [e]; rfl)]
    obtain ⟨w1, e1, h1⟩ := search_cold hoth h (n := ⟨d⟩) (k := .NS) fun c hc => hc.2.2 _ (hd d (by simp)).2
    rw [bind_at e1]
    exact findNs_cold hoth (fun x hx => hd x (by simp [hx])) h1

theorem hierarchy_under {s : Str} (hs : ValidName s) : ∀ d ∈ generateDomainHierarchy s, ValidName d ∧ Under ⟨s⟩ ⟨d⟩ := by
  intro d hd
  refine ⟨hierarchy_valid hs d hd, ?_⟩
  obtain ⟨hl, L, hL⟩ := hs
  by_cases h0 : L = []
  · subst h0
    have : s = ['.'] := by rw [hL.2]; rfl
    subst this
    have : d = ['.'] := by
      have e : generateDomainHierarchy ['.'] = [['.']] := by decide
      rw [e] at hd
      simpa using hd
    subst this
    exact ⟨[], [], hL, hL⟩
  · rw [hierarchy_eq hL h0] at hd
    obtain ⟨M, hM, rfl⟩ := List.mem_map.1 hd
    have hsuf : M <:+ L := (List.mem_tails _ _).1 (List.dropLast_subset _ hM)
    obtain ⟨K, rfl⟩ := hsuf
    exact ⟨K, M, hL, fun l hl => hL.1 l (by simp [hl]), rfl⟩

/-- The addresses of the root servers. -/
theorem are_root : Are rootZoneNameservers (rootServers.map fun s => [s.2]) := by
  unfold rootZoneNameservers Are
  induction rootServers with
  | nil => exact List.Forall₂.nil
  | cons s l ih => exact List.Forall₂.cons ⟨by simp [Record.recordType, RData.recordType], List.Perm.refl _⟩ ih

theorem root_zone : ∀ ns ∈ rootZoneNameservers, ns.zone = ⟨['.']⟩ := by
  intro ns h
  unfold rootZoneNameservers at h
  obtain ⟨s, -, rfl⟩ := List.mem_map.1 h
  rfl

/-- A lookup that finds nothing in the cache starts with the root servers. -/
theorem performLoop_cold {sub : Lookup → M Response} {lk : Lookup} {fuel rounds : Nat} (hv : ValidName lk.node.s)
    (hoth : ∀ i c, NothingAbout lk.node lk.kind c → NothingAbout lk.node lk.kind (env.others i c)) {w : World}
    (h : NothingAbout lk.node lk.kind w.cache) {A : List Record → Prop} {D E : Prop} {k : RecordType}
    (hA : ∀ a, A a → a ≠ [] ∧ ∀ r ∈ a, r.recordType = k)
    (hq : Ends (queryIteratively env p sub lk fuel rootZoneNameservers) fun o =>
      (∃ a ad, o = .ok (.answer a ad) ∧ A a) ∨ (D ∧ ∃ soa, o = .ok (.noDomain soa)) ∨ (E ∧ ∃ e, o = .err e)) :
    ∃ o w', performLoop env p sub fuel (rounds + 1) lk [] w = (o, w') ∧
      ((∃ r, o = .ok r ∧ r.noRecords = false ∧ ∃ a, r.answers = lk.previousCnames ++ a ∧ A a) ∨
       (D ∧ ∃ r, o = .ok r ∧ r.noRecords = true ∧ r.answers = lk.previousCnames) ∨ (E ∧ ∃ e, o = .err e)) := by
  unfold performLoop
  rw [bind_at (m := M.emit _) (w := w) (w' := { w with log := w.log ++ [.start lk.previousZones lk.conf.noFollowCname lk.node lk.kind] }) (a := ()) rfl]
  obtain ⟨w1, e1, h1⟩ := search_cold hoth (w := { w with log := w.log ++ [.start lk.previousZones lk.conf.noFollowCname lk.node lk.kind] })
    h (n := lk.node) (k := lk.kind) fun c hc => hc.1
  obtain ⟨w2, e2, h2⟩ := search_cold hoth h1 (n := lk.node) (k := .CNAME) fun c hc => hc.2.1
  obtain ⟨w3, e3, h3⟩ := findNs_cold hoth (hierarchy_under hv) h2
  rw [bind_at e1]
  simp only [List.length_nil, Nat.lt_irrefl, gt_iff_lt, if_false]
  rw [bind_at e2]
  have e4 : startingServers env lk [] w2 = (.ok rootZoneNameservers, w3) := by
    unfold startingServers searchNssInCache
    simp only [List.isEmpty_nil, if_true]
    have : (findNsRecords env (generateDomainHierarchy lk.node.s) >>= fun records => findAddrs env records) w2 = (.ok [], w3) := by
      rw [bind_at e3]
      rfl
    rw [bind_at this]
    rfl
  simp only
  rw [bind_at e4]
  obtain ⟨o, w4, e5, hr⟩ := hq w3
  rcases hr with ⟨a, ad, rfl, ha⟩ | ⟨hD, soa, rfl⟩ | ⟨hE, e, rfl⟩
  · rw [bind_at e5]
    obtain ⟨u, w5, e6, -⟩ := saveRecords_does (env := env) (hA a ha).1 (hA a ha).2 w4
    simp only
    rw [bind_at e6]
    exact ⟨_, _, rfl, .inl ⟨_, rfl, rfl, a, rfl, ha⟩⟩
  · rw [bind_at e5]
    exact ⟨_, _, rfl, .inr (.inl ⟨hD, _, rfl, rfl, rfl⟩)⟩
  · rw [bind_err_at e5]
    exact ⟨_, _, rfl, .inr (.inr ⟨hE, e, rfl⟩)⟩

end Ariadne.Resolver
