import Verif.Lemmas.WellRun

/-! # Servers in name spaces that are in order -/

namespace Ariadne.Resolver

open Spec NameSpace

variable {env : Env} {p : Profile} {N : NameSpace} {start stop tries : Nat}

/-- A server of the zone as it is known to a lookup: with its addresses or, if it is free, maybe without. -/
def Stands (N : NameSpace) (z : Name) (ns : NextNs) : Prop :=
  ns.nsRecord.node = z ∧ ∃ t, ns.nsRecord.data = .NS t ∧ t ∈ N.nameservers z ∧
    (Same ns.aRecords (N.hosts t) ∨ (ns.aRecords = [] ∧ N.Free t z))

/-- The server has addresses, or they can be looked up. -/
def Usable (N : NameSpace) (z : Name) (ns : NextNs) : Prop :=
  ns.zone = z ∧ ((ns.aRecords ≠ [] ∧ ∀ r ∈ ns.aRecords, r.recordType = .A) ∨
    (ns.aRecords = [] ∧ ∃ t, ns.nsRecord.data = .NS t ∧ t ∈ N.nameservers z ∧ N.Free t z))

/-- The server with its addresses. -/
def fill (N : NameSpace) (ns : NextNs) : NextNs :=
  if ns.aRecords = [] then
    match ns.nsRecord.data with
    | .NS t => { ns with aRecords := N.hosts t }
    | _ => ns
  else ns

/-- Hosts are as in a name space in order. -/
def HostsOk (N : NameSpace) : Prop := ∀ t z, t ∈ N.nameservers z → N.hosts t ≠ [] ∧ ∀ r ∈ N.hosts t, r.node = t ∧ r.recordType = .A

theorem same_all {l l' : List Record} {n : Name} {k : RecordType} (h : Same l l') (h' : ∀ r ∈ l', r.node = n ∧ r.recordType = k) :
    ∀ r ∈ l, r.node = n ∧ r.recordType = k := by
  intro r hr
  obtain ⟨r', h1, h2⟩ := same_mem h hr
  rw [← bare_node h2, ← bare_type h2]
  exact h' r' h1

theorem theAddrs_same {ns ns' : NextNs} (h : Same ns.aRecords ns'.aRecords) : (theAddrs ns).Perm (theAddrs ns') := by
  have key : ∀ ns : NextNs, theAddrs ns = (ns.aRecords.map bare).filterMap fun r => match r.data with
      | .A a => some a
      | _ => none := fun ns => by
    unfold theAddrs
    rw [List.filterMap_map]
    rfl
  rw [key ns, key ns']
  exact List.Perm.filterMap _ h

theorem theAddrs_hosts {ns : NextNs} {t : Name} {l : List Record} (h : Same ns.aRecords l) (h' : ∀ r ∈ l, r.node = t ∧ r.recordType = .A) :
    (theAddrs ns).Perm (addressesOf t l) := by
  refine (theAddrs_same (ns' := ⟨ns.nsRecord, l⟩) h).trans (List.Perm.of_eq ?_)
  unfold theAddrs addressesOf
  refine List.filterMap_congr fun x hx => ?_
  obtain ⟨hn, hk⟩ := h' x hx
  cases hd : x.data <;> simp only
  rw [if_pos hn]

theorem usable_of {z : Name} {ns : NextNs} (hh : HostsOk N) (h : Stands N z ns) : Usable N z ns := by
  obtain ⟨h1, t, h2, h3, h4⟩ := h
  refine ⟨h1, ?_⟩
  rcases h4 with h4 | ⟨h4, h5⟩
  · left
    obtain ⟨g1, g2⟩ := hh t z h3
    exact ⟨same_ne h4 g1, fun r hr => (same_all h4 g2 r hr).2⟩
  · exact .inr ⟨h4, t, h2, h3, h5⟩

theorem fill_are {z : Name} (hh : HostsOk N) : ∀ {nss : List NextNs}, (∀ ns ∈ nss, Stands N z ns) →
    Are (nss.map (fill N)) ((targets (nss.map NextNs.nsRecord)).map fun t => addressesOf t (N.hosts t))
  | [], _ => List.Forall₂.nil
  | ns :: nss, h => by
    obtain ⟨h1, t, h2, h3, h4⟩ := h ns (by simp)
    obtain ⟨g1, g2⟩ := hh t z h3
    have e : targets ((ns :: nss).map NextNs.nsRecord) = t :: targets (nss.map NextNs.nsRecord) := by
      unfold targets
      rw [List.map_cons, List.filterMap_cons]
      simp only [h2]
    rw [e, List.map_cons, List.map_cons]
    refine List.Forall₂.cons ?_ (fill_are hh fun x hx => h x (by simp [hx]))
    have hs : Same (fill N ns).aRecords (N.hosts t) := by
      unfold fill
      by_cases h0 : ns.aRecords = []
      · rw [if_pos h0]
        simp only [h2]
        exact Same.refl _
      · rw [if_neg h0]
        exact h4.resolve_right fun h => h0 h.1
    exact ⟨fun r hr => (same_all hs g2 r hr).2, theAddrs_hosts hs g2⟩

theorem served_perm {node : Name} {kind : RecordType} {n : Nat} {P : Message → Prop} {S S' : List (List Ip4)} (h : S.Perm S')
    (hs : Served env p node kind tries n P S) : Served env p node kind tries n P S' := by
  obtain ⟨up, h1, h2, ⟨s, h3, h4⟩, h5⟩ := hs
  exact ⟨up, fun s hs => h1 s (h.mem_iff.2 hs), fun s hs => h2 s (h.mem_iff.2 hs), ⟨s, h.mem_iff.1 h3, h4⟩, by rw [← h.countP_eq]; exact h5⟩

/-- Among the servers asked there is one that is up. -/
theorem some_up_of_perm {node : Name} {kind : RecordType} {n : Nat} {nss l : List NextNs} {P : Message → Prop} {S : List (List Ip4)}
    (hare : Are nss S) (hl : l.Perm nss) (hs : Served env p node kind tries n P S) :
    (∀ ns ∈ l.take n, AtAll (Responds env p node kind tries P) ns ∨ AtAll (Useless env p node kind) ns) ∧
    ∃ ns ∈ l.take n, AtAll (Responds env p node kind tries P) ns := by
  obtain ⟨isUp, h1, h2, h3, h4⟩ := hs
  have key : ∀ ns ∈ nss, (AtAll (Responds env p node kind tries P) ns ∧ ∀ a ∈ theAddrs ns, isUp a = true) ∨
      (AtAll (Useless env p node kind) ns ∧ (theAddrs ns).all (fun a => !isUp a) = true) := by
    intro ns hns
    obtain ⟨s, hs, hA, hp⟩ := are_mem hare hns
    obtain ⟨h0, hc⟩ := h1 s hs
    have h0' : theAddrs ns ≠ [] := fun h => h0 (by rw [h] at hp; exact hp.symm.eq_nil)
    rcases hc with hc | hc
    · left
      exact ⟨atAll_of hA h0' fun a ha => (h2 s hs a (hp.mem_iff.1 ha)).1 (hc a (hp.mem_iff.1 ha)), fun a ha => hc a (hp.mem_iff.1 ha)⟩
    · right
      refine ⟨atAll_of hA h0' fun a ha => (h2 s hs a (hp.mem_iff.1 ha)).2 (hc a (hp.mem_iff.1 ha)), ?_⟩
      rw [List.all_eq_true]
      intro a ha
      rw [hc a (hp.mem_iff.1 ha)]
      rfl
  have hmem : ∀ ns ∈ l.take n, ns ∈ nss := fun ns h => hl.mem_iff.1 (List.mem_of_mem_take h)
  refine ⟨fun ns hns => ?_, ?_⟩
  · rcases key ns (hmem ns hns) with h | h
    · exact .inl h.1
    · exact .inr h.1
  · by_contra hno
    have hdown : ∀ ns ∈ l.take n, (theAddrs ns).all (fun a => !isUp a) = true := by
      intro ns hns
      rcases key ns (hmem ns hns) with h | h
      · exact absurd ⟨ns, hns, h.1⟩ hno
      · exact h.2
    have hcount : (l.take n).countP (fun ns => (theAddrs ns).all fun a => !isUp a) = (l.take n).length :=
      List.countP_eq_length.2 hdown
    have hle : (l.take n).countP (fun ns => (theAddrs ns).all fun a => !isUp a) ≤ l.countP (fun ns => (theAddrs ns).all fun a => !isUp a) :=
      (List.take_sublist _ _).countP_le
    rw [hl.countP_eq, are_count hare] at hle
    rw [hcount, List.length_take] at hle
    have hlen : l.length < n := by omega
    rw [List.take_of_length_le (by omega)] at hdown
    obtain ⟨s, hs, hup⟩ := h3
    obtain ⟨ns, hns, hp⟩ := are_mem' hare hs
    have hall := hdown ns (hl.mem_iff.2 hns)
    obtain ⟨h0, -⟩ := h1 s hs
    obtain ⟨a, ha⟩ := List.exists_mem_of_ne_nil _ h0
    rw [List.all_eq_true] at hall
    have := hall a (hp.mem_iff.2 ha)
    rw [hup a ha] at this
    cases this

/-- Nested lookups find the addresses of free servers of the zone. -/
def SubWorks (I : World → Prop) (N : NameSpace) (sub : Lookup → M Response) (lk : Lookup) (z : Name) : Prop :=
  z ∉ lk.previousZones ∧ ∀ t ∈ N.nameservers z, N.Free t z →
    Works I (sub ⟨t, .A, lk.previousZones ++ [z], [], { lk.conf with noFollowCname := true }⟩) fun r => Same r.answers (N.hosts t)

theorem resolveAddrs_works {I : World → Prop} (hh : HostsOk N) {sub : Lookup → M Response} {lk : Lookup} {z : Name} {ns : NextNs}
    (hu : Usable N z ns) (hs : ns.aRecords = [] → SubWorks I N sub lk z) :
    Works I (resolveAddrs sub lk ns) fun ns' => ns'.zone = z ∧ (∀ r ∈ ns'.aRecords, r.recordType = .A) ∧
      (theAddrs ns').Perm (theAddrs (fill N ns)) := by
  obtain ⟨hz, ⟨h0, hA⟩ | ⟨h0, t, ht, hm, hfree⟩⟩ := hu
  · obtain ⟨a, as, e, -⟩ := (atAll_of (S := fun _ => True) hA (fun h => by
      obtain ⟨r, hr⟩ := List.exists_mem_of_ne_nil _ h0
      obtain ⟨a, ha⟩ := aData_of (hA r hr)
      have := theAddrs_mem hr ha
      rw [h] at this
      cases this) fun _ _ => trivial).addrs LookupErr
    unfold resolveAddrs
    refine (Works.lift (Q := fun x => x = a :: as) e rfl).bind ?_
    rintro _ rfl
    refine Works.pure ⟨hz, hA, ?_⟩
    unfold fill
    rw [if_neg h0]
  · obtain ⟨hzl, hsub⟩ := hs h0
    obtain ⟨g1, g2⟩ := hh t z hm
    unfold resolveAddrs
    have e : (ns.addrs : Out LookupErr (List Ip4)) = .ok [] := by
      unfold NextNs.addrs
      rw [h0]
      rfl
    refine (Works.lift (Q := fun x => x = []) e rfl).bind ?_
    rintro _ rfl
    simp only [List.isEmpty_nil, if_true]
    have en : (ns.node : Out LookupErr Name) = .ok t := by
      unfold NextNs.node Record.nsData
      rw [ht]
    refine (Works.lift (Q := fun x => x = t) en rfl).bind fun x hx => ?_
    rw [hx]
    have hq : Works I (resolveNsSubquery sub lk t ns.zone) fun rs => Same rs (N.hosts t) := by
      unfold resolveNsSubquery
      rw [hz]
      have hd : detectZonesLoop z lk.previousZones = .ok () := by
        unfold detectZonesLoop
        rw [if_neg]
        rw [List.any_eq_true]
        rintro ⟨x, hx, he⟩
        rw [beq_iff_eq] at he
        subst he
        exact hzl hx
      refine (Works.lift (Q := fun _ => True) hd trivial).bind fun _ _ => ?_
      refine (hsub t hm hfree).bind fun r hr => Works.pure ?_
      have hall := same_all hr g2
      refine same_trans (same_of_perm (extracted_perm r.answers .A t)) ?_
      unfold recordsOf
      rw [List.filter_eq_self.2 fun x hx => by simpa using hall x hx]
      exact hr
    refine hq.attempt.bind ?_
    rintro _ ⟨rs, rfl, hrs⟩
    refine Works.pure ⟨hz, fun r hr => (same_all hrs g2 r hr).2, ?_⟩
    unfold fill
    rw [if_pos h0]
    simp only [ht]
    exact theAddrs_same hrs

theorem atAll_perm {S : Ip4 → Prop} {ns ns' : NextNs} (hA : ∀ r ∈ ns'.aRecords, r.recordType = .A) (hp : (theAddrs ns').Perm (theAddrs ns))
    (h : AtAll S ns) : AtAll S ns' := by
  obtain ⟨h0, h1⟩ := h
  have hmem : ∀ a ∈ theAddrs ns, S a := by
    intro a ha
    unfold theAddrs at ha
    obtain ⟨r, hr, he⟩ := List.mem_filterMap.1 ha
    obtain ⟨b, hb, hS⟩ := h1 r hr
    rw [hb] at he
    simp only [Option.some.injEq] at he
    subst he
    exact hS
  refine atAll_of hA ?_ fun a ha => hmem a (hp.mem_iff.1 ha)
  intro hn
  rw [hn] at hp
  obtain ⟨r, hr⟩ := List.exists_mem_of_ne_nil _ h0
  obtain ⟨a, ha, -⟩ := h1 r hr
  have := hp.mem_iff.2 (theAddrs_mem hr ha)
  cases this

theorem tryServers_works {X : List Name} (hh : HostsOk N) {sub : Lookup → M Response} {lk : Lookup}
    (hk : lk.kind.isSupportedForQuestion = true) (hn : lk.conf.maxUdpRetries ≠ 0) {P : Message → Prop} {Q : NsResponse → Prop} {z : Name}
    (hi : ∀ m, P m → ∃ r, interpret m lk.node lk.kind z = .ok r ∧ Q r) : ∀ {nss : List NextNs} {e : Option LookupErr},
    (∀ ns ∈ nss, Usable N z ns ∧ (ns.aRecords = [] → SubWorks (Orderly env N start stop X) N sub lk z)) →
    (∀ ns ∈ nss, AtAll (Responds env p lk.node lk.kind lk.conf.maxUdpRetries P) (fill N ns) ∨ AtAll (Useless env p lk.node lk.kind) (fill N ns)) →
    (∃ ns ∈ nss, AtAll (Responds env p lk.node lk.kind lk.conf.maxUdpRetries P) (fill N ns)) →
    Works (Orderly env N start stop X) (tryServers env p sub lk nss e) Q
  | [], e, _, _, h => by obtain ⟨_, h, _⟩ := h; cases h
  | ns :: nss, e, hz, hall, hex => by
    unfold tryServers
    obtain ⟨hu, hsub⟩ := hz ns (by simp)
    by_cases hup : AtAll (Responds env p lk.node lk.kind lk.conf.maxUdpRetries P) (fill N ns)
    · have : Works (Orderly env N start stop X) (tryServer env p sub lk ns) Q := by
        unfold tryServer
        refine (resolveAddrs_works hh hu hsub).bind ?_
        rintro ns' ⟨g1, g2, g3⟩
        have hat := atAll_perm g2 g3 hup
        refine (Works.of_does Does.emit (Still.emit _)).bind fun _ _ => Works.of_does (performRequest_up hat hk ?_) (performRequest_still _ _ _ _)
        rw [g1]
        exact hi
      refine this.attempt.bind ?_
      rintro _ ⟨r, rfl, hr⟩
      exact Works.pure hr
    · have hdown := (hall ns (by simp)).resolve_left hup
      have : Flops (Orderly env N start stop X) (tryServer env p sub lk ns) := by
        unfold tryServer
        refine (resolveAddrs_works hh hu hsub).then_flops ?_
        rintro ns' ⟨g1, g2, g3⟩
        have hat := atAll_perm g2 g3 hdown
        exact (Works.of_does Does.emit (Still.emit _)).then_flops fun _ _ =>
          Flops.of_fails (performRequest_down hat hk hn) (performRequest_still _ _ _ _)
      refine this.attempt.bind ?_
      rintro _ ⟨e', rfl⟩
      refine tryServers_works hh hk hn hi (fun x hx => hz x (by simp [hx])) (fun x hx => hall x (by simp [hx])) ?_
      obtain ⟨x, hx, hux⟩ := hex
      rcases List.mem_cons.1 hx with rfl | hx
      · exact absurd hux hup
      · exact ⟨x, hx, hux⟩

/-- Some server of the zone helps. -/
theorem servers_work {X : List Name} (hh : HostsOk N) {sub : Lookup → M Response} {lk : Lookup}
    (hk : lk.kind.isSupportedForQuestion = true) (hn : lk.conf.maxUdpRetries ≠ 0) {P : Message → Prop} {Q : NsResponse → Prop} {z : Name}
    (hi : ∀ m, P m → ∃ r, interpret m lk.node lk.kind z = .ok r ∧ Q r) {nss : List NextNs} {S : List (List Ip4)}
    (hu : ∀ ns ∈ nss, Usable N z ns ∧ (ns.aRecords = [] → SubWorks (Orderly env N start stop X) N sub lk z))
    (hare : Are (nss.map (fill N)) S) (hs : Served env p lk.node lk.kind lk.conf.maxUdpRetries lk.conf.maxNsQueried P S) :
    Works (Orderly env N start stop X) (tryServers env p sub lk ((sortNameservers nss).take lk.conf.maxNsQueried) none) Q := by
  obtain ⟨h1, ns, h2, h3⟩ := some_up_of_perm hare ((sortNameservers_perm nss).map (fill N)) hs
  rw [← List.map_take] at h1 h2
  refine tryServers_works hh hk hn hi (fun ns hns => hu ns (mem_sortNameservers.1 (List.mem_of_mem_take hns))) ?_ ?_
  · exact fun ns hns => h1 _ (List.mem_map_of_mem hns)
  · obtain ⟨x, hx, rfl⟩ := List.mem_map.1 h2
    exact ⟨x, hx, h3⟩

/-! ## What the servers say -/

theorem pair_described {keep : NextNs → Out LookupErr Bool} {z : Name} : ∀ {rs ad ad' : List Record},
    (∀ r ∈ rs, r.recordType = .NS) → (targets rs).Nodup →
    (∀ t ∈ targets rs, (recordsOf t .A ad').Perm (recordsOf t .A ad)) →
    (∀ r ∈ rs, ∀ t, r.data = .NS t → r.node = z ∧ t ∈ N.nameservers z ∧
      (Same (recordsOf t .A ad) (N.hosts t) ∨ (recordsOf t .A ad = [] ∧ N.Free t z))) →
    (∀ ns, Stands N z ns → keep ns = .ok true) →
    ∃ nss, pairWithAddrs keep rs ad' = .ok nss ∧ nss.map NextNs.nsRecord = rs ∧
      ∀ ns ∈ nss, Stands N z ns ∧ ∃ t, ns.nsRecord.data = .NS t ∧ ns.aRecords.Perm (recordsOf t .A ad)
  | [], ad, ad', _, _, _, _, _ => ⟨[], rfl, rfl, by simp⟩
  | r :: rs, ad, ad', hns, hnd, had, hg, hkeep => by
    obtain ⟨t, ht⟩ := nsData_of (hns r (by simp))
    have e : targets (r :: rs) = t :: targets rs := by
      unfold targets
      rw [List.filterMap_cons]
      simp only [ht]
    rw [e] at hnd had
    have hp := List.nodup_cons.1 hnd
    obtain ⟨nss, e1, e2, e3⟩ := pair_described (keep := keep) (rs := rs) (ad := ad) (ad' := (extractRecords ad' .A t).2)
      (fun x hx => hns x (by simp [hx])) hp.2
      (fun t' ht' => (left_recordsOf fun h : t' = t => hp.1 (h ▸ ht')).trans (had t' (by simp [ht'])))
      (fun x hx => hg x (by simp [hx])) hkeep
    have hperm : (extractRecords ad' .A t).1.Perm (recordsOf t .A ad) := (extracted_perm ad' .A t).trans (had t (by simp))
    obtain ⟨g1, g2, g3⟩ := hg r (by simp) t ht
    have hst : Stands N z ⟨r, (extractRecords ad' .A t).1⟩ := by
      refine ⟨g1, t, ht, g2, ?_⟩
      rcases g3 with g3 | ⟨g3, g4⟩
      · exact .inl (same_trans (same_of_perm hperm) g3)
      · refine .inr ⟨?_, g4⟩
        rw [g3] at hperm
        exact hperm.eq_nil
    have hk := hkeep _ hst
    refine ⟨⟨r, (extractRecords ad' .A t).1⟩ :: nss, ?_, by rw [List.map_cons, e2], ?_⟩
    · unfold pairWithAddrs Record.nsData
      simp only [ht]
      show (keep ⟨r, (extractRecords ad' .A t).1⟩ >>= fun k => pairWithAddrs keep rs (extractRecords ad' .A t).2 >>= fun rest =>
        Out.ok (if k = true then _ else _)) = _
      rw [hk, e1]
      rfl
    · intro ns hn
      rcases List.mem_cons.1 hn with rfl | hn
      · exact ⟨hst, t, ht, hperm⟩
      · exact e3 ns hn

theorem mem_targets {l : List Record} {t : Name} : t ∈ targets l ↔ ∃ r ∈ l, r.data = .NS t := by
  unfold targets
  rw [List.mem_filterMap]
  constructor
  · rintro ⟨r, hr, h⟩
    refine ⟨r, hr, ?_⟩
    cases hd : r.data <;> rw [hd] at h <;> simp at h
    rw [h]
  · rintro ⟨r, hr, h⟩
    exact ⟨r, hr, by rw [h]⟩

theorem nsRecords_type {l : List Record} : ∀ r ∈ nsRecords l, r.recordType = .NS := fun r hr => by
  have := (List.mem_filter.1 hr).2
  simpa using this

/-- What is made of the description of a zone. -/
theorem described {keep : NextNs → Out LookupErr Bool} {d : Nat} {m : Message} {z : Name} (h : N.Describes d m z)
    (hkeep : ∀ ns, Stands N z ns → keep ns = .ok true) :
    ∃ nss, pairWithAddrs keep (nsRecords m.authorities) m.additionals = .ok nss ∧ nss.map NextNs.nsRecord = nsRecords m.authorities ∧
      ∀ ns ∈ nss, Stands N z ns ∧ ∀ r ∈ ns.aRecords, Lasting d r := by
  obtain ⟨nss, e1, e2, e3⟩ := pair_described (N := N) (keep := keep) (z := z) (rs := nsRecords m.authorities) (ad := m.additionals)
    (ad' := m.additionals) nsRecords_type (h.whole.nodup_iff.2 h.apart) (fun _ _ => List.Perm.refl _)
    (fun r hr t ht => by
      have hm : t ∈ N.nameservers z := h.whole.mem_iff.1 (mem_targets.2 ⟨r, hr, ht⟩)
      exact ⟨h.owner r hr, hm, h.glue t hm⟩) hkeep
  refine ⟨nss, e1, e2, fun ns hns => ⟨(e3 ns hns).1, fun r hr => ?_⟩⟩
  obtain ⟨-, t, ht, hp⟩ := e3 ns hns
  have hm : t ∈ N.nameservers z := h.whole.mem_iff.1 (mem_targets.2 ⟨_, by rw [← e2]; exact List.mem_map_of_mem hns, ht⟩)
  exact h.lasting.2 t hm r (hp.mem_iff.1 hr)

theorem glue_kept (hh : HostsOk N) {z : Name} {ns : NextNs} (h : Stands N z ns) : hasGlueIfNeeded ns = .ok true := by
  have hu := usable_of hh h
  obtain ⟨h1, t, h2, h3, h4⟩ := h
  unfold hasGlueIfNeeded NextNs.node Record.nsData
  simp only [h2]
  obtain ⟨-, ⟨h0, hA⟩ | ⟨h0, t', ht', hm, hfree⟩⟩ := hu
  · obtain ⟨as, e, hl⟩ := addrsOf_ok (ε := LookupErr) hA
    have e' : (ns.addrs : Out LookupErr (List Ip4)) = .ok as := e
    have hne : as.isEmpty = false := by
      cases as with
      | nil => exact absurd (List.length_eq_zero_iff.1 hl.symm) h0
      | cons => rfl
    rw [e']
    show Out.ok (!(endsWith t ns.zone && as.isEmpty)) = _
    rw [hne]
    simp
  · have e' : (ns.addrs : Out LookupErr (List Ip4)) = .ok [] := by
      unfold NextNs.addrs
      rw [h0]
      rfl
    rw [e']
    show Out.ok (!(endsWith t ns.zone && true)) = _
    have : endsWith t ns.zone = false := by
      unfold endsWith
      rw [h2] at ht'
      injection ht' with ht'
      subst ht'
      have hz : ns.zone = z := h1
      rw [hz, Bool.eq_false_iff]
      intro hx
      exact hfree.2.2 (List.isSuffixOf_iff_suffix.1 hx)
    rw [this]
    rfl

end Ariadne.Resolver
