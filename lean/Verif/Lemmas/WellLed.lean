import Verif.Lemmas.WellServed

/-! # The iteration in name spaces that are in order -/

namespace Ariadne.Resolver

open Spec NameSpace

variable {env : Env} {p : Profile} {N : NameSpace} {start stop tries n : Nat}

/-- These are the servers of the zone. -/
def Led (N : NameSpace) (z : Name) (nss : List NextNs) : Prop :=
  (∀ ns ∈ nss, Stands N z ns) ∧ (targets (nss.map NextNs.nsRecord)).Perm (N.nameservers z)

/-- All records of the servers live long enough. -/
def LastingNs (d : Nat) (nss : List NextNs) : Prop := ∀ ns ∈ nss, Lasting d ns.nsRecord ∧ ∀ r ∈ ns.aRecords, Lasting d r

/-- A referral further down. -/
def Onward (N : NameSpace) (d : Nat) (node zone : Name) (r : NsResponse) : Prop :=
  ∃ next nss, r = .delegation nss ∧ N.Zone next ∧ Under node next ∧ Below next zone ∧ Led N next nss ∧ LastingNs d nss

/-- The answer, as it comes from the servers. -/
def Told (N : NameSpace) (d : Nat) (node : Name) (kind : RecordType) (r : NsResponse) : Prop :=
  (∃ a ad l, r = .answer a ad ∧ N.fate node kind = .found l ∧ Same a l ∧ ∀ z, kind = .A → node ∈ N.nameservers z → ∀ x ∈ a, Lasting d x) ∨
  (∃ c' c t nss, r = .alias c' nss ∧ N.fate node kind = .alias c ∧ bare c' = bare c ∧ c.data = .CNAME t ∧
    (nss = [] ∨ ∃ z, N.Zone z ∧ Under t z ∧ Led N z nss)) ∨
  (∃ soa, r = .noDomain soa ∧ N.fate node kind = .absent)

theorem led_ne {z : Name} {nss : List NextNs} (hz : N.Zone z) (h : Led N z nss) : nss ≠ [] := by
  rintro rfl
  exact hz (List.Perm.eq_nil (List.Perm.symm h.2))

theorem extractRecord_some {l : List Record} {k : RecordType} {m : Name} {c : Record} (h : c ∈ l) (hc : c.node = m ∧ c.recordType = k) :
    ∃ c' l', extractRecord l k m = (some c', l') ∧ c' ∈ l ∧ c'.node = m ∧ c'.recordType = k := by
  cases he : extractRecord l k m with
  | mk o l' =>
    cases o with
    | some c' =>
      have := extractRecord_spec (records := l) (kind := k) (node := m) (r := c') (by rw [he])
      exact ⟨c', l', rfl, this⟩
    | none =>
      exfalso
      unfold extractRecord at he
      cases hf : l.findIdx? (isWanted k m) with
      | none =>
        have := List.findIdx?_eq_none_iff.1 hf c h
        rw [isWanted_iff.2 hc] at this
        cases this
      | some i =>
        rw [hf] at he
        injection he with h1 h2
        have hi := (List.findIdx?_eq_some_iff_getElem.1 hf).1
        rw [List.getElem?_eq_getElem hi] at h1
        cases h1

theorem interpret_helps {d : Nat} (hw : N.WellRun env p tries n d) {node : Name} {kind : RecordType} (ha : N.asked node kind) {zone : Name}
    {m : Message} (h : N.Helps d node kind zone m) :
    ∃ r, interpret m node kind zone = .ok r ∧ (Onward N d node zone r ∨ Told N d node kind r) := by
  have hh : HostsOk N := fun _ _ => hw.hosts
  rcases h with ⟨hcode, hans, next, hzone, hdesc, hu, hb⟩ | h
  · obtain ⟨nss, e1, e2, e3⟩ := described (keep := hasGlueIfNeeded) hdesc fun ns hns => glue_kept hh hns
    have hled : Led N next nss := ⟨fun ns hns => (e3 ns hns).1, by rw [e2]; exact hdesc.whole⟩
    have hne := led_ne hzone hled
    have hf : (m.authorities.filter fun r => r.recordType == .NS && (isAuthoritativeOver r.node node && isSubzone r.node zone)) =
        nsRecords m.authorities := by
      unfold nsRecords
      refine List.filter_congr fun r hr => ?_
      by_cases hk : r.recordType = .NS
      · have hn : r.node = next := hdesc.owner r (List.mem_filter.2 ⟨hr, by simpa using hk⟩)
        unfold isAuthoritativeOver
        rw [hn, under_endsWith hu, below_longer hb, hk]
        rfl
      · simp [hk]
    refine ⟨.delegation nss, ?_, .inl ⟨next, nss, rfl, hzone, hu, hb, hled, fun ns hns => ⟨?_, (e3 ns hns).2⟩⟩⟩
    · unfold interpret
      rw [hcode, hans]
      show (extractNextNssForSubzone m node zone >>= fun nextNss => if nextNss.length > 0 then Out.ok (NsResponse.delegation nextNss) else _) = _
      have e4 : extractNextNssForSubzone m node zone = .ok nss := by
        unfold extractNextNssForSubzone
        rw [hf, e1]
      rw [e4]
      show (if nss.length > 0 then Out.ok (NsResponse.delegation nss) else _) = _
      rw [if_pos (List.length_pos_iff.2 hne)]
    · exact hdesc.lasting.1 _ (by rw [← e2]; exact List.mem_map_of_mem hns)
  · unfold Tells at h
    cases hfate : N.fate node kind with
    | found l =>
      rw [hfate] at h
      obtain ⟨h1, h2, h3⟩ := h
      have hp := extracted_perm m.answers kind node
      have hs : Same (extractRecords m.answers kind node).1 l := same_trans (same_of_perm hp) h2
      refine ⟨.answer (extractRecords m.answers kind node).1 m.additionals, ?_,
        .inr (.inl ⟨_, _, l, rfl, hfate, hs, fun z hk hz x hx => h3 z hk hz x (hp.mem_iff.1 hx)⟩)⟩
      unfold interpret
      rw [h1]
      simp only
      rw [if_pos]
      exact List.length_pos_iff.2 (same_ne hs (hw.found ha hfate).1)
    | absent =>
      rw [hfate] at h
      obtain ⟨soa, e⟩ := interpret_denial (node := node) (kind := kind) (zone := zone) h
      exact ⟨_, e, .inr (.inr (.inr ⟨soa, rfl, hfate⟩))⟩
    | «alias» c =>
      rw [hfate] at h
      obtain ⟨h1, h2, ⟨c', h3, h4⟩, h5⟩ := h
      obtain ⟨hcn, t, hct, hat⟩ := hw.aliases ha hfate
      have hp := extracted_perm m.answers kind node
      rw [h2] at hp
      have he := hp.eq_nil
      obtain ⟨g1, g2, g3⟩ := extractRecords_spec m.answers kind node
      rw [he, List.nil_append] at g1
      have hc' : c' ∈ recordsOf node .CNAME m.answers := by rw [h3]; exact List.mem_singleton.2 rfl
      have hc'' := mem_recordsOf.1 hc'
      obtain ⟨c2, l', e2, e3, e4⟩ := extractRecord_some (l := (extractRecords m.answers kind node).2) (g1.mem_iff.2 hc''.1) hc''.2
      have e5 : c2 = c' := by
        have : c2 ∈ recordsOf node .CNAME m.answers := mem_recordsOf.2 ⟨g1.mem_iff.1 e3, e4⟩
        rw [h3] at this
        exact List.mem_singleton.1 this
      subst e5
      have hdata : c2.data = .CNAME t := by rw [bare_data h4]; exact hct
      have hnss : ∃ nss, extractNextNssForCname m t = .ok nss ∧ (nss = [] ∨ ∃ z, N.Zone z ∧ Under t z ∧ Led N z nss) := by
        unfold extractNextNssForCname
        rcases h5 t hct with h6 | ⟨z, hz, hu, hd⟩
        · have : (m.authorities.filter fun r => r.recordType == .NS && endsWith t r.node) = [] := by
            rw [List.filter_eq_nil_iff]
            intro r hr hx
            rw [Bool.and_eq_true, beq_iff_eq] at hx
            refine h6 r (List.mem_filter.2 ⟨hr, by simpa using hx.1⟩) ?_
            exact List.isSuffixOf_iff_suffix.1 hx.2
          rw [this]
          exact ⟨[], rfl, .inl rfl⟩
        · have hf : (m.authorities.filter fun r => r.recordType == .NS && endsWith t r.node) = nsRecords m.authorities := by
            unfold nsRecords
            refine List.filter_congr fun r hr => ?_
            by_cases hk : r.recordType = .NS
            · have hn : r.node = z := hd.owner r (List.mem_filter.2 ⟨hr, by simpa using hk⟩)
              rw [hn, under_endsWith hu, hk]
              rfl
            · simp [hk]
          rw [hf]
          obtain ⟨nss, e1, e2, e3⟩ := described (keep := fun _ => .ok true) hd fun ns hns => rfl
          exact ⟨nss, e1, .inr ⟨z, hz, hu, fun ns hns => (e3 ns hns).1, by rw [e2]; exact hd.whole⟩⟩
      obtain ⟨nss, e6, e7⟩ := hnss
      refine ⟨.alias c2 nss, ?_, .inr (.inr (.inl ⟨c2, c, t, nss, rfl, hfate, h4, hct, e7⟩))⟩
      unfold interpret
      rw [h1]
      simp only
      rw [if_neg (by rw [he]; simp), e2]
      simp only
      have ec : (c2.cnameData : Out LookupErr Name) = .ok t := by
        unfold Record.cnameData
        rw [hdata]
      rw [ec]
      show (extractNextNssForCname m t >>= fun nextNss => Out.ok (NsResponse.alias c2 nextNss)) = _
      rw [e6]
      rfl

/-! ## Saving -/

theorem Orderly.weaken {X X' : List Name} {w : World} (h : Orderly env N start stop X w) (hs : ∀ t ∈ X', t ∈ X) : Orderly env N start stop X' w :=
  ⟨h.span, h.cache, h.fresh, fun t ht => h.keep t (hs t ht)⟩

theorem Orderly.add {X : List Name} {w : World} {t : Name} (h : Orderly env N start stop X w) (ht : Alive stop w.cache (t, .A)) :
    Orderly env N start stop (t :: X) w :=
  ⟨h.span, h.cache, h.fresh, fun x hx => by
    rcases List.mem_cons.1 hx with rfl | hx
    · exact ht
    · exact h.keep x hx⟩

theorem saveAddrs_works (hw : N.WellRun env p tries n (stop - start)) (hc : N.Companions env start stop) {z : Name} : ∀ {nss : List NextNs} {X : List Name}
    {w : World}, (∀ t ∈ X, ∃ z, t ∈ N.nameservers z) → (∀ ns ∈ nss, Stands N z ns) → LastingNs (stop - start) nss →
    Orderly env N start stop X w → ∃ w', saveAddrs env nss w = (.ok (), w') ∧ Orderly env N start stop X w' ∧
      ∀ ns ∈ nss, ns.aRecords ≠ [] → ∀ t, ns.nsRecord.data = .NS t → Alive stop w'.cache (t, .A)
  | [], X, w, _, _, _, h => ⟨w, rfl, h, by simp⟩
  | ns :: nss, X, w, hX, hst, hl, h => by
    have hh : HostsOk N := fun _ _ => hw.hosts
    have eq : saveAddrs env (ns :: nss) = if ns.aRecords.length > 0 then (saveRecordsInCache env ns.aRecords >>= fun _ => saveAddrs env nss)
        else saveAddrs env nss := by
      rw [saveAddrs]
    rw [eq]
    by_cases h0 : ns.aRecords = []
    · rw [if_neg (by rw [h0]; simp)]
      obtain ⟨w', e, h1, h2⟩ := saveAddrs_works hw hc (nss := nss) hX (fun x hx => hst x (by simp [hx])) (fun x hx => hl x (by simp [hx])) h
      refine ⟨w', e, h1, fun x hx hx0 => ?_⟩
      rcases List.mem_cons.1 hx with rfl | hx
      · exact absurd h0 hx0
      · exact h2 x hx hx0
    · rw [if_pos (List.length_pos_iff.2 h0)]
      obtain ⟨-, t, ht, hm, hs⟩ := hst ns (by simp)
      have hs := hs.resolve_right fun h => h0 h.1
      obtain ⟨g1, g2⟩ := hh t z hm
      have hall := same_all hs g2
      cases har : ns.aRecords with
      | nil => exact absurd har h0
      | cons r0 rs =>
        rw [har] at hall hs
        obtain ⟨k1, k2⟩ := hall r0 (by simp)
        have hlast : ∀ r ∈ r0 :: rs, Lasting (stop - start) r := by rw [← har]; exact (hl ns (by simp)).2
        obtain ⟨w1, e1, c1, e, v, hf, halive⟩ := save_works hc hX (r0 := r0) (rs := rs) (fun r hr => by rw [k2]; exact (hall r (by simp [hr])).2) h
          (fun c e v _ hv _ he => by
            rw [k1, k2]
            refine ⟨fun ha => ⟨_, hw.agree hm ha, same_trans hv hs⟩, (by rintro ⟨⟩), fun _ _ _ => ⟨he hlast, same_trans hv hs⟩, (by rintro ⟨⟩)⟩)
        rw [bind_at e1]
        have al : Alive stop w1.cache (t, .A) := by
          rw [k1, k2] at hf
          exact ⟨e, v, hf, halive hlast⟩
        obtain ⟨w', e', h1, h2⟩ := saveAddrs_works hw hc (nss := nss) (X := t :: X) (fun x hx => by
            rcases List.mem_cons.1 hx with rfl | hx
            · exact ⟨z, hm⟩
            · exact hX x hx) (fun x hx => hst x (by simp [hx])) (fun x hx => hl x (by simp [hx])) (c1.add al)
        refine ⟨w', e', h1.weaken fun x hx => by simp [hx], fun x hx hx0 t' ht' => ?_⟩
        rcases List.mem_cons.1 hx with rfl | hx
        · rw [ht] at ht'
          injection ht' with ht'
          subst ht'
          exact h1.keep t (by simp)
        · exact h2 x hx hx0 t' ht'

theorem saveNss_works (hw : N.WellRun env p tries n (stop - start)) (hc : N.Companions env start stop) {z : Name} (hz : N.Zone z)
    {nss : List NextNs} (hled : Led N z nss) (hl : LastingNs (stop - start) nss) :
    Works (Orderly env N start stop []) (saveNssInCache env nss) fun _ => True := by
  intro w h
  obtain ⟨hst, hperm⟩ := hled
  obtain ⟨w1, e1, c1, halive⟩ := saveAddrs_works hw hc (z := z) (X := []) (by simp) hst hl h
  have hne := led_ne hz ⟨hst, hperm⟩
  let X : List Name := targets ((nss.filter fun ns => ns.aRecords ≠ []).map NextNs.nsRecord)
  have hXm : ∀ t ∈ X, ∃ ns ∈ nss, ns.aRecords ≠ [] ∧ ns.nsRecord.data = .NS t := by
    intro t ht
    obtain ⟨r, hr, hd⟩ := mem_targets.1 ht
    obtain ⟨ns, hns, rfl⟩ := List.mem_map.1 hr
    have := List.mem_filter.1 hns
    exact ⟨ns, this.1, by simpa using this.2, hd⟩
  have c2 : Orderly env N start stop X w1 := ⟨c1.span, c1.cache, c1.fresh, fun t ht => by
    obtain ⟨ns, h1, h2, h3⟩ := hXm t ht
    exact halive ns h1 h2 t h3⟩
  have hX : ∀ t ∈ X, ∃ z, t ∈ N.nameservers z := fun t ht => by
    obtain ⟨ns, h1, h2, h3⟩ := hXm t ht
    obtain ⟨-, t', h4, h5, -⟩ := hst ns h1
    rw [h3] at h4
    injection h4 with h4
    subst h4
    exact ⟨z, h5⟩
  have hrec : ∀ r ∈ nss.map NextNs.nsRecord, r.node = z ∧ r.recordType = .NS ∧ Lasting (stop - start) r := by
    intro r hr
    obtain ⟨ns, hns, rfl⟩ := List.mem_map.1 hr
    obtain ⟨h1, t, h2, -⟩ := hst ns hns
    exact ⟨h1, by unfold Record.recordType; rw [h2]; rfl, (hl ns hns).1⟩
  unfold saveNssInCache
  rw [bind_at e1]
  cases hm : nss.map NextNs.nsRecord with
  | nil => exact absurd (List.map_eq_nil_iff.1 hm) hne
  | cons r0 rs =>
    rw [hm] at hrec hperm
    obtain ⟨k1, k2, -⟩ := hrec r0 (by simp)
    obtain ⟨w', e', c3, -⟩ := save_works hc hX (r0 := r0) (rs := rs) (fun r hr => by rw [k2]; exact (hrec r (by simp [hr])).2.1) c2
      (fun c e v hal hv hb he => by
        rw [k1, k2]
        refine ⟨fun ha => absurd rfl (hw.names ha).2.2.1, (by rintro ⟨⟩), (by rintro ⟨⟩), fun _ =>
          ⟨he fun r hr => (hrec r hr).2.2, hz, ?_, ?_, ?_⟩⟩
        · intro r hr
          obtain ⟨r', hr', hbr⟩ := same_mem hv hr
          rw [← bare_node hbr]
          exact (hrec r' hr').1
        · rw [targets_bare hb]
          exact hperm
        · intro t ht
          have := hperm.mem_iff.2 ht
          rw [← hm] at this
          obtain ⟨r, hr, hd⟩ := mem_targets.1 this
          obtain ⟨ns, hns, rfl⟩ := List.mem_map.1 hr
          by_cases h0 : ns.aRecords = []
          · right
            obtain ⟨-, t', h4, h5, h6⟩ := hst ns hns
            rw [hd] at h4
            injection h4 with h4
            subst h4
            rcases h6 with h6 | h6
            · rw [h0] at h6
              exact absurd (same_nil h6) (hw.hosts h5).1
            · exact h6.2
          · left
            refine hal t (mem_targets.2 ⟨ns.nsRecord, List.mem_map_of_mem (List.mem_filter.2 ⟨hns, by simpa using h0⟩), hd⟩))
    exact ⟨(), w', e', c3.weaken (by simp), trivial⟩

/-! ## The iteration -/

theorem iterate_works (hw : N.WellRun env p tries n (stop - start)) (hc : N.Companions env start stop) {sub : Lookup → M Response} {lk : Lookup}
    (ha : N.asked lk.node lk.kind) (hn : lk.conf.maxUdpRetries = tries ∧ tries ≠ 0) (hmax : lk.conf.maxNsQueried = n)
    (hsub : ∀ z, N.Zone z → Under lk.node z → SubWorks (Orderly env N start stop []) N sub lk z) :
    ∀ {fuel : Nat} {z : Name} {nss : List NextNs} {S : List (List Ip4)}, strLen lk.node.s - strLen z.s < fuel → 
    (∀ ns ∈ nss, Usable N z ns ∧ (ns.aRecords = [] → SubWorks (Orderly env N start stop []) N sub lk z)) → Are (nss.map (fill N)) S →
    Served env p lk.node lk.kind tries n (N.Helps (stop - start) lk.node lk.kind z) S →
    Works (Orderly env N start stop []) (queryIteratively env p sub lk fuel nss) (Told N (stop - start) lk.node lk.kind)
  | 0, _, _, _, hf, _, _, _ => absurd hf (by omega)
  | fuel + 1, z, nss, S, hf, hu, hare, hs => by
    have hh : HostsOk N := fun _ _ => hw.hosts
    unfold queryIteratively
    have hne : nss ≠ [] := fun h => by
      have := are_ne hare (served_ne hs)
      rw [h] at this
      exact this rfl
    rw [if_neg (by simpa using hne)]
    refine (servers_work hh (hw.names ha).2.1 (by rw [hn.1]; exact hn.2) (fun m hm => interpret_helps hw ha hm) hu hare (by rw [hmax, hn.1]; exact hs)).bind ?_
    rintro r (⟨next, nss', rfl, hz, hun, hb, hled, hl⟩ | h)
    · refine (saveNss_works hw hc hz hled hl).bind fun _ _ => ?_
      refine iterate_works hw hc ha hn hmax hsub (z := next) ?_ (fun ns hns => ⟨usable_of hh (hled.1 ns hns), fun _ => hsub next hz hun⟩)
        (fill_are hh hled.1) (served_perm (List.Perm.map _ (List.Perm.symm hled.2)) (hw.zones ha hz hun))
      have h1 := endsWith_le (under_endsWith hun)
      have h2 := below_longer hb
      unfold isSubzone at h2
      simp only [Bool.not_eq_true', decide_eq_false_iff_not] at h2
      omega
    · rcases h with ⟨a, ad, l, rfl, h⟩ | ⟨c', c, t, nss', rfl, h⟩ | ⟨soa, rfl, h⟩
      · exact Works.pure (.inl ⟨a, ad, l, rfl, h⟩)
      · exact Works.pure (.inr (.inl ⟨c', c, t, nss', rfl, h⟩))
      · exact Works.pure (.inr (.inr ⟨soa, rfl, h⟩))

end Ariadne.Resolver
