import Verif.Lemmas.WellLed

/-! # Lookups in name spaces that are in order, from the start -/

namespace Ariadne.Resolver

open Spec NameSpace

variable {env : Env} {p : Profile} {N : NameSpace} {start stop tries n : Nat}

/-! ## Servers in the cache -/

theorem findNs_works (hc : N.Companions env start stop) {node : Name} {kind : RecordType} (ha : N.asked node kind) :
    ∀ {ds : List Str}, (∀ d ∈ ds, ValidName d ∧ Under node ⟨d⟩) → ∀ {w : World}, Orderly env N start stop [] w →
    ∃ rs w', findNsRecords env ds w = (.ok rs, w') ∧ Orderly env N start stop [] w' ∧
      (rs = [] ∨ ∃ z, N.Zone z ∧ Under node z ∧ (∀ r ∈ rs, r.recordType = .NS ∧ r.node = z) ∧ (targets rs).Perm (N.nameservers z) ∧
        ∀ t ∈ N.nameservers z, Alive stop w'.cache (t, .A) ∨ N.Free t z)
  | [], _, w, h => ⟨[], w, rfl, h, .inl rfl⟩
  | d :: ds, hd, w, h => by
    unfold findNsRecords
    have e : nameUnwrap d = .ok ⟨d⟩ := by
      unfold nameUnwrap
      rw [(fromString_iff d ⟨d⟩).2 ⟨rfl, (hd d (by simp)).1⟩]
    rw [bind_at (w := w) (w' := w) (a := ⟨d⟩) (by rw [e]; rfl)]
    obtain ⟨rs, w1, c, e1, h1, hcoh, -, hal, hr⟩ := search_works hc (by simp) h ⟨d⟩ .NS
    rw [bind_at e1]
    by_cases h0 : rs = []
    · subst h0
      simp only [List.length_nil, Nat.lt_irrefl, gt_iff_lt, if_false]
      exact findNs_works hc ha (fun x hx => hd x (by simp [hx])) h1
    · rw [if_pos (List.length_pos_iff.2 h0)]
      rcases hr with ⟨hr, -⟩ | ⟨exp, records, hf, hs, hb⟩
      · exact absurd hr h0
      · obtain ⟨-, g1, g2, g3, g4⟩ := hcoh.zones ha (hd d (by simp)).2 hf hs
        have hty := (hcoh.uniform hf hs).1
        refine ⟨rs, w1, rfl, h1, .inr ⟨⟨d⟩, g1, (hd d (by simp)).2, ?_, by rw [targets_bare hb]; exact g3, fun t ht => (g4 t ht).imp_left (hal t)⟩⟩
        intro r hr
        obtain ⟨r', hr', hbr⟩ := same_mem (same_of_bare hb) hr
        rw [← bare_type hbr, ← bare_node hbr]
        exact ⟨hty r' hr', g2 r' hr'⟩

theorem findAddrs_works (hw : N.WellRun env p tries n (stop - start)) (hc : N.Companions env start stop) {z : Name} {X : List Name}
    (hX : ∀ t ∈ X, ∃ z, t ∈ N.nameservers z) : ∀ {rs : List Record}, (∀ r ∈ rs, r.node = z ∧ ∃ t, r.data = .NS t ∧ t ∈ N.nameservers z ∧
      (t ∈ X ∨ N.Free t z)) →
    Works (Orderly env N start stop X) (findAddrs env rs) fun nss => nss.map NextNs.nsRecord = rs ∧ ∀ ns ∈ nss, Stands N z ns
  | [], _ => Works.pure ⟨rfl, by simp⟩
  | r :: rs, h => by
    obtain ⟨h1, t, h2, h3, h4⟩ := h r (by simp)
    unfold findAddrs
    have e : (r.nsData : Out LookupErr Name) = .ok t := by
      unfold Record.nsData
      rw [h2]
    refine (Works.lift (Q := fun x => x = t) e rfl).bind fun x hx => ?_
    rw [hx]
    refine Works.bind (Q := fun as => Same as (N.hosts t) ∨ (as = [] ∧ N.Free t z)) ?_ fun as has => ?_
    · intro w hcalm
      obtain ⟨as, w1, c, e1, c1, hcoh, hal, -, hr⟩ := search_works hc hX hcalm t .A
      refine ⟨as, w1, e1, c1, ?_⟩
      rcases hr with ⟨rfl, hnone⟩ | ⟨exp, records, hf, hs, hb⟩
      · rcases h4 with h4 | h4
        · exfalso
          obtain ⟨exp, records, hf, hs⟩ := hal t h4
          have hst : start < exp := by
            have := hcalm.span w.ticks (Nat.le_refl _)
            omega
          have h5 := (hcoh.hosts h3 hf hst).2
          rw [hnone exp records hf hs] at h5
          exact (hw.hosts h3).1 (same_nil h5)
        · exact .inr ⟨rfl, h4⟩
      · exact .inl (same_trans (same_of_bare hb) (hcoh.hosts h3 hf hs).2)
    · refine (findAddrs_works hw hc hX fun x hx => h x (by simp [hx])).bind ?_
      rintro nss ⟨g1, g2⟩
      refine Works.pure ⟨by rw [List.map_cons, g1], fun ns hns => ?_⟩
      rcases List.mem_cons.1 hns with rfl | hns
      · exact ⟨h1, t, h2, h3, has⟩
      · exact g2 ns hns

theorem starting_works (hw : N.WellRun env p tries n (stop - start)) (hc : N.Companions env start stop) {lk : Lookup}
    (ha : N.asked lk.node lk.kind) {nss : List NextNs} (hnss : nss = [] ∨ ∃ z, N.Zone z ∧ Under lk.node z ∧ Led N z nss) :
    Works (Orderly env N start stop []) (startingServers env lk nss) fun nss' =>
      nss' = rootZoneNameservers ∨ ∃ z, N.Zone z ∧ Under lk.node z ∧ Led N z nss' := by
  unfold startingServers
  rcases hnss with rfl | ⟨z, hz, hu, hled⟩
  · simp only [List.isEmpty_nil, if_true]
    intro w h
    obtain ⟨rs, w1, e1, c1, hr⟩ := findNs_works hc ha (hierarchy_under (hw.names ha).1) h
    have : ∃ nss' w2, searchNssInCache env lk.node w = (.ok nss', w2) ∧ Orderly env N start stop [] w2 ∧
        (nss' = [] ∨ ∃ z, N.Zone z ∧ Under lk.node z ∧ Led N z nss') := by
      unfold searchNssInCache
      rw [bind_at e1]
      rcases hr with rfl | ⟨z, hz, hu, g1, g2, g3⟩
      · exact ⟨[], w1, rfl, c1, .inl rfl⟩
      · classical
        let X : List Name := (N.nameservers z).filter fun t => Alive stop w1.cache (t, .A)
        have hX : ∀ t ∈ X, t ∈ N.nameservers z ∧ Alive stop w1.cache (t, .A) := fun t ht => by
          have := List.mem_filter.1 ht
          exact ⟨this.1, by simpa using this.2⟩
        have c2 : Orderly env N start stop X w1 := ⟨c1.span, c1.cache, c1.fresh, fun t ht => (hX t ht).2⟩
        obtain ⟨nss', w2, e2, c3, k1, k2⟩ := findAddrs_works hw hc (z := z) (X := X) (fun t ht => ⟨z, (hX t ht).1⟩) (rs := rs) (fun r hr => by
          obtain ⟨t, ht⟩ := nsData_of (g1 r hr).1
          have hm : t ∈ N.nameservers z := g2.mem_iff.1 (mem_targets.2 ⟨r, hr, ht⟩)
          refine ⟨(g1 r hr).2, t, ht, hm, (g3 t hm).imp_left fun hal => List.mem_filter.2 ⟨hm, by simpa using hal⟩⟩) w1 c2
        exact ⟨nss', w2, e2, c3.weaken (by simp), .inr ⟨z, hz, hu, k2, by rw [k1]; exact g2⟩⟩
    obtain ⟨nss', w2, e2, c2, h2⟩ := this
    rw [bind_at e2]
    rcases h2 with rfl | ⟨z, hz, hu, hled⟩
    · exact ⟨_, w2, rfl, c2, .inl rfl⟩
    · refine ⟨nss', w2, ?_, c2, .inr ⟨z, hz, hu, hled⟩⟩
      have hne := led_ne hz hled
      cases nss' with
      | nil => exact absurd rfl hne
      | cons => rfl
  · have hne := led_ne hz hled
    cases nss with
    | nil => exact absurd rfl hne
    | cons a l => exact Works.pure (.inr ⟨z, hz, hu, hled⟩)

theorem root_usable : ∀ ns ∈ rootZoneNameservers, Usable N ⟨['.']⟩ ns ∧ ns.aRecords ≠ [] := by
  intro ns h
  unfold rootZoneNameservers at h
  obtain ⟨s, -, rfl⟩ := List.mem_map.1 h
  exact ⟨⟨rfl, .inl ⟨by simp, by simp [Record.recordType, RData.recordType]⟩⟩, by simp⟩

theorem root_filled : rootZoneNameservers.map (fill N) = rootZoneNameservers := by
  conv_rhs => rw [← List.map_id rootZoneNameservers]
  refine List.map_congr_left fun ns hns => ?_
  unfold fill
  rw [if_neg (root_usable (N := N) ns hns).2]
  rfl

/-! ## Aliases -/

theorem fares_unique {k : RecordType} {m : Name} {cs cs' : List Record} {f f' : Fate} (h : N.Fares k m cs f) (h' : N.Fares k m cs' f') :
    cs = cs' := by
  induction h generalizing cs' with
  | last h1 h2 =>
    cases h' with
    | last => rfl
    | follow g1 g2 g3 => exact absurd (h1.symm.trans g1) (h2 _)
  | follow h1 h2 h3 ih =>
    cases h' with
    | last g1 g2 => exact absurd (g1.symm.trans h1) (g2 _)
    | follow g1 g2 g3 =>
      rw [h1] at g1
      injection g1 with g1
      subst g1
      rw [h2] at g2
      injection g2 with g2
      subst g2
      rw [ih g3]

theorem fares_alias {k : RecordType} {m t : Name} {c : Record} {cs : List Record} {f : Fate} (h : N.Fares k m cs f) (hc : N.fate m k = .alias c)
    (ht : c.data = .CNAME t) : ∃ cs', cs = c :: cs' ∧ N.Fares k t cs' f := by
  cases h with
  | last g1 g2 => exact absurd (g1.symm.trans hc) (g2 _)
  | follow g1 g2 g3 =>
    rw [hc] at g1
    injection g1 with g1
    subst g1
    rw [ht] at g2
    injection g2 with g2
    subst g2
    exact ⟨_, rfl, g3⟩

theorem fares_last {k : RecordType} {m : Name} {cs : List Record} {f f' : Fate} (h : N.Fares k m cs f) (hf : N.fate m k = f')
    (hne : ∀ c, f' ≠ .alias c) : cs = [] ∧ f = f' := by
  cases h with
  | last g1 g2 => exact ⟨rfl, g1.symm.trans hf⟩
  | follow g1 g2 g3 => exact absurd (hf.symm.trans g1) (hne _)

theorem handleCname_works (hw : N.WellRun env p tries n (stop - start)) (hc : N.Companions env start stop) {lk : Lookup}
    (ha : N.asked lk.node lk.kind) {c c' : Record} {t : Name} (hfate : N.fate lk.node lk.kind = .alias c) (hb : bare c' = bare c)
    (ht : c.data = .CNAME t) (hloop : ∀ r ∈ lk.previousCnames, r.node ≠ t) (hfollow : lk.conf.noFollowCname = false) :
    Works (Orderly env N start stop []) (handleCname env lk c') fun lk' =>
      lk' = { lk with node := t, previousCnames := lk.previousCnames ++ [c'] } := by
  have hd : c'.data = .CNAME t := (bare_data hb).trans ht
  have hn : c'.node = lk.node := (bare_node hb).trans (hw.aliases ha hfate).1
  have hty : c'.recordType = .CNAME := by
    unfold Record.recordType
    rw [hd]
    rfl
  unfold handleCname
  have e1 : (c'.cnameData : Out LookupErr Name) = .ok t := by
    unfold Record.cnameData
    rw [hd]
  refine (Works.lift (Q := fun x => x = t) e1 rfl).bind fun x hx => ?_
  rw [hx]
  have e2 : detectCnameLoops t lk.previousCnames = .ok () := by
    unfold detectCnameLoops
    rw [if_neg]
    rw [List.any_eq_true]
    rintro ⟨r, hr, he⟩
    rw [beq_iff_eq] at he
    exact hloop r hr he
  refine (Works.lift (Q := fun _ => True) e2 trivial).bind fun _ _ => ?_
  rw [if_neg (by rw [hfollow]; exact Bool.false_ne_true)]
  refine Works.bind (Q := fun _ => True) ?_ fun _ _ => Works.pure rfl
  intro w h
  obtain ⟨w', e, c1, -⟩ := save_works hc (X := []) (by simp) (r0 := c') (rs := []) (by simp) h (fun cc e v _ hv _ _ => by
    rw [hn, hty]
    refine ⟨fun hx => absurd rfl (hw.names hx).2.2.2, fun _ k' hk' => ⟨c, hw.uniform ha hk' hfate, same_trans hv ?_⟩, (by rintro ⟨⟩), (by rintro ⟨⟩)⟩
    exact same_of_bare (by simp [hb]))
  exact ⟨(), w', e, c1, trivial⟩

/-! ## Lookups -/

/-- What is left of the response after the CNAME records found before. -/
def Rest (prev cs : List Record) (f : Fate) (r : Response) : Prop :=
  ∃ rest, r.answers = prev ++ rest ∧ Response.Reports { r with answers := rest } cs f

theorem rest_alias {prev cs : List Record} {c c' : Record} {f : Fate} {r : Response} (hb : bare c' = bare c) (h : Rest (prev ++ [c']) cs f r) :
    Rest prev (c :: cs) f r := by
  obtain ⟨rest, h1, h2⟩ := h
  refine ⟨c' :: rest, by rw [h1]; simp, ?_⟩
  cases f with
  | found l =>
    obtain ⟨g1, a, b, g2, g3, g4⟩ := h2
    refine ⟨g1, c' :: a, b, ?_, by rw [List.map_cons, List.map_cons, hb, g3], g4⟩
    show c' :: rest = _
    have g2 : rest = a ++ b := g2
    rw [g2]
    rfl
  | absent =>
    obtain ⟨g1, g2⟩ := h2
    refine ⟨g1, ?_⟩
    show (c' :: rest).map bare = _
    have g2 : rest.map bare = cs.map bare := g2
    rw [List.map_cons, List.map_cons, hb, g2]
  | «alias» _ => exact h2.elim

theorem loop_works (hw : N.WellRun env p tries n (stop - start)) (hc : N.Companions env start stop) {sub : Lookup → M Response} {fuel : Nat}
    (hfuel : 255 < fuel) : ∀ {rounds : Nat} {lk : Lookup} {nss : List NextNs} {cs : List Record} {f : Fate}, N.asked lk.node lk.kind →
    N.Fares lk.kind lk.node cs f → cs.length < rounds → (cs ≠ [] → lk.conf.noFollowCname = false) → lk.conf.maxUdpRetries = tries ∧ tries ≠ 0 →
    lk.conf.maxNsQueried = n →
    (∀ m z, (m = lk.node ∨ cs ≠ []) → N.Zone z → Under m z → SubWorks (Orderly env N start stop []) N sub lk z) →
    (nss = [] ∨ ∃ z, N.Zone z ∧ Under lk.node z ∧ Led N z nss) →
    (∀ r ∈ lk.previousCnames, ∃ cs' f', N.Fares lk.kind r.node cs' f' ∧ cs.length < cs'.length) →
    Works (Orderly env N start stop []) (performLoop env p sub fuel rounds lk nss) (Rest lk.previousCnames cs f)
  | 0, _, _, _, _, _, _, hr, _, _, _, _, _, _ => absurd hr (by omega)
  | rounds + 1, lk, nss, cs, f, ha, hfares, hrounds, hfollow, hn, hmax, hsub, hnss, hprev => by
    have hh : HostsOk N := fun _ _ => hw.hosts
    have alias_step : ∀ c c' t nss', N.fate lk.node lk.kind = .alias c → bare c' = bare c → c.data = .CNAME t →
        (nss' = [] ∨ ∃ z, N.Zone z ∧ Under t z ∧ Led N z nss') →
        Works (Orderly env N start stop []) (handleCname env lk c' >>= fun lk => performLoop env p sub fuel rounds lk nss')
          (Rest lk.previousCnames cs f) := by
      intro c c' t nss' hfate hb ht hnss'
      obtain ⟨cs', rfl, hfares'⟩ := fares_alias hfares hfate ht
      obtain ⟨hcn, t', ht', hat⟩ := hw.aliases ha hfate
      rw [ht] at ht'
      injection ht' with ht'
      subst ht'
      refine (handleCname_works hw hc ha hfate hb ht (fun r hr he => ?_) (hfollow (by simp))).bind ?_
      · obtain ⟨cs1, f1, h1, h2⟩ := hprev r hr
        rw [he] at h1
        rw [← fares_unique hfares' h1] at h2
        simp only [List.length_cons] at h2
        omega
      · rintro _ rfl
        refine (loop_works hw hc hfuel (rounds := rounds) (lk := { lk with node := t, previousCnames := lk.previousCnames ++ [c'] }) (cs := cs') (f := f) hat hfares' (by simp only [List.length_cons] at hrounds; omega)
          (fun _ => hfollow (by simp)) hn hmax (fun m z _ hz hu => hsub m z (.inr (by simp)) hz hu) hnss' ?_).mono fun r hr => rest_alias hb hr
        intro r hr
        rcases List.mem_append.1 hr with hr | hr
        · obtain ⟨cs1, f1, h1, h2⟩ := hprev r hr
          exact ⟨cs1, f1, h1, by simp only [List.length_cons] at h2; omega⟩
        · rw [List.mem_singleton] at hr
          subst hr
          refine ⟨c :: cs', f, ?_, by simp⟩
          rw [(bare_node hb).trans hcn]
          exact hfares
    unfold performLoop
    refine (Works.of_does Does.emit (Still.emit _)).bind fun _ _ => ?_
    refine Works.bind (Q := fun rs => rs = [] ∨ ∃ l, N.fate lk.node lk.kind = .found l ∧ Same rs l) ?_ fun rs hrs => ?_
    · intro w h
      obtain ⟨rs, w1, c, e1, h1, hcoh, -, -, hr⟩ := search_works hc (by simp) h lk.node lk.kind
      refine ⟨rs, w1, e1, h1, ?_⟩
      rcases hr with ⟨hr, -⟩ | ⟨exp, records, hf, hs, hb⟩
      · exact .inl hr
      · obtain ⟨l, h2, h3⟩ := hcoh.answers ha hf hs
        exact .inr ⟨l, h2, same_trans (same_of_bare hb) h3⟩
    · by_cases h0 : rs = []
      · subst h0
        simp only [List.length_nil, Nat.lt_irrefl, gt_iff_lt, if_false]
        refine Works.bind (Q := fun rs => rs = [] ∨ ∃ c c', N.fate lk.node lk.kind = .alias c ∧ rs = [c'] ∧ bare c' = bare c) ?_ fun rs hrs => ?_
        · intro w h
          obtain ⟨rs, w1, c, e1, h1, hcoh, -, -, hr⟩ := search_works hc (by simp) h lk.node .CNAME
          refine ⟨rs, w1, e1, h1, ?_⟩
          rcases hr with ⟨hr, -⟩ | ⟨exp, records, hf, hs, hb⟩
          · exact .inl hr
          · obtain ⟨c, h2, h3⟩ := hcoh.aliases ha hf hs
            obtain ⟨c', h4, h5⟩ := same_single (same_trans (same_of_bare hb) h3)
            exact .inr ⟨c, c', h2, h4, h5⟩
        · rcases hrs with rfl | ⟨c, c', hfate, rfl, hb⟩
          · simp only
            refine (starting_works hw hc ha hnss).bind fun nss' hst => ?_
            refine Works.bind (Q := Told N (stop - start) lk.node lk.kind) ?_ ?_
            · have hlen := validName_strLen (hw.names ha).1
              rcases hst with rfl | ⟨z, hz, hu, hled⟩
              · refine iterate_works hw hc ha hn hmax (fun z hz hu => hsub _ z (.inl rfl) hz hu) (z := ⟨['.']⟩) (by omega)
                  (fun ns hns => ⟨(root_usable ns hns).1, fun h => absurd h (root_usable (N := N) ns hns).2⟩) ?_ (hw.root ha)
                rw [root_filled]
                exact are_root
              · exact iterate_works hw hc ha hn hmax (fun z hz hu => hsub _ z (.inl rfl) hz hu) (z := z) (by omega)
                  (fun ns hns => ⟨usable_of hh (hled.1 ns hns), fun _ => hsub _ z (.inl rfl) hz hu⟩)
                  (fill_are hh hled.1) (served_perm (List.Perm.map _ (List.Perm.symm hled.2)) (hw.zones ha hz hu))
            · rintro r (⟨a, ad, l, rfl, hfate, hs, hl⟩ | ⟨c', c, t, nss2, rfl, hfate, hb, ht, hnss2⟩ | ⟨soa, rfl, hfate⟩)
              · obtain ⟨rfl, rfl⟩ := fares_last hfares hfate (by simp)
                obtain ⟨g1, g2⟩ := hw.found ha hfate
                have hall := same_all hs g2
                cases a with
                | nil => exact absurd (same_nil hs) g1
                | cons r0 rest =>
                  simp only
                  obtain ⟨k1, k2⟩ := hall r0 (by simp)
                  refine Works.bind (Q := fun _ => True) ?_ fun _ _ => Works.pure ⟨r0 :: rest, rfl, rfl, [], r0 :: rest, rfl, rfl, hs⟩
                  intro w h
                  obtain ⟨w', e, c1, -⟩ := save_works hc (X := []) (by simp) (r0 := r0) (rs := rest)
                    (fun r hr => by rw [k2]; exact (hall r (by simp [hr])).2) h (fun cc e v _ hv _ he => by
                      rw [k1, k2]
                      refine ⟨fun _ => ⟨l, hfate, same_trans hv hs⟩, fun hk => absurd hk (hw.names ha).2.2.2, fun hk z hz => ?_,
                        fun hk => absurd hk (hw.names ha).2.2.1⟩
                      have ha' : N.asked lk.node .A := hk ▸ ha
                      have hag := hw.agree hz ha'
                      rw [← hk, hfate] at hag
                      injection hag with hag
                      subst hag
                      exact ⟨he fun r hr => hl z hk hz r hr, same_trans hv hs⟩)
                  exact ⟨(), w', e, c1, trivial⟩
              · exact alias_step c c' t nss2 hfate hb ht hnss2
              · obtain ⟨rfl, rfl⟩ := fares_last hfares hfate (by simp)
                exact Works.pure ⟨[], by simp, rfl, rfl⟩
          · obtain ⟨-, t, ht, -⟩ := hw.aliases ha hfate
            exact alias_step c c' t [] hfate hb ht (.inl rfl)
      · rw [if_pos (List.length_pos_iff.2 h0)]
        obtain ⟨l, hfate, hs⟩ := hrs.resolve_left h0
        obtain ⟨rfl, rfl⟩ := fares_last hfares hfate (by simp)
        exact Works.pure ⟨rs, rfl, rfl, [], rs, rfl, rfl, hs⟩

theorem perform_works (hw : N.WellRun env p tries n (stop - start)) (hc : N.Companions env start stop) : ∀ {fuel R : Nat} {lk : Lookup}
    {cs : List Record} {f : Fate}, 256 + R < fuel → N.asked lk.node lk.kind →
    N.Fares lk.kind lk.node cs f → cs.length < lk.conf.maxCnameRedir → (cs ≠ [] → lk.conf.noFollowCname = false) → lk.conf.maxUdpRetries = tries ∧ tries ≠ 0 →
    lk.conf.maxNsQueried = n → lk.previousCnames = [] → (∀ z ∈ lk.previousZones, R ≤ N.rank z) →
    (∀ m z, (m = lk.node ∨ cs ≠ []) → N.Zone z → Under m z → N.rank z < R) →
    Works (Orderly env N start stop []) (perform env p fuel lk) (fun r => Response.Reports r cs f)
  | 0, _, _, _, _, hf, _, _, _, _, _, _, _, _, _ => absurd hf (by omega)
  | fuel + 1, R, lk, cs, f, hf, ha, hfares, hrounds, hfollow, hn, hmax, hp, hpz, hR => by
    have hh : HostsOk N := fun _ _ => hw.hosts
    unfold perform
    refine (loop_works hw hc (by omega) ha hfares hrounds hfollow hn hmax ?_ (.inl rfl) (by simp [hp])).mono ?_
    · intro m z hm hz hu
      have hrank := hR m z hm hz hu
      refine ⟨fun h => ?_, fun t ht hfree => ?_⟩
      · have := hpz z h
        omega
      · have hag := hw.agree ht hfree.1
        refine (perform_works hw hc (fuel := fuel) (R := N.rank z)
          (lk := ⟨t, .A, lk.previousZones ++ [z], [], { lk.conf with noFollowCname := true }⟩) (cs := []) (f := .found (N.hosts t)) (by omega) hfree.1
          (.last hag (by simp)) ?_ (by simp) hn hmax rfl ?_ ?_).mono ?_
        · have : 0 < lk.conf.maxCnameRedir := by omega
          exact this
        · intro z' hz'
          rcases List.mem_append.1 hz' with h | h
          · have := hpz z' h
            omega
          · rw [List.mem_singleton] at h
            subst h
            exact Nat.le_refl _
        · rintro m' z' (rfl | h) hz' hu'
          · exact hfree.2.1 z' hz' hu'
          · exact absurd rfl h
        · rintro r ⟨-, a, b, e1, e2, e3⟩
          have : a = [] := List.map_eq_nil_iff.1 e2
          subst this
          rw [e1]
          exact e3
    · rintro r ⟨rest, h1, h2⟩
      rw [hp, List.nil_append] at h1
      subst h1
      exact h2

end Ariadne.Resolver
