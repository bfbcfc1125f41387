import Verif.Spec.Accepts
import Verif.Lemmas.Accepts
import Verif.Props.ZoneLines

/-!
# C100: which zone sets are loaded
-/

namespace Ariadne.Props

open Spec ZoneParser

/-- A zone with this name and these records. -/
structure ZoneIs (z : Zone) (name : Name) (rs : List Record) : Prop where
  zone : z.zone = name
  returns : Returns z rs
  holds : ∃ log, Holds z log
  targets : ∀ r ∈ rs, ∀ n, r.data = .NS n → ValidName n.s

theorem ZoneIs.mem {z : Zone} {name : Name} {rs : List Record} (h : ZoneIs z name rs) (o : HashOrder) (k : RecordType) (r : Record) :
    r ∈ z.getAllOfType o k ↔ r ∈ rs ∧ r.recordType = k := by
  rw [(h.returns.2 o k).mem_iff, List.mem_filter]
  simp

theorem recordType_ns {r : Record} {n : Name} (h : r.data = .NS n) : r.recordType = .NS := by
  unfold Record.recordType; rw [h]; rfl

theorem forall₂_left {α β : Type} {R : α → β → Prop} : ∀ {l : List α} {l' : List β}, List.Forall₂ R l l' → ∀ a ∈ l, ∃ b ∈ l', R a b
  | _, _, .cons h t, a, ha => by
    rcases List.mem_cons.1 ha with rfl | ha
    · exact ⟨_, List.mem_cons_self, h⟩
    · obtain ⟨b, hb, hr⟩ := forall₂_left t a ha
      exact ⟨b, List.mem_cons_of_mem _ hb, hr⟩

theorem forall₂_right {α β : Type} {R : α → β → Prop} {l : List α} {l' : List β} (h : List.Forall₂ R l l') (b : β) (hb : b ∈ l') :
    ∃ a ∈ l, R a b := forall₂_left h.flip b hb

/-- What the loader checks, on the records. -/
theorem consistent_iff {o : HashOrder} {zones : ManagedZone} {zone : Name} {rs : List Record} {subs : List (Name × List Record)}
    (hv : ValidName zone.s) (hr : zone.s ≠ ['.']) (hsv : ∀ s ∈ subs, ValidName s.1.s ∧ s.1.s ≠ ['.'])
    (ha : ZoneIs zones.authZone zone rs) (hs : List.Forall₂ (fun z (s : Name × List Record) => ZoneIs z s.1 s.2) zones.subZones subs) :
    Consistent o zones ↔ FitTogether zone rs subs := by
  have hl := forall₂_left hs
  have hrt := forall₂_right hs
  constructor
  · intro h
    refine ⟨?_, fun r h1 h2 => ?_, fun s h1 => ?_, fun s h1 r h2 h3 => ?_, fun s h1 r h2 n h3 h4 s' h5 h6 => ?_, fun s h1 a h2 h3 => ?_⟩
    · obtain ⟨r, hr⟩ := List.exists_mem_of_ne_nil _ h.ns
      exact ⟨r, (ha.mem o .NS r).1 hr⟩
    · rw [← ha.zone]
      exact h.apex r ((ha.mem o .NS r).2 ⟨h1, h2⟩)
    · obtain ⟨z, hz, hzs⟩ := hrt s h1
      obtain ⟨r, hr⟩ := List.exists_mem_of_ne_nil _ (h.subNs z hz)
      exact ⟨r, (hzs.mem o .NS r).1 hr⟩
    · obtain ⟨z, hz, hzs⟩ := hrt s h1
      rw [← hzs.zone]
      exact h.subApex z hz r ((hzs.mem o .NS r).2 ⟨h2, h3⟩)
    · obtain ⟨z, hz, hzs⟩ := hrt s h1
      obtain ⟨z', hz', hzs'⟩ := hrt s' h5
      have hn := hzs.targets r h2 n h3
      obtain ⟨a, h7, h8⟩ := h.glue z hz r ((hzs.mem o .NS r).2 ⟨h2, recordType_ns h3⟩) n h3
        (by rw [ha.zone]; exact (isInZone_within hn hv hr).2 h4) z' hz'
        (by rw [hzs'.zone]; exact (isInZone_within hn (hsv s' h5).1 (hsv s' h5).2).2 h6)
      have := (hzs'.mem o .A a).1 h7
      exact ⟨a, this.1, this.2, h8⟩
    · obtain ⟨z, hz, hzs⟩ := hrt s h1
      obtain ⟨z', hz', r, h4, h5⟩ := h.used z hz a ((hzs.mem o .A a).2 ⟨h2, h3⟩)
      obtain ⟨s', hs', hzs'⟩ := hl z' hz'
      exact ⟨s', hs', r, ((hzs'.mem o .NS r).1 h4).1, h5⟩
  · intro h
    refine ⟨?_, fun r h1 => ?_, fun z hz => ?_, fun z hz r h2 => ?_, fun z hz r h2 n h3 h4 z' hz' h6 => ?_, fun z hz a h2 => ?_⟩
    · obtain ⟨r, h1, h2⟩ := h.ns
      exact List.ne_nil_of_mem ((ha.mem o .NS r).2 ⟨h1, h2⟩)
    · rw [ha.zone]
      have := (ha.mem o .NS r).1 h1
      exact h.apex r this.1 this.2
    · obtain ⟨s, h1, hzs⟩ := hl z hz
      obtain ⟨r, h2, h3⟩ := h.subNs s h1
      exact List.ne_nil_of_mem ((hzs.mem o .NS r).2 ⟨h2, h3⟩)
    · obtain ⟨s, h1, hzs⟩ := hl z hz
      rw [hzs.zone]
      have := (hzs.mem o .NS r).1 h2
      exact h.subApex s h1 r this.1 this.2
    · obtain ⟨s, h1, hzs⟩ := hl z hz
      obtain ⟨s', h5, hzs'⟩ := hl z' hz'
      have h2' := (hzs.mem o .NS r).1 h2
      have hn := hzs.targets r h2'.1 n h3
      rw [ha.zone] at h4
      rw [hzs'.zone] at h6
      obtain ⟨a, h7, h8, h9⟩ := h.glue s h1 r h2'.1 n h3 ((isInZone_within hn hv hr).1 h4) s' h5
        ((isInZone_within hn (hsv s' h5).1 (hsv s' h5).2).1 h6)
      exact ⟨a, (hzs'.mem o .A a).2 ⟨h7, h8⟩, h9⟩
    · obtain ⟨s, h1, hzs⟩ := hl z hz
      have h2' := (hzs.mem o .A a).1 h2
      obtain ⟨s', h3, r, h4, h5⟩ := h.used s h1 a h2'.1 h2'.2
      obtain ⟨z', hz', hzs'⟩ := hrt s' h3
      exact ⟨z', hz', r, (hzs'.mem o .NS r).2 ⟨h4, recordType_ns h5⟩, h5⟩

/-- The zones that come out of the two loaders. -/
theorem loaded_zones {fs : Files} {o : HashOrder} {fuel : Nat} {conf : Params} {depth : Nat} {soa : Record} {rs : List Record}
    {subs : List (List Record)} {auth : Zone} {zs : List Zone} (hv : ValidConf conf) (hr : conf.zone.s ≠ ['.'])
    (hrs : ∀ c ∈ conf.subZones, c.zone.s ≠ ['.'])
    (h : ZoneMeans true fs conf (fun _ => conf.startingTtl) (fun f => Included true fs f depth) soa rs)
    (hsub : List.Forall₂ (SubZoneMeans true fs) conf.subZones subs) (h1 : parseAuthZoneFile fs o fuel conf = .ok auth)
    (h2 : parseSubZones fs fuel conf.subZones = .ok zs) :
    ZoneIs auth conf.zone (rs ++ [soa]) ∧
    List.Forall₂ (fun z (s : Name × List Record) => ZoneIs z s.1 s.2) zs ((conf.subZones.map (·.zone)).zip subs) := by
  constructor
  · have hs := parseAuthZoneFile_sat (np := False) (fs := fs) (o := o) (fun x => x.elim) fuel conf (ownerOk hv).1 (ownerOk hv).2
    rw [h1] at hs
    obtain ⟨log, soa', minimum, ha⟩ := hs
    have hret := (C41_records_partial fs o conf depth soa rs hv hr h).2 _ _ h1
    refine ⟨ha.zone, hret, ⟨_, ha.holds⟩, fun r hr n hd => ?_⟩
    have hm : r ∈ auth.getAllOfType o .NS := by
      rw [(hret.2 o .NS).mem_iff, List.mem_filter]
      exact ⟨hr, by simpa using recordType_ns hd⟩
    rw [mem_all ha.holds, List.mem_append, List.mem_singleton] at hm
    rcases hm.1 with hm | rfl
    · have := (ha.good r hm).data
      rw [hd] at this
      exact this
    · have := ha.valid
      rw [hd] at this
      exact this
  · have hz := parseSubZones_mem h2
    clear h2
    have hv2 := hv.2
    generalize conf.subZones = cs at hz hsub hrs hv2
    induction hz generalizing subs with
    | nil => cases hsub; exact .nil
    | @cons c z cs zs hc hcs ih =>
      cases hsub with
      | @cons _ l _ subs' hl hls =>
      refine .cons ?_ (ih hls (fun c hc => hrs c (List.mem_cons_of_mem _ hc)) (fun c hc => hv2 c (List.mem_cons_of_mem _ hc)))
      have hs := parseSubZoneFile_sat (np := False) (nd := False) (fs := fs) (fun x => x.elim) fuel c (fun x => x.elim)
      rw [hc] at hs
      obtain ⟨log, ha⟩ := hs
      have hvc := hv2 c List.mem_cons_self
      have hret := (C41_sub_partial fs c l hvc (hrs c List.mem_cons_self) hl).2 _ _ hc
      refine ⟨ha.zone, hret, ⟨_, ha.holds⟩, fun r hr n hd => ?_⟩
      have hm : r ∈ z.getAllOfType o .NS := by
        rw [(hret.2 o .NS).mem_iff, List.mem_filter]
        exact ⟨hr, by simpa using recordType_ns hd⟩
      rw [mem_all ha.holds] at hm
      have := (ha.good r hm.1).data hvc
      rw [hd] at this
      exact this

theorem parseSubZones_all {fs : Files} : ∀ {cs : List SubParams}, (∀ c ∈ cs, ∃ N, ∀ fuel ≥ N, ∃ z, parseSubZoneFile fs fuel c = .ok z) →
    ∃ N, ∀ fuel ≥ N, ∃ zs, parseSubZones fs fuel cs = .ok zs
  | [], _ => ⟨0, fun _ _ => ⟨[], rfl⟩⟩
  | c :: cs, h => by
    obtain ⟨N, hN⟩ := h c List.mem_cons_self
    obtain ⟨M, hM⟩ := parseSubZones_all fun c hc => h c (List.mem_cons_of_mem _ hc)
    refine ⟨N + M, fun fuel hf => ?_⟩
    obtain ⟨z, hz⟩ := hN fuel (by omega)
    obtain ⟨zs, hzs⟩ := hM fuel (by omega)
    exact ⟨z :: zs, by unfold parseSubZones; rw [hz, Out.bind_ok, hzs, Out.bind_ok]⟩

/-- The outcome of the checks. -/
theorem checks {p : Profile} {fs : Files} {o : HashOrder} {fuel : Nat} {conf : Params} {auth : Zone} {zs : List Zone}
    (h1 : parseAuthZoneFile fs o fuel conf = .ok auth) (h2 : parseSubZones fs fuel conf.subZones = .ok zs)
    (hz : ∀ z ∈ zs, ∃ log, Holds z log) :
    (Consistent o ⟨auth, zs⟩ → parseZoneFiles p fs o fuel conf = .ok ⟨auth, zs⟩) ∧
    (¬ Consistent o ⟨auth, zs⟩ → ∃ e, parseZoneFiles p fs o fuel conf = .err e) := by
  have key : parseZoneFiles p fs o fuel conf = (do
      validateAuthZone o ⟨auth, zs⟩
      forAll (validateSubzone p o ⟨auth, zs⟩) zs
      .ok ⟨auth, zs⟩) := by
    unfold parseZoneFiles
    rw [h1, Out.bind_ok, h2, Out.bind_ok]
  rw [key]
  constructor
  · intro h
    obtain ⟨h3, h4⟩ := validate_consistent (p := p) hz h
    rw [h3, Out.bind_ok]
    simp only at h4
    rw [h4, Out.bind_ok]
  · intro h
    have hv := validate_sat (np := True) (nd := True) (p := p) (o := o) (zones := ⟨auth, zs⟩) hz
    revert hv
    cases validateAuthZone o ⟨auth, zs⟩ with
    | ok u =>
      simp only [Out.bind_ok]
      cases forAll (validateSubzone p o ⟨auth, zs⟩) zs with
      | ok u => exact fun hv => absurd hv h
      | err e => exact fun _ => ⟨e, rfl⟩
      | panic k => exact fun hv => absurd trivial hv
      | diverge => exact fun hv => absurd trivial hv
    | err e => exact fun _ => ⟨e, rfl⟩
    | panic k => exact fun hv => absurd trivial hv
    | diverge => exact fun hv => absurd trivial hv

/-- **C100.** Of the zone sets whose files stand for records (in the grammar of C41), the loader takes those whose records fit
together, and those only; the others it rejects with an error. -/
theorem C100_accepts (p : Profile) (fs : Files) (o : HashOrder) (conf : Params) (depth : Nat) (soa : Record)
    (rs : List Record) (subs : List (List Record)) (hv : ValidConf conf) (hr : conf.zone.s ≠ ['.'])
    (hrs : ∀ c ∈ conf.subZones, c.zone.s ≠ ['.'])
    (h : ZoneMeans true fs conf (fun _ => conf.startingTtl) (fun f => Included true fs f depth) soa rs)
    (hsub : List.Forall₂ (SubZoneMeans true fs) conf.subZones subs) :
    (FitTogether conf.zone (rs ++ [soa]) ((conf.subZones.map (·.zone)).zip subs) →
      ∃ N, ∀ fuel ≥ N, ∃ zones, parseZoneFiles p fs o fuel conf = .ok zones) ∧
    (¬ FitTogether conf.zone (rs ++ [soa]) ((conf.subZones.map (·.zone)).zip subs) →
      (∃ N, ∀ fuel ≥ N, ∃ e, parseZoneFiles p fs o fuel conf = .err e) ∧
      ∀ fuel zones, parseZoneFiles p fs o fuel conf ≠ .ok zones) := by
  obtain ⟨N, hN⟩ := (C41_records_partial fs o conf depth soa rs hv hr h).1
  obtain ⟨M, hM⟩ := parseSubZones_all (fs := fs) (cs := conf.subZones) fun c hc => by
    obtain ⟨l, -, hl⟩ := forall₂_left hsub c hc
    exact (C41_sub_partial fs c l (hv.2 c hc) (hrs c hc) hl).1
  have hsv : ∀ s ∈ (conf.subZones.map (·.zone)).zip subs, ValidName s.1.s ∧ s.1.s ≠ ['.'] := by
    rintro ⟨n, l⟩ hs
    obtain ⟨c, hc, rfl⟩ := List.mem_map.1 (List.of_mem_zip hs).1
    exact ⟨hv.2 c hc, hrs c hc⟩
  have main : ∀ fuel auth zs, parseAuthZoneFile fs o fuel conf = .ok auth → parseSubZones fs fuel conf.subZones = .ok zs →
      (FitTogether conf.zone (rs ++ [soa]) ((conf.subZones.map (·.zone)).zip subs) → parseZoneFiles p fs o fuel conf = .ok ⟨auth, zs⟩) ∧
      (¬ FitTogether conf.zone (rs ++ [soa]) ((conf.subZones.map (·.zone)).zip subs) → ∃ e, parseZoneFiles p fs o fuel conf = .err e) := by
    intro fuel auth zs h1 h2
    obtain ⟨ha, hs⟩ := loaded_zones hv hr hrs h hsub h1 h2
    rw [← consistent_iff (o := o) (zones := ⟨auth, zs⟩) hv.1 hr hsv ha hs]
    exact checks h1 h2 fun z hz => by
      obtain ⟨s, -, h⟩ := forall₂_left hs z hz
      exact h.holds
  refine ⟨fun hf => ⟨N + M, fun fuel hge => ?_⟩, fun hf => ⟨⟨N + M, fun fuel hge => ?_⟩, fun fuel zones e => ?_⟩⟩
  · obtain ⟨auth, h1⟩ := hN fuel (by omega)
    obtain ⟨zs, h2⟩ := hM fuel (by omega)
    exact ⟨_, (main fuel auth zs h1 h2).1 hf⟩
  · obtain ⟨auth, h1⟩ := hN fuel (by omega)
    obtain ⟨zs, h2⟩ := hM fuel (by omega)
    exact (main fuel auth zs h1 h2).2 hf
  · have e' := e
    obtain ⟨auth, h1, e⟩ := bind_eq_ok e
    obtain ⟨zs, h2, e⟩ := bind_eq_ok e
    obtain ⟨er, h3⟩ := (main fuel auth zs h1 h2).2 hf
    rw [h3] at e'
    cases e'

/-- The sample of C41 with its sub zone fits together. -/
theorem sample_fits : FitTogether sampleConf.zone (([sampleApexNs, sampleAddr] ++ ([sampleIncA, sampleCname] ++ [sampleTxtRec])) ++
    [sampleSoaRec]) ((sampleConf.subZones.map (·.zone)).zip [sampleSubRecs]) := by
  have hm : ∀ s ∈ (sampleConf.subZones.map (·.zone)).zip [sampleSubRecs], s = (⟨"s.e.".toList⟩, sampleSubRecs) := fun s hs => by
    simpa [sampleConf] using hs
  refine ⟨⟨sampleApexNs, by simp, by decide⟩, by decide, fun s hs => ?_, fun s hs => ?_, fun s hs r hr n hn hw s' hs' hw' => ?_,
    fun s hs a ha hk => ?_⟩
  · rw [hm s hs]; exact ⟨_, List.mem_cons_self, by decide⟩
  · rw [hm s hs]; decide
  · rw [hm s hs] at hr
    rw [hm s' hs'] at hw' ⊢
    rcases List.mem_cons.1 hr with rfl | hr
    · exact ⟨_, List.mem_cons_of_mem _ List.mem_cons_self, by decide, RData.NS.inj hn⟩
    rcases List.mem_cons.1 hr with rfl | hr
    · cases hn
    · rw [List.mem_singleton.1 hr] at hn
      rw [← RData.NS.inj hn, ← isInZone_within (validName_of (by decide +kernel)) (validName_of (by decide +kernel)) (by decide)] at hw'
      exact absurd hw' (by decide +kernel)
  · rw [hm s hs] at ha
    refine ⟨_, hs, ?_⟩
    rw [hm s hs]
    rcases List.mem_cons.1 ha with rfl | ha
    · exact absurd hk (by decide)
    rcases List.mem_cons.1 ha with rfl | ha
    · exact ⟨_, List.mem_cons_self, rfl⟩
    · rw [List.mem_singleton.1 ha] at hk
      exact absurd hk (by decide)

theorem sample_subs : List.Forall₂ (SubZoneMeans true sampleFiles) sampleConf.subZones [sampleSubRecs] := .cons sample_sub .nil

theorem sample_roots : ∀ c ∈ sampleConf.subZones, c.zone.s ≠ ['.'] := by decide

/-- The sample is loaded. -/
example (p : Profile) (o : HashOrder) : ∃ N, ∀ fuel ≥ N, ∃ zones, parseZoneFiles p sampleFiles o fuel sampleConf = .ok zones :=
  (C100_accepts p sampleFiles o sampleConf 1 _ _ _ sample_valid (by decide) sample_roots sample_means sample_subs).1 sample_fits

/-- A zone without a name server. -/
def bareFiles : Files := files [("bare", ["@ 60 IN SOA ns mail.f. 1 2 3 4 5"])]
def bareConf : Params := { filePath := "bare".toList, zone := ⟨"e.".toList⟩, startingTtl := 60, subZones := [] }

theorem bare_means : ZoneMeans true bareFiles bareConf (fun _ => bareConf.startingTtl) (fun f => Included true bareFiles f 0) sampleSoaRec
    [] := by
  refine ⟨[], ["@ 60 IN SOA ns mail.f. 1 2 3 4 5".toList], [], "@".toList,
    [.plain "60".toList, .plain "IN".toList] ++ [.plain "SOA".toList, .plain "ns".toList, .plain "mail.f.".toList, .plain "1".toList,
      .plain "2".toList, .plain "3".toList, .plain "4".toList, .plain "5".toList], 5, by decide, by simp,
    entryOf_sound (n := 60) (by decide +kernel), ?_, by decide, .nil⟩
  exact ⟨_, _, _, _, _, _, _, _, ⟨"ns.e.".toList⟩, ⟨"mail.f.".toList⟩, 1, 2, 3, 4, rfl, .inl ⟨.inr (by decide), rfl⟩, rfl,
    .ttlClass (numeral_of (by decide)), rfl, rfl, by decide, rfl,
    .inr (nameText_rel ["ns".toList] ["e".toList] (by decide)), .inr (nameText_abs ["mail".toList, "f".toList] (by decide)),
    numeral_of (by decide), numeral_of (by decide), numeral_of (by decide), numeral_of (by decide), numeral_of (by decide)⟩

/-- It is rejected. -/
example (p : Profile) (o : HashOrder) : ∃ N, ∀ fuel ≥ N, ∃ e, parseZoneFiles p bareFiles o fuel bareConf = .err e := by
  refine ((C100_accepts p bareFiles o bareConf 0 sampleSoaRec [] [] ⟨validName_of (by decide +kernel), fun c hc => nomatch hc⟩
    (by decide) (fun c hc => nomatch hc) bare_means .nil).2 fun h => ?_).1
  obtain ⟨r, hr, hk⟩ := h.ns
  rw [List.nil_append] at hr
  rw [List.mem_singleton.1 hr] at hk
  exact absurd hk (by decide)

end Ariadne.Props
