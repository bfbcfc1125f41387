import Verif.Lemmas.Counts

/-!
# C45–C52: the name server
-/

namespace Ariadne.Props

open Spec ZoneParser Nameserver

/-- A query with id 7 and RD set. -/
def ask (n : String) (t : RecordType) : Message :=
  Message.mk (Header.mk 7 false .STD false false true false 0 .NoError 1 0 0 0) [⟨⟨n.toList⟩, t, .IN⟩] [] [] []

theorem asks_ask {n : String} {t : RecordType} (h : (Name.fromString n.toList : Out NameErr Name) = .ok ⟨n.toList⟩) :
    Asks (ask n t) ⟨⟨n.toList⟩, t, .IN⟩ := ⟨rfl, rfl, rfl, rfl, rfl, rfl, validName_of h⟩

/-- Test a reply. -/
def replyIs (p : Profile) (zones : ManagedZone) (req : Message) (P : Message → Bool) : Bool :=
  match handle p zones (.fullMessage req) with
  | .ok (some m) => P m
  | _ => false

theorem replyIs_spec {p : Profile} {zones : ManagedZone} {req : Message} {P : Message → Bool}
    (h : replyIs p zones req P = true) : ∃ m, Replies p zones req m ∧ P m = true := by
  unfold replyIs at h
  unfold Replies
  generalize handle p zones (.fullMessage req) = x at h ⊢
  match x, h with
  | .ok (some m), h => exact ⟨m, rfl, h⟩

theorem root_valid : ValidConf rootConf := ⟨validName_of (by decide +kernel), fun c hc => by
  have : c.zone.s = "com.".toList := by simp only [rootConf, List.mem_singleton] at hc; rw [hc]
  rw [this]; exact validName_of (by decide +kernel)⟩

/-! ## C45 -/

/-- The full statement of C45. -/
def C45_statement : Prop :=
  ∀ (p : Profile) (conf : Params) (zones : ManagedZone) (req : Message) (q : Question), Loaded conf zones → Asks req q →
    ∃ m, Replies p zones req m ∧
      (¬ Within q.node conf.zone → m.header.respCode = .Refused ∧ NoRecords m) ∧
      (Within q.node conf.zone → m.header.respCode ≠ .Refused)

/-- C45 does not hold: a server of the root zone refuses everything but the root itself. -/
theorem C45_violated : ¬ C45_statement := by
  intro h
  obtain ⟨zones, hz, hr⟩ := ok_of (x := parseZoneFiles .release rootFiles forwards 10 rootConf)
    (fun zones => replyIs .release zones (ask "com." .NS) (·.header.respCode == .Refused)) (by decide +kernel)
  obtain ⟨m, h1, h2⟩ := replyIs_spec hr
  have ha : Asks (ask "com." .NS) _ := asks_ask (by decide +kernel)
  obtain ⟨m', h3, -, h4⟩ := h .release rootConf zones _ _ ⟨root_valid, _, _, _, _, hz⟩ ha
  rw [replies_unique h3 h1] at h4
  exact h4 (within_root ha.valid rfl) (by simpa using h2)

/-- C45, part: for every zone but the root. Missing: the root zone (`C45_violated`). -/
theorem C45_refused_partial (p : Profile) (conf : Params) (zones : ManagedZone) (req : Message) (q : Question)
    (hl : Loaded conf zones) (hq : Asks req q) (hr : conf.zone.s ≠ ['.']) :
    ∃ m, Replies p zones req m ∧
      (¬ Within q.node conf.zone → m.header.respCode = .Refused ∧ NoRecords m) ∧
      (Within q.node conf.zone → m.header.respCode ≠ .Refused) := by
  obtain ⟨m, h1, h2⟩ := replies_kind hl.ready p hq
  have hw := isInZone_within hq.valid hl.1.1 hr
  refine ⟨m, h1, ?_⟩
  cases h2 with
  | refused h =>
    exact ⟨fun _ => ⟨rfl, rfl, rfl, rfl⟩, fun x => by rw [hw.2 x] at h; cases h⟩
  | referral h _ _ _ _ _ => exact ⟨fun x => absurd (hw.1 h) x, fun _ => (by show RespCode.NoError ≠ .Refused; decide)⟩
  | found h _ _ _ => exact ⟨fun x => absurd (hw.1 h) x, fun _ => (by show RespCode.NoError ≠ .Refused; decide)⟩
  | cname h _ _ _ _ => exact ⟨fun x => absurd (hw.1 h) x, fun _ => (by show RespCode.NoError ≠ .Refused; decide)⟩
  | nx h _ _ _ _ _ _ _ e => exact ⟨fun x => absurd (hw.1 h) x, fun _ => (by rw [e]; decide)⟩

/-- A loaded zone set, refusing one name and answering another. -/
theorem sample_loaded : ∃ zones, Loaded sampleConf zones ∧
    replyIs .debug zones (ask "ns.f." .A) (fun m => m.header.respCode == .Refused) = true ∧
    replyIs .debug zones (ask "ns.e." .A) (fun m => m.answers.map (fun r => (r.ttl, r.data)) == [(100, .A ⟨10, 0, 0, 1⟩)] &&
      m.header.authAnswer && m.header.respCode == .NoError) = true ∧
    replyIs .debug zones (ask "x.s.e." .TXT) (fun m => !m.header.authAnswer && m.answers == [] &&
      m.authorities.map (fun r => r.data) == [.NS ⟨"ns.s.e.".toList⟩, .NS ⟨"ns.f.".toList⟩] &&
      m.additionals.map (fun r => r.data) == [.A ⟨10, 0, 0, 3⟩]) = true ∧
    replyIs .debug zones (ask "b.y.e." .A) (fun m => m.answers.map (fun r => r.data) == [.CNAME ⟨"a.y.e.".toList⟩]) = true ∧
    replyIs .debug zones (ask "q.e." .A) (fun m => m.header.respCode == .NxDomain &&
      m.authorities.map (fun r => r.recordType) == [.SOA]) = true := by
  obtain ⟨zones, h1, h2⟩ := ok_of (x := parseZoneFiles .debug sampleFiles forwards 20 sampleConf) (fun zones =>
    replyIs .debug zones (ask "ns.f." .A) (fun m => m.header.respCode == .Refused) &&
    (replyIs .debug zones (ask "ns.e." .A) (fun m => m.answers.map (fun r => (r.ttl, r.data)) == [(100, .A ⟨10, 0, 0, 1⟩)] &&
      m.header.authAnswer && m.header.respCode == .NoError) &&
    (replyIs .debug zones (ask "x.s.e." .TXT) (fun m => !m.header.authAnswer && m.answers == [] &&
      m.authorities.map (fun r => r.data) == [.NS ⟨"ns.s.e.".toList⟩, .NS ⟨"ns.f.".toList⟩] &&
      m.additionals.map (fun r => r.data) == [.A ⟨10, 0, 0, 3⟩]) &&
    (replyIs .debug zones (ask "b.y.e." .A) (fun m => m.answers.map (fun r => r.data) == [.CNAME ⟨"a.y.e.".toList⟩]) &&
    replyIs .debug zones (ask "q.e." .A) (fun m => m.header.respCode == .NxDomain &&
      m.authorities.map (fun r => r.recordType) == [.SOA]))))) (by decide +kernel)
  simp only [Bool.and_eq_true] at h2
  refine ⟨zones, ⟨sample_valid, _, _, _, _, h1⟩, ?_⟩
  simpa only [Bool.and_eq_true] using h2

/-! ## C46 -/

/-- C46: the answers are the records of the name and type, in the order of the zone file; NOERROR, AA, nothing else. -/
theorem C46_authoritative (p : Profile) (conf : Params) (zones : ManagedZone) (req : Message) (q : Question)
    (hl : Loaded conf zones) (hq : Asks req q) (hs : ∀ c ∈ conf.subZones, ¬ Within q.node c.zone) (o : HashOrder)
    (he : setAt o zones.authZone q.node q.recordType ≠ []) :
    ∃ m, Replies p zones req m ∧ m.header.respCode = .NoError ∧ m.header.authAnswer = true ∧
      m.answers = setAt o zones.authZone q.node q.recordType ∧ m.authorities = [] ∧ m.additionals = [] := by
  have hrd := hl.ready
  obtain ⟨m, h1, h2⟩ := replies_kind hrd p hq
  have hf := find_none hrd hq.valid hs
  have hz : q.node.isInZone conf.zone = true := by
    obtain ⟨log, soa, g1, -, -, -, g5⟩ := hrd.auth
    rw [setAt_eq g1] at he
    obtain ⟨r, hr⟩ := List.exists_mem_of_ne_nil _ he
    rw [← (recordsAt_spec hr).1]
    exact owner_inZone (g5 r (List.mem_filter.1 hr).1).1
  refine ⟨m, h1, ?_⟩
  cases h2 with
  | refused h => rw [h] at hz; cases hz
  | referral _ h _ _ _ _ => rw [hf] at h; cases h
  | found _ _ h _ => exact ⟨rfl, rfl, (setAt_eq h _ _ _).symm, rfl, rfl⟩
  | cname _ _ h e _ => rw [setAt_eq h] at he; exact absurd e he
  | nx _ _ h e _ _ _ _ _ => rw [setAt_eq h] at he; exact absurd e he

theorem sample_outside {n : Name} (hn : ValidName n.s) (h : n.isInZone ⟨"s.e.".toList⟩ = false) :
    ∀ c ∈ sampleConf.subZones, ¬ Within n c.zone := by
  intro c hc hw
  simp only [sampleConf, List.mem_singleton] at hc
  subst hc
  rw [← isInZone_within hn (validName_of (by decide +kernel)) (by decide)] at hw
  rw [h] at hw
  cases hw

/-- The hypotheses hold for "ns.e." in the sample. -/
example : ∃ zones, Loaded sampleConf zones ∧ Asks (ask "ns.e." .A) ⟨⟨"ns.e.".toList⟩, .A, .IN⟩ ∧
    (∀ c ∈ sampleConf.subZones, ¬ Within ⟨"ns.e.".toList⟩ c.zone) ∧
    setAt forwards zones.authZone ⟨"ns.e.".toList⟩ .A ≠ [] := by
  obtain ⟨zones, h1, h2⟩ := ok_of (x := parseZoneFiles .debug sampleFiles forwards 20 sampleConf) (fun zones =>
    setAt forwards zones.authZone ⟨"ns.e.".toList⟩ .A ≠ []) (by decide +kernel)
  exact ⟨zones, ⟨sample_valid, _, _, _, _, h1⟩, asks_ask (by decide +kernel),
    sample_outside (validName_of (by decide +kernel)) (by decide +kernel), by simpa using h2⟩

/-! ## C47 -/

/-- The reply refers to the sub zone `z`. -/
def RefersTo (o : HashOrder) (zones : ManagedZone) (z : Zone) (m : Message) : Prop :=
  m.header.respCode = .NoError ∧ m.header.authAnswer = false ∧ m.answers = [] ∧
  m.authorities = setAt o z z.zone .NS ∧ m.authorities ≠ [] ∧ m.additionals = glueFor o zones.subZones m.authorities

/-- The full statement of C47. -/
def C47_statement : Prop :=
  ∀ (p : Profile) (conf : Params) (zones : ManagedZone) (req : Message) (q : Question) (o : HashOrder), Loaded conf zones →
    Asks req q → (∃ c ∈ conf.subZones, Within q.node c.zone) →
    ∃ m, Replies p zones req m ∧ ∃ z ∈ zones.subZones, Within q.node z.zone ∧ RefersTo o zones z m

/-- A zone with a sub zone that lies elsewhere. -/
def strayConf : Params :=
  { filePath := "auth".toList, zone := ⟨"e.".toList⟩, startingTtl := 60,
    subZones := [{ filePath := "sub".toList, zone := ⟨"f.".toList⟩, startingTtl := 60, minTtl := 1 }] }

def strayFiles : Files := files
  [("auth", ["@ 60 IN SOA ns.f. mail.f. 1 2 3 4 5", "@ NS ns.f."]), ("sub", ["@ NS ns.g."])]

/-- C47 does not hold: sub zones outside the zone are accepted, names in them refused. -/
theorem C47_violated : ¬ C47_statement := by
  intro h
  obtain ⟨zones, hz, hr⟩ := ok_of (x := parseZoneFiles .release strayFiles forwards 10 strayConf)
    (fun zones => replyIs .release zones (ask "a.f." .NS) (·.header.respCode == .Refused)) (by decide +kernel)
  obtain ⟨m, h1, h2⟩ := replyIs_spec hr
  have ha : Asks (ask "a.f." .NS) _ := asks_ask (by decide +kernel)
  have hv : ValidName "f.".toList := validName_of (by decide +kernel)
  obtain ⟨m', h3, z, -, -, h4, -⟩ := h .release strayConf zones _ _ forwards
    ⟨⟨validName_of (by decide +kernel), fun c hc => by
      have : c.zone.s = "f.".toList := by simp only [strayConf, List.mem_singleton] at hc; rw [hc]
      rw [this]; exact hv⟩, _, _, _, _, hz⟩ ha
    ⟨_, List.mem_singleton.2 rfl, (isInZone_within ha.valid hv (by decide)).1 (by decide +kernel)⟩
  rw [replies_unique h3 h1] at h4
  rw [h4] at h2
  cases h2

/-- C47, part: for names inside the zone, if neither the zone nor a sub zone is the root; of several sub zones that contain
the name, the reply refers to the one configured first. Missing: sub zones outside the zone (`C47_violated`), the root. -/
theorem C47_referral_partial (p : Profile) (conf : Params) (zones : ManagedZone) (req : Message) (q : Question)
    (o : HashOrder) (hl : Loaded conf zones) (hq : Asks req q) (hr : conf.zone.s ≠ ['.'])
    (hrs : ∀ c ∈ conf.subZones, c.zone.s ≠ ['.']) (hin : Within q.node conf.zone)
    (hs : ∃ c ∈ conf.subZones, Within q.node c.zone) :
    ∃ m, Replies p zones req m ∧ ∃ before z after, zones.subZones = before ++ z :: after ∧ Within q.node z.zone ∧
      (∀ z' ∈ before, ¬ Within q.node z'.zone) ∧ RefersTo o zones z m := by
  have hrd := hl.ready
  obtain ⟨m, h1, h2⟩ := replies_kind hrd p hq
  refine ⟨m, h1, ?_⟩
  have hz : q.node.isInZone conf.zone = true := (isInZone_within hq.valid hl.1.1 hr).2 hin
  have hsub : ∀ z ∈ zones.subZones, ValidName z.zone.s ∧ z.zone.s ≠ ['.'] := by
    intro z hz
    have : z.zone ∈ conf.subZones.map (·.zone) := by rw [← hrd.names]; exact List.mem_map.2 ⟨z, hz, rfl⟩
    obtain ⟨c, hc, e⟩ := List.mem_map.1 this
    rw [← e]
    exact ⟨hl.1.2 c hc, hrs c hc⟩
  have hsome : zones.subZones.find? (fun sub => q.node.isInZone sub.zone) ≠ none := by
    obtain ⟨c, hc, hw⟩ := hs
    have : c.zone ∈ zones.subZones.map (·.zone) := by rw [hrd.names]; exact List.mem_map.2 ⟨c, hc, rfl⟩
    obtain ⟨z, hz, e⟩ := List.mem_map.1 this
    intro hn
    have := List.find?_eq_none.1 hn z hz
    exact this ((isInZone_within hq.valid (hsub z hz).1 (hsub z hz).2).2 (by rw [e]; exact hw))
  cases h2 with
  | refused h => rw [h] at hz; cases hz
  | @referral sub log g _ h hlog hne hg _ =>
    obtain ⟨hp, before, after, heq, hb⟩ := List.find?_eq_some_iff_append.1 h
    have hm : sub ∈ zones.subZones := List.mem_of_find?_eq_some h
    have hlog' := setAt_eq hlog o sub.zone .NS
    have hg' : g = glueFor o zones.subZones (recordsAt log sub.zone .NS) := by
      rw [allGlue_eq (o := o) (fun z hz => ?_) fun r hr => ?_] at hg
      · exact (by simpa using hg.symm)
      · obtain ⟨l, hl', -⟩ := hrd.sub z hz
        exact ⟨⟨l, hl'⟩, hsub z hz⟩
      · obtain ⟨n, hd⟩ := ns_data (recordsAt_spec hr).2
        refine ⟨n, hd, ?_⟩
        obtain ⟨l, hl', -, -, hall⟩ := hrd.sub sub hm
        have : r ∈ recordsAt l sub.zone .NS := by rw [← setAt_eq hl' o, hlog']; exact hr
        have := (hall r (List.mem_filter.1 this).1).2
        rw [hd] at this
        exact this
    refine ⟨before, sub, after, heq, (isInZone_within hq.valid (hsub sub hm).1 (hsub sub hm).2).1 hp, fun z' hz' hw => ?_,
      rfl, rfl, rfl, hlog'.symm, hne, hg'⟩
    have hz'' : z' ∈ zones.subZones := by rw [heq]; simp [hz']
    have := hb z' hz'
    rw [(isInZone_within hq.valid (hsub z' hz'').1 (hsub z' hz'').2).2 hw] at this
    cases this
  | found _ h _ _ => exact absurd h hsome
  | cname _ h _ _ _ => exact absurd h hsome
  | nx _ h _ _ _ _ _ _ _ => exact absurd h hsome

/-- The sample has a delegation with glue; the reply is in `sample_loaded`. -/
example : sampleConf.zone.s ≠ ['.'] ∧ (∀ c ∈ sampleConf.subZones, c.zone.s ≠ ['.']) ∧
    Within ⟨"x.s.e.".toList⟩ sampleConf.zone ∧ ∃ c ∈ sampleConf.subZones, Within ⟨"x.s.e.".toList⟩ c.zone := by
  have v : ValidName "x.s.e.".toList := validName_of (by decide +kernel)
  refine ⟨by decide +kernel, by decide +kernel, (isInZone_within v sample_valid.1 (by decide)).1 (by decide +kernel),
    _, List.mem_singleton.2 rfl, (isInZone_within v (validName_of (by decide +kernel)) (by decide)).1 (by decide +kernel)⟩

/-! ## C48 -/

/-- The full statement of C48. -/
def C48_statement : Prop :=
  ∀ (p : Profile) (conf : Params) (zones : ManagedZone) (req : Message) (q : Question), Loaded conf zones →
    Asks req q → Within q.node conf.zone → (∀ c ∈ conf.subZones, ¬ Within q.node c.zone) →
    ∃ m, Replies p zones req m ∧
      (m.header.respCode = .NxDomain ↔ ¬ ∃ r, Stored zones r ∧ Within r.node q.node) ∧
      (m.header.respCode = .NxDomain → m.answers = [] ∧ ∀ o, m.authorities = setAt o zones.authZone conf.zone .SOA) ∧
      ((∃ r, Stored zones r ∧ r.node = q.node) → (∀ o, setAt o zones.authZone q.node q.recordType = []) →
        (∀ o, setAt o zones.authZone q.node .CNAME = []) → m.header.respCode = .NoError ∧ m.answers = [])

/-- C48 does not hold: the name "e." of the sample exists but has no TXT record, and the reply is NXDOMAIN. -/
theorem C48_violated : ¬ C48_statement := by
  intro h
  obtain ⟨zones, hz, hr⟩ := ok_of (x := parseZoneFiles .release sampleFiles forwards 20 sampleConf)
    (fun zones => replyIs .release zones (ask "e." .TXT) (·.header.respCode == .NxDomain) &&
      setAt forwards zones.authZone ⟨"e.".toList⟩ .NS != []) (by decide +kernel)
  rw [Bool.and_eq_true] at hr
  obtain ⟨m, h1, h2⟩ := replyIs_spec hr.1
  have ha : Asks (ask "e." .TXT) _ := asks_ask (by decide +kernel)
  obtain ⟨m', h3, h4, -⟩ := h .release sampleConf zones _ _ ⟨sample_valid, _, _, _, _, hz⟩ ha (within_refl ha.valid)
    (sample_outside ha.valid (by decide +kernel))
  rw [replies_unique h3 h1] at h4
  apply h4.1 (by simpa using h2)
  obtain ⟨r, hr⟩ := List.exists_mem_of_ne_nil _ (by simpa using hr.2)
  obtain ⟨hm, hn⟩ := List.mem_filter.1 hr
  have hk := kind_of_mem sample_valid hz hm
  refine ⟨r, ⟨_, List.mem_cons_self, forwards, by rw [hk]; exact hm⟩, ?_⟩
  have : r.node = ⟨"e.".toList⟩ := by simpa using hn
  rw [this]
  exact within_refl ha.valid

/-- C48, part: NXDOMAIN with the SOA and no answer exactly if the name has no records of the type and no CNAME records; else
NOERROR with these records, those of the type if there are any. So a name that does not exist gets NXDOMAIN. Missing:
existing names without records of the type get NXDOMAIN as well (`C48_violated`); the root zone. -/
theorem C48_nxdomain_partial (p : Profile) (conf : Params) (zones : ManagedZone) (req : Message) (q : Question)
    (o : HashOrder) (hl : Loaded conf zones) (hq : Asks req q) (hr : conf.zone.s ≠ ['.']) (hin : Within q.node conf.zone)
    (hs : ∀ c ∈ conf.subZones, ¬ Within q.node c.zone) :
    ∃ m, Replies p zones req m ∧
      (m.header.respCode = .NxDomain ↔
        setAt o zones.authZone q.node q.recordType = [] ∧ setAt o zones.authZone q.node .CNAME = []) ∧
      (m.header.respCode = .NxDomain → m.header.authAnswer = true ∧ m.answers = [] ∧ m.additionals = [] ∧
        m.authorities = zones.authZone.getAllOfType o .SOA) ∧
      (m.header.respCode ≠ .NxDomain → m.header.respCode = .NoError ∧ m.header.authAnswer = true ∧ m.authorities = [] ∧
        m.additionals = [] ∧ m.answers ≠ [] ∧
        (m.answers = setAt o zones.authZone q.node q.recordType ∨
          (setAt o zones.authZone q.node q.recordType = [] ∧ m.answers = setAt o zones.authZone q.node .CNAME))) ∧
      ((¬ ∃ r, Stored zones r ∧ r.node = q.node) → m.header.respCode = .NxDomain) := by
  have hrd := hl.ready
  obtain ⟨m, h1, h2⟩ := replies_kind hrd p hq
  have hf := find_none hrd hq.valid hs
  have hz : q.node.isInZone conf.zone = true := (isInZone_within hq.valid hl.1.1 hr).2 hin
  have hst : ∀ {log : List Record} {k : RecordType}, Holds zones.authZone log → recordsAt log q.node k ≠ [] →
      ∃ r, Stored zones r ∧ r.node = q.node := by
    intro log k hlog hne
    obtain ⟨r, hr⟩ := List.exists_mem_of_ne_nil _ hne
    refine ⟨r, ⟨zones.authZone, by simp, o, ?_⟩, (recordsAt_spec hr).1⟩
    rw [mem_all hlog]
    exact ⟨(List.mem_filter.1 hr).1, rfl⟩
  have hne : (RespCode.NoError : RespCode) ≠ .NxDomain := by decide
  refine ⟨m, h1, ?_⟩
  cases h2 with
  | refused h => rw [h] at hz; cases hz
  | referral _ h _ _ _ _ => rw [hf] at h; cases h
  | found _ _ h e =>
    refine ⟨⟨fun x => absurd x hne, fun x => ?_⟩, fun x => absurd x hne, fun _ => ⟨rfl, rfl, rfl, rfl, e, .inl ?_⟩,
      fun x => absurd (hst h e) x⟩
    · rw [setAt_eq h] at x; exact absurd x.1 e
    · exact (setAt_eq h _ _ _).symm
  | cname _ _ h e e' =>
    refine ⟨⟨fun x => absurd x hne, fun x => ?_⟩, fun x => absurd x hne, fun _ => ⟨rfl, rfl, rfl, rfl, e', .inr ⟨?_, ?_⟩⟩,
      fun x => absurd (hst h e') x⟩
    · have x2 := x.2; rw [setAt_eq h] at x2; exact absurd x2 e'
    · rw [setAt_eq h]; exact e
    · exact (setAt_eq h _ _ _).symm
  | @nx log soa _ _ _ h e e' hsoa _ hm hc =>
    unfold nxReply at hm
    split at hm
    · cases hm
    · cases hm
      refine ⟨⟨fun _ => ⟨by rw [setAt_eq h]; exact e, by rw [setAt_eq h]; exact e'⟩, fun _ => rfl⟩,
        fun _ => ⟨rfl, rfl, rfl, (hsoa o).symm⟩, fun x => absurd rfl x, fun _ => rfl⟩

/-- The sample meets the hypotheses for "q.e.", see `sample_loaded`. -/
example : Within ⟨"q.e.".toList⟩ sampleConf.zone ∧ ∀ c ∈ sampleConf.subZones, ¬ Within ⟨"q.e.".toList⟩ c.zone := by
  have v : ValidName "q.e.".toList := validName_of (by decide +kernel)
  exact ⟨(isInZone_within v sample_valid.1 (by decide)).1 (by decide +kernel), sample_outside v (by decide +kernel)⟩

/-! ## C49 -/

/-- What C49 says about every reply. -/
def Echoes (h : Header) (m : Message) : Prop :=
  m.header.id = h.id ∧ m.header.queryResp = true ∧ m.header.recursionAvailable = false ∧ m.header.z = 0 ∧
  m.header.opCode = h.opCode ∧ m.header.recursionDesired = h.recursionDesired

/-- The full statement of C49. -/
def C49_statement : Prop :=
  ∀ (p : Profile) (conf : Params) (zones : ManagedZone) (bytes : List UInt8) (req m : Message), Loaded conf zones →
    Message.decodeFromBytes p bytes = .ok req → Replies p zones req m →
    Echoes req.header m ∧ CountsMatch m ∧ m.questions = req.questions.take 1

/-- A request with the two questions "a. A IN" and "b. A IN". -/
def twoQuestions : List UInt8 := [0, 7, 1, 0, 0, 2, 0, 0, 0, 0, 0, 0, 1, 97, 0, 0, 1, 0, 1, 1, 98, 0, 0, 1, 0, 1]

/-- C49 does not hold: a request with two questions gets both back (in a FORMERR reply). -/
theorem C49_violated : ¬ C49_statement := by
  intro h
  obtain ⟨zones, hz, -⟩ := ok_of (x := parseZoneFiles .release sampleFiles forwards 20 sampleConf) (fun _ => true)
    (by decide +kernel)
  obtain ⟨req, h1, h2⟩ := ok_of (x := Message.decodeFromBytes .release twoQuestions)
    (fun req => req.questions.length = 2) (by decide +kernel)
  have h2 : req.questions.length = 2 := by simpa using h2
  have hv : validate req = none := by
    unfold validate
    split
    · rfl
    · split
      · rfl
      · split
        · rfl
        · split
          · rename_i q hq; rw [hq] at h2; cases h2
          · rfl
  obtain ⟨-, -, h3⟩ := h .release sampleConf zones _ _ (errReply req .FormErr) ⟨sample_valid, _, _, _, _, hz⟩ h1
    (by unfold Replies handle; simp only [hv])
  have h3 : req.questions = req.questions.take 1 := h3
  rw [h3, List.length_take] at h2
  omega

/-- What the handler answers to any message. -/
theorem handle_kind {conf : Params} {zones : ManagedZone} (h : Ready conf zones) (p : Profile) (req : Message) :
    ∃ m, Replies p zones req m ∧ ((validate req = none ∧ m = errReply req .FormErr) ∨
      ∃ q, validate req = some q ∧ Kind conf zones p req q m) := by
  unfold Replies handle
  simp only
  cases hv : validate req with
  | none => exact ⟨_, rfl, .inl ⟨rfl, rfl⟩⟩
  | some q =>
    obtain ⟨m, h1, h2⟩ := query_kind h p req q
    simp only [h1, Out.bind_ok]
    exact ⟨m, rfl, .inr ⟨q, rfl, h2⟩⟩

theorem validate_some {req : Message} {q : Question} (h : validate req = some q) : req.questions = [q] := by
  unfold validate at h
  split at h
  · cases h
  · split at h
    · cases h
    · split at h
      · cases h
      · split at h
        · rename_i q' hq; cases h; exact hq
        · cases h

/-- C49, part: for every message the handler gets, the fields and all the questions are echoed, the record counts are the
section sizes (modulo 65536, the width of the field); the question count is right if it was in the request. Missing:
several questions (`C49_violated`), 65536 or more records, questions of unknown types (`C50_violated`). -/
theorem C49_echo_partial (p : Profile) (conf : Params) (zones : ManagedZone) (req m : Message) (hl : Loaded conf zones)
    (h : Replies p zones req m) :
    Echoes req.header m ∧ m.questions = req.questions ∧
      m.header.answersCount = UInt16.ofNat m.answers.length ∧ m.header.authoritiesCount = UInt16.ofNat m.authorities.length ∧
      m.header.additionalsCount = UInt16.ofNat m.additionals.length ∧
      (m.header.questionsCount = 1 ∧ m.questions.length = 1 ∨ m.header.questionsCount = req.header.questionsCount) ∧
      (req.header.questionsCount.toNat = req.questions.length → m.answers.length < 65536 → m.authorities.length < 65536 →
        m.additionals.length < 65536 → CountsMatch m) ∧
      (∀ q, Asks req q → m.questions = req.questions.take 1) := by
  obtain ⟨m', h1, h2⟩ := handle_kind hl.ready p req
  rw [replies_unique h h1]
  have key : Echoes req.header m' ∧ m'.questions = req.questions ∧
      m'.header.answersCount = UInt16.ofNat m'.answers.length ∧ m'.header.authoritiesCount = UInt16.ofNat m'.authorities.length ∧
      m'.header.additionalsCount = UInt16.ofNat m'.additionals.length ∧
      (m'.header.questionsCount = 1 ∧ m'.questions.length = 1 ∨ m'.header.questionsCount = req.header.questionsCount) := by
    rcases h2 with ⟨-, rfl⟩ | ⟨q, hv, h2⟩
    · exact ⟨⟨rfl, rfl, rfl, rfl, rfl, rfl⟩, rfl, rfl, rfl, rfl, .inr rfl⟩
    · have hq : req.questions.length = 1 := by rw [validate_some hv]; rfl
      cases h2 with
      | refused _ => exact ⟨⟨rfl, rfl, rfl, rfl, rfl, rfl⟩, rfl, rfl, rfl, rfl, .inr rfl⟩
      | referral _ _ _ _ _ _ => exact ⟨⟨rfl, rfl, rfl, rfl, rfl, rfl⟩, rfl, rfl, rfl, rfl, .inl ⟨rfl, hq⟩⟩
      | found _ _ _ _ => exact ⟨⟨rfl, rfl, rfl, rfl, rfl, rfl⟩, rfl, rfl, rfl, rfl, .inl ⟨rfl, hq⟩⟩
      | cname _ _ _ _ _ => exact ⟨⟨rfl, rfl, rfl, rfl, rfl, rfl⟩, rfl, rfl, rfl, rfl, .inl ⟨rfl, hq⟩⟩
      | nx _ _ _ _ _ _ _ hm _ =>
        unfold nxReply at hm
        split at hm
        · cases hm
        · cases hm
          exact ⟨⟨rfl, rfl, rfl, rfl, rfl, rfl⟩, rfl, rfl, rfl, rfl, .inr rfl⟩
  refine ⟨key.1, key.2.1, key.2.2.1, key.2.2.2.1, key.2.2.2.2.1, key.2.2.2.2.2, fun hc a b c => ⟨?_, ?_, ?_, ?_⟩, fun q ha => ?_⟩
  · rcases key.2.2.2.2.2 with ⟨e, e'⟩ | e
    · rw [e, e']; rfl
    · rw [e, key.2.1]; exact hc
  · rw [key.2.2.1, u16_of_len a]
  · rw [key.2.2.2.1, u16_of_len b]
  · rw [key.2.2.2.2.1, u16_of_len c]
  · rw [key.2.1, ha.one]; rfl

/-- The replies of `sample_loaded` are instances. -/
example : ∃ zones m, Loaded sampleConf zones ∧ Replies .debug zones (ask "ns.e." .A) m ∧ m.answers.length = 1 ∧
    CountsMatch m ∧ m.header.id = 7 := by
  obtain ⟨zones, h1, -, h2, -⟩ := sample_loaded
  obtain ⟨m, h3, h4⟩ := replyIs_spec h2
  have h5 : m.answers.length = 1 := by
    rw [Bool.and_eq_true, Bool.and_eq_true] at h4
    have := congrArg List.length (eq_of_beq h4.1.1)
    simpa using this
  have h6 := C49_echo_partial _ _ _ _ _ h1 h3
  obtain ⟨m', h7, -, -, -, h8, h9⟩ := C46_authoritative .debug sampleConf zones (ask "ns.e." .A) _ h1
    (asks_ask (by decide +kernel)) (sample_outside (validName_of (by decide +kernel)) (by decide +kernel)) forwards (by
      intro e
      obtain ⟨m'', a, b⟩ := C48_nxdomain_partial .debug sampleConf zones (ask "ns.e." .A) _ forwards h1
        (asks_ask (by decide +kernel)) (by decide)
        ((isInZone_within (validName_of (by decide +kernel)) sample_valid.1 (by decide)).1 (by decide +kernel))
        (sample_outside (validName_of (by decide +kernel)) (by decide +kernel))
      rw [replies_unique a h3] at b
      rw [Bool.and_eq_true, Bool.and_eq_true] at h4
      have hc : m.header.respCode = .NoError := by simpa using h4.2
      have hd := eq_of_beq h4.1.1
      obtain ⟨-, -, -, -, b5, b6⟩ := b.2.2.1 (by rw [hc]; decide)
      rcases b6 with b6 | ⟨-, b6⟩
      · exact b5 (b6.trans e)
      · have : ∀ r ∈ m.answers, r.recordType = .CNAME := by
          intro r hr
          rw [b6] at hr
          obtain ⟨log, soa, g, -⟩ := h1.ready.auth
          rw [setAt_eq g] at hr
          exact (recordsAt_spec hr).2
        cases hm : m.answers with
        | nil => exact b5 hm
        | cons r rs =>
          rw [hm, List.map_cons] at hd
          have hd := congrArg Prod.snd (List.cons.inj hd).1
          have := this r (by rw [hm]; simp)
          unfold Record.recordType at this
          simp only at hd
          rw [hd] at this
          cases this)
  rw [replies_unique h7 h3] at h8 h9
  exact ⟨zones, m, h1, h3, h5, h6.2.2.2.2.2.2.1 rfl (by omega) (by rw [h8]; simp) (by rw [h9]; simp), h6.1.1⟩

/-! ## C50 -/

/-- The full statement of C50, for UDP. -/
def C50_statement : Prop :=
  ∀ (p : Profile) (conf : Params) (zones : ManagedZone) (datagram : List UInt8) (req : Message), Loaded conf zones →
    Net.udpRead p datagram = .ok (.fullMessage req) → req.header.queryResp = false →
    ∃ out, ∀ n, out.length ≤ n → serveUdp p zones datagram [some n] = .ok ([out], true)

/-- An AAAA query for "a.". -/
def aaaaQuery : List UInt8 := [0, 7, 1, 0, 0, 1, 0, 0, 0, 0, 0, 0, 1, 97, 0, 0, 28, 0, 1]

/-- C50 does not hold, even without the long strings of `C44_violated`: an AAAA query (the question is skipped, the count
stays) makes the server index past the end of the questions. -/
theorem C50_violated : ¬ C50_statement ∧ ∀ (p : Profile) (zones : ManagedZone) (sends : List (Option Nat)),
    serveUdp p zones aaaaQuery sends = .panic .index := by
  have key : ∀ (p : Profile) (zones : ManagedZone) (sends : List (Option Nat)),
      serveUdp p zones aaaaQuery sends = .panic .index := by
    intro p zones sends
    have h1 : Net.udpRead p aaaaQuery = .ok (.fullMessage
        ⟨Header.mk 7 false .STD false false true false 0 .NoError 1 0 0 0, [], [], [], []⟩) := by
      cases p <;> decide +kernel
    unfold serveUdp
    rw [h1, Out.bind_ok]
    have h2 : handle p zones (.fullMessage ⟨Header.mk 7 false .STD false false true false 0 .NoError 1 0 0 0, [], [], [], []⟩) =
        .ok (some ⟨Header.mk 7 true .STD true false true false 0 .FormErr 1 0 0 0, [], [], [], []⟩) := rfl
    rw [h2, Out.bind_ok]
    have h3 : Message.encodeToBytesTrunc ⟨Header.mk 7 true .STD true false true false 0 .FormErr 1 0 0 0, [], [], [], []⟩ =
        .panic .index := by decide +kernel
    simp only [Net.udpReply, h3]
  refine ⟨fun h => ?_, key⟩
  obtain ⟨zones, hz, -⟩ := ok_of (x := parseZoneFiles .release sampleFiles forwards 20 sampleConf) (fun _ => true)
    (by decide +kernel)
  obtain ⟨out, ho⟩ := h .release sampleConf zones aaaaQuery
    ⟨Header.mk 7 false .STD false false true false 0 .NoError 1 0 0 0, [], [], [], []⟩ ⟨sample_valid, _, _, _, _, hz⟩
    (by decide +kernel) rfl
  have := ho _ (le_refl _)
  rw [key] at this
  cases this

theorem kind_stored {conf : Params} {zones : ManagedZone} (hr : Ready conf zones) {p : Profile} {req : Message} {q : Question}
    {m : Message} (h : Kind conf zones p req q m) :
    ∀ r ∈ m.answers ++ m.authorities ++ m.additionals, Stored zones r := by
  have at' : ∀ {z : Zone} {log : List Record}, z ∈ zones.authZone :: zones.subZones → Holds z log → ∀ r ∈ log, Stored zones r :=
    fun hz hl r hr => ⟨_, hz, forwards, (mem_all hl _ _ _).2 ⟨hr, rfl⟩⟩
  have sub : ∀ {z : Zone} {log : List Record} {n : Name} {k : RecordType}, z ∈ zones.authZone :: zones.subZones →
      Holds z log → ∀ r ∈ recordsAt log n k, Stored zones r := fun hz hl r hr => at' hz hl r (List.mem_filter.1 hr).1
  intro r hm
  cases h with
  | refused _ => simp [errReply] at hm
  | referral _ hf hl _ _ hg =>
    simp only [referralReply, List.nil_append, List.mem_append] at hm
    rcases hm with hm | hm
    · exact sub (List.mem_cons_of_mem _ (List.mem_of_find?_eq_some hf)) hl r hm
    · obtain ⟨z, hz, log, hl, hr⟩ := hg r hm
      exact at' (List.mem_cons_of_mem _ hz) hl r hr
  | found _ _ hl _ =>
    simp only [answerReply, List.append_nil] at hm
    exact sub (by simp) hl r hm
  | cname _ _ hl _ _ =>
    simp only [answerReply, List.append_nil] at hm
    exact sub (by simp) hl r hm
  | nx _ _ hl _ _ _ hs hn _ =>
    unfold nxReply at hn
    split at hn
    · cases hn
    · cases hn
      simp only [List.nil_append, List.append_nil, List.mem_singleton] at hm
      rw [hm]
      exact at' (by simp) hl _ hs

theorem loaded_stored {conf : Params} {zones : ManagedZone} (hl : Loaded conf zones) {r : Record} (hr : Stored zones r) :
    r.cls = .IN ∧ DataOk r.data ∧ ValidName r.node.s := by
  obtain ⟨hv, p, fs, o, fuel, h⟩ := hl
  exact stored_in hv h hr

theorem ofNat_le (n : Nat) : (UInt16.ofNat n).toNat ≤ n := by
  simp only [UInt16.toNat_ofNat']
  exact Nat.mod_le _ _

/-- The reply to a request whose questions were all understood can be encoded. -/
theorem reply_encodes {p : Profile} {conf : Params} {zones : ManagedZone} {bytes : List UInt8} {req : Message}
    (hl : Loaded conf zones) (hst : ∀ r, Stored zones r → StringsAtMost 255 r)
    (hd : Message.decodeFromBytes p bytes = .ok req) (hq : req.questions.length = req.header.questionsCount.toNat) :
    ∃ m, Replies p zones req m ∧ (∃ x, m.encodeToBytes = .ok x) ∧ ∃ x, m.encodeToBytesTrunc = .ok x := by
  obtain ⟨m, h1, h2⟩ := handle_kind hl.ready p req
  obtain ⟨e, e1, e2, e3, e4, e5, -⟩ := C49_echo_partial p conf zones req m hl h1
  obtain ⟨hdec, -⟩ := decoded_message hd
  refine ⟨m, h1, Message.encodes (by rw [e.2.2.2.2.1]; exact hdec.opCode) ?_ ?_ ?_ ?_ (fun q hm => ?_) fun r hm => ?_⟩
  · rcases e5 with ⟨a, b⟩ | a
    · rw [a, b]; exact le_refl _
    · rw [a, e1]; exact hq.ge
  · rw [e2]; exact ofNat_le _
  · rw [e3]; exact ofNat_le _
  · rw [e4]; exact ofNat_le _
  · rw [e1] at hm
    exact writes_query ⟨(hdec.qs q hm).2, (hdec.qs q hm).1⟩
  · have hs : Stored zones r := by
      rcases h2 with ⟨-, rfl⟩ | ⟨q, -, h2⟩
      · simp [errReply] at hm
      · exact kind_stored hl.ready h2 r hm
    exact writes_short (loaded_stored hl hs).1 (hst r hs)

/-- C50, part: every message whose questions are all of types the library knows, requests and others, gets exactly one
reply, over UDP and over TCP, if the loaded strings are not too long. Missing: questions of unknown types (`C50_violated`),
records with longer strings (`C44_violated`). -/
theorem C50_replies_partial (p : Profile) (conf : Params) (zones : ManagedZone) (req : Message) (hl : Loaded conf zones)
    (hst : ∀ r, Stored zones r → StringsAtMost 255 r) (hq : req.questions.length = req.header.questionsCount.toNat) :
    (∀ datagram, Net.udpRead p datagram = .ok (.fullMessage req) →
      ∃ out, ∀ n, out.length ≤ n → serveUdp p zones datagram [some n] = .ok ([out], true)) ∧
    (∀ stream rest, Net.tcpRead p stream = .ok (.fullMessage req, rest) →
      ∃ out, ∀ room, out.length ≤ room → serveTcp p zones stream room = .ok (out, true)) := by
  constructor
  · intro datagram h
    have hd : Message.decodeFromBytes p (datagram.take 512) = .ok req := by
      have := (C30_classification.1 p datagram _).1 h
      cases this with
      | full h => exact h
    obtain ⟨m, h1, -, x, h2⟩ := reply_encodes hl hst hd hq
    refine ⟨x, fun n hn => ?_⟩
    unfold serveUdp
    unfold Replies at h1
    rw [h, Out.bind_ok, h1, Out.bind_ok]
    simp only [Net.udpReply, h2]
    have hlen := (C25_udp_size m x h2).1
    unfold Net.sendLoop
    rw [if_pos (by omega)]
    simp only [Nat.zero_add, List.nil_append, List.drop_zero]
    unfold Net.sendLoop
    rw [if_neg (by omega)]
  · intro stream rest h
    have hd : ∃ body, Message.decodeFromBytes p body = .ok req := by
      rcases C29_tcp_framing_partial.2.2.1 p stream _ rest h with e | ⟨body, -, -, hc⟩
      · cases e
      · cases hc with
        | full h => exact ⟨body, h⟩
    obtain ⟨body, hd⟩ := hd
    obtain ⟨m, h1, ⟨x, h2⟩, -⟩ := reply_encodes hl hst hd hq
    refine ⟨[((UInt16.ofNat x.length) >>> 8).toUInt8, (UInt16.ofNat x.length).toUInt8] ++ x, fun room hroom => ?_⟩
    unfold serveTcp
    unfold Replies at h1
    rw [h, Out.bind_ok]
    simp only
    rw [h1, Out.bind_ok]
    have w : ∀ (n : Nat) (l : List UInt8), l.length ≤ n → Net.writeAll n l = (l, true) := by
      intro n l hn
      unfold Net.writeAll
      rw [List.take_of_length_le hn, decide_eq_true hn]
    simp only [List.length_append, List.length_cons, List.length_nil] at hroom
    simp only [Net.tcpReply, h2]
    rw [w room _ (by simp; omega), w _ x (by omega)]
    simp

/-- The sample has short strings (as in `C44_servable_partial`), and the query in `sampleQuery` one known question. -/
example : ∃ req, Net.udpRead .debug sampleQuery = .ok (.fullMessage req) ∧
    req.questions.length = req.header.questionsCount.toNat ∧ req.questions.length = 1 := by
  obtain ⟨r, h1, h2⟩ := ok_of (x := Net.udpRead .debug sampleQuery) (fun r => match r with
    | .fullMessage req => req.questions.length = req.header.questionsCount.toNat ∧ req.questions.length = 1
    | _ => false) (by decide +kernel)
  cases r with
  | fullMessage req => exact ⟨req, h1, by simpa using h2⟩
  | _ => cases h2

/-! ## C51 -/

/-- The full statement of C51. -/
def C51_statement : Prop :=
  ∀ (p : Profile) (conf : Params) (zones : ManagedZone) (datagram : List UInt8) (h : Header) (e : MessageErr),
    Loaded conf zones → Net.udpRead p datagram = .ok (.headerOnly h e) →
    ∃ out m, serveUdp p zones datagram [some out.length] = .ok ([out], true) ∧ Message.decodeFromBytes p out = .ok m ∧
      m.header.id = h.id ∧ (m.header.respCode = .FormErr ∨ m.header.respCode = .NotImp)

/-- A query whose question has 64 as a label length. -/
def badQuery : List UInt8 := [0, 7, 1, 0, 0, 1, 0, 0, 0, 0, 0, 0, 64, 97, 0, 0, 1, 0, 1]

/-- C51 does not hold; indeed no such request, over UDP or TCP, is ever answered: each makes the server panic. -/
theorem C51_violated : ¬ C51_statement ∧
    (∀ (p : Profile) (zones : ManagedZone) (datagram : List UInt8) (h : Header) (e : MessageErr) (sends : List (Option Nat)),
      Net.udpRead p datagram = .ok (.headerOnly h e) → ∃ k, serveUdp p zones datagram sends = .panic k) ∧
    (∀ (p : Profile) (zones : ManagedZone) (stream rest : List UInt8) (h : Header) (e : MessageErr) (room : Nat),
      Net.tcpRead p stream = .ok (.headerOnly h e, rest) → ∃ k, serveTcp p zones stream room = .panic k) := by
  have udp : ∀ (p : Profile) (zones : ManagedZone) (datagram : List UInt8) (h : Header) (e : MessageErr)
      (sends : List (Option Nat)), Net.udpRead p datagram = .ok (.headerOnly h e) →
      ∃ k, serveUdp p zones datagram sends = .panic k := by
    intro p zones datagram h e sends hr
    have hd : h.opCode ≠ .STD ∨ h.questionsCount ≠ 0 ∨ h.answersCount ≠ 0 ∨ h.authoritiesCount ≠ 0 ∨
        h.additionalsCount ≠ 0 := by
      have := (C30_classification.1 p datagram _).1 hr
      cases this with
      | header h1 h2 => exact Message.decode_err_header h1 h2
    obtain ⟨-, k, hk⟩ := Message.empty_panics (m := decodeErrReply h e) rfl rfl rfl rfl hd
    refine ⟨k, ?_⟩
    unfold serveUdp
    rw [hr, Out.bind_ok, show handle p zones (.headerOnly h e) = .ok (some (decodeErrReply h e)) from rfl, Out.bind_ok]
    simp only [Net.udpReply, hk]
  refine ⟨fun hs => ?_, udp, ?_⟩
  · obtain ⟨zones, hz, -⟩ := ok_of (x := parseZoneFiles .release sampleFiles forwards 20 sampleConf) (fun _ => true)
      (by decide +kernel)
    obtain ⟨r, h1, h2⟩ := ok_of (x := Net.udpRead .release badQuery) (fun r => match r with
      | .headerOnly _ _ => true
      | _ => false) (by decide +kernel)
    cases r with
    | headerOnly h e =>
      obtain ⟨out, m, h3, -⟩ := hs .release sampleConf zones badQuery h e ⟨sample_valid, _, _, _, _, hz⟩ h1
      obtain ⟨k, hk⟩ := udp .release zones badQuery h e [some out.length] h1
      rw [h3] at hk
      cases hk
    | _ => cases h2
  · intro p zones stream rest h e room hr
    have hd : h.opCode ≠ .STD ∨ h.questionsCount ≠ 0 ∨ h.answersCount ≠ 0 ∨ h.authoritiesCount ≠ 0 ∨
        h.additionalsCount ≠ 0 := by
      rcases C29_tcp_framing_partial.2.2.1 p stream _ rest hr with e' | ⟨body, -, -, hc⟩
      · cases e'
      · cases hc with
        | header h1 h2 => exact Message.decode_err_header h1 h2
    obtain ⟨⟨k, hk⟩, -⟩ := Message.empty_panics (m := decodeErrReply h e) rfl rfl rfl rfl hd
    refine ⟨k, ?_⟩
    unfold serveTcp
    rw [hr, Out.bind_ok]
    simp only
    rw [show handle p zones (.headerOnly h e) = .ok (some (decodeErrReply h e)) from rfl, Out.bind_ok]
    simp only [Net.tcpReply, hk]

theorem failed_for (e : MessageErr) : (∃ cause, FailedFor cause e ∧ Unimplemented cause) ↔ Unimplemented e.innerErr := by
  constructor
  · rintro ⟨cause, h, hu⟩
    cases h <;> exact hu
  · intro h
    refine ⟨e.innerErr, ?_, h⟩
    cases e <;> constructor

/-- C51, part: the reply the handler hands to the encoder has the id of the request and code NOTIMP if the error is an
unsupported op code, class or type, FORMERR for every other error. Missing: sending it (`C51_violated`). -/
theorem C51_error_partial (p : Profile) (zones : ManagedZone) (h : Header) (e : MessageErr) :
    ∃ m, handle p zones (.headerOnly h e) = .ok (some m) ∧ Echoes h m ∧ NoRecords m ∧
      (m.header.respCode = .NotImp ∨ m.header.respCode = .FormErr) ∧
      (m.header.respCode = .NotImp ↔ ∃ cause, FailedFor cause e ∧ Unimplemented cause) := by
  refine ⟨_, rfl, ⟨rfl, rfl, rfl, rfl, rfl, rfl⟩, ⟨rfl, rfl, rfl⟩, ?_, ?_⟩
  · simp only [decodeErrReply, respHeader]
    split <;> simp
  · rw [failed_for e]
    simp only [decodeErrReply, respHeader]
    generalize e.innerErr = x
    constructor
    · intro h
      split at h
      · exact .opCode _
      · exact .cls _
      · exact .type _
      · cases h
    · intro h
      cases h <;> rfl

example : ∃ h e, Net.udpRead .release badQuery = .ok (.headerOnly h e) := by
  obtain ⟨r, h1, h2⟩ := ok_of (x := Net.udpRead .release badQuery) (fun r => match r with
    | .headerOnly _ _ => true
    | _ => false) (by decide +kernel)
  cases r with
  | headerOnly h e => exact ⟨h, e, h1⟩
  | _ => cases h2

end Ariadne.Props
