import Verif.Spec.Nameserver
import Verif.Lemmas.Valid
import Verif.Props.Loader

/-! # The name server's replies -/

namespace Ariadne

open Spec ZoneParser Props

/-- The zone set was loaded from files with this configuration. -/
def Loaded (conf : Params) (zones : ManagedZone) : Prop :=
  ValidConf conf ∧ ∃ p fs o fuel, parseZoneFiles p fs o fuel conf = .ok zones

/-- What the handler needs to know about a loaded set. -/
structure Ready (conf : Params) (zones : ManagedZone) : Prop where
  zone : zones.authZone.zone = conf.zone
  auth : ∃ log soa, Holds zones.authZone log ∧ recordsAt log conf.zone .SOA = [soa] ∧ soa.recordType = .SOA ∧
    (∀ o, zones.authZone.getAllOfType o .SOA = [soa]) ∧
    ∀ r ∈ log, OwnerOk conf r.node ∧ r.cls = .IN ∧ DataOk r.data
  names : zones.subZones.map (·.zone) = conf.subZones.map (·.zone)
  sub : ∀ z ∈ zones.subZones, ∃ log, Holds z log ∧ recordsAt log z.zone .NS ≠ [] ∧ ValidName z.zone.s ∧
    ∀ r ∈ log, r.cls = .IN ∧ DataOk r.data

theorem Loaded.ready {conf : Params} {zones : ManagedZone} (h : Loaded conf zones) : Ready conf zones := by
  obtain ⟨hv, p, fs, o, fuel, h⟩ := h
  have hs := parseZoneFiles_sat (np := False) (p := p) (fs := fs) (o := o) (fun x => x.elim) fuel conf (ownerOk hv).1
    (ownerOk hv).2
  rw [h] at hs
  obtain ⟨⟨log, soa, minimum, ha⟩, hsub, hcon⟩ := hs
  obtain ⟨a, b, s, rf, rt, e, hd⟩ := ha.data
  have hk : soa.recordType = .SOA := soaType hd
  refine ⟨ha.zone, ⟨_, soa, ha.holds, ?_, hk, fun o' => ?_, fun r hr => ?_⟩, hsub.names, fun z hz => ?_⟩
  · rw [recordsAt_append]
    have : recordsAt log conf.zone .SOA = [] := by
      rw [recordsAt, List.filter_eq_nil_iff]
      intro r hr
      have := (ha.good r hr).notSoa
      simp [this]
    rw [this, recordsAt, List.nil_append, List.filter_cons, ha.node, hk]
    simp
  · have hp := ha.holds.all_perm o' .SOA
    rw [List.filter_append, List.filter_eq_nil_iff.2 (fun r hr => by simpa using (ha.good r hr).notSoa)] at hp
    simp only [List.nil_append, List.filter_cons, hk, beq_self_eq_true, if_true, List.filter_nil] at hp
    exact List.perm_singleton.1 hp
  · rcases List.mem_append.1 hr with hr | hr
    · exact ⟨(ha.good r hr).owner, (ha.good r hr).cls, (ha.good r hr).data⟩
    · rw [List.mem_singleton.1 hr]
      exact ⟨by rw [ha.node]; exact (ownerOk hv).2, ha.cls, ha.valid⟩
  · obtain ⟨c, hc, slog, hl⟩ := hsub.mem z hz
    refine ⟨slog, hl.holds, ?_, by rw [hl.zone]; exact hv.2 c hc, fun r hr =>
      ⟨(hl.good r hr).cls, (hl.good r hr).data (hv.2 c hc)⟩⟩
    rw [← hl.holds.all_at o]
    obtain ⟨r, hr⟩ := List.exists_mem_of_ne_nil _ (hcon.subNs z hz)
    exact List.ne_nil_of_mem (List.mem_filter.2 ⟨hr, by simpa using hcon.subApex z hz r hr⟩)

theorem setAt_eq {z : Zone} {log : List Record} (h : Holds z log) (o : HashOrder) (n : Name) (k : RecordType) :
    setAt o z n k = recordsAt log n k := h.all_at o k n

namespace Nameserver

theorem validate_asks {req : Message} {q : Question} (h : Asks req q) : validate req = some q := by
  unfold validate
  rw [if_neg (by simp [Header.isRequest, h.query]), if_neg (by simp [h.noAnswers]), if_neg (by simp [h.noAuthorities]), h.one]

theorem get_none {z : Zone} {log : List Record} (h : Holds z log) {ε : Type} {p : Profile} {n : Name} {k : RecordType}
    (e : recordsAt log n k = []) : (z.get p n k : Out ε _) = .ok none := by rw [h.get, if_pos e]

theorem get_some {z : Zone} {log : List Record} (h : Holds z log) {ε : Type} {p : Profile} {n : Name} {k : RecordType}
    (e : recordsAt log n k ≠ []) : (z.get p n k : Out ε _) = .ok (some (recordsAt log n k)) := by rw [h.get, if_neg e]

theorem get_getD {z : Zone} {log : List Record} (h : Holds z log) {p : Profile} {n : Name} {k : RecordType} :
    ∃ r, (z.get p n k : Out Empty _) = .ok r ∧ r.getD [] = recordsAt log n k := by
  by_cases e : recordsAt log n k = []
  · exact ⟨none, get_none h e, e.symm⟩
  · exact ⟨_, get_some h e, rfl⟩

theorem authZone_found {p : Profile} {req : Message} {q : Question} {z : Zone} {log : List Record} (h : Holds z log)
    (e : recordsAt log q.node q.recordType ≠ []) :
    authZone p req q z = .ok (answerReply req (recordsAt log q.node q.recordType)) := by
  unfold authZone
  rw [get_some h e, Out.bind_ok]
  simp only [Option.getD_some, List.isEmpty_iff]
  rw [if_neg e]

theorem authZone_cname {p : Profile} {req : Message} {q : Question} {z : Zone} {log : List Record} (h : Holds z log)
    (e : recordsAt log q.node q.recordType = []) (e' : recordsAt log q.node .CNAME ≠ []) :
    authZone p req q z = .ok (answerReply req (recordsAt log q.node .CNAME)) := by
  unfold authZone
  rw [get_none h e, Out.bind_ok]
  simp only [Option.getD_none, List.isEmpty_nil, if_true]
  rw [get_some h e', Out.bind_ok]

theorem authZone_nx {p : Profile} {req : Message} {q : Question} {z : Zone} {log : List Record} {soa : Record}
    (h : Holds z log) (e : recordsAt log q.node q.recordType = []) (e' : recordsAt log q.node .CNAME = [])
    (hs : recordsAt log z.zone .SOA = [soa]) (hk : soa.recordType = .SOA) :
    ∃ m, nxReply req soa = .ok m ∧ authZone p req q z = .ok m ∧ m.header.respCode = .NxDomain := by
  refine ⟨_, by unfold nxReply; rw [if_neg (by simp [hk])], ?_, rfl⟩
  unfold authZone
  rw [get_none h e, Out.bind_ok]
  simp only [Option.getD_none, List.isEmpty_nil, if_true]
  rw [get_none h e', Out.bind_ok]
  simp only
  rw [get_some h (by rw [hs]; simp), Out.bind_ok, hs]
  simp only [nxReply]
  rw [if_neg (by simp [hk])]

theorem glue_eq {p : Profile} {n : Name} {o : HashOrder} (hn : ValidName n.s) : ∀ {zs : List Zone},
    (∀ z ∈ zs, (∃ log, Holds z log) ∧ ValidName z.zone.s ∧ z.zone.s ≠ ['.']) →
    glue p n zs = .ok (zs.flatMap fun z => open Classical in if Within n z.zone then setAt o z n .A else [])
  | [], _ => rfl
  | z :: zs, h => by
    have ih := glue_eq (p := p) (o := o) hn (zs := zs) fun z hz => h z (by simp [hz])
    obtain ⟨⟨log, hl⟩, hv, hr⟩ := h z (by simp)
    unfold glue
    by_cases hw : n.isInZone z.zone = true
    · rw [if_pos hw, List.flatMap_cons, if_pos ((isInZone_within hn hv hr).1 hw)]
      obtain ⟨r, h1, h2⟩ := get_getD (p := p) (n := n) (k := .A) hl
      rw [h1, Out.bind_ok, ih, Out.bind_ok, h2, setAt_eq hl]
    · rw [if_neg hw, List.flatMap_cons, if_neg (fun x => hw ((isInZone_within hn hv hr).2 x)), ih, List.nil_append]

theorem glue_ok {p : Profile} {n : Name} : ∀ {zs : List Zone}, (∀ z ∈ zs, ∃ log, Holds z log) → ∃ g,
    glue p n zs = .ok g ∧ ∀ r ∈ g, ∃ z ∈ zs, ∃ log, Holds z log ∧ r ∈ log
  | [], _ => ⟨[], rfl, by simp⟩
  | z :: zs, h => by
    obtain ⟨g, ih, hg⟩ := glue_ok (p := p) (n := n) (zs := zs) fun z hz => h z (by simp [hz])
    have lift : ∀ r ∈ g, ∃ z' ∈ z :: zs, ∃ log, Holds z' log ∧ r ∈ log := fun r hr => by
      obtain ⟨z', h1, h2⟩ := hg r hr; exact ⟨z', by simp [h1], h2⟩
    obtain ⟨log, hl⟩ := h z (by simp)
    unfold glue
    by_cases hw : n.isInZone z.zone = true
    · rw [if_pos hw]
      obtain ⟨r, h1, h2⟩ := get_getD (p := p) (n := n) (k := .A) hl
      rw [h1, Out.bind_ok, ih, Out.bind_ok, h2]
      refine ⟨_, rfl, fun x hx => ?_⟩
      rcases List.mem_append.1 hx with hx | hx
      · exact ⟨z, by simp, log, hl, (List.mem_filter.1 hx).1⟩
      · exact lift x hx
    · rw [if_neg hw]; exact ⟨g, ih, lift⟩

theorem ns_data {r : Record} (h : r.recordType = .NS) : ∃ n, r.data = .NS n := by
  unfold Record.recordType at h
  cases hd : r.data <;> rw [hd] at h <;> simp [RData.recordType] at h
  exact ⟨_, rfl⟩

theorem allGlue_eq {p : Profile} {o : HashOrder} {zs : List Zone}
    (h : ∀ z ∈ zs, (∃ log, Holds z log) ∧ ValidName z.zone.s ∧ z.zone.s ≠ ['.']) : ∀ {ns : List Record},
    (∀ r ∈ ns, ∃ n, r.data = .NS n ∧ ValidName n.s) → allGlue p zs ns = .ok (glueFor o zs ns)
  | [], _ => rfl
  | r :: ns, hr => by
    have ih := allGlue_eq (p := p) (o := o) h (ns := ns) fun r h => hr r (by simp [h])
    obtain ⟨n, hd, hv⟩ := hr r (by simp)
    unfold allGlue
    rw [hd]
    simp only
    rw [glue_eq (o := o) hv h, Out.bind_ok, ih, Out.bind_ok]
    unfold glueFor
    rw [List.flatMap_cons, hd]

theorem allGlue_ok {p : Profile} {zs : List Zone} (h : ∀ z ∈ zs, ∃ log, Holds z log) : ∀ {ns : List Record},
    (∀ r ∈ ns, ∃ n, r.data = .NS n) → ∃ g, allGlue p zs ns = .ok g ∧ ∀ r ∈ g, ∃ z ∈ zs, ∃ log, Holds z log ∧ r ∈ log
  | [], _ => ⟨[], rfl, by simp⟩
  | r :: ns, hr => by
    obtain ⟨g, ih, hg⟩ := allGlue_ok (p := p) h (ns := ns) fun r h => hr r (by simp [h])
    obtain ⟨n, hd⟩ := hr r (by simp)
    obtain ⟨g', ih', hg'⟩ := glue_ok (p := p) (n := n) h
    unfold allGlue
    rw [hd]
    simp only
    rw [ih', Out.bind_ok, ih, Out.bind_ok]
    exact ⟨_, rfl, fun x hx => (List.mem_append.1 hx).elim (hg' x) (hg x)⟩

/-- The referral to a sub zone. -/
def referralReply (req : Message) (ns glue : List Record) : Message :=
  { header := { respHeader req.header .NoError with
      authAnswer := false, questionsCount := 1, answersCount := 0,
      authoritiesCount := UInt16.ofNat ns.length, additionalsCount := UInt16.ofNat glue.length }
    questions := req.questions, answers := [], authorities := ns, additionals := glue }

theorem referral_of {p : Profile} {req : Message} {sub : Zone} {zones : ManagedZone} {log g : List Record}
    (h : Holds sub log) (hne : recordsAt log sub.zone .NS ≠ [])
    (hg : allGlue p zones.subZones (recordsAt log sub.zone .NS) = .ok g) :
    referral p req sub zones = .ok (referralReply req (recordsAt log sub.zone .NS) g) := by
  unfold referral
  rw [get_some h hne, Out.bind_ok]
  simp only
  rw [if_neg (by simpa using hne), hg, Out.bind_ok]
  rfl

/-- The kinds of replies. -/
inductive Kind (conf : Params) (zones : ManagedZone) (p : Profile) (req : Message) (q : Question) : Message → Prop
  | refused : q.node.isInZone conf.zone = false → Kind conf zones p req q (errReply req .Refused)
  | referral {sub : Zone} {log g : List Record} : q.node.isInZone conf.zone = true →
      zones.subZones.find? (fun sub => q.node.isInZone sub.zone) = some sub → Holds sub log →
      recordsAt log sub.zone .NS ≠ [] → allGlue p zones.subZones (recordsAt log sub.zone .NS) = .ok g →
      (∀ r ∈ g, ∃ z ∈ zones.subZones, ∃ log, Holds z log ∧ r ∈ log) →
      Kind conf zones p req q (referralReply req (recordsAt log sub.zone .NS) g)
  | found {log : List Record} : q.node.isInZone conf.zone = true →
      zones.subZones.find? (fun sub => q.node.isInZone sub.zone) = none → Holds zones.authZone log →
      recordsAt log q.node q.recordType ≠ [] → Kind conf zones p req q (answerReply req (recordsAt log q.node q.recordType))
  | cname {log : List Record} : q.node.isInZone conf.zone = true →
      zones.subZones.find? (fun sub => q.node.isInZone sub.zone) = none → Holds zones.authZone log →
      recordsAt log q.node q.recordType = [] → recordsAt log q.node .CNAME ≠ [] →
      Kind conf zones p req q (answerReply req (recordsAt log q.node .CNAME))
  | nx {log : List Record} {soa : Record} {m : Message} : q.node.isInZone conf.zone = true →
      zones.subZones.find? (fun sub => q.node.isInZone sub.zone) = none → Holds zones.authZone log →
      recordsAt log q.node q.recordType = [] → recordsAt log q.node .CNAME = [] →
      (∀ o, zones.authZone.getAllOfType o .SOA = [soa]) → soa ∈ log →
      nxReply req soa = .ok m → m.header.respCode = .NxDomain → Kind conf zones p req q m

theorem query_kind {conf : Params} {zones : ManagedZone} (h : Ready conf zones) (p : Profile) (req : Message) (q : Question) :
    ∃ m, query p req q zones = .ok m ∧ Kind conf zones p req q m := by
  unfold query
  rw [h.zone]
  by_cases hz : q.node.isInZone conf.zone = true
  · rw [if_neg (by simp [hz])]
    cases hf : zones.subZones.find? (fun sub => q.node.isInZone sub.zone) with
    | some sub =>
      obtain ⟨log, h1, h2, -⟩ := h.sub sub (List.mem_of_find?_eq_some hf)
      obtain ⟨g, h3, h4⟩ := allGlue_ok (p := p) (zs := zones.subZones)
        (fun z hz => by obtain ⟨l, hl, -⟩ := h.sub z hz; exact ⟨l, hl⟩) (ns := recordsAt log sub.zone .NS)
        fun r hr => ns_data (recordsAt_spec hr).2
      exact ⟨_, referral_of h1 h2 h3, .referral hz hf h1 h2 h3 h4⟩
    | none =>
      simp only
      obtain ⟨log, soa, h1, h2, h3, h4, h5⟩ := h.auth
      by_cases e : recordsAt log q.node q.recordType = []
      · by_cases e' : recordsAt log q.node .CNAME = []
        · obtain ⟨m, m1, m2, m3⟩ := authZone_nx (p := p) (req := req) h1 e e' (by rw [h.zone]; exact h2) h3
          refine ⟨m, m2, .nx hz hf h1 e e' h4 ?_ m1 m3⟩
          have : soa ∈ recordsAt log conf.zone .SOA := by rw [h2]; simp
          exact (List.mem_filter.1 this).1
        · exact ⟨_, authZone_cname h1 e e', .cname hz hf h1 e e'⟩
      · exact ⟨_, authZone_found h1 e, .found hz hf h1 e⟩
  · simp only [Bool.not_eq_true] at hz
    rw [if_pos (by simp [hz])]
    exact ⟨_, rfl, .refused hz⟩

theorem replies_kind {conf : Params} {zones : ManagedZone} (h : Ready conf zones) (p : Profile) {req : Message}
    {q : Question} (hq : Asks req q) : ∃ m, Replies p zones req m ∧ Kind conf zones p req q m := by
  obtain ⟨m, h1, h2⟩ := query_kind h p req q
  refine ⟨m, ?_, h2⟩
  unfold Replies handle
  simp only [validate_asks hq, h1, Out.bind_ok]

theorem replies_unique {p : Profile} {zones : ManagedZone} {req m m' : Message} (h : Replies p zones req m)
    (h' : Replies p zones req m') : m = m' := by
  unfold Replies at h h'
  rw [h] at h'
  simpa using h'

/-- A name in no sub zone is not delegated. -/
theorem find_none {conf : Params} {zones : ManagedZone} (h : Ready conf zones) {n : Name} (hn : ValidName n.s)
    (hs : ∀ c ∈ conf.subZones, ¬ Within n c.zone) : zones.subZones.find? (fun sub => n.isInZone sub.zone) = none := by
  rw [List.find?_eq_none]
  intro z hz hw
  obtain ⟨-, -, -, hv, -⟩ := h.sub z hz
  have : z.zone ∈ conf.subZones.map (·.zone) := by rw [← h.names]; exact List.mem_map.2 ⟨z, hz, rfl⟩
  obtain ⟨c, hc, e⟩ := List.mem_map.1 this
  exact hs c hc (by rw [e]; exact within_of_isInZone hn hv hw)

/-- The owner of a stored record is in the zone as the handler decides it. -/
theorem owner_inZone {conf : Params} {n : Name} (h : OwnerOk conf n) : n.isInZone conf.zone = true := by
  rcases h with ⟨hv, h | h⟩
  · subst h
    by_cases hr : conf.zone.s = ['.']
    · exact (isInZone_root hv hr).2 rfl
    · exact (isInZone_within hv hv hr).2 (within_refl hv)
  · unfold Name.isOnlyInAuthZone at h
    by_cases hz : n.isInZone conf.zone = true
    · exact hz
    · simp [hz] at h

end Nameserver

end Ariadne
