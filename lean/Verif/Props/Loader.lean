import Verif.Lemmas.Halts
import Verif.Lemmas.Within
import Verif.Props.Wire
import Verif.Props.Zone

/-!
# C36–C39, C44: the zone loader
-/

namespace Ariadne.Props

open Spec ZoneParser

/-- The configured zones have valid names. -/
def ValidConf (conf : Params) : Prop := ValidName conf.zone.s ∧ ∀ c ∈ conf.subZones, ValidName c.zone.s

/-- A file system with these files. -/
def files (l : List (String × List String)) : Files := fun path =>
  (l.find? fun e => e.1.toList == path).map fun e => e.2.map fun s => some s.toList

/-- Owners of authoritative records: the apex, or names found to be in the zone and in no sub zone. -/
def OwnerOk (conf : Params) (n : Name) : Prop :=
  ValidName n.s ∧ (n = conf.zone ∨ n.isOnlyInAuthZone conf.zone (conf.subZones.map (·.zone)) = true)

theorem ownerOk {conf : Params} (hv : ValidConf conf) :
    Owners conf.zone (conf.subZones.map (·.zone)) (OwnerOk conf) ∧ OwnerOk conf conf.zone :=
  ⟨⟨fun _ h v => ⟨v, .inr h⟩, fun _ h => h.1⟩, hv.1, .inl rfl⟩

theorem mem_all {z : Zone} {log : List Record} (h : Holds z log) (o : HashOrder) (k : RecordType) (r : Record) :
    r ∈ z.getAllOfType o k ↔ r ∈ log ∧ r.recordType = k := by
  rw [(h.all_perm o k).mem_iff, List.mem_filter]
  simp

theorem soaType {r : Record} {a b : Name} {s rf rt e m : UInt32} (h : r.data = .SOA a b s rf rt e m) :
    r.recordType = .SOA := by
  unfold Record.recordType; rw [h]; rfl

/-- A successful call whose result passes a test. -/
theorem ok_of {ε α : Type} {x : Out ε α} (P : α → Bool)
    (h : (match x with | .ok a => P a | _ => false) = true) : ∃ a, x = .ok a ∧ P a = true := by
  cases x with
  | ok a => exact ⟨a, rfl, h⟩
  | _ => cases h

/-! ## C36 -/

/-- What C36 says about a loaded authoritative zone. -/
def AuthOk (conf : Params) (z : Zone) : Prop :=
  ∃ (soa : Record) (minimum : UInt32),
    soa.node = conf.zone ∧ (∃ a b s rf rt e, soa.data = .SOA a b s rf rt e minimum) ∧
    (∀ o, z.getAllOfType o .SOA = [soa]) ∧
    ∀ o kind, ∀ r ∈ z.getAllOfType o kind, r.cls = .IN ∧ minimum ≤ r.ttl ∧ Within r.node conf.zone ∧
      ∀ c ∈ conf.subZones, ¬ Within r.node c.zone

/-- The full statement of C36. -/
def C36_statement : Prop :=
  ∀ (p : Profile) (fs : Files) (o : HashOrder) (fuel : Nat) (conf : Params) (zones : ManagedZone), ValidConf conf →
    parseZoneFiles p fs o fuel conf = .ok zones → AuthOk conf zones.authZone

/-- The configured sub zone may be the zone itself. -/
def sameZoneConf : Params :=
  { filePath := "auth".toList, zone := ⟨"e.".toList⟩, startingTtl := 60,
    subZones := [{ filePath := "sub".toList, zone := ⟨"e.".toList⟩, startingTtl := 60, minTtl := 1 }] }

def sameZoneFiles : Files := files
  [("auth", ["@ 60 IN SOA ns.f. mail.f. 1 2 3 4 5", "@ NS ns.f."]), ("sub", ["@ NS ns.f."])]

/-- Order of insertion. -/
def forwards : HashOrder := ⟨id, id, fun _ => .refl _, fun _ => .refl _⟩

/-- A valid name, decided by the library's own check (`C06`). -/
theorem validName_of {s : Str} (h : (Name.fromString s : Out NameErr Name) = .ok ⟨s⟩) : ValidName s := by
  have := nm_fromString (np := False) (nd := False) s
  rw [h] at this
  exact this.2

theorem C36_violated : ¬ C36_statement := by
  intro h
  obtain ⟨zones, hz⟩ := ok_of (x := parseZoneFiles .debug sameZoneFiles forwards 10 sameZoneConf)
    (fun zones => (zones.authZone.getAllOfType forwards .NS).map (·.node.s) = ["e.".toList]) (by decide +kernel)
  simp only [decide_eq_true_eq] at hz
  have hv : ValidName "e.".toList := validName_of (by decide +kernel)
  have hvc : ValidConf sameZoneConf := ⟨hv, fun c hc => by
    have : c.zone.s = "e.".toList := by simp only [sameZoneConf, List.mem_singleton] at hc; rw [hc]
    rw [this]; exact hv⟩
  obtain ⟨soa, m, _, _, _, h4⟩ := h _ _ _ _ _ _ hvc hz.1
  cases hl : zones.authZone.getAllOfType forwards .NS with
  | nil => rw [hl] at hz; cases hz.2
  | cons r rs =>
    have h5 := (h4 forwards .NS r (by rw [hl]; simp)).2.2.2 _ (List.mem_singleton.2 rfl)
    have h6 : r.node = ⟨"e.".toList⟩ := by
      have := hz.2
      rw [hl, List.map_cons] at this
      have := (List.cons.inj this).1
      cases hn : r.node; rw [hn] at this; simp only at this; rw [this]
    rw [h6] at h5
    exact h5 (within_refl hv)

/-- C36, part: everything but the last clause holds without further assumptions; an owner other than the apex lies in no
sub zone except for the root zone; so everything holds if no configured sub zone contains the apex. Missing: zones that
lie in their own sub zones (`C36_violated`). -/
theorem C36_auth_zone_partial (p : Profile) (fs : Files) (o : HashOrder) (fuel : Nat) (conf : Params)
    (zones : ManagedZone) (hv : ValidConf conf) (h : parseZoneFiles p fs o fuel conf = .ok zones) :
    (∃ (soa : Record) (minimum : UInt32), soa.node = conf.zone ∧
      (∃ a b s rf rt e, soa.data = .SOA a b s rf rt e minimum) ∧
      (∀ o', zones.authZone.getAllOfType o' .SOA = [soa]) ∧
      ∀ o' kind, ∀ r ∈ zones.authZone.getAllOfType o' kind, r.cls = .IN ∧ minimum ≤ r.ttl ∧ Within r.node conf.zone ∧
        (r.node = conf.zone ∨ ∀ c ∈ conf.subZones, c.zone.s ≠ ['.'] → ¬ Within r.node c.zone)) ∧
    ((∀ c ∈ conf.subZones, ¬ Within conf.zone c.zone) → AuthOk conf zones.authZone) := by
  have hs := parseZoneFiles_sat (np := False) (p := p) (fs := fs) (o := o) (fun x => x.elim) fuel conf (ownerOk hv).1
    (ownerOk hv).2
  rw [h] at hs
  obtain ⟨⟨log, soa, minimum, ha⟩, -, -⟩ := hs
  have hin : ∀ n, OwnerOk conf n → Within n conf.zone := by
    rintro n ⟨h1, h2 | h2⟩
    · rw [h2]; exact within_refl hv.1
    · refine within_of_isInZone h1 hv.1 ?_
      unfold Name.isOnlyInAuthZone at h2
      by_cases hz : n.isInZone conf.zone = true
      · exact hz
      · simp [hz] at h2
  have hout : ∀ n, OwnerOk conf n → n = conf.zone ∨ ∀ c ∈ conf.subZones, c.zone.s ≠ ['.'] → ¬ Within n c.zone := by
    rintro n ⟨h1, h2 | h2⟩
    · exact .inl h2
    · refine .inr fun c hc hr hw => ?_
      rw [← isInZone_within h1 (hv.2 c hc) hr] at hw
      unfold Name.isOnlyInAuthZone at h2
      by_cases hz : n.isInZone conf.zone = true
      · simp only [hz, Bool.not_true, Bool.false_eq_true, if_false, Bool.not_eq_true', List.any_map] at h2
        have := List.any_eq_false.1 h2 c hc
        exact this hw
      · simp [hz] at h2
  have hsoa : ∀ o', zones.authZone.getAllOfType o' .SOA = [soa] := by
    intro o'
    obtain ⟨a, b, s, rf, rt, e, hd⟩ := ha.data
    have hp := ha.holds.all_perm o' .SOA
    rw [List.filter_append, List.filter_eq_nil_iff.2 (fun r hr => by simpa using (ha.good r hr).notSoa)] at hp
    simp only [List.nil_append, List.filter_cons, soaType hd, beq_self_eq_true, if_true, List.filter_nil] at hp
    exact List.perm_singleton.1 hp
  have hall : ∀ o' kind, ∀ r ∈ zones.authZone.getAllOfType o' kind, OwnerOk conf r.node ∧ r.cls = .IN ∧ minimum ≤ r.ttl := by
    intro o' kind r hr
    rw [mem_all ha.holds, List.mem_append, List.mem_singleton] at hr
    rcases hr.1 with hr | rfl
    · exact ⟨(ha.good r hr).owner, (ha.good r hr).cls, (ha.good r hr).ttl⟩
    · exact ⟨ha.node ▸ (ownerOk hv).2, ha.cls, ha.ttl⟩
  refine ⟨⟨soa, minimum, ha.node, ha.data, hsoa, fun o' kind r hr => ?_⟩, fun hap =>
    ⟨soa, minimum, ha.node, ha.data, hsoa, fun o' kind r hr => ?_⟩⟩
  · obtain ⟨h1, h2, h3⟩ := hall o' kind r hr
    exact ⟨h2, h3, hin _ h1, hout _ h1⟩
  · obtain ⟨h1, h2, h3⟩ := hall o' kind r hr
    refine ⟨h2, h3, hin _ h1, fun c hc hw => ?_⟩
    rcases hout _ h1 with e | e
    · rw [e] at hw; exact hap c hc hw
    · refine e c hc (fun hroot => ?_) hw
      exact hap c hc (within_root hv.1 hroot)

/-- A zone with a delegation, an included file and another origin. -/
def sampleConf : Params :=
  { filePath := "auth".toList, zone := ⟨"e.".toList⟩, startingTtl := 60,
    subZones := [{ filePath := "sub".toList, zone := ⟨"s.e.".toList⟩, startingTtl := 60, minTtl := 1 }] }

def sampleFiles : Files := files
  [("auth", ["@ 60 IN SOA ns mail.f. 1 2 3 4 5 ; comment", "  NS ns", "ns 100 A 10.0.0.1 ", "$INCLUDE inc x.e.",
      "txt IN 50 TXT ( \"a \\\"b\"", " c ) ; more"]),
   ("inc", ["a 70 A 10.0.0.2", "$ORIGIN y.e.", "b CNAME a"]),
   ("sub", ["@ NS ns", "ns A 10.0.0.3", "@ NS ns.f."])]

/-- It loads. -/
theorem sample_loads : ∃ zones, parseZoneFiles .debug sampleFiles forwards 20 sampleConf = .ok zones ∧
    (zones.authZone.getAllOfType forwards .A).map (fun r => (r.node.s, r.ttl)) =
      [("ns.e.".toList, 100), ("a.x.e.".toList, 70)] ∧
    (zones.authZone.getAllOfType forwards .CNAME).map (fun r => (r.node.s, r.ttl, r.data)) =
      [("b.y.e.".toList, 70, .CNAME ⟨"a.y.e.".toList⟩)] ∧
    (zones.authZone.getAllOfType forwards .TXT).map (fun r => (r.node.s, r.data)) =
      [("txt.e.".toList, .TXT ["a \"b".toList, "c".toList])] := by
  obtain ⟨zones, h1, h2⟩ := ok_of (x := parseZoneFiles .debug sampleFiles forwards 20 sampleConf) (fun zones =>
    (zones.authZone.getAllOfType forwards .A).map (fun r => (r.node.s, r.ttl)) =
      [("ns.e.".toList, 100), ("a.x.e.".toList, 70)] ∧
    (zones.authZone.getAllOfType forwards .CNAME).map (fun r => (r.node.s, r.ttl, r.data)) =
      [("b.y.e.".toList, 70, .CNAME ⟨"a.y.e.".toList⟩)] ∧
    (zones.authZone.getAllOfType forwards .TXT).map (fun r => (r.node.s, r.data)) =
      [("txt.e.".toList, .TXT ["a \"b".toList, "c".toList])]) (by decide +kernel)
  exact ⟨zones, h1, by simpa only [decide_eq_true_eq] using h2⟩

theorem sample_valid : ValidConf sampleConf :=
  ⟨validName_of (by decide +kernel), fun c hc => by
    have : c.zone.s = "s.e.".toList := by simp only [sampleConf, List.mem_singleton] at hc; rw [hc]
    rw [this]; exact validName_of (by decide +kernel)⟩

/-- The apex of the sample is in no sub zone. -/
example : ∀ c ∈ sampleConf.subZones, ¬ Within sampleConf.zone c.zone := by
  intro c hc hw
  simp only [sampleConf, List.mem_singleton] at hc
  subst hc
  rw [← isInZone_within sample_valid.1 (validName_of (by decide +kernel)) (by decide)] at hw
  revert hw
  decide

/-! ## C37 -/

/-- What C37 says about a loaded zone set. -/
def SetOk (conf : Params) (zones : ManagedZone) : Prop :=
  (∀ o, zones.authZone.getAllOfType o .NS ≠ [] ∧ ∀ r ∈ zones.authZone.getAllOfType o .NS, r.node = conf.zone) ∧
  zones.subZones.map (·.zone) = conf.subZones.map (·.zone) ∧
  ∀ sub ∈ zones.subZones, ∀ o,
    (∀ kind, kind ≠ .A → kind ≠ .NS → sub.getAllOfType o kind = []) ∧
    sub.getAllOfType o .NS ≠ [] ∧
    (∀ r ∈ sub.getAllOfType o .NS, r.node = sub.zone) ∧
    (∀ r ∈ sub.getAllOfType o .NS, ∀ n, r.data = .NS n → Within n conf.zone →
      ∀ sub' ∈ zones.subZones, Within n sub'.zone → ∃ a ∈ sub'.getAllOfType o .A, a.node = n) ∧
    (∀ a ∈ sub.getAllOfType o .A, Within a.node sub.zone ∧
      ∃ sub' ∈ zones.subZones, ∃ r ∈ sub'.getAllOfType o .NS, r.data = .NS a.node)

/-- The full statement of C37. -/
def C37_statement : Prop :=
  ∀ (p : Profile) (fs : Files) (o : HashOrder) (fuel : Nat) (conf : Params) (zones : ManagedZone), ValidConf conf →
    parseZoneFiles p fs o fuel conf = .ok zones → SetOk conf zones

/-- A server for the root zone that delegates "com.". -/
def rootConf : Params :=
  { filePath := "auth".toList, zone := ⟨".".toList⟩, startingTtl := 60,
    subZones := [{ filePath := "sub".toList, zone := ⟨"com.".toList⟩, startingTtl := 60, minTtl := 1 }] }

/-- The glue record of "ns.com." is missing. -/
def rootFiles : Files := files
  [("auth", [". 60 IN SOA ns.f. mail.f. 1 2 3 4 5", ". NS ns.f."]), ("sub", ["@ NS ns.com."])]

/-- C37 does not hold for the root zone: missing glue is not found out, as no name counts as being inside the root. -/
theorem C37_violated : ¬ C37_statement := by
  intro h
  obtain ⟨zones, hz, hs⟩ := ok_of (x := parseZoneFiles .debug rootFiles forwards 10 rootConf) (fun zones =>
      (zones.subZones.map (·.zone.s)) = ["com.".toList] ∧
      (zones.subZones.map fun z => (z.getAllOfType forwards .NS).map (·.data)) = [[.NS ⟨"ns.com.".toList⟩]] ∧
      (zones.subZones.map fun z => z.getAllOfType forwards .A) = [[]]) (by decide +kernel)
  simp only [decide_eq_true_eq] at hs
  obtain ⟨hs, hns, ha⟩ := hs
  have v1 : ValidName ".".toList := validName_of (by decide +kernel)
  have v2 : ValidName "com.".toList := validName_of (by decide +kernel)
  have v3 : ValidName "ns.com.".toList := validName_of (by decide +kernel)
  have hvc : ValidConf rootConf := ⟨v1, fun c hc => by
    have : c.zone.s = "com.".toList := by simp only [rootConf, List.mem_singleton] at hc; rw [hc]
    rw [this]; exact v2⟩
  obtain ⟨_, _, h3⟩ := h _ _ _ _ _ _ hvc hz
  cases hl : zones.subZones with
  | nil => rw [hl] at hs; cases hs
  | cons z zs =>
    rw [hl] at hs hns ha
    simp only [List.map_cons, List.cons.injEq] at hs hns ha
    obtain ⟨_, _, _, h4, _⟩ := h3 z (by rw [hl]; simp) forwards
    cases hn : z.getAllOfType forwards .NS with
    | nil => rw [hn] at hns; cases hns.1
    | cons r rs =>
      rw [hn] at hns h4
      simp only [List.map_cons, List.cons.injEq] at hns
      have hzn : z.zone = ⟨"com.".toList⟩ := by cases hzz : z.zone; rw [hzz] at hs; simp only at hs; rw [hs.1]
      obtain ⟨a, ha', _⟩ := h4 r (by simp) _ hns.1.1 (within_root v3 rfl) z (by rw [hl]; simp)
        ((isInZone_within v3 (by rw [hzn]; exact v2) (by rw [hzn]; decide)).1 (by rw [hzn]; decide))
      rw [ha.1] at ha'
      cases ha'

/-- C37, part: if neither the zone nor a sub zone is the root. Missing: the root zone (`C37_violated`). -/
theorem C37_consistent_partial (p : Profile) (fs : Files) (o : HashOrder) (fuel : Nat) (conf : Params)
    (zones : ManagedZone) (hv : ValidConf conf) (hr : conf.zone.s ≠ ['.']) (hrs : ∀ c ∈ conf.subZones, c.zone.s ≠ ['.'])
    (h : parseZoneFiles p fs o fuel conf = .ok zones) : SetOk conf zones := by
  have hs := parseZoneFiles_sat (np := False) (p := p) (fs := fs) (o := o) (fun x => x.elim) fuel conf (ownerOk hv).1
    (ownerOk hv).2
  rw [h] at hs
  obtain ⟨⟨log, soa, minimum, ha⟩, hsub, hcon⟩ := hs
  have hzone : zones.authZone.zone = conf.zone := ha.zone
  have tr : ∀ {z : Zone} {l : List Record}, Holds z l → ∀ o' k (r : Record),
      r ∈ z.getAllOfType o' k ↔ r ∈ z.getAllOfType o k := fun hz o' k r => by rw [mem_all hz, mem_all hz]
  have ne : ∀ {z : Zone} {l : List Record}, Holds z l → ∀ o' k, z.getAllOfType o k ≠ [] → z.getAllOfType o' k ≠ [] := by
    intro z l hz o' k hne
    obtain ⟨r, hrm⟩ := List.exists_mem_of_ne_nil _ hne
    exact List.ne_nil_of_mem ((tr hz o' k r).2 hrm)
  refine ⟨fun o' => ⟨ne ha.holds o' _ hcon.ns, fun r hrm => ?_⟩, hsub.names, fun sub hsubm o' => ?_⟩
  · rw [← hzone]; exact hcon.apex r ((tr ha.holds o' _ r).1 hrm)
  · obtain ⟨c, hc, slog, hl⟩ := hsub.mem sub hsubm
    have hcz : ValidName c.zone.s := hv.2 c hc
    refine ⟨fun kind k1 k2 => ?_, ne hl.holds o' _ (hcon.subNs sub hsubm), fun r hrm =>
      hcon.subApex sub hsubm r ((tr hl.holds o' _ r).1 hrm), fun r hrm n hd hwn sub' hsub' hws => ?_, fun a ham => ⟨?_, ?_⟩⟩
    · rw [List.eq_nil_iff_forall_not_mem]
      intro r hrm
      rw [mem_all hl.holds] at hrm
      rcases (hl.good r hrm.1).type with e | e
      · exact k1 (by rw [← e, hrm.2])
      · exact k2 (by rw [← e, hrm.2])
    · obtain ⟨c', hc', slog', hl'⟩ := hsub.mem sub' hsub'
      have hrm' := hrm
      rw [mem_all hl.holds] at hrm'
      have hd' := (hl.good r hrm'.1).data hcz
      rw [hd] at hd'
      have hvn : ValidName n.s := hd'
      obtain ⟨a, ha1, ha2⟩ := hcon.glue sub hsubm r ((tr hl.holds o' _ r).1 hrm) n hd
        (by rw [hzone]; exact (isInZone_within hvn hv.1 hr).2 hwn) sub' hsub'
        (by
          rw [hl'.zone] at hws ⊢
          exact (isInZone_within hvn (hv.2 c' hc') (hrs c' hc')).2 hws)
      exact ⟨a, (tr hl'.holds o' _ a).2 ha1, ha2⟩
    · rw [mem_all hl.holds] at ham
      rw [hl.zone]
      rcases (hl.good a ham.1).owner with e | ⟨e, v⟩
      · rw [e]; exact within_refl hcz
      · exact within_of_isInZone v hcz e
    · obtain ⟨sub', hs', r, hrm, hd⟩ := hcon.used sub hsubm a ((tr hl.holds o' _ a).1 ham)
      obtain ⟨c', _, slog', hl'⟩ := hsub.mem sub' hs'
      exact ⟨sub', hs', r, (tr hl'.holds o' _ r).2 hrm, hd⟩

example : sampleConf.zone.s ≠ ['.'] ∧ ∀ c ∈ sampleConf.subZones, c.zone.s ≠ ['.'] := by decide +kernel

/-! ## C38 -/

/-- The full statement of C38. -/
def C38_statement : Prop :=
  ∀ (p : Profile) (fs : Files) (o : HashOrder) (fuel : Nat) (conf : Params) (k : Panic), ValidConf conf →
    parseZoneFiles p fs o fuel conf ≠ .panic k

/-- An escape in the last word of a line. -/
def escapeFiles : Files := files [("auth", ["@ 60 IN SOA ns mail\\.f. 1 2 3 4 5\\6"])]

/-- C38 does not hold: an escaped character in the last word of a line makes the loader index past the end of it. -/
theorem C38_violated : ¬ C38_statement := fun h =>
  h .release escapeFiles forwards 10 sampleConf .index sample_valid (by decide +kernel)

/-- C38, part: the loader never panics unless some word or quoted string with an escape in it goes on to the end of its line. Missing:
such words (`C38_violated`), and quoted strings with escapes that are not closed. -/
theorem C38_no_panic_partial (p : Profile) (fs : Files) (o : HashOrder) (fuel : Nat) (conf : Params) (k : Panic)
    (hv : ValidConf conf) (hfs : TidyEscapes fs) : parseZoneFiles p fs o fuel conf ≠ .panic k :=
  (parseZoneFiles_sat (np := True) (fun _ => hfs) fuel conf (ownerOk hv).1 (ownerOk hv).2).no_panic k

/-- There are no escapes without backslashes. -/
theorem tidy_of_none {fs : Files} (h : NoEscapes fs) : TidyEscapes fs := by
  intro path file hf l hl pre c post e hm
  exfalso
  have hno : '\\' ∉ pre := fun hb => h path file hf l hl (by rw [e]; exact List.mem_append_left _ hb)
  have key : ∀ (l : Str) (m : Mode), '\\' ∉ l → m ≠ .backslash ∧ m ≠ .quotedBackslash → modeAfter m l ≠ .backslash ∧ modeAfter m l ≠ .quotedBackslash := by
    intro l
    induction l with
    | nil => exact fun m _ hm => hm
    | cons ch l ih =>
      intro m hl hm
      refine ih (m.step ch) (fun hb => hl (List.mem_cons_of_mem _ hb)) ?_
      have hch : ch ≠ '\\' := fun e => hl (by rw [e]; exact List.mem_cons_self)
      cases m with
      | between => simp only [Mode.step]; rw [if_neg (c := ch = '\\') hch]; split <;> [simp; split <;> [simp; split <;> simp]]
      | word b => simp only [Mode.step]; rw [if_neg (c := ch = '\\') hch]; split <;> [simp; split <;> simp]
      | backslash => exact absurd rfl hm.1
      | quotedBackslash => exact absurd rfl hm.2
      | quoted => simp only [Mode.step]; rw [if_neg (c := ch = '\\') hch]; split <;> simp
      | comment => simp [Mode.step]
  obtain ⟨h1, h2⟩ := key pre .between hno ⟨by simp, by simp⟩
  rcases hm with hm | hm
  · exact h1 hm
  · exact h2 hm

/-- A check of a line. -/
def tidyLine (l : Str) : Bool :=
  (List.range l.length).all fun i => !(decide (modeAfter .between (l.take i) = .backslash) || decide (modeAfter .between (l.take i) = .quotedBackslash)) ||
    (List.range (l.length + 1)).any fun j => decide (i < j) && (decide (modeAfter .between (l.take j) = .between) || decide (modeAfter .between (l.take j) = .comment))

theorem ends_of_tidyLine {l : Str} (h : tidyLine l = true) : EscapesEnd l := by
  intro pre c post e hm
  have hlen : l.length = pre.length + (post.length + 1) := by rw [e]; simp
  have h1 := List.all_eq_true.1 h pre.length (List.mem_range.2 (by omega))
  have ht : l.take pre.length = pre := by rw [e, List.take_left]
  rw [ht] at h1
  have hb : (decide (modeAfter .between pre = .backslash) || decide (modeAfter .between pre = .quotedBackslash)) = true := by
    rw [Bool.or_eq_true]
    rcases hm with hm | hm
    · exact .inl (decide_eq_true hm)
    · exact .inr (decide_eq_true hm)
  rw [hb, Bool.not_true, Bool.false_or] at h1
  obtain ⟨j, hj, h2⟩ := List.any_eq_true.1 h1
  rw [Bool.and_eq_true, decide_eq_true_eq, Bool.or_eq_true, decide_eq_true_eq, decide_eq_true_eq] at h2
  have hj' := List.mem_range.1 hj
  have ej : l.take j = pre ++ c :: post.take (j - pre.length - 1) := by
    rw [e, List.take_append, List.take_of_length_le (by omega)]
    obtain ⟨k, hk⟩ : ∃ k, j - pre.length = k + 1 := ⟨j - pre.length - 1, by omega⟩
    rw [hk, List.take_succ_cons]
    simp
  refine ⟨post.take (j - pre.length - 1), post.drop (j - pre.length - 1), (List.take_append_drop _ _).symm, ?_⟩
  rw [← ej]
  exact h2.2

/-- The lines of the sample satisfy the hypothesis. -/
theorem files_lines {l : List (String × List String)} {P : Str → Prop} (h : ∀ e ∈ l, ∀ s ∈ e.2, P s.toList) :
    ∀ path file, files l path = some file → ∀ s, some s ∈ file → P s := by
  intro path file hf s hs
  unfold files at hf
  cases he : l.find? fun e => e.1.toList == path with
  | none => rw [he] at hf; cases hf
  | some e =>
    rw [he] at hf
    simp only [Option.map_some, Option.some.injEq] at hf
    subst hf
    obtain ⟨x, hx, e'⟩ := List.mem_map.1 hs
    cases e'
    exact h e (List.mem_of_find?_eq_some he) x hx

example : TidyEscapes sampleFiles := fun path file hf l hl =>
  ends_of_tidyLine (files_lines (P := fun s => tidyLine s = true) (by decide +kernel) path file hf l hl)

/-- The sample without escapes. -/
def plainFiles : Files := files
  [("auth", ["@ 60 IN SOA ns mail.f. 1 2 3 4 5", "  NS ns", "ns 100 A 10.0.0.1 ", "txt IN 50 TXT ( \"a b\"", " c) ; more"]),
   ("sub", ["@ NS ns", "ns A 10.0.0.3", "@ NS ns.f.;"])]

example : NoEscapes plainFiles ∧ ∃ zones, parseZoneFiles .debug plainFiles forwards 20 sampleConf = .ok zones := by
  refine ⟨files_lines (P := fun s => '\\' ∉ s) (by decide +kernel), ?_⟩
  obtain ⟨zones, h1, -⟩ := ok_of (x := parseZoneFiles .debug plainFiles forwards 20 sampleConf) (fun _ => True) (by decide +kernel)
  exact ⟨zones, h1⟩

/-- Files with escapes in a word before a comment, in one before a parenthesis and in a quoted string. -/
def escapedFiles : Files := files
  [("auth", ["@ 60 IN SOA ns mai\\l.f. 1 2 3 4 5", "  NS ns", "ns 100 A 10.0.0.1 ",
      "txt IN 50 TXT ( \"a\\\" b\"", " c\\;d) ; more"]),
   ("sub", ["@ NS ns", "ns A 10.0.0.3", "@ NS n\\s.f.;"])]

example : TidyEscapes escapedFiles ∧ ¬ NoEscapes escapedFiles ∧ ∃ zones, parseZoneFiles .debug escapedFiles forwards 20 sampleConf = .ok zones ∧
    (zones.authZone.getAllOfType forwards .TXT).map (fun r => (r.node.s, r.data)) =
      [("txt.e.".toList, .TXT ["a\" b".toList, "c;d".toList])] := by
  refine ⟨fun path file hf l hl => ends_of_tidyLine (files_lines (P := fun s => tidyLine s = true) (by decide +kernel) path file hf l hl), fun h => ?_, ?_⟩
  · exact h "auth".toList ["@ 60 IN SOA ns mai\\l.f. 1 2 3 4 5".toList, "  NS ns".toList, "ns 100 A 10.0.0.1 ".toList,
      "txt IN 50 TXT ( \"a\\\" b\"".toList, " c\\;d) ; more".toList] (by decide +kernel) "@ 60 IN SOA ns mai\\l.f. 1 2 3 4 5".toList (by decide +kernel) (by decide +kernel)
  · obtain ⟨zones, h1, h2⟩ := ok_of (x := parseZoneFiles .debug escapedFiles forwards 20 sampleConf) (fun zones =>
      (zones.authZone.getAllOfType forwards .TXT).map (fun r => (r.node.s, r.data)) =
        [("txt.e.".toList, .TXT ["a\" b".toList, "c;d".toList])]) (by decide +kernel)
    exact ⟨zones, h1, by simpa only [decide_eq_true_eq] using h2⟩

/-! ## C39 -/

/-- Finitely many files. -/
def FiniteFiles (fs : Files) : Prop := ∃ paths : List Str, ∀ p, fs p ≠ none → p ∈ paths

/-- The full statement of C39: there is an amount of fuel from which on the outcome is the same and not `diverge`. -/
def C39_statement : Prop :=
  ∀ (p : Profile) (fs : Files) (o : HashOrder) (conf : Params), ValidConf conf → FiniteFiles fs →
    Halts fun n => parseZoneFiles p fs o n conf

/-- A no-break space in a TXT record. -/
def nbspFile : List (Option Str) := [some "@ 60 IN SOA a. b. 1 2 3 4 5".toList, some "t TXT a\u00A0".toList]

def nbspConf : Params := { filePath := "auth".toList, zone := ⟨"e.".toList⟩, startingTtl := 60, subZones := [] }

def nbspFiles : Files := fun path => if path = "auth".toList then some nbspFile else none

/-- The tokenizer in front of the no-break space: it gives empty strings forever. -/
def stuck : Tokenizer := { file := [], rest := ['\u00A0'], peeked := [], multiline := false, line := 2 }

theorem stuck_txt : ∀ (n : Nat) (txts : List Str), txtLoop n stuck txts = .diverge
  | 0, _ => rfl
  | n + 1, txts => by
    unfold txtLoop
    have h1 : tok stuck.peekAfterBlanks = .ok (.string [], { stuck with peeked := [.string []] }) := by decide +kernel
    have h2 : unwrapTok ({ stuck with peeked := [.string []] } : Tokenizer).nextAfterBlanks = .ok stuck := by
      decide +kernel
    have h3 : parseCharString (.string []) = .ok [] := by decide +kernel
    rw [h1]
    simp only [Out.bind_ok]
    rw [h2]
    simp only [Out.bind_ok]
    rw [h3]
    simp only [Out.bind_ok]
    exact stuck_txt n _

theorem nbsp_record (n : Nat) (st : AuthState) (hz : st.zone = ⟨"e.".toList⟩) (ho : st.currentOrig = ⟨"e.".toList⟩)
    (hs : st.subZones = []) (hm : st.minTtl = 5) (ht : st.currentTtl = 60) :
    parseRecord n ⟨[], " TXT a\u00A0".toList, [.string "t".toList], false, 2⟩ st = .diverge := by
  unfold parseRecord
  have h1 : parseOwner ⟨[], " TXT a\u00A0".toList, [.string "t".toList], false, 2⟩ ⟨"e.".toList⟩
      (fun name => ensureNameInAuthZone name ⟨"e.".toList⟩ []) =
      .ok (⟨"t.e.".toList⟩, ⟨[], " TXT a\u00A0".toList, [], false, 2⟩) := by decide +kernel
  have h2 : parseTtlClass ⟨[], " TXT a\u00A0".toList, [], false, 2⟩ =
      .ok ((none, none), ⟨[], " a\u00A0".toList, [.string "TXT".toList], false, 2⟩) := by decide +kernel
  have h3 : tok (⟨[], " a\u00A0".toList, [.string "TXT".toList], false, 2⟩ : Tokenizer).nextAfterBlanks =
      .ok (.string "TXT".toList, ⟨[], " a\u00A0".toList, [], false, 2⟩) := by decide +kernel
  rw [hz, ho, hs, h1]
  simp only [Out.bind_ok]
  rw [h2]
  simp only [Out.bind_ok, Option.getD_none]
  rw [hm, ht]
  have h4 : ensureClassIsSupported .IN = .ok () := by decide
  have h5 : ensureMinTtl 5 60 = .ok () := by decide
  rw [h4, h5]
  simp only [Out.bind_ok]
  rw [h3]
  simp only [Out.bind_ok]
  have h6 : RecordType.fromStr "TXT".toList = some .TXT := by decide
  rw [h6]
  have h7 : txtLoop n ⟨[], " a\u00A0".toList, [], false, 2⟩ [] = .diverge := by
    cases n with
    | zero => rfl
    | succ n =>
      unfold txtLoop
      have g1 : tok (⟨[], " a\u00A0".toList, [], false, 2⟩ : Tokenizer).peekAfterBlanks =
        .ok (.string ['a'], { stuck with peeked := [.string ['a']] }) := by decide +kernel
      have g2 : unwrapTok ({ stuck with peeked := [.string ['a']] } : Tokenizer).nextAfterBlanks = .ok stuck := by
        decide +kernel
      have g3 : parseCharString (.string ['a']) = .ok ['a'] := by decide +kernel
      rw [g1]
      simp only [Out.bind_ok]
      rw [g2]
      simp only [Out.bind_ok]
      rw [g3]
      simp only [Out.bind_ok]
      exact stuck_txt n _
  have h8 : RecordType.TXT.isSupportedForRecords = true := by decide
  simp only [h8, Bool.not_true, Bool.false_eq_true, if_false, parseAuthData, parseTxt, h7, Out.bind_diverge]

/-- C39 does not hold: white space other than space and tab is never consumed; in a TXT record the loader then collects
empty strings until memory is exhausted. -/
theorem C39_violated : ¬ C39_statement := by
  intro h
  have hv : ValidConf nbspConf := ⟨validName_of (by decide +kernel), fun c hc => by cases hc⟩
  obtain ⟨F, out, hne, ho⟩ := h .release nbspFiles forwards nbspConf hv ⟨["auth".toList], fun p hp => by
    unfold nbspFiles at hp
    by_cases e : p = "auth".toList
    · rw [e]; simp
    · rw [if_neg e] at hp; exact absurd rfl hp⟩
  have key : ∀ n, parseZoneFiles .release nbspFiles forwards n nbspConf = .diverge := by
    intro n
    have hf : nbspFiles nbspConf.filePath = some nbspFile := by decide +kernel
    obtain ⟨soa, hsoa⟩ := ok_of (x := parseStartingSoa (Tokenizer.start nbspFile)
      { zone := nbspConf.zone, subZones := nbspConf.subZones.map (·.zone), currentOrig := nbspConf.zone,
        currentTtl := nbspConf.startingTtl, minTtl := 0 })
      (fun r => r.2.1 = 5 ∧ r.2.2 = ⟨[], "t TXT a\u00A0".toList, [], false, 2⟩) (by decide +kernel)
    obtain ⟨h1, h2⟩ := hsoa
    obtain ⟨soa, m, t⟩ := soa
    simp only [decide_eq_true_eq] at h2
    obtain ⟨rfl, rfl⟩ := h2
    unfold parseZoneFiles parseAuthZoneFile
    rw [hf]
    simp only
    rw [h1]
    simp only [Out.bind_ok]
    cases n with
    | zero => rfl
    | succ n =>
      unfold parseEntries
      have h3 : tok (⟨[], "t TXT a\u00A0".toList, [], false, 2⟩ : Tokenizer).peek =
        .ok (.string "t".toList, ⟨[], " TXT a\u00A0".toList, [.string "t".toList], false, 2⟩) := by decide +kernel
      rw [h3]
      simp only [Out.bind_ok]
      rw [nbsp_record n _ rfl rfl rfl rfl rfl]
      rfl
  exact hne ((ho F (le_refl F)).symm.trans (key F))

/-- C39, part: loading terminates if runs of white space begin with a space or a tab and no chain of includes is infinite. Missing: runs that
begin with other white space (`C39_violated`) and include cycles. -/
theorem C39_terminates_partial (p : Profile) (fs : Files) (o : HashOrder) (conf : Params) (hpl : PlainBlanks fs)
    (hwf : WellFounded (IncludedBy fs)) : Halts fun n => parseZoneFiles p fs o n conf := load_halts hpl hwf p o conf

/-- The states of the tokenizer, one after the other. -/
def steps : Nat → Tokenizer → List Tokenizer
  | 0, t => [t]
  | n + 1, t => t :: match t.next with
    | .ok (_, t') => steps n t'
    | _ => []

/-- A list of states that `next` does not leave. -/
def closed (l : List Tokenizer) : Bool := l.all fun t => match t.next with
  | .ok (_, t') => l.contains t'
  | _ => true

theorem reads_mem {file : List (Option Str)} {l : List Tokenizer} (h0 : Tokenizer.start file ∈ l) (hc : closed l = true)
    {t : Tokenizer} (h : Reads file t) : t ∈ l := by
  induction h with
  | start => exact h0
  | next _ hn ih =>
    have := List.all_eq_true.1 hc _ ih
    rw [hn] at this
    simpa using this

/-- The paths after `$INCLUDE` tokens. -/
def includedPaths (l : List Tokenizer) : List Str := l.filterMap fun t => match t.next with
  | .ok (.includeDir, t1) => (match t1.nextAfterBlanks with
    | .ok (name, _) => includeFile name
    | _ => none)
  | _ => none

theorem includes_mem {file : List (Option Str)} {l : List Tokenizer} (h0 : Tokenizer.start file ∈ l)
    (hc : closed l = true) {path : Str} (h : Includes file path) : path ∈ includedPaths l := by
  obtain ⟨t, t1, t2, name, hr, h1, h2, h3⟩ := h
  refine List.mem_filterMap.2 ⟨t, reads_mem h0 hc hr, ?_⟩
  rw [h1]
  simp only
  rw [h2]
  rcases h3 with rfl | ⟨n, rfl, rfl⟩ <;> rfl

/-- A no-break space after a blank, in a comment, in a quoted string or escaped does no harm; elsewhere it is excluded, as in the witness of
`C39_violated`. -/
example : BlankRuns .between false "t TXT \u00A0 a\\\u00A0b \"\u00A0\" ( c ) ;\u00A0".toList ∧ ¬ BlankRuns .between false "t TXT a\u00A0".toList := by
  decide +kernel

/-- Included files in a set of files: each line's path and the path it includes. -/
def includeGraph (l : List (String × List String)) : List (Str × Str) := l.flatMap fun e =>
  (includedPaths (steps 80 (Tokenizer.start (e.2.map fun s => some s.toList)))).map fun q => (e.1.toList, q)

theorem includedBy_graph {l : List (String × List String)} (hc : (l.all fun e =>
      (steps 80 (Tokenizer.start (e.2.map fun s => some s.toList))).contains
        (Tokenizer.start (e.2.map fun s => some s.toList)) &&
      closed (steps 80 (Tokenizer.start (e.2.map fun s => some s.toList)))) = true) {q p : Str}
    (h : IncludedBy (files l) q p) : (p, q) ∈ includeGraph l := by
  obtain ⟨file, hf, hi⟩ := h
  unfold files at hf
  cases he : l.find? fun e => e.1.toList == p with
  | none => rw [he] at hf; cases hf
  | some e =>
    rw [he] at hf
    simp only [Option.map_some, Option.some.injEq] at hf
    subst hf
    have hm := List.mem_of_find?_eq_some he
    have hp : e.1.toList = p := by simpa using List.find?_some he
    have h2 := List.all_eq_true.1 hc e hm
    simp only [Bool.and_eq_true, List.contains_iff_mem] at h2
    exact List.mem_flatMap.2 ⟨e, hm, List.mem_map.2 ⟨q, includes_mem h2.1 h2.2 hi, by rw [hp]⟩⟩

/-- The sample satisfies the hypotheses: "auth" includes "inc", nothing else is included. -/
theorem sample_terminates : PlainBlanks sampleFiles ∧ WellFounded (IncludedBy sampleFiles) := by
  refine ⟨fun path file hf l hl => .inr (files_lines (P := fun s => BlankRuns .between false s) (by decide +kernel) path file hf l hl), ?_⟩
  refine Subrelation.wf (r := InvImage (· < ·) fun p : Str => if p = "auth".toList then 1 else 0) ?_
    (InvImage.wf _ Nat.lt_wfRel.wf)
  intro q p hqp
  have := includedBy_graph (by decide +kernel) hqp
  have e : includeGraph [("auth", ["@ 60 IN SOA ns mail.f. 1 2 3 4 5 ; comment", "  NS ns", "ns 100 A 10.0.0.1 ",
      "$INCLUDE inc x.e.", "txt IN 50 TXT ( \"a \\\"b\"", " c ) ; more"]),
      ("inc", ["a 70 A 10.0.0.2", "$ORIGIN y.e.", "b CNAME a"]),
      ("sub", ["@ NS ns", "ns A 10.0.0.3", "@ NS ns.f."])] = [("auth".toList, "inc".toList)] := by decide +kernel
  rw [e, List.mem_singleton] at this
  cases this
  show (if "inc".toList = "auth".toList then 1 else 0) < (if "auth".toList = "auth".toList then 1 else 0)
  decide

/-! ## C44 -/

/-- Every message of the loaded records, with questions of supported types and matching counts, can be sent over TCP and
over UDP. -/
def Servable (zones : ManagedZone) : Prop :=
  ∀ m : Message, CountsMatch m → m.header.opCode = .STD →
    (∀ q ∈ m.questions, q.recordType.isSupportedForQuestion = true ∧ q.cls = .IN) →
    (∀ r ∈ m.answers ++ m.authorities ++ m.additionals, Stored zones r) →
    (∃ x, m.encodeToBytes = .ok x) ∧ ∃ x, m.encodeToBytesTrunc = .ok x

/-- The full statement of C44. -/
def C44_statement : Prop :=
  ∀ (p : Profile) (fs : Files) (o : HashOrder) (fuel : Nat) (conf : Params) (zones : ManagedZone), ValidConf conf →
    parseZoneFiles p fs o fuel conf = .ok zones → Servable zones

theorem encodeStrings_ok : ∀ {l : List Str}, (∀ s ∈ l, (strBytes s).length ≤ 255) → ∃ x, Record.encodeStrings l = .ok x
  | [], _ => ⟨[], rfl⟩
  | s :: ss, h => by
    obtain ⟨x, hx⟩ := encodeStrings_ok (l := ss) fun t ht => h t (by simp [ht])
    have hs : ¬ strLen s > 255 := by have := h s (by simp); unfold strLen; omega
    unfold Record.encodeStrings encodeCharacterString
    simp only [if_neg hs, Out.bind_ok, hx]
    exact ⟨_, rfl⟩

/-- A record with strings of at most 255 octets and class IN is encoded. -/
theorem writes_short {r : Record} (hc : r.cls = .IN) (hs : StringsAtMost 255 r) : ∃ w, Writes (Record.encode r) w := by
  have hd : ∃ w, Writes (Record.encodeData r.data) w := by
    unfold StringsAtMost at hs
    rcases hrd : r.data with ip | n | n | ⟨a, b, s, rf, rt, e, m⟩ | ⟨ip, pr, ports⟩ | n | ⟨c, os⟩ | ⟨pr, n⟩ | l
    · exact ⟨_, .bind (writes_u16 _) (writes_bytes _)⟩
    · exact ⟨_, .bind (writes_u16 _) (writes_bytes _)⟩
    · exact ⟨_, .bind (writes_u16 _) (writes_bytes _)⟩
    · exact ⟨_, .bind (writes_u16 _) (.bind (writes_bytes _) (.bind (writes_bytes _) (.bind (writes_u32 _)
        (.bind (writes_u32 _) (.bind (writes_u32 _) (.bind (writes_u32 _) (writes_u32 _)))))))⟩
    · exact ⟨_, .bind (writes_u16 _) (.bind (writes_bytes _) (.bind (writes_u8 _) (writes_ports _)))⟩
    · exact ⟨_, .bind (writes_u16 _) (writes_bytes _)⟩
    · rw [hrd] at hs
      have e1 : ¬ strLen c > 255 := by have := hs.1; unfold strLen; omega
      have e2 : ¬ strLen os > 255 := by have := hs.2; unfold strLen; omega
      exact ⟨_, .lift (by unfold encodeCharacterString; rw [if_neg e1]) (.lift (by unfold encodeCharacterString; rw [if_neg e2])
        (.bind (writes_u16 _) (.bind (writes_bytes _) (writes_bytes _))))⟩
    · exact ⟨_, .bind (writes_u16 _) (.bind (writes_u16 _) (writes_bytes _))⟩
    · rw [hrd] at hs
      obtain ⟨x, hx⟩ := encodeStrings_ok hs
      exact ⟨_, .lift hx (.bind (writes_u16 _) (writes_all _))⟩
  obtain ⟨w, hw⟩ := hd
  exact ⟨_, .assert r.data.supported (.assert (by rw [hc]; rfl) (.bind (writes_bytes _) (.bind (writes_u16 _)
    (.bind (writes_u16 _) (.bind (writes_u32 _) hw)))))⟩

theorem writes_query {q : Question} (h : q.recordType.isSupportedForQuestion = true ∧ q.cls = .IN) :
    ∃ w, Writes (Question.encode q) w :=
  ⟨_, .assert h.1 (.assert (by rw [h.2]; rfl) (.bind (writes_bytes _) (.bind (writes_u16 _) (writes_u16 _))))⟩

theorem servable_message {m : Message} (hc : CountsMatch m) (hop : m.header.opCode = .STD)
    (hq : ∀ q ∈ m.questions, ∃ w, Writes (Question.encode q) w)
    (hr : ∀ r ∈ m.answers ++ m.authorities ++ m.additionals, ∃ w, Writes (Record.encode r) w) :
    (∃ x, m.encodeToBytes = .ok x) ∧ ∃ x, m.encodeToBytesTrunc = .ok x := by
  obtain ⟨q, hq⟩ := encodings_of_all hq
  obtain ⟨an, han⟩ := encodings_of_all (xs := m.answers) fun r h => hr r (by simp [h])
  obtain ⟨au, hau⟩ := encodings_of_all (xs := m.authorities) fun r h => hr r (by simp [h])
  obtain ⟨ad, had⟩ := encodings_of_all (xs := m.additionals) fun r h => hr r (by simp [h])
  have e := encode_of_encodings hop hc hq han hau had
  exact ⟨⟨_, e⟩, (C26_truncation m hc).2 _ e⟩

theorem stored_in {p : Profile} {fs : Files} {o : HashOrder} {fuel : Nat} {conf : Params} {zones : ManagedZone}
    (hv : ValidConf conf) (h : parseZoneFiles p fs o fuel conf = .ok zones) {r : Record} (hr : Stored zones r) :
    r.cls = .IN ∧ DataOk r.data ∧ ValidName r.node.s := by
  have hs := parseZoneFiles_sat (np := False) (p := p) (fs := fs) (o := o) (fun x => x.elim) fuel conf (ownerOk hv).1
    (ownerOk hv).2
  rw [h] at hs
  obtain ⟨⟨log, soa, minimum, ha⟩, hsub, -⟩ := hs
  obtain ⟨z, hz, o', hm⟩ := hr
  rcases List.mem_cons.1 hz with rfl | hz
  · rw [mem_all ha.holds, List.mem_append, List.mem_singleton] at hm
    rcases hm.1 with hm | rfl
    · exact ⟨(ha.good r hm).cls, (ha.good r hm).data, (ha.good r hm).owner.1⟩
    · exact ⟨ha.cls, ha.valid, by rw [ha.node]; exact hv.1⟩
  · obtain ⟨c, hc, slog, hl⟩ := hsub.mem z hz
    rw [mem_all hl.holds] at hm
    refine ⟨(hl.good r hm.1).cls, (hl.good r hm.1).data (hv.2 c hc), ?_⟩
    rcases (hl.good r hm.1).owner with e | e
    · rw [e]; exact hv.2 c hc
    · exact e.2

theorem kind_of_mem {p : Profile} {fs : Files} {o o' : HashOrder} {fuel : Nat} {conf : Params} {zones : ManagedZone}
    (hv : ValidConf conf) (h : parseZoneFiles p fs o fuel conf = .ok zones) {r : Record} {kind : RecordType}
    (hr : r ∈ zones.authZone.getAllOfType o' kind) : r.recordType = kind := by
  have hs := parseZoneFiles_sat (np := False) (p := p) (fs := fs) (o := o) (fun x => x.elim) fuel conf (ownerOk hv).1
    (ownerOk hv).2
  rw [h] at hs
  obtain ⟨⟨log, soa, minimum, ha⟩, -, -⟩ := hs
  exact ((mem_all ha.holds o' _ r).1 hr).2

/-- A zone with a TXT string of 256 characters. -/
def longFiles : Files := fun path => if path = "auth".toList then
  some [some "@ 60 IN SOA a. b. 1 2 3 4 5".toList, some ("@ TXT ".toList ++ List.replicate 256 'x'),
    some "@ NS a.".toList] else none

/-- A reply with this record. -/
def longReply (r : Record) : Message :=
  { header := Header.mk 1 true .STD true false false false 0 .NoError 0 1 0 0, questions := [], answers := [r],
    authorities := [], additionals := [] }

/-- C44 does not hold: strings of any length are accepted but only 255 octets can be encoded; the servers `unwrap` the
error of the encoding. -/
theorem C44_violated : ¬ C44_statement := by
  intro h
  obtain ⟨zones, hz, hr⟩ := ok_of (x := parseZoneFiles .release longFiles forwards 10 nbspConf) (fun zones =>
    (zones.authZone.getAllOfType forwards .TXT).map (fun r => (longReply r).encodeToBytes) =
      [.err (.answerErr 0 .stringCharErr)]) (by decide +kernel)
  simp only [decide_eq_true_eq] at hr
  have hv : ValidConf nbspConf := ⟨validName_of (by decide +kernel), fun c hc => by cases hc⟩
  cases hl : zones.authZone.getAllOfType forwards .TXT with
  | nil => rw [hl] at hr; cases hr
  | cons r rs =>
    have hm : r ∈ zones.authZone.getAllOfType forwards .TXT := by rw [hl]; simp
    rw [hl, List.map_cons] at hr
    have hr := (List.cons.inj hr).1
    have hty := kind_of_mem hv hz hm
    obtain ⟨⟨x, hx⟩, -⟩ := h _ _ _ _ _ _ hv hz (longReply r) ⟨rfl, rfl, rfl, rfl⟩ rfl (fun q hq => by cases hq)
      (fun r' hr' => by
        have : r' = r := by simpa [longReply] using hr'
        subst this
        exact ⟨_, List.mem_cons_self, forwards, by rw [hty]; exact hm⟩)
    rw [hr] at hx
    cases hx

/-- C44, part: if no loaded HINFO or TXT record has a string of more than 255 octets. Missing: longer strings
(`C44_violated`). -/
theorem C44_servable_partial (p : Profile) (fs : Files) (o : HashOrder) (fuel : Nat) (conf : Params)
    (zones : ManagedZone) (hv : ValidConf conf) (h : parseZoneFiles p fs o fuel conf = .ok zones)
    (hs : ∀ r, Stored zones r → StringsAtMost 255 r) : Servable zones := fun _ hc hop hq hr =>
  servable_message hc hop (fun q hm => writes_query (hq q hm)) fun r hm =>
    writes_short (stored_in hv h (hr r hm)).1 (hs r (hr r hm))

theorem stored_everywhere {zones : ManagedZone} {P : Record → Prop}
    (h : ∀ z ∈ zones.authZone :: zones.subZones, ∀ e ∈ z.records, ∀ e' ∈ e.2, ∀ r ∈ e'.2, P r) {r : Record}
    (hr : Stored zones r) : P r := by
  obtain ⟨z, hz, o, hm⟩ := hr
  unfold Zone.getAllOfType at hm
  obtain ⟨l, hl, hrl⟩ := List.mem_flatten.1 hm
  obtain ⟨e, he, hel⟩ := List.mem_filterMap.1 hl
  exact h z hz e ((o.nodes_perm _).mem_iff.1 he) _ (assocGet_mem hel) r hrl

/-- The sample can be served. -/
example : ∃ zones, parseZoneFiles .debug sampleFiles forwards 20 sampleConf = .ok zones ∧ Servable zones := by
  obtain ⟨zones, h1, h2⟩ := ok_of (x := parseZoneFiles .debug sampleFiles forwards 20 sampleConf) (fun zones =>
    (zones.authZone :: zones.subZones).all fun z => z.records.all fun e => e.2.all fun e' => e'.2.all fun r =>
      match r.data with
      | .HINFO cpu os => (strBytes cpu).length ≤ 255 && (strBytes os).length ≤ 255
      | .TXT txts => txts.all fun s => (strBytes s).length ≤ 255
      | _ => true) (by decide +kernel)
  refine ⟨zones, h1, C44_servable_partial _ _ _ _ _ _ sample_valid h1 fun r hr => ?_⟩
  refine stored_everywhere (P := StringsAtMost 255) (fun z hz e he e' he' r hr => ?_) hr
  have h3 := List.all_eq_true.1 (List.all_eq_true.1 (List.all_eq_true.1 (List.all_eq_true.1 h2 z hz) e he) e' he') r hr
  unfold StringsAtMost
  cases hd : r.data <;> rw [hd] at h3 <;> simp_all

end Ariadne.Props
