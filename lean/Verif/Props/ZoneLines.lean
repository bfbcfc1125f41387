import Verif.Lemmas.KernelRfl
import Verif.Lemmas.ZoneText7
import Verif.Props.Loader

/-!
# The entries of zone files: C41, C42, C43
-/

namespace Ariadne.Props

open Spec ZoneParser

/-! ## C41: records mean what they say -/

/-- **C41.** If the file of the zone stands, in the grammar of RFC 1035 5.1, for a SOA record and the records `rs`, then the file
is loaded, and the zone returns exactly these records. -/
def C41_statement : Prop :=
  ∀ (fs : Files) (o : HashOrder) (conf : Params) (depth : Nat) (soa : Record) (rs : List Record), ValidConf conf →
    ZoneMeans false fs conf (fun _ => conf.startingTtl) (fun f => Included false fs f depth) soa rs →
    (∃ N, ∀ fuel ≥ N, ∃ z, parseAuthZoneFile fs o fuel conf = .ok z) ∧
    ∀ fuel z, parseAuthZoneFile fs o fuel conf = .ok z → Returns z (rs ++ [soa])

/-- **C41, partially.** For the grammar without: words that look like numbers as names or unquoted strings, at signs in the data
of records other than CNAME, relative names in PTR records, SOA records without class; and for zones other than the root.
(`C41_violated`.) Not in the grammar at all: escapes in words, escapes `\DDD`, and the services of WKS records, which the loader drops. -/
theorem C41_records_partial (fs : Files) (o : HashOrder) (conf : Params) (depth : Nat) (soa : Record) (rs : List Record)
    (hv : ValidConf conf) (hr : conf.zone.s ≠ ['.'])
    (h : ZoneMeans true fs conf (fun _ => conf.startingTtl) (fun f => Included true fs f depth) soa rs) :
    (∃ N, ∀ fuel ≥ N, ∃ z, parseAuthZoneFile fs o fuel conf = .ok z) ∧
    ∀ fuel z, parseAuthZoneFile fs o fuel conf = .ok z → Returns z (rs ++ [soa]) := by
  obtain ⟨b, hb⟩ := parseAuth_text (ord := o) hv.1 hv.2 hr (inc := fun f => Included true fs f depth)
    (fun m => included_ok fs o _ depth) h
  refine ⟨⟨b, fun fuel hf => ?_⟩, fun fuel z e => ?_⟩
  · rcases hb fuel with ⟨-, h2⟩ | ⟨z, h1, -⟩
    · omega
    · exact ⟨z, h1⟩
  · rcases hb fuel with ⟨h1, -⟩ | ⟨z', h1, h2⟩
    · rw [e] at h1; cases h1
    · rw [e] at h1; cases h1; exact h2.returns

/-- **C41, partially**: the same for the files of sub zones. -/
theorem C41_sub_partial (fs : Files) (c : SubParams) (rs : List Record) (hv : ValidName c.zone.s) (hr : c.zone.s ≠ ['.'])
    (h : SubZoneMeans true fs c rs) :
    (∃ N, ∀ fuel ≥ N, ∃ z, parseSubZoneFile fs fuel c = .ok z) ∧
    ∀ fuel z, parseSubZoneFile fs fuel c = .ok z → Returns z rs := by
  obtain ⟨ls, hfile, h⟩ := h
  obtain ⟨b, hb⟩ := parseSubEntries_text hv hr h
  have key : ∀ fuel, Gives (Holds · rs) b fuel (parseSubZoneFile fs fuel c) := by
    intro fuel
    have := hb _ (Zone.new c.zone) [] (Tokenizer.start_opens ls) (Holds.new _) fuel
    rw [List.nil_append] at this
    unfold parseSubZoneFile
    rw [hfile]
    exact this
  refine ⟨⟨b, fun fuel hf => ?_⟩, fun fuel z e => ?_⟩
  · rcases key fuel with ⟨-, h2⟩ | ⟨z, h1, -⟩
    · omega
    · exact ⟨z, h1⟩
  · rcases key fuel with ⟨h1, -⟩ | ⟨z', h1, h2⟩
    · rw [e] at h1; cases h1
    · rw [e] at h1; cases h1; exact h2.returns

theorem parseSubZones_mem {fs : Files} {fuel : Nat} : ∀ {cs : List SubParams} {zs : List Zone}, parseSubZones fs fuel cs = .ok zs →
    List.Forall₂ (fun c z => parseSubZoneFile fs fuel c = .ok z) cs zs
  | [], zs, h => by cases h; exact .nil
  | c :: cs, zs, h => by
    obtain ⟨z, h1, h⟩ := bind_eq_ok h
    obtain ⟨zs', h2, h⟩ := bind_eq_ok h
    cases h
    exact .cons h1 (parseSubZones_mem h2)

theorem forall₂_both {α β γ : Type} {P : α → β → Prop} {Q : α → γ → Prop} {R : β → γ → Prop} : ∀ {l : List α} {l1 : List β}
    {l2 : List γ}, List.Forall₂ P l l1 → List.Forall₂ Q l l2 → (∀ a ∈ l, ∀ b c, P a b → Q a c → R b c) → List.Forall₂ R l1 l2
  | [], _, _, .nil, .nil, _ => .nil
  | a :: l, _, _, .cons h1 t1, .cons h2 t2, h =>
    .cons (h a List.mem_cons_self _ _ h1 h2) (forall₂_both t1 t2 fun a ha => h a (List.mem_cons_of_mem _ ha))

/-- **C41, partially**: what the server serves, if it starts, are the records in the files. -/
theorem C41_zones_partial (p : Profile) (fs : Files) (o : HashOrder) (fuel : Nat) (conf : Params) (depth : Nat) (soa : Record)
    (rs : List Record) (subs : List (List Record)) (zones : ManagedZone) (hv : ValidConf conf) (hr : conf.zone.s ≠ ['.'])
    (hrs : ∀ c ∈ conf.subZones, c.zone.s ≠ ['.'])
    (h : ZoneMeans true fs conf (fun _ => conf.startingTtl) (fun f => Included true fs f depth) soa rs)
    (hsub : List.Forall₂ (SubZoneMeans true fs) conf.subZones subs)
    (hz : parseZoneFiles p fs o fuel conf = .ok zones) :
    Returns zones.authZone (rs ++ [soa]) ∧ List.Forall₂ Returns zones.subZones subs := by
  obtain ⟨auth, h1, hz⟩ := bind_eq_ok hz
  obtain ⟨sub, h2, hz⟩ := bind_eq_ok hz
  obtain ⟨_, h3, hz⟩ := bind_eq_ok hz
  obtain ⟨_, h4, hz⟩ := bind_eq_ok hz
  cases hz
  refine ⟨(C41_records_partial fs o conf depth soa rs hv hr h).2 _ _ h1, ?_⟩
  exact forall₂_both (parseSubZones_mem h2) hsub fun c hc z l e1 e2 =>
    (C41_sub_partial fs c l (hv.2 c hc) (hrs c hc) e2).2 _ _ e1

/-! ## C42: TTL and class -/

/-- **C42.** As C41, but the record after the SOA record may inherit the TTL stated there. -/
def C42_statement : Prop :=
  ∀ (fs : Files) (o : HashOrder) (conf : Params) (depth : Nat) (soa : Record) (rs : List Record), ValidConf conf →
    conf.zone.s ≠ ['.'] →
    ZoneMeans true fs conf (fun soa => soa.ttl) (fun f => Included true fs f depth) soa rs →
    (∃ N, ∀ fuel ≥ N, ∃ z, parseAuthZoneFile fs o fuel conf = .ok z) ∧
    ∀ fuel z, parseAuthZoneFile fs o fuel conf = .ok z → Returns z (rs ++ [soa])

/-- A place in the file, and what follows. -/
theorem zoneReaches_means {strict : Bool} {fs : Files} {conf : Params} {next : Record → UInt32}
    {inc : ZoneFrame → Str → Name → UInt32 → List Record → Prop} {soa : Record} {f : ZoneFrame} {rs rs' : List Record}
    {origin : Name} {last : UInt32} {rest : List Str} (h : ZoneReaches strict fs conf next inc soa f rs origin last rest)
    (h' : FileMeans strict f (inc f) origin last rest rs') : ZoneMeans strict fs conf next inc soa (rs ++ rs') := by
  obtain ⟨pre, ls, left, head, ws, minimum, rfl, h1, h2, h3, h4, h5, h6⟩ := h
  exact ⟨pre, ls, left, head, ws, minimum, h1, h2, h3, h4, h5, reaches_means h6 h'⟩

/-- **C42, partially.** At any place in the file where the last stated TTL is `last`, a record with TTL and class, with either or
with neither, in either order, is loaded with the class IN and the stated TTL, or else with `last`. Missing: the TTL stated in the
SOA record is not inherited (`C42_violated`; before the first record after it, `last` is the TTL in the configuration). -/
theorem C42_ttl_class_partial (fs : Files) (o : HashOrder) (conf : Params) (depth : Nat) (soa : Record) (f : ZoneFrame)
    (rs rs' : List Record) (origin node : Name) (last ttl : UInt32) (rest left : List Str) (head : Str) (ts ds : List Spec.Word)
    (data : RData) (hv : ValidConf conf) (hr : conf.zone.s ≠ ['.'])
    (h : ZoneReaches true fs conf (fun _ => conf.startingTtl) (fun f => Included true fs f depth) soa f rs origin last rest)
    (he : Spec.Entry head (ts ++ ds) rest left) (hts : TtlClass last ts ttl) (ho : OwnerText true origin head node)
    (hd : DataText true origin ds data) (hin : f.Owns node) (hmin : f.minimum ≤ ttl)
    (h' : FileMeans true f (Included true fs f depth) origin ttl left rs') :
    (∃ N, ∀ fuel ≥ N, ∃ z, parseAuthZoneFile fs o fuel conf = .ok z) ∧
    ∀ fuel z, parseAuthZoneFile fs o fuel conf = .ok z →
      Returns z (rs ++ ({ node := node, cls := .IN, ttl := ttl, dataLen := 0, data := data } : Record) :: rs' ++ [soa]) :=
  C41_records_partial fs o conf depth soa _ hv hr (zoneReaches_means h
    (.record he ⟨ts, ds, rfl, ho, hts, rfl, hd, rfl⟩ hin hmin h'))

/-! ## C43: included files -/

/-- **C43**, for every state of the including file, every store so far and every included file, in the grammar or not: if the next token is
`$INCLUDE` and the file loads, the included file was parsed with the given origin (by default, the current one) and the current
TTL into a zone of its own; the lines after the `$INCLUDE` add the same records as they do with the state before it and
without the included file; and the zone returns the records so far, those of the included file, and those of the lines
after it. -/
theorem C43_no_leak (fs : Files) (o : HashOrder) (fuel : Nat) (st : AuthState) (t t1 t2 : Tokenizer) (hist : History)
    (zf : Zone) (path : Str) (origin : Name) (hp : t.peek = .ok (.includeDir, t1))
    (hi : parseInclude t1 st = .ok (path, origin, t2)) (h : parseEntries fs o (fuel + 1) st t hist.store = .ok zf) :
    ∃ file inc after rsInc rsAfter, fs path = some file ∧
      parseEntries fs o fuel { st with currentOrig := origin } (Tokenizer.start file) (Zone.new st.zone) = .ok inc ∧
      Returns inc rsInc ∧
      parseEntries fs o fuel st t2 (Zone.new st.zone) = .ok after ∧ Returns after rsAfter ∧
      Returns zf (hist.log ++ rsInc ++ rsAfter) := by
  have hz := holds_history hist
  rw [parseEntries] at h
  simp only [hp, tok, Out.mapErr, Out.bind_ok, hi] at h
  cases hf : fs path with
  | none => rw [hf] at h; cases h
  | some file =>
    rw [hf] at h
    obtain ⟨inc, h1, h⟩ := bind_eq_ok h
    obtain ⟨rsInc, a1⟩ := parseEntries_adds _ _ _ _ _ h1
    obtain ⟨inc', e1, e2, e3⟩ := a1 _ _ (Holds.new st.zone)
    obtain rfl := e3 rfl
    obtain ⟨rsAfter, a2⟩ := parseEntries_adds _ _ _ _ _ h
    obtain ⟨after, f1, f2, -⟩ := a2 _ _ (Holds.new st.zone)
    rw [List.nil_append] at e2 f2
    obtain ⟨zf', g1, g2, g3⟩ := a2 _ _ (Holds.extend hz e2 o)
    obtain rfl := g3 rfl
    exact ⟨file, inc', after, rsInc, rsAfter, rfl, e1, e2.returns, f1, f2.returns, g2.returns⟩

/-- **C43** in the grammar: after the `$INCLUDE` the origin and the last stated TTL are what they were before it, and the
records of the included file come between the others. -/
theorem C43_grammar (fs : Files) (o : HashOrder) (conf : Params) (depth : Nat) (soa : Record) (f : ZoneFrame)
    (rs rsInc rs' : List Record) (origin origin' : Name) (last : UInt32) (rest left : List Str) (path : Str)
    (ws : List Spec.Word) (hv : ValidConf conf) (hr : conf.zone.s ≠ ['.'])
    (h : ZoneReaches true fs conf (fun _ => conf.startingTtl) (fun f => Included true fs f depth) soa f rs origin last rest)
    (he : Spec.Entry "$INCLUDE".toList (.plain path :: ws) rest left) (hp : ¬ LooksNumeric path ∧ path ≠ ['@'])
    (ho : (ws = [] ∧ origin' = origin) ∨ (∃ w, ws = [.plain w] ∧ NameText true origin w origin' ∧ f.Owns origin'))
    (hi : Included true fs f depth path origin' last rsInc)
    (h' : FileMeans true f (Included true fs f depth) origin last left rs') :
    (∃ N, ∀ fuel ≥ N, ∃ z, parseAuthZoneFile fs o fuel conf = .ok z) ∧
    ∀ fuel z, parseAuthZoneFile fs o fuel conf = .ok z → Returns z (rs ++ (rsInc ++ rs') ++ [soa]) :=
  C41_records_partial fs o conf depth soa _ hv hr (zoneReaches_means h (.include he (fun _ => hp) ho hi h'))

/-! ## The sample -/

def sampleSoaRec : Record := ⟨⟨"e.".toList⟩, .IN, 60, 0, .SOA ⟨"ns.e.".toList⟩ ⟨"mail.f.".toList⟩ 1 2 3 4 5⟩
def sampleApexNs : Record := ⟨⟨"e.".toList⟩, .IN, 60, 0, .NS ⟨"ns.e.".toList⟩⟩
def sampleAddr : Record := ⟨⟨"ns.e.".toList⟩, .IN, 100, 0, .A ⟨10, 0, 0, 1⟩⟩
def sampleIncA : Record := ⟨⟨"a.x.e.".toList⟩, .IN, 70, 0, .A ⟨10, 0, 0, 2⟩⟩
def sampleCname : Record := ⟨⟨"b.y.e.".toList⟩, .IN, 70, 0, .CNAME ⟨"a.y.e.".toList⟩⟩
def sampleTxtRec : Record := ⟨⟨"txt.e.".toList⟩, .IN, 50, 0, .TXT ["a \"b".toList, "c".toList]⟩

def sampleFrame : ZoneFrame := frameOf sampleConf 5

theorem sample_owns {n : Name} (h : (Name.fromString n.s : Out NameErr Name) = .ok ⟨n.s⟩ ∧
    n.isOnlyInAuthZone sampleConf.zone (sampleConf.subZones.map (·.zone)) = true) : sampleFrame.Owns n := by
  have hv := validName_of h.1
  have h2 := h.2
  unfold Name.isOnlyInAuthZone at h2
  by_cases hz : n.isInZone sampleConf.zone = true
  · simp only [hz, Bool.not_true, Bool.false_eq_true, if_false, Bool.not_eq_true', List.any_map] at h2
    refine ⟨within_of_isInZone hv sample_valid.1 hz, fun s hs hw => ?_⟩
    obtain ⟨c, hc, rfl⟩ := List.mem_map.1 hs
    have hr : c.zone.s ≠ ['.'] := by
      have : c.zone.s = "s.e.".toList := by simp only [sampleConf, List.mem_singleton] at hc; rw [hc]
      rw [this]; decide
    rw [← isInZone_within hv (sample_valid.2 c hc) hr] at hw
    exact List.any_eq_false.1 h2 c hc hw
  · simp [hz] at h2

theorem octet_of {w : Str} {b : UInt8} (h : ((w ≠ [] ∧ (∀ c ∈ w, '0' ≤ c ∧ c ≤ '9')) ∧
    w.foldl (fun a c => 10 * a + (c.toNat - '0'.toNat)) 0 = b.toNat) ∧ (w.head? = some '0' → w.length = 1)) : OctetText w b :=
  ⟨numeral_of h.1, h.2⟩

/-- The included file of the sample. -/
theorem sample_included (ttl : UInt32) : Included true sampleFiles sampleFrame 1 "inc".toList ⟨"x.e.".toList⟩ ttl
    [sampleIncA, sampleCname] := by
  refine ⟨["a 70 A 10.0.0.2".toList, "$ORIGIN y.e.".toList, "b CNAME a".toList], by decide, ?_⟩
  refine .record (head := "a".toList) (ws := [.plain "70".toList] ++ [.plain "A".toList, .plain "10.0.0.2".toList])
    (left := ["$ORIGIN y.e.".toList, "b CNAME a".toList]) (entryOf_sound (n := 30) (by decide +kernel))
    ⟨[.plain "70".toList], [.plain "A".toList, .plain "10.0.0.2".toList], rfl, .inr (nameText_rel ["a".toList]
      ["x".toList, "e".toList] (by decide)), .ttl (numeral_of (by decide)), rfl, .a ⟨"10".toList, "0".toList, "0".toList,
      "2".toList, by decide, octet_of (by decide), octet_of (by decide), octet_of (by decide), octet_of (by decide)⟩, rfl⟩
    (sample_owns (by decide +kernel)) (by decide) ?_
  refine .origin (origin' := ⟨"y.e.".toList⟩) (left := ["b CNAME a".toList]) (entryOf_sound (n := 30) (by decide +kernel))
    (validName_of (by decide +kernel)) (sample_owns (by decide +kernel)) ?_
  exact .record (head := "b".toList) (ws := [] ++ [.plain "CNAME".toList, .plain "a".toList])
    (left := []) (entryOf_sound (n := 30) (by decide +kernel))
    ⟨[], [.plain "CNAME".toList, .plain "a".toList], rfl, .inr (nameText_rel ["b".toList] ["y".toList, "e".toList] (by decide)),
      .neither, rfl, .cname (.inr (nameText_rel ["a".toList] ["y".toList, "e".toList] (by decide))), rfl⟩
    (sample_owns (by decide +kernel)) (by decide) .nil

def sampleRestLines : List Str := ["$INCLUDE inc x.e.".toList, "txt IN 50 TXT ( \"a \\\"b\"".toList, " c ) ; more".toList]

/-- The sample up to the `$INCLUDE`. -/
theorem sample_reaches : ZoneReaches true sampleFiles sampleConf (fun _ => sampleConf.startingTtl)
    (fun f => Included true sampleFiles f 1) sampleSoaRec sampleFrame [sampleApexNs, sampleAddr] ⟨"e.".toList⟩ 100 sampleRestLines := by
  refine ⟨[], "@ 60 IN SOA ns mail.f. 1 2 3 4 5 ; comment".toList :: "  NS ns".toList :: "ns 100 A 10.0.0.1 ".toList :: sampleRestLines,
    "  NS ns".toList :: "ns 100 A 10.0.0.1 ".toList :: sampleRestLines, "@".toList,
    [.plain "60".toList, .plain "IN".toList] ++ [.plain "SOA".toList, .plain "ns".toList, .plain "mail.f.".toList, .plain "1".toList,
      .plain "2".toList, .plain "3".toList, .plain "4".toList, .plain "5".toList], 5, rfl, by decide, by simp,
    entryOf_sound (n := 60) (by decide +kernel), ?_, by decide, ?_⟩
  · exact ⟨_, _, _, _, _, _, _, _, ⟨"ns.e.".toList⟩, ⟨"mail.f.".toList⟩, 1, 2, 3, 4, rfl, .inl ⟨.inr (by decide), rfl⟩, rfl,
      .ttlClass (numeral_of (by decide)), rfl, rfl, by decide, rfl,
      .inr (nameText_rel ["ns".toList] ["e".toList] (by decide)), .inr (nameText_abs ["mail".toList, "f".toList] (by decide)),
      numeral_of (by decide), numeral_of (by decide), numeral_of (by decide), numeral_of (by decide), numeral_of (by decide)⟩
  · refine .record (rs := [sampleApexNs]) (head := "ns".toList) (ws := [.plain "100".toList] ++ [.plain "A".toList, .plain "10.0.0.1".toList])
      (ls' := "ns 100 A 10.0.0.1 ".toList :: sampleRestLines) (r := sampleAddr) (ttl := 60)
      (.record (rs := []) (head := []) (ws := [] ++ [.plain "NS".toList, .plain "ns".toList])
        (left := "ns 100 A 10.0.0.1 ".toList :: sampleRestLines) (r := sampleApexNs) .refl
        (entryOf_sound (n := 60) (by decide +kernel))
        ⟨[], _, rfl, .inl ⟨.inl rfl, rfl⟩, .neither, rfl, .ns (.inr (nameText_rel ["ns".toList] ["e".toList] (by decide))), rfl⟩
        (sample_owns (by decide +kernel)) (by decide))
      (entryOf_sound (n := 60) (by decide +kernel))
      ⟨[.plain "100".toList], _, rfl, .inr (nameText_rel ["ns".toList] ["e".toList] (by decide)), .ttl (numeral_of (by decide)), rfl,
        .a ⟨"10".toList, "0".toList, "0".toList, "1".toList, by decide, octet_of (by decide), octet_of (by decide),
          octet_of (by decide), octet_of (by decide)⟩, rfl⟩ (sample_owns (by decide +kernel)) (by decide)

/-- The record of the sample that has its class before its TTL, two strings and parentheses. -/
theorem sample_txt : Spec.Entry "txt".toList ([.plain "IN".toList, .plain "50".toList] ++
      [.plain "TXT".toList, .quoted "a \"b".toList, .plain "c".toList]) ["txt IN 50 TXT ( \"a \\\"b\"".toList, " c ) ; more".toList] [] ∧
    TtlClass 100 [.plain "IN".toList, .plain "50".toList] 50 ∧ OwnerText true ⟨"e.".toList⟩ "txt".toList ⟨"txt.e.".toList⟩ ∧
    DataText true ⟨"e.".toList⟩ [.plain "TXT".toList, .quoted "a \"b".toList, .plain "c".toList] sampleTxtRec.data :=
  ⟨entryOf_sound (n := 60) (by decide +kernel), .classTtl (numeral_of (by decide)),
   .inr (nameText_rel ["txt".toList] ["e".toList] (by decide)),
   .txt (by simp) (.cons ⟨by decide, .inl rfl⟩ (.cons ⟨by decide, .inr ⟨rfl, fun _ => ⟨not_numeric (by decide), by decide⟩⟩⟩ .nil))⟩

/-- The sample after the `$INCLUDE`: the origin and the TTL are those before it. -/
theorem sample_after : FileMeans true sampleFrame (Included true sampleFiles sampleFrame 1) ⟨"e.".toList⟩ 100
    ["txt IN 50 TXT ( \"a \\\"b\"".toList, " c ) ; more".toList] [sampleTxtRec] :=
  .record sample_txt.1 ⟨_, _, rfl, sample_txt.2.2.1, sample_txt.2.1, rfl, sample_txt.2.2.2, rfl⟩
    (sample_owns (by decide +kernel)) (by decide) .nil

theorem sample_include : Spec.Entry "$INCLUDE".toList (.plain "inc".toList :: [.plain "x.e.".toList]) sampleRestLines
    ["txt IN 50 TXT ( \"a \\\"b\"".toList, " c ) ; more".toList] := entryOf_sound (n := 60) (by decide +kernel)

/-- The file of the sample meets the hypothesis of `C41_records_partial`. -/
theorem sample_means : ZoneMeans true sampleFiles sampleConf (fun _ => sampleConf.startingTtl)
    (fun f => Included true sampleFiles f 1) sampleSoaRec ([sampleApexNs, sampleAddr] ++ ([sampleIncA, sampleCname] ++ [sampleTxtRec])) :=
  zoneReaches_means sample_reaches (.include sample_include (fun _ => ⟨not_numeric (by decide), by decide⟩)
    (.inr ⟨"x.e.".toList, rfl, nameText_abs ["x".toList, "e".toList] (by decide), sample_owns (by decide +kernel)⟩)
    (sample_included _) sample_after)

example (o : HashOrder) : (∃ N, ∀ fuel ≥ N, ∃ z, parseAuthZoneFile sampleFiles o fuel sampleConf = .ok z) ∧
    ∀ fuel z, parseAuthZoneFile sampleFiles o fuel sampleConf = .ok z →
      Returns z [sampleApexNs, sampleAddr, sampleIncA, sampleCname, sampleTxtRec, sampleSoaRec] :=
  C41_records_partial sampleFiles o sampleConf 1 _ _ sample_valid (by decide) sample_means

/-- `C43_grammar` applies to it. -/
example (o : HashOrder) : ∀ fuel z, parseAuthZoneFile sampleFiles o fuel sampleConf = .ok z →
      Returns z [sampleApexNs, sampleAddr, sampleIncA, sampleCname, sampleTxtRec, sampleSoaRec] :=
  (C43_grammar sampleFiles o sampleConf 1 _ _ _ _ _ _ _ _ _ _ _ _ sample_valid (by decide) sample_reaches sample_include
    ⟨not_numeric (by decide), by decide⟩
    (.inr ⟨"x.e.".toList, rfl, nameText_abs ["x".toList, "e".toList] (by decide), sample_owns (by decide +kernel)⟩)
    (sample_included _) sample_after).2

/-- The TXT record of the sample, in the five ways to write it after a TTL of 100. -/
example : TtlClass 100 [] 100 ∧ TtlClass 100 [.plain "50".toList] 50 ∧ TtlClass 100 [.plain "IN".toList] 100 ∧
    TtlClass 100 [.plain "50".toList, .plain "IN".toList] 50 ∧ TtlClass 100 [.plain "IN".toList, .plain "50".toList] 50 :=
  ⟨.neither, .ttl (numeral_of (by decide)), .cls, .ttlClass (numeral_of (by decide)), .classTtl (numeral_of (by decide))⟩

/-- `C42_ttl_class_partial` applies to the sample. -/
example (o : HashOrder) : ∀ fuel z, parseAuthZoneFile sampleFiles o fuel sampleConf = .ok z →
      Returns z [sampleApexNs, sampleAddr, sampleIncA, sampleCname, sampleTxtRec, sampleSoaRec] := by
  have h : ZoneReaches true sampleFiles sampleConf (fun _ => sampleConf.startingTtl)
      (fun f => Included true sampleFiles f 1) sampleSoaRec sampleFrame ([sampleApexNs, sampleAddr] ++ [sampleIncA, sampleCname]) ⟨"e.".toList⟩ 100
      ["txt IN 50 TXT ( \"a \\\"b\"".toList, " c ) ; more".toList] := by
    obtain ⟨pre, ls, left, head, ws, minimum, h0, h1, h2, h3, h4, h5, h6⟩ := sample_reaches
    exact ⟨pre, ls, left, head, ws, minimum, h0, h1, h2, h3, h4, h5, .include h6 sample_include
      (fun _ => ⟨not_numeric (by decide), by decide⟩)
      (.inr ⟨"x.e.".toList, rfl, nameText_abs ["x".toList, "e".toList] (by decide), sample_owns (by decide +kernel)⟩)
      (sample_included _)⟩
  exact (C42_ttl_class_partial sampleFiles o sampleConf 1 _ _ _ [] _ _ _ _ _ _ _ _ _ _ sample_valid (by decide) h
    sample_txt.1 sample_txt.2.1 sample_txt.2.2.1 sample_txt.2.2.2 (sample_owns (by decide +kernel)) (by decide) .nil).2

def sampleSubRecs : List Record :=
  [⟨⟨"s.e.".toList⟩, .IN, 60, 0, .NS ⟨"ns.s.e.".toList⟩⟩, ⟨⟨"ns.s.e.".toList⟩, .IN, 60, 0, .A ⟨10, 0, 0, 3⟩⟩,
   ⟨⟨"s.e.".toList⟩, .IN, 60, 0, .NS ⟨"ns.f.".toList⟩⟩]

/-- The file of the sub zone of the sample. -/
theorem sample_sub : SubZoneMeans true sampleFiles ⟨"sub".toList, ⟨"s.e.".toList⟩, 60, 1⟩ sampleSubRecs := by
  have hz : ValidName "s.e.".toList := validName_of (by decide +kernel)
  refine ⟨["@ NS ns".toList, "ns A 10.0.0.3".toList, "@ NS ns.f.".toList], by decide, ?_⟩
  refine .record (head := "@".toList) (ws := [] ++ [.plain "NS".toList, .plain "ns".toList])
    (left := ["ns A 10.0.0.3".toList, "@ NS ns.f.".toList]) (entryOf_sound (n := 60) (by decide +kernel))
    ⟨[], _, rfl, .inl ⟨.inr (by decide), rfl⟩, .neither, rfl,
      .ns (.inr (nameText_rel ["ns".toList] ["s".toList, "e".toList] (by decide))), rfl⟩ (.inr rfl) (within_refl hz) (by decide) ?_
  refine .record (head := "ns".toList) (ws := [] ++ [.plain "A".toList, .plain "10.0.0.3".toList])
    (left := ["@ NS ns.f.".toList]) (entryOf_sound (n := 60) (by decide +kernel))
    ⟨[], _, rfl, .inr (nameText_rel ["ns".toList] ["s".toList, "e".toList] (by decide)), .neither, rfl,
      .a ⟨"10".toList, "0".toList, "0".toList, "3".toList, by decide, octet_of (by decide), octet_of (by decide),
          octet_of (by decide), octet_of (by decide)⟩, rfl⟩ (.inl rfl)
      (within_of_isInZone (validName_of (by decide +kernel)) hz (by decide +kernel)) (by decide) ?_
  exact .record (head := "@".toList) (ws := [] ++ [.plain "NS".toList, .plain "ns.f.".toList])
    (left := []) (entryOf_sound (n := 60) (by decide +kernel))
    ⟨[], _, rfl, .inl ⟨.inr (by decide), rfl⟩, .neither, rfl,
      .ns (.inr (nameText_abs ["ns".toList, "f".toList] (by decide))), rfl⟩ (.inr rfl) (within_refl hz) (by decide) .nil

/-- `C43_no_leak` applies to the sample: the state at the `$INCLUDE` line. -/
example : ∃ t1 t2 zf, (Tokenizer.start (sampleRestLines.map some)).peek = .ok (.includeDir, t1) ∧
    parseInclude t1 ⟨⟨"e.".toList⟩, [⟨"s.e.".toList⟩], ⟨"e.".toList⟩, 100, 5⟩ = .ok ("inc".toList, ⟨"x.e.".toList⟩, t2) ∧
    parseEntries sampleFiles forwards (9 + 1) ⟨⟨"e.".toList⟩, [⟨"s.e.".toList⟩], ⟨"e.".toList⟩, 100, 5⟩
      (Tokenizer.start (sampleRestLines.map some)) (History.insert (.new ⟨"e.".toList⟩) sampleAddr).store = .ok zf := by
  obtain ⟨⟨k, t1⟩, e1, h1⟩ := ok_of (x := (Tokenizer.start (sampleRestLines.map some)).peek) (fun r => decide (r.1 = .includeDir))
    (by decide +kernel)
  simp only [decide_eq_true_eq] at h1
  subst h1
  obtain ⟨⟨k, t1'⟩, e1', h1⟩ := ok_of (x := (Tokenizer.start (sampleRestLines.map some)).peek) (fun r =>
    match parseInclude r.2 ⟨⟨"e.".toList⟩, [⟨"s.e.".toList⟩], ⟨"e.".toList⟩, 100, 5⟩ with
    | .ok a => decide (a.1 = "inc".toList ∧ a.2.1 = ⟨"x.e.".toList⟩)
    | _ => false) (by decide +kernel)
  rw [e1] at e1'
  cases e1'
  obtain ⟨⟨p, o, t2⟩, e2, h2⟩ := ok_of (x := parseInclude t1 ⟨⟨"e.".toList⟩, [⟨"s.e.".toList⟩], ⟨"e.".toList⟩, 100, 5⟩)
    (fun r => decide (r.1 = "inc".toList ∧ r.2.1 = ⟨"x.e.".toList⟩))
    (by revert h1; dsimp only; cases parseInclude t1 ⟨⟨"e.".toList⟩, [⟨"s.e.".toList⟩], ⟨"e.".toList⟩, 100, 5⟩ <;> exact id)
  simp only [decide_eq_true_eq] at h2
  obtain ⟨rfl, rfl⟩ := h2
  obtain ⟨zf, e3, -⟩ := ok_of (x := parseEntries sampleFiles forwards (9 + 1)
    ⟨⟨"e.".toList⟩, [⟨"s.e.".toList⟩], ⟨"e.".toList⟩, 100, 5⟩
      (Tokenizer.start (sampleRestLines.map some)) (History.insert (.new ⟨"e.".toList⟩) sampleAddr).store) (fun _ => true) (by decide +kernel)
  exact ⟨t1, t2, zf, e1, e2, e3⟩

/-! ## Where the statements fail -/

/-- A reverse zone as it is usually written: owners are numbers. -/
def reverseConf : Params := { filePath := "auth".toList, zone := ⟨"e.".toList⟩, startingTtl := 60, subZones := [] }
def reverseFiles : Files := files [("auth", ["@ 60 IN SOA ns.f. mail.f. 1 2 3 4 5", "10 PTR a.f."])]

theorem reverse_valid : ValidConf reverseConf := ⟨validName_of (by decide +kernel), fun c hc => by cases hc⟩

theorem reverse_soa (left : List Str) : Spec.Entry "@".toList ([.plain "60".toList, .plain "IN".toList] ++
      [.plain "SOA".toList, .plain "ns.f.".toList, .plain "mail.f.".toList, .plain "1".toList,
      .plain "2".toList, .plain "3".toList, .plain "4".toList, .plain "5".toList])
    ("@ 60 IN SOA ns.f. mail.f. 1 2 3 4 5".toList :: left) left ∧
    ∀ strict, SoaText strict ⟨"e.".toList⟩ 60 "@".toList ([.plain "60".toList, .plain "IN".toList] ++
      [.plain "SOA".toList, .plain "ns.f.".toList, .plain "mail.f.".toList, .plain "1".toList,
      .plain "2".toList, .plain "3".toList, .plain "4".toList, .plain "5".toList])
      ⟨⟨"e.".toList⟩, .IN, 60, 0, .SOA ⟨"ns.f.".toList⟩ ⟨"mail.f.".toList⟩ 1 2 3 4 5⟩ 5 :=
  ⟨entryOf_sound (n := 60) rfl, fun strict => ⟨_, _, _, _, _, _, _, _, ⟨"ns.f.".toList⟩, ⟨"mail.f.".toList⟩, 1, 2, 3, 4, rfl,
    .inl ⟨.inr (by decide), rfl⟩, rfl, .ttlClass (numeral_of (by decide)), rfl, rfl, fun _ => by decide, rfl,
    .inr (nameText_weak (nameText_abs ["ns".toList, "f".toList] (by decide))),
    .inr (nameText_weak (nameText_abs ["mail".toList, "f".toList] (by decide))),
    numeral_of (by decide), numeral_of (by decide), numeral_of (by decide), numeral_of (by decide), numeral_of (by decide)⟩⟩

/-- Whether loading failed. -/
def failed {ε α : Type} : Out ε α → Bool
  | .err _ => true
  | _ => false

theorem reverse_fails (o : HashOrder) (n : Nat) : failed (parseAuthZoneFile reverseFiles o (Nat.succ n) reverseConf) = true := by
  kernel_rfl

/-- C41 does not hold: "10 PTR a.f." is rejected, because the owner is taken for a number. -/
theorem C41_violated : ¬ C41_statement := by
  intro h
  have hz : ZoneMeans false reverseFiles reverseConf (fun _ => 60) (fun f => Included false reverseFiles f 0)
      ⟨⟨"e.".toList⟩, .IN, 60, 0, .SOA ⟨"ns.f.".toList⟩ ⟨"mail.f.".toList⟩ 1 2 3 4 5⟩
      [⟨⟨"10.e.".toList⟩, .IN, 60, 0, .PTR ⟨"a.f.".toList⟩⟩] := by
    refine ⟨[], _, ["10 PTR a.f.".toList], _, _, 5, by decide, by simp, (reverse_soa _).1, (reverse_soa []).2 _, by decide, ?_⟩
    refine .record (head := "10".toList) (ws := [] ++ [.plain "PTR".toList, .plain "a.f.".toList])
      (left := []) (entryOf_sound (n := 30) (by decide +kernel)) ⟨[], _, rfl, .inr ⟨fun h => (by cases h), by decide,
        ["10".toList, "e".toList], nameOf_of (by decide), .inr ⟨["10".toList], ["e".toList], by decide, nameOf_of (by decide),
        nameOf_of (by decide), rfl⟩⟩, .neither, rfl, .ptr (.inr (nameText_weak (nameText_abs ["a".toList, "f".toList] (by decide))))
        (fun h => (by cases h)), rfl⟩ ⟨within_of_isInZone (validName_of (by decide +kernel)) reverse_valid.1 (by decide +kernel),
        fun s hs => (by cases hs)⟩ (by decide) .nil
  obtain ⟨⟨N, h1⟩, -⟩ := h reverseFiles forwards reverseConf 0 _ _ reverse_valid hz
  obtain ⟨z, hz⟩ := h1 (Nat.succ N) (Nat.le_succ N)
  have := reverse_fails forwards N
  rw [hz] at this
  cases this

/-- The SOA record states a TTL of 60, the configuration another one. -/
def inheritConf : Params := { filePath := "auth".toList, zone := ⟨"e.".toList⟩, startingTtl := 9, subZones := [] }
def inheritFiles : Files := files [("auth", ["@ 60 IN SOA ns.f. mail.f. 1 2 3 4 5", "@ NS ns.f."])]

/-- C42 does not hold: the record after the SOA record gets the TTL of the configuration, not the one stated in the SOA. -/
theorem C42_violated : ¬ C42_statement := by
  intro h
  have hz : ZoneMeans true inheritFiles inheritConf (fun soa => soa.ttl) (fun f => Included true inheritFiles f 0)
      ⟨⟨"e.".toList⟩, .IN, 60, 0, .SOA ⟨"ns.f.".toList⟩ ⟨"mail.f.".toList⟩ 1 2 3 4 5⟩
      [⟨⟨"e.".toList⟩, .IN, 60, 0, .NS ⟨"ns.f.".toList⟩⟩] := by
    refine ⟨[], _, ["@ NS ns.f.".toList], _, _, 5, by decide, by simp, (reverse_soa _).1, ?_, by decide, ?_⟩
    · exact ⟨[.plain "60".toList, .plain "IN".toList], _, _, _, _, _, _, _, ⟨"ns.f.".toList⟩, ⟨"mail.f.".toList⟩, 1, 2, 3, 4, rfl,
        .inl ⟨.inr (by decide), rfl⟩, rfl, .ttlClass (numeral_of (by decide)), rfl, rfl, fun _ => by decide, rfl,
        .inr (nameText_abs ["ns".toList, "f".toList] (by decide)), .inr (nameText_abs ["mail".toList, "f".toList] (by decide)),
        numeral_of (by decide), numeral_of (by decide), numeral_of (by decide), numeral_of (by decide), numeral_of (by decide)⟩
    · exact .record (head := "@".toList) (ws := [] ++ [.plain "NS".toList, .plain "ns.f.".toList])
        (left := []) (entryOf_sound (n := 30) (by decide +kernel)) ⟨[], _, rfl, .inl ⟨.inr (by decide), rfl⟩, .neither, rfl,
          .ns (.inr (nameText_abs ["ns".toList, "f".toList] (by decide))), rfl⟩ ⟨within_refl reverse_valid.1, fun s hs => (by cases hs)⟩
        (by decide) .nil
  obtain ⟨-, h1⟩ := h inheritFiles forwards inheritConf 0 _ _ ⟨reverse_valid.1, fun c hc => by cases hc⟩ (by decide) hz
  obtain ⟨z, e1, e2⟩ := ok_of (x := parseAuthZoneFile inheritFiles forwards 9 inheritConf)
    (fun z => decide ((z.get .debug ⟨"e.".toList⟩ .NS : Out ParsingErr _) = .ok (some [⟨⟨"e.".toList⟩, .IN, 9, 0, .NS ⟨"ns.f.".toList⟩⟩])))
    (by decide +kernel)
  have e3 := (h1 _ _ e1).1 .debug ⟨"e.".toList⟩ .NS
  rw [decide_eq_true_eq] at e2
  rw [e2] at e3
  revert e3
  decide +kernel

end Ariadne.Props
