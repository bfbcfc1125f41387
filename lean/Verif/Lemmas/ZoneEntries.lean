import Verif.Lemmas.ZoneParser

/-! # The zone parser: files -/

namespace Ariadne.ZoneParser

open Tokenizer Spec

variable {np nd : Prop}

/-- What `peek` gives between entries. -/
structure Opened (np nd : Prop) (t : Tokenizer) (r : Token × Tokenizer) : Prop where
  entry : r.1 ≠ .end → Entry np nd r.2 r.1
  after : After t r.2
  step : t.next = .ok (r.1, bare r.2)
  shrink : nd → r.1 ≠ .end → r.2.size < t.size

theorem peek_sat {t : Tokenizer} (h : Fresh t) (hi : InputOk np nd t) : Sat np nd (tok t.peek) (Opened np nd t) := by
  refine tok_sat ?_
  unfold peek
  refine Sat.bind (next_sat (np := np) (nd := nd) (pl := nd) h hi.clean hi.plain) fun r hr k => ?_
  have a := after_put r.2 (r.2.peeked ++ [r.1])
  have e : r.2.peeked ++ [r.1] = [r.1] := by rw [k.peeked]; rfl
  refine ⟨fun he => ⟨k.live he, e, (hi.after k.after).after a⟩, k.after.trans a, ?_, fun x y => k.shrink x y⟩
  show t.next = .ok (r.1, bare r.2)
  rw [hr, bare_of k.peeked]

/-- A predicate on owners that origins satisfy and checked names satisfy. -/
structure Owners (zone : Name) (subZones : List Name) (own : Name → Prop) : Prop where
  checked : ∀ n, n.isOnlyInAuthZone zone subZones = true → ValidName n.s → own n
  valid : ∀ n, own n → ValidName n.s

/-- A record of the authoritative zone, other than the SOA. -/
structure Good (own : Name → Prop) (minTtl : UInt32) (r : Record) : Prop where
  owner : own r.node
  cls : r.cls = .IN
  ttl : minTtl ≤ r.ttl
  notSoa : r.recordType ≠ .SOA
  len : r.dataLen = 0
  data : DataOk r.data

theorem RecOk.good {st : AuthState} {r : Record} {own : Name → Prop} (h : RecOk st r)
    (ho : Owners st.zone st.subZones own) (hc : own st.currentOrig) : Good own st.minTtl r where
  owner := by
    rcases h.owner with e | ⟨e, v⟩
    · rw [e]; exact hc
    · exact ho.checked _ e v
  cls := h.cls
  ttl := h.ttl
  notSoa := h.notSoa
  len := h.len
  data := h.data (ho.valid _ hc)

/-- In all files, words and quoted strings with escapes end before the end of the line. -/
def CleanFiles (fs : Files) : Prop := ∀ path file, fs path = some file → ∀ l, some l ∈ file → EscapesEnd l

theorem start_clean {file : List (Option Str)} (h : ∀ l, some l ∈ file → EscapesEnd l) : (start file).Clean :=
  ⟨tidy_nil _, fun l hl => tidy_of_ends (h l hl)⟩

theorem At.fresh {t0 t : Tokenizer} (h : At np nd t0 t) (hp : t.peeked = []) : Fresh t :=
  ⟨hp, fun e => absurd e h.line⟩

theorem insertAll_zone (rs : List Record) (z : Zone) : (rs.foldl Zone.insert z).zone = z.zone := by
  induction rs generalizing z with
  | nil => rfl
  | cons r rs ih => exact ih (z.insert r)

theorem extend_zone (o : HashOrder) (z z' : Zone) : (z.extend o z').zone = z.zone := insertAll_zone _ _

/-- Entries: no panics on clean files; what is added to the zone. -/
theorem parseEntries_sat {fs : Files} {o : HashOrder} (hfs : np → CleanFiles fs) {own : Name → Prop} :
    ∀ (fuel : Nat) (st : AuthState) {t : Tokenizer} {z : Zone} {log : List Record}, Owners st.zone st.subZones own →
    own st.currentOrig → Fresh t → (np → t.Clean) → Holds z log →
    Sat np False (parseEntries fs o fuel st t z) fun z' => z'.zone = z.zone ∧ ∃ more, Holds z' (log ++ more) ∧
      ∀ r ∈ more, Good own st.minTtl r
  | 0, _, _, _, _, _, _, _, _, _ => fun h => h
  | fuel + 1, st, t, z, log, ho, hc, hf, hcl, hz => by
    unfold parseEntries
    refine Sat.bind (peek_sat (np := np) (nd := False) hf ⟨hcl, fun h => h.elim⟩) fun r _ k => ?_
    obtain ⟨tk, t1⟩ := r
    simp only
    have onRecord : ((∃ s, tk = .string s) ∨ tk = .at ∨ tk = .blank) → Sat np False (do
        let (record, t) ← parseRecord fuel t1 st
        parseEntries fs o fuel { st with currentTtl := record.ttl } t (z.insert record)) fun z' =>
          z'.zone = z.zone ∧ ∃ more, Holds z' (log ++ more) ∧ ∀ r ∈ more, Good own st.minTtl r := fun htk => by
      have hne : tk ≠ .end := by rcases htk with ⟨s, rfl⟩ | rfl | rfl <;> simp
      have he := k.entry hne
      simp only at he
      refine Sat.bind (parseRecord_sat he htk (fun h => h.elim) st) fun r2 _ w => ?_
      obtain ⟨rec, t2⟩ := r2
      have h2 := parseEntries_sat (o := o) hfs fuel { st with currentTtl := rec.ttl } (t := t2) (z := z.insert rec) ho hc
        (w.1.fresh w.2.1) w.1.input.clean (hz.insert rec)
      refine h2.mono fun z' _ q => ⟨q.1, ?_⟩
      obtain ⟨more, q1, q2⟩ := q.2
      refine ⟨rec :: more, by simpa [List.append_assoc] using q1, fun r hr => ?_⟩
      rcases List.mem_cons.1 hr with rfl | hr
      · exact w.2.2.good ho hc
      · exact q2 r hr
    cases tk with
    | «end» => exact ⟨rfl, [], by simpa using hz, by simp⟩
    | originDir =>
      simp only
      have he := k.entry (by simp)
      simp only at he
      refine Sat.bind (parseOrigin_sat he st) fun r2 _ w => ?_
      exact parseEntries_sat hfs fuel { st with currentOrig := r2.1 } ho (ho.checked _ w.2.2.2 w.2.2.1) (w.1.fresh w.2.1)
        w.1.input.clean hz
    | includeDir =>
      simp only
      have he := k.entry (by simp)
      simp only at he
      refine Sat.bind (parseInclude_sat he st) fun r2 _ w => ?_
      obtain ⟨path, origin, t2⟩ := r2
      simp only at w ⊢
      have hown : own origin := by
        rcases w.2.2.2.1 with e | h1
        · rw [e]; exact hc
        · rcases w.2.2.2.2 with e | h2
          · rw [e]; exact hc
          · exact ho.checked _ h1 h2
      cases hfile : fs path with
      | none => trivial
      | some file =>
        simp only
        refine Sat.bind (parseEntries_sat hfs fuel { st with currentOrig := origin } (z := Zone.new st.zone) (log := [])
          ho hown (start_fresh file) (fun x => start_clean (hfs x path file hfile)) (Holds.new _)) fun inc _ q => ?_
        obtain ⟨_, more, q1, q2⟩ := q
        have h3 := hz.extend q1 o
        refine (parseEntries_sat hfs fuel st ho hc (w.1.fresh w.2.1) w.1.input.clean h3).mono fun z' _ q' => ?_
        obtain ⟨e, more', q3, q4⟩ := q'
        refine ⟨?_, more ++ more', by simpa [List.append_assoc] using q3, fun r hr => ?_⟩
        · rw [e, extend_zone]
        · rcases List.mem_append.1 hr with hr | hr
          · exact q2 r hr
          · exact q4 r hr
    | string s => exact onRecord (.inl ⟨s, rfl⟩)
    | «at» => exact onRecord (.inr (.inl rfl))
    | blank => exact onRecord (.inr (.inr rfl))
    | _ => exact trivial


/-- The first token of a file. -/
theorem first_sat {t : Tokenizer} (h : Fresh t) (hi : InputOk np nd t) :
    Sat np nd (tok t.next) fun r => r.1 ≠ .end → At np nd t r.2 ∧ r.2.peeked = [] := by
  refine tok_sat ?_
  refine (next_sat (np := np) (nd := nd) (pl := nd) h hi.clean hi.plain).mono fun r hr k he => ?_
  refine ⟨⟨k.after, ?_, k.live he, .inl k.peeked, hi.after k.after⟩, k.peeked⟩
  rw [bare_of h.peeked, bare_of k.peeked]
  exact Relation.ReflTransGen.single ⟨_, hr⟩

theorem parseStartingSoa_sat {t : Tokenizer} (h : Fresh t) (hi : InputOk np nd t) (st : AuthState) :
    Sat np nd (parseStartingSoa t st) fun r => At np nd t r.2.2 ∧ r.2.2.peeked = [] ∧ r.1.node = st.zone ∧ r.1.cls = .IN ∧
      r.2.1 ≤ r.1.ttl ∧ (∃ a b s rf rt e, r.1.data = .SOA a b s rf rt e r.2.1) ∧ r.1.dataLen = 0 ∧
      (ValidName st.zone.s → DataOk r.1.data) := by
  unfold parseStartingSoa
  refine Sat.bind (first_sat h hi) fun r _ k => ?_
  obtain ⟨tk, t1⟩ := r
  simp only at k ⊢
  have rest : ∀ node : Name, tk ≠ .end → Sat np nd (if node ≠ st.zone then .err .nameNotInRootNode
      else do
        let ((ttl, cls), t) ← parseTtlClass t1
        match cls with
        | none => .err .malformedData
        | some cls => do
          let ttl := ttl.getD st.currentTtl
          ensureClassIsSupported cls
          let (typeTok, t) ← tok t.nextAfterBlanks
          match typeTok with
          | .string s =>
            match RecordType.fromStr s with
            | none => .err .malformedData
            | some ty =>
              if ty ≠ .SOA then .err .unexpectedRecord
              else do
                let (soa, minimum, t) ← parseSoa t st.zone { node := node, cls := cls, ttl := ttl }
                ensureMinTtl minimum ttl
                let t ← endOfEntry t
                (.ok (soa, minimum, t) : Out ParseErr (Record × UInt32 × Tokenizer))
          | other => .err (.unexpectedToken other)) fun r => At np nd t r.2.2 ∧ r.2.2.peeked = [] ∧ r.1.node = st.zone ∧ r.1.cls = .IN ∧
      r.2.1 ≤ r.1.ttl ∧ (∃ a b s rf rt e, r.1.data = .SOA a b s rf rt e r.2.1) ∧ r.1.dataLen = 0 ∧
      (ValidName st.zone.s → DataOk r.1.data) := fun node hne => by
    refine Sat.ite (fun _ => trivial) fun hnode => ?_
    have hnode : node = st.zone := by simpa using hnode
    refine Sat.bind (parseTtlClass_sat (k hne).1) fun r2 _ w2 => ?_
    obtain ⟨⟨ttl, cls⟩, t2⟩ := r2
    cases cls with
    | none => exact trivial
    | some cls =>
      simp only at w2 ⊢
      refine Sat.bind (ensureClass_sat _) fun _ _ hcls => Sat.bind (nabT w2) fun r3 _ w3 => ?_
      obtain ⟨tk3, t3⟩ := r3
      cases tk3 with
      | string s =>
        simp only
        cases hty : RecordType.fromStr s with
        | none => trivial
        | some ty =>
          simp only
          refine Sat.ite (fun _ => trivial) fun _ => ?_
          refine Sat.bind (parseSoa_sat w3.at' _ _) fun r4 _ w4 => Sat.bind (ensureMinTtl_sat _ _) fun _ _ httl =>
            Sat.bind (endOfEntry_sat w4.1) fun t5 _ w5 => ?_
          obtain ⟨h1, ⟨a, b, s, rf, rt, e, he⟩, h3⟩ := w4
          refine ⟨w5.1, w5.2, ?_, ?_, ?_, ⟨a, b, s, rf, rt, e, ?_⟩, ?_, h3⟩
          · show r4.1.node = _; rw [he]; exact hnode
          · show r4.1.cls = _; rw [he]; exact hcls
          · show _ ≤ r4.1.ttl; rw [he]; exact httl
          · show r4.1.data = _; rw [he]; rfl
          · show r4.1.dataLen = _; rw [he]; rfl
      | _ => exact trivial
  cases tk with
  | string s => exact Sat.bind (adjustName_sat _ _) fun node _ _ => rest node (by simp)
  | blank => exact rest st.zone (by simp)
  | «at» => exact rest st.zone (by simp)
  | _ => exact trivial


/-- The authoritative zone: its SOA, and the other records. -/
structure AuthLoaded (conf : Params) (own : Name → Prop) (z : Zone) (log : List Record) (soa : Record) (minimum : UInt32) :
    Prop where
  holds : Holds z (log ++ [soa])
  zone : z.zone = conf.zone
  good : ∀ r ∈ log, Good own minimum r
  node : soa.node = conf.zone
  cls : soa.cls = .IN
  ttl : minimum ≤ soa.ttl
  data : ∃ a b s rf rt e, soa.data = .SOA a b s rf rt e minimum
  len : soa.dataLen = 0
  valid : DataOk soa.data

theorem parseAuthZoneFile_sat {fs : Files} {o : HashOrder} (hfs : np → CleanFiles fs) {own : Name → Prop} (fuel : Nat)
    (conf : Params) (ho : Owners conf.zone (conf.subZones.map (·.zone)) own) (hc : own conf.zone) :
    Sat np False (parseAuthZoneFile fs o fuel conf) fun z => ∃ log soa minimum, AuthLoaded conf own z log soa minimum := by
  unfold parseAuthZoneFile
  cases hfile : fs conf.filePath with
  | none => trivial
  | some file =>
    simp only
    refine Sat.bind (parseStartingSoa_sat (start_fresh file)
      ⟨fun x => start_clean (hfs x _ file hfile), fun h => h.elim⟩ _) fun r _ w => ?_
    obtain ⟨soa, minimum, t⟩ := r
    simp only at w ⊢
    obtain ⟨w1, w2, w3, w4, w5, w6, w7, w8⟩ := w
    refine Sat.bind (parseEntries_sat (o := o) hfs fuel _ (z := Zone.new conf.zone) (log := []) ho hc (w1.fresh w2)
      w1.input.clean (Holds.new _)) fun z _ q => ?_
    obtain ⟨q1, log, q2, q3⟩ := q
    exact ⟨log, soa, minimum, by simpa using q2.insert soa, q1, q3, w3, w4, w5, w6, w7, w8 (ho.valid _ hc)⟩

/-- A record of a sub zone. -/
structure SubGood (zone : Name) (minTtl : UInt32) (r : Record) : Prop where
  owner : r.node = zone ∨ (r.node.isInZone zone = true ∧ ValidName r.node.s)
  cls : r.cls = .IN
  ttl : minTtl ≤ r.ttl
  type : r.recordType = .A ∨ r.recordType = .NS
  len : r.dataLen = 0
  data : ValidName zone.s → DataOk r.data

theorem parseSubRecord_sat {t : Tokenizer} {tk : Token} (h : Entry np nd t tk)
    (htk : (∃ s, tk = .string s) ∨ tk = .at ∨ tk = .blank) (zone : Name) (cur min : UInt32) :
    Sat np nd (parseSubRecord t zone cur min) fun r => At np nd t r.2 ∧ r.2.peeked = [] ∧ SubGood zone min r.1 := by
  unfold parseSubRecord
  refine Sat.bind (parseOwner_sat h htk _ fun n => ensureNameInZone_sat n zone) fun r1 _ w1 =>
    Sat.bind (parseTtlClass_sat w1.1) fun r2 _ w2 => Sat.bind (ensureClass_sat _) fun _ _ hcls =>
    Sat.bind (ensureMinTtl_sat _ _) fun _ _ httl => Sat.bind (nabT w2) fun r3 _ w3 => ?_
  obtain ⟨tk3, t3⟩ := r3
  cases tk3 with
  | string s =>
    simp only
    refine Sat.bind (P := fun r4 : Record × Tokenizer => At np nd t r4.2 ∧ SubGood zone min r4.1) ?_ fun r4 _ w4 => by
      refine Sat.bind (endOfEntry_sat w4.1) fun t5 _ w5 => ?_
      exact ⟨w5.1, w5.2, w4.2⟩
    unfold parseSubData
    have fin : ∀ ty : RecordType, ty = .A ∨ ty = .NS → ∀ r4 : Record × Tokenizer,
        Parsed np nd t zone ⟨r1.1, r2.1.2.getD .IN, r2.1.1.getD cur⟩ ty r4 →
        At np nd t r4.2 ∧ SubGood zone min r4.1 := fun ty hty r4 w4 => by
      obtain ⟨data, hdata⟩ := w4.made
      refine ⟨w4.at', ?_, ?_, ?_, by rw [w4.type]; exact hty, by rw [hdata]; rfl, w4.data⟩
      · rw [hdata]; exact w1.2.2
      · rw [hdata]; exact hcls
      · rw [hdata]; exact httl
    split
    · exact (parseA_sat w3.at' zone _).mono fun r4 _ w4 => fin .A (.inl rfl) r4 w4
    · refine Sat.bind (ensureNameInZone_sat _ _) fun _ _ _ => ?_
      exact (parseNs_sat w3.at' zone _).mono fun r4 _ w4 => fin .NS (.inr rfl) r4 w4
    · trivial
    · trivial
  | _ => exact trivial

theorem parseSubEntries_sat (zone : Name) (min : UInt32) : ∀ (fuel : Nat) (cur : UInt32) {t : Tokenizer} {z : Zone}
    {log : List Record}, Fresh t → InputOk np nd t → (nd → t.size < fuel) → Holds z log →
    Sat np nd (parseSubEntries fuel zone cur min t z) fun z' => z'.zone = z.zone ∧ ∃ more, Holds z' (log ++ more) ∧
      ∀ r ∈ more, SubGood zone min r
  | 0, _, _, _, _, _, _, hs, _ => fun hd => by have := hs hd; omega
  | fuel + 1, cur, t, z, log, hf, hi, hs, hz => by
    unfold parseSubEntries
    refine Sat.bind (peek_sat (np := np) (nd := nd) hf hi) fun r _ k => ?_
    obtain ⟨tk, t1⟩ := r
    simp only
    have onRecord : ((∃ s, tk = .string s) ∨ tk = .at ∨ tk = .blank) → Sat np nd (do
        let (record, t) ← parseSubRecord t1 zone cur min
        parseSubEntries fuel zone record.ttl min t (z.insert record)) fun z' =>
          z'.zone = z.zone ∧ ∃ more, Holds z' (log ++ more) ∧ ∀ r ∈ more, SubGood zone min r := fun htk => by
      have hne : tk ≠ .end := by rcases htk with ⟨s, rfl⟩ | rfl | rfl <;> simp
      have he := k.entry hne
      simp only at he
      refine Sat.bind (parseSubRecord_sat he htk zone cur min) fun r2 _ w => ?_
      obtain ⟨rec, t2⟩ := r2
      have h2 := parseSubEntries_sat zone min fuel rec.ttl (t := t2) (z := z.insert rec)
        (w.1.fresh w.2.1) w.1.input (fun hd => by
          have h1 := k.shrink hd hne
          have h2 := w.1.after.size
          have h3 := hs hd
          simp only at h1 h2
          omega) (hz.insert rec)
      refine h2.mono fun z' _ q => ⟨q.1, ?_⟩
      obtain ⟨more, q1, q2⟩ := q.2
      refine ⟨rec :: more, by simpa [List.append_assoc] using q1, fun r hr => ?_⟩
      rcases List.mem_cons.1 hr with rfl | hr
      · exact w.2.2
      · exact q2 r hr
    cases tk with
    | «end» => exact ⟨rfl, [], by simpa using hz, by simp⟩
    | string s => exact onRecord (.inl ⟨s, rfl⟩)
    | «at» => exact onRecord (.inr (.inl rfl))
    | blank => exact onRecord (.inr (.inr rfl))
    | _ => exact trivial

/-- A loaded sub zone. -/
structure SubLoaded (conf : SubParams) (z : Zone) (log : List Record) : Prop where
  holds : Holds z log
  zone : z.zone = conf.zone
  good : ∀ r ∈ log, SubGood conf.zone conf.minTtl r

/-- Total size of a file. -/
def fileSize (file : List (Option Str)) : Nat := (start file).size

/-- Files in which runs of white space begin with spaces and tabs. -/
def PlainFile (file : List (Option Str)) : Prop :=
  ∀ l, some l ∈ file → skippable l = true ∨ Spec.BlankRuns .between false l

theorem start_plain {file : List (Option Str)} (h : PlainFile file) : (start file).Plain := ⟨runs_nil _ _, h⟩

theorem parseSubZoneFile_sat {fs : Files} (hfs : np → CleanFiles fs) (fuel : Nat) (conf : SubParams)
    (hpl : nd → ∀ file, fs conf.filePath = some file → PlainFile file ∧ fileSize file < fuel) :
    Sat np nd (parseSubZoneFile fs fuel conf) fun z => ∃ log, SubLoaded conf z log := by
  unfold parseSubZoneFile
  cases hfile : fs conf.filePath with
  | none => trivial
  | some file =>
    simp only
    refine (parseSubEntries_sat conf.zone conf.minTtl fuel _ (start_fresh file)
      ⟨fun x => start_clean (hfs x _ file hfile), fun x => start_plain (hpl x file hfile).1⟩
      (fun hd => (hpl hd file hfile).2) (Holds.new conf.zone)).mono fun z _ q => ?_
    obtain ⟨q1, log, q2, q3⟩ := q
    exact ⟨log, by simpa using q2, q1, q3⟩

/-- The sub zones, one for each configured one. -/
inductive SubsLoaded : List SubParams → List Zone → Prop
  | nil : SubsLoaded [] []
  | cons {c : SubParams} {cs : List SubParams} {z : Zone} {zs : List Zone} {log : List Record} :
      SubLoaded c z log → SubsLoaded cs zs → SubsLoaded (c :: cs) (z :: zs)

theorem parseSubZones_sat {fs : Files} (hfs : np → CleanFiles fs) (fuel : Nat) : ∀ (confs : List SubParams),
    (nd → ∀ conf ∈ confs, ∀ file, fs conf.filePath = some file → PlainFile file ∧ fileSize file < fuel) →
    Sat np nd (parseSubZones fs fuel confs) (SubsLoaded confs)
  | [], _ => SubsLoaded.nil
  | c :: cs, h => by
    unfold parseSubZones
    refine Sat.bind (parseSubZoneFile_sat hfs fuel c fun hd => h hd c (by simp)) fun z _ hz => ?_
    refine Sat.bind (parseSubZones_sat hfs fuel cs fun hd conf hc => h hd conf (List.mem_cons_of_mem _ hc)) fun zs _ hzs => ?_
    obtain ⟨log, hz⟩ := hz
    exact .cons hz hzs

theorem SubsLoaded.mem {cs : List SubParams} {zs : List Zone} (h : SubsLoaded cs zs) : ∀ z ∈ zs, ∃ c ∈ cs, ∃ log,
    SubLoaded c z log := by
  induction h with
  | nil => simp
  | cons h _ ih =>
    intro z hz
    rcases List.mem_cons.1 hz with rfl | hz
    · exact ⟨_, by simp, _, h⟩
    · obtain ⟨c, hc, log, hl⟩ := ih z hz
      exact ⟨c, by simp [hc], log, hl⟩

theorem SubsLoaded.names {cs : List SubParams} {zs : List Zone} (h : SubsLoaded cs zs) :
    zs.map (·.zone) = cs.map (·.zone) := by
  induction h with
  | nil => rfl
  | cons h _ ih => simp [h.zone, ih]

theorem forAll_sat {ε α : Type} {f : α → Out ε Unit} {Q : α → Prop} : ∀ (l : List α),
    (∀ x ∈ l, Sat np nd (f x) fun _ => Q x) → Sat np nd (forAll f l) fun _ => ∀ x ∈ l, Q x
  | [], _ => by simp [forAll, Sat]
  | x :: xs, h => by
    unfold forAll
    refine Sat.bind (h x (by simp)) fun _ _ hx => (forAll_sat xs fun y hy => h y (by simp [hy])).mono fun _ _ hxs => ?_
    intro y hy
    rcases List.mem_cons.1 hy with rfl | hy
    · exact hx
    · exact hxs y hy

theorem anyM_sat {ε α : Type} {f : α → Out ε Bool} {Q : α → Prop} : ∀ (l : List α),
    (∀ x ∈ l, Sat np nd (f x) fun b => b = true → Q x) → Sat np nd (anyM f l) fun b => b = true → ∃ x ∈ l, Q x
  | [], _ => by simp [anyM, Sat]
  | x :: xs, h => by
    unfold anyM
    refine Sat.bind (h x (by simp)) fun b _ hx => Sat.ite (fun hb => ?_) fun _ => ?_
    · exact fun _ => ⟨x, by simp, hx hb⟩
    · refine (anyM_sat xs fun y hy => h y (by simp [hy])).mono fun _ _ hxs hb => ?_
      obtain ⟨y, hy, hq⟩ := hxs hb
      exact ⟨y, by simp [hy], hq⟩

/-- What a loaded zone set fulfils. -/
structure Consistent (o : HashOrder) (zones : ManagedZone) : Prop where
  ns : zones.authZone.getAllOfType o .NS ≠ []
  apex : ∀ r ∈ zones.authZone.getAllOfType o .NS, r.node = zones.authZone.zone
  subNs : ∀ sub ∈ zones.subZones, sub.getAllOfType o .NS ≠ []
  subApex : ∀ sub ∈ zones.subZones, ∀ r ∈ sub.getAllOfType o .NS, r.node = sub.zone
  glue : ∀ sub ∈ zones.subZones, ∀ r ∈ sub.getAllOfType o .NS, ∀ n, r.data = .NS n →
    n.isInZone zones.authZone.zone = true → ∀ sub' ∈ zones.subZones, n.isInZone sub'.zone = true →
    ∃ a ∈ sub'.getAllOfType o .A, a.node = n
  used : ∀ sub ∈ zones.subZones, ∀ a ∈ sub.getAllOfType o .A, ∃ sub' ∈ zones.subZones,
    ∃ r ∈ sub'.getAllOfType o .NS, r.data = .NS a.node

theorem holds_get_mem {z : Zone} {log : List Record} (h : Holds z log) (o : HashOrder) (p : Profile) (n : Name)
    (k : RecordType) {ε : Type} : Sat np nd (z.get p n k : Out ε _) fun r => ∀ rs, r = some rs → ∀ x ∈ rs, x ∈ z.getAllOfType o k ∧
      x.node = n ∧ x.recordType = k := by
  rw [h.get]
  show ∀ rs, (if recordsAt log n k = [] then none else some (recordsAt log n k)) = some rs → _
  intro rs e x hx
  split at e
  · cases e
  · cases e
    have hx' := hx
    rw [← h.all_at o] at hx'
    exact ⟨(List.mem_filter.1 hx').1, recordsAt_spec hx⟩

theorem validate_sat {p : Profile} {o : HashOrder} {zones : ManagedZone}
    (hsub : ∀ z ∈ zones.subZones, ∃ log, Holds z log) :
    Sat np nd (do validateAuthZone o zones; forAll (validateSubzone p o zones) zones.subZones) fun _ =>
      Consistent o zones := by
  refine Sat.bind (P := fun _ => zones.authZone.getAllOfType o .NS ≠ [] ∧
    ∀ r ∈ zones.authZone.getAllOfType o .NS, r.node = zones.authZone.zone) ?_ fun _ _ ha => ?_
  · unfold validateAuthZone
    simp only
    refine Sat.ite (fun _ => trivial) fun hne => ?_
    refine (forAll_sat (Q := fun r : Record => r.node = zones.authZone.zone) _ fun r _ => ?_).mono fun _ _ h => ⟨by simpa using hne, h⟩
    refine Sat.ite (fun h => ?_) fun _ => trivial
    unfold Name.isInZoneRoot at h
    show r.node = zones.authZone.zone
    simpa using h
  · refine (forAll_sat (Q := fun sub : Zone => sub.getAllOfType o .NS ≠ [] ∧
        (∀ r ∈ sub.getAllOfType o .NS, r.node = sub.zone ∧ ∀ n, r.data = .NS n →
          n.isInZone zones.authZone.zone = true → ∀ sub' ∈ zones.subZones, n.isInZone sub'.zone = true →
          ∃ a ∈ sub'.getAllOfType o .A, a.node = n) ∧
        ∀ a ∈ sub.getAllOfType o .A, ∃ sub' ∈ zones.subZones, ∃ r ∈ sub'.getAllOfType o .NS, r.data = .NS a.node)
      _ fun sub hsubm => ?_).mono fun _ _ h =>
        ⟨ha.1, ha.2, fun s hs => (h s hs).1, fun s hs r hr => ((h s hs).2.1 r hr).1,
          fun s hs r hr => ((h s hs).2.1 r hr).2, fun s hs => (h s hs).2.2⟩
    unfold validateSubzone
    simp only
    obtain ⟨slog, hslog⟩ := hsub sub hsubm
    refine Sat.ite (fun _ => trivial) fun hne => ?_
    refine Sat.bind (forAll_sat (Q := fun r : Record => r.node = sub.zone ∧ ∀ n, r.data = .NS n →
          n.isInZone zones.authZone.zone = true → ∀ sub' ∈ zones.subZones, n.isInZone sub'.zone = true →
          ∃ a ∈ sub'.getAllOfType o .A, a.node = n) _ fun r hr => ?_) fun _ _ h1 => ?_
    · unfold validateSubNs
      refine Sat.ite (fun _ => trivial) fun hroot => ?_
      have hroot : r.node = sub.zone := by unfold Name.isInZoneRoot at hroot; simpa using hroot
      have hty := hslog.all_type o .NS r hr
      obtain ⟨n, hn⟩ : ∃ n, r.data = .NS n := by
        unfold Record.recordType at hty
        cases hd : r.data <;> rw [hd] at hty <;> first | exact ⟨_, rfl⟩ | cases hty
      have e : (nsData r : Out ParseErr Name) = .ok n := by simp only [nsData, hn]
      rw [e, Out.bind_ok]
      refine Sat.ite (fun hout => ?_) fun hin => ?_
      · refine ⟨hroot, fun m hm hmz => ?_⟩
        rw [hn] at hm; cases hm
        rw [hmz] at hout; cases hout
      · refine (forAll_sat (Q := fun sub' : Zone => n.isInZone sub'.zone = true →
          ∃ a ∈ sub'.getAllOfType o .A, a.node = n) _ fun sub' hsub' => ?_).mono fun _ _ h => ⟨hroot, fun m hm _ => ?_⟩
        · refine Sat.ite (fun _ => ?_) fun hno => fun h => absurd h hno
          obtain ⟨log', hlog'⟩ := hsub sub' hsub'
          refine Sat.bind (P := fun b => b = true → ∃ a ∈ sub'.getAllOfType o .A, a.node = n) ?_ fun b _ hb =>
            Sat.ite (fun hb' _ => hb hb') fun _ => trivial
          unfold searchGlue
          refine Sat.bind (holds_get_mem hlog' o p n .A) fun q _ hq => ?_
          cases q with
          | none => exact fun h => by cases h
          | some rs =>
            intro hany
            simp only [List.any_eq_true] at hany
            obtain ⟨a, ha, _⟩ := hany
            exact ⟨a, (hq rs rfl a ha).1, (hq rs rfl a ha).2.1⟩
        · rw [hn] at hm; cases hm
          exact h
    · refine (forAll_sat (Q := fun a : Record => ∃ sub' ∈ zones.subZones, ∃ r ∈ sub'.getAllOfType o .NS,
        r.data = .NS a.node) _ fun a _ => ?_).mono fun _ _ h2 => ⟨by simpa using hne, h1, h2⟩
      unfold validateSubA
      refine Sat.bind (anyM_sat (Q := fun sub' : Zone => ∃ r ∈ sub'.getAllOfType o .NS, r.data = .NS a.node) _
        fun sub' hsub' => ?_) fun b _ hb => Sat.ite (fun hb' => hb hb') fun _ => trivial
      obtain ⟨log', hlog'⟩ := hsub sub' hsub'
      unfold searchReferredNs
      refine Sat.bind (holds_get_mem hlog' o p sub'.zone .NS) fun q _ hq => ?_
      cases q with
      | none => exact fun h => by cases h
      | some rs =>
        simp only
        refine (anyM_sat (Q := fun r : Record => r.data = .NS a.node) _ fun r hr => ?_).mono fun _ _ h hb => ?_
        · have hty := (hq rs rfl r hr).2.2
          obtain ⟨n, hn⟩ : ∃ n, r.data = .NS n := by
            unfold Record.recordType at hty
            cases hd : r.data <;> rw [hd] at hty <;> first | exact ⟨_, rfl⟩ | cases hty
          have e : (nsData r : Out ParseErr Name) = .ok n := by simp only [nsData, hn]
          rw [e, Out.bind_ok]
          intro he
          have : a.node = n := by simpa using he
          rw [hn, this]
        · obtain ⟨r, hr, hq'⟩ := h hb
          exact ⟨r, (hq rs rfl r hr).1, hq'⟩

/-- The whole loader. -/
theorem parseZoneFiles_sat {p : Profile} {fs : Files} {o : HashOrder} (hfs : np → CleanFiles fs) {own : Name → Prop}
    (fuel : Nat) (conf : Params) (ho : Owners conf.zone (conf.subZones.map (·.zone)) own) (hc : own conf.zone) :
    Sat np False (parseZoneFiles p fs o fuel conf) fun zones =>
      (∃ log soa minimum, AuthLoaded conf own zones.authZone log soa minimum) ∧
      SubsLoaded conf.subZones zones.subZones ∧ Consistent o zones := by
  unfold parseZoneFiles
  refine Sat.bind (parseAuthZoneFile_sat hfs fuel conf ho hc) fun auth _ ha =>
    Sat.bind (parseSubZones_sat hfs fuel conf.subZones fun h => h.elim) fun subs _ hs => ?_
  simp only
  have hv := validate_sat (np := np) (nd := False) (p := p) (o := o) (zones := ⟨auth, subs⟩) (fun z hz => by
    obtain ⟨c, _, log, hl⟩ := hs.mem z hz
    exact ⟨log, hl.holds⟩)
  cases h1 : validateAuthZone o ⟨auth, subs⟩ with
  | ok u =>
    rw [h1] at hv
    simp only [Out.bind_ok] at hv ⊢
    refine Sat.bind hv fun _ _ hcon => ⟨ha, hs, hcon⟩
  | err e => trivial
  | panic k => rw [h1] at hv; exact hv
  | diverge => exact fun h => h

end Ariadne.ZoneParser
