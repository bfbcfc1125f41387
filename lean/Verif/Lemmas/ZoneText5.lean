import Verif.Lemmas.ZoneText4

/-! # Parsing files -/

namespace Ariadne.ZoneParser

open Spec Tokenizer

/-- `inc` says what parsing an included file yields. -/
def IncOk (fs : Files) (ord : HashOrder) (f : ZoneFrame) (inc : Str → Name → UInt32 → List Record → Prop) : Prop :=
  ∀ path o ttl rs, inc path o ttl rs → ∃ file bound, fs path = some file ∧ ∀ st : AuthState, Frames f st → st.currentOrig = o →
    st.currentTtl = ttl → ∀ fuel, Gives (Holds · rs) bound fuel (parseEntries fs ord fuel st (Tokenizer.start file) (Zone.new f.zone))

theorem Gives.mono {α : Type} {P : α → Prop} {b b' fuel : Nat} {x : Out ParseErr α} (h : Gives P b fuel x) (hb : b ≤ b') :
    Gives P b' fuel x := by
  rcases h with ⟨h1, h2⟩ | h
  · exact .inl ⟨h1, Nat.lt_of_lt_of_le h2 hb⟩
  · exact .inr h

theorem peek_entry {head : Str} {ws : List Spec.Word} {left : List Str} {t t' : Tokenizer} (e : t.next = .ok (headToken head, t'))
    (hs : Sits left ws t') : t.peek = .ok (headToken head, { t' with peeked := [headToken head] }) := by
  rw [peek, e]
  simp only [Out.bind_ok, hs.eq.2.1, List.nil_append]

theorem parseEntries_text {fs : Files} {ord : HashOrder} {f : ZoneFrame} {inc : Str → Name → UInt32 → List Record → Prop}
    (hinc : IncOk fs ord f inc) {origin : Name} {last : UInt32} {ls : List Str} {rs : List Record}
    (h : FileMeans true f inc origin last ls rs) : ∃ bound, ∀ (st : AuthState) (t : Tokenizer) (z : Zone) (log : List Record),
      Frames f st → st.currentOrig = origin → st.currentTtl = last → Opens ls t → Holds z log →
      ∀ fuel, Gives (Holds · (log ++ rs)) bound fuel (parseEntries fs ord fuel st t z) := by
  induction h with
  | nil =>
    refine ⟨1, fun st t z log hf _ _ ho hz fuel => ?_⟩
    cases fuel with
    | zero => exact .inl ⟨rfl, by omega⟩
    | succ fuel =>
      obtain ⟨t', e⟩ := opens_nil ho
      refine .inr ⟨z, ?_, by rwa [List.append_nil]⟩
      simp only [parseEntries, peek, e, Out.bind_ok, tok, Out.mapErr]
  | skip hn h ih =>
    obtain ⟨b, ih⟩ := ih
    exact ⟨b, fun st t z log hf h1 h2 ho hz fuel => ih st t z log hf h1 h2 (opens_skip ho hn) hz fuel⟩
  | @record origin last head ws ls left r rs he hr hown hmin h ih =>
    obtain ⟨b, ih⟩ := ih
    refine ⟨max b (ws.length + 1) + 1, fun st t z log hf h1 h2 ho hz fuel => ?_⟩
    cases fuel with
    | zero => exact .inl ⟨rfl, by omega⟩
    | succ fuel =>
      subst h1 h2
      have hh := owner_text hf.orig (by obtain ⟨_, _, _, h, _⟩ := hr; exact h)
      obtain ⟨t', e, hs⟩ := entry_opens he (by obtain ⟨_, _, _, h, _⟩ := hr; exact owner_head h) ho
      have e2 := peek_entry e hs
      have step : parseEntries fs ord (fuel + 1) st t z = (do
          let (record, t) ← parseRecord fuel { t' with peeked := [headToken head] } st
          parseEntries fs ord fuel { st with currentTtl := record.ttl } t (z.insert record)) := by
        rw [parseEntries, e2]
        rcases hh with ⟨-, h | h⟩ | ⟨h, -⟩ <;> rw [h] <;> rfl
      rw [step]
      rcases parseRecord_text hf hr hown hmin hs fuel with ⟨e3, hl⟩ | ⟨⟨r', t2⟩, e3, hr', hp, ho2⟩
      · left
        rw [e3]
        exact ⟨rfl, by omega⟩
      · simp only at hr' hp ho2
        subst hr'
        rw [e3]
        simp only [Out.bind_ok]
        have := ih { st with currentTtl := r'.ttl } t2 (z.insert r') (log ++ [r'])
          (hf.set hf.within hf.valid) rfl rfl ho2 (hz.insert r') fuel
        rw [List.append_assoc] at this
        rcases this with ⟨h1, h2⟩ | h
        · exact .inl ⟨h1, by omega⟩
        · exact .inr h
  | @origin origin origin' last ls left rs he hv hown h ih =>
    obtain ⟨b, ih⟩ := ih
    refine ⟨b + 1, fun st t z log hf h1 h2 ho hz fuel => ?_⟩
    cases fuel with
    | zero => exact .inl ⟨rfl, by omega⟩
    | succ fuel =>
      subst h1 h2
      obtain ⟨t', e, hs⟩ := entry_opens he (fun _ => .inl rfl) ho
      have e2 := peek_entry e hs
      obtain ⟨t2, e3, hp, ho2⟩ := parseOrigin_text hf hv hown hs
      have step : parseEntries fs ord (fuel + 1) st t z = parseEntries fs ord fuel { st with currentOrig := origin' } t2 z := by
        rw [parseEntries, e2]
        rw [show headToken "$ORIGIN".toList = .originDir by decide] at e3 ⊢
        simp only [tok, Out.mapErr, Out.bind_ok, e3]
      rw [step]
      rcases ih { st with currentOrig := origin' } t2 z log (hf.set hown.1 hv) rfl rfl ho2 hz fuel with ⟨h1, h2⟩ | h
      · exact .inl ⟨h1, by omega⟩
      · exact .inr h
  | @«include» origin origin' last path ws ls left rs' rs he hp hor hi h ih =>
    obtain ⟨b, ih⟩ := ih
    obtain ⟨file, b', hfile, hi⟩ := hinc _ _ _ _ hi
    refine ⟨max b b' + 1, fun st t z log hf h1 h2 ho hz fuel => ?_⟩
    cases fuel with
    | zero => exact .inl ⟨rfl, by omega⟩
    | succ fuel =>
      subst h1 h2
      obtain ⟨t', e, hs⟩ := entry_opens he (fun _ => .inr rfl) ho
      have e2 := peek_entry e hs
      obtain ⟨t2, e3, -, ho2⟩ := parseInclude_text hf (hp rfl) hor hs
      have hf' : Frames f { st with currentOrig := origin' } := by
        rcases hor with ⟨-, rfl⟩ | ⟨w, -, hn, hown⟩
        · exact hf
        · exact hf.set hown.1 (name_text hf.orig hn).2.2
      have step : parseEntries fs ord (fuel + 1) st t z = (do
          let included ← parseEntries fs ord fuel { st with currentOrig := origin' } (Tokenizer.start file) (Zone.new f.zone)
          parseEntries fs ord fuel st t2 (z.extend ord included)) := by
        rw [parseEntries, e2]
        rw [show headToken "$INCLUDE".toList = .includeDir by decide] at e3 ⊢
        simp only [tok, Out.mapErr, Out.bind_ok, e3, hfile, hf.zone]
      rw [step]
      rcases hi _ hf' rfl rfl fuel with ⟨h1, h2⟩ | ⟨z', h1, h2⟩
      · left
        rw [h1]
        exact ⟨rfl, by omega⟩
      · rw [h1]
        simp only [Out.bind_ok]
        have := ih st t2 (z.extend ord z') (log ++ rs') hf rfl rfl ho2 (hz.extend h2 ord) fuel
        rw [List.append_assoc] at this
        rcases this with ⟨h1, h2⟩ | h
        · exact .inl ⟨h1, by omega⟩
        · exact .inr h

/-- Included files of the grammar. -/
theorem included_ok (fs : Files) (ord : HashOrder) (f : ZoneFrame) : ∀ depth, IncOk fs ord f (Included true fs f depth)
  | 0 => fun _ _ _ _ h => h.elim
  | depth + 1 => by
    rintro path o ttl rs ⟨ls, hfile, h⟩
    obtain ⟨b, hb⟩ := parseEntries_text (included_ok fs ord f depth) h
    refine ⟨_, b, hfile, fun st hf h1 h2 fuel => ?_⟩
    have := hb st _ (Zone.new f.zone) [] hf h1 h2 (start_opens ls) (Holds.new _) fuel
    rwa [List.nil_append] at this

theorem opens_pre {ls : List Str} {t : Tokenizer} : ∀ (pre : List Str), (∀ l ∈ pre, NoCode l) → Opens (pre ++ ls) t → Opens ls t
  | [], _, h => h
  | p :: pre, hp, h => opens_pre pre (fun l hl => hp l (List.mem_cons_of_mem _ hl)) (opens_skip h (hp p List.mem_cons_self))

/-- The SOA record. -/
theorem parseSoa_text {conf : Params} (hr : conf.zone.s ≠ ['.']) {head : Str} {ws : List Spec.Word}
    {ls left : List Str} {soa : Record} {minimum : UInt32} (he : Spec.Entry head ws ls left)
    (h : SoaText true conf.zone conf.startingTtl head ws soa minimum) (hmin : minimum ≤ soa.ttl) {t : Tokenizer} (ho : Opens ls t)
    {st : AuthState} (hz : st.zone = conf.zone) (ht : st.currentTtl = conf.startingTtl) :
    ∃ t', parseStartingSoa t st = .ok (soa, minimum, t') ∧ Past left t' := by
  obtain ⟨ts, m, e, n1, n2, n3, n4, n5, mname, rname, serial, refresh, retry, expire, rfl, h1, h2, h3, h4, h5, h6, h7, h8, h9,
    a1, a2, a3, a4, a5⟩ := h
  obtain ⟨t1, e1, s1⟩ := entry_opens he (owner_head h1) ho
  obtain ⟨ot, oc, t2, e2, hot, -, hoc, -, w2⟩ := ttlClass_text (k := "SOA".toList) h3 (by decide) (by decide) s1
  obtain ⟨t3, e3, s3⟩ := w2.next
  obtain ⟨t4, e4, s4⟩ := parseRelName_text hr (target_strict h8) (.sits s3)
  obtain ⟨t5, e5, s5⟩ := parseRelName_text hr (target_strict h9) (.sits s4)
  obtain ⟨t6, e6, s6⟩ := parseNumber_text a1 (.sits s5)
  obtain ⟨t7, e7, s7⟩ := parseNumber_text a2 (.sits s6)
  obtain ⟨t8, e8, s8⟩ := parseNumber_text a3 (.sits s7)
  obtain ⟨t9, e9, s9⟩ := parseNumber_text a4 (.sits s8)
  obtain ⟨t10, e10, s10⟩ := parseNumber_text a5 (.sits s9)
  obtain ⟨t11, e11, p11⟩ := endOfEntry_text (.sits s10)
  refine ⟨t11, ?_, p11⟩
  rw [show token (.plain "SOA".toList) = .string "SOA".toList by decide] at e3
  have hr : (({ node := conf.zone, cls := .IN, ttl := soa.ttl } : RecData).mk'
      (.SOA mname rname serial refresh retry expire minimum)) = soa := by
    unfold RecData.mk'
    obtain ⟨a, b, c, d, e⟩ := soa
    simp only at h4 h5 h2 h7
    subst h4 h5 h2 h7
    rfl
  have key : parseStartingSoa t st = (do
      let node ← (.ok conf.zone : Out ParseErr Name)
      if node ≠ st.zone then .err .nameNotInRootNode
      else do
        let ((ttl, cls), t) ← parseTtlClass t1
        match cls with
        | none => .err .malformedData
        | some cls => do
          let ttl := ttl.getD st.currentTtl
          ensureClassIsSupported cls
          let (typeTok, t) ← tok t.nextAfterBlanks
          match typeTok with
          | .string s =>
            match RecordType.fromStr s with
            | none => .err .malformedData
            | some ty =>
              if ty ≠ .SOA then .err .unexpectedRecord
              else do
                let (soa, minimum, t) ← parseSoa t st.zone { node := node, cls := cls, ttl := ttl }
                ensureMinTtl minimum ttl
                let t ← endOfEntry t
                .ok (soa, minimum, t)
          | other => .err (.unexpectedToken other)) := by
    unfold parseStartingSoa
    rw [e1]
    rcases owner_text (by assumption) h1 with ⟨hn, h | h⟩ | ⟨h, ha, -⟩
    · rw [h, hz]; rfl
    · rw [h, hz]; rfl
    · rw [h, hz]
      simp only [tok, Out.mapErr, Out.bind_ok, ha, h2]
      rfl
  rw [key, e2, hz]
  simp only [Out.bind_ok, ne_eq, not_true_eq_false, if_false, hoc (h6 rfl), ht, hot, ensureClassIsSupported, Class.isSupported,
    if_true, e3, tok, Out.mapErr, show RecordType.fromStr "SOA".toList = some .SOA by decide, parseSoa, e4, e5, e6, e7, e8, e9, e10,
    hr, ensureMinTtl, ge_iff_le, hmin, e11]

/-- The whole file of a zone. -/
theorem parseAuth_text {fs : Files} {ord : HashOrder} {conf : Params} (hv : ValidName conf.zone.s)
    (hsub : ∀ c ∈ conf.subZones, ValidName c.zone.s) (hr : conf.zone.s ≠ ['.']) {inc : ZoneFrame → Str → Name → UInt32 → List Record → Prop}
    (hinc : ∀ minimum, IncOk fs ord (frameOf conf minimum) (inc (frameOf conf minimum))) {soa : Record} {rs : List Record}
    (h : ZoneMeans true fs conf (fun _ => conf.startingTtl) inc soa rs) :
    ∃ bound, ∀ fuel, Gives (Holds · (rs ++ [soa])) bound fuel (parseAuthZoneFile fs ord fuel conf) := by
  obtain ⟨pre, ls, left, head, ws, minimum, hfile, hpre, he, hsoa, hmin, h⟩ := h
  obtain ⟨b, hb⟩ := parseEntries_text (hinc minimum) h
  refine ⟨b, fun fuel => ?_⟩
  let st : AuthState :=
    { zone := conf.zone, subZones := conf.subZones.map (·.zone), currentOrig := conf.zone,
      currentTtl := conf.startingTtl, minTtl := 0 }
  obtain ⟨t1, e1, -, ho⟩ := parseSoa_text hr he hsoa hmin (opens_pre pre hpre (start_opens (pre ++ ls))) (st := st) rfl rfl
  have hf : Frames (frameOf conf minimum) { st with minTtl := minimum } :=
    ⟨rfl, rfl, rfl, hv, fun s hs => by
      obtain ⟨c, hc, rfl⟩ := List.mem_map.1 hs
      exact hsub c hc, hr, within_refl hv, hv⟩
  have step : parseAuthZoneFile fs ord fuel conf = (do
      let zone ← parseEntries fs ord fuel { st with minTtl := minimum } t1 (Zone.new conf.zone)
      .ok (zone.insert soa)) := by
    unfold parseAuthZoneFile
    rw [hfile]
    simp only
    rw [e1]
    rfl
  rw [step]
  rcases hb { st with minTtl := minimum } t1 (Zone.new conf.zone) [] hf rfl rfl ho (Holds.new _) fuel with ⟨e, hl⟩ | ⟨z, e, hz⟩
  · exact .inl ⟨by rw [e]; rfl, hl⟩
  · refine .inr ⟨z.insert soa, by rw [e]; rfl, ?_⟩
    rw [List.nil_append] at hz
    exact hz.insert soa

theorem _root_.Ariadne.Holds.returns {z : Zone} {log : List Record} (h : Holds z log) : Returns z log :=
  ⟨fun p n k => h.get p n k, fun o k => h.all_perm o k⟩

end Ariadne.ZoneParser
