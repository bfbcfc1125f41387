import Verif.Lemmas.ZoneText5

/-! # The records a file adds do not depend on those already there -/

namespace Ariadne.ZoneParser

open Spec Tokenizer

theorem bind_eq_ok {ε α β : Type} {x : Out ε α} {f : α → Out ε β} {b : β} (h : (x >>= f) = .ok b) : ∃ a, x = .ok a ∧ f a = .ok b := by
  cases x with
  | ok a => exact ⟨a, rfl, h⟩
  | err => cases h
  | panic => cases h
  | diverge => cases h

/-- What `parse_entries` adds. -/
theorem parseEntries_adds {fs : Files} {ord : HashOrder} : ∀ (fuel : Nat) (st : AuthState) (t : Tokenizer) (z z1 : Zone),
    parseEntries fs ord fuel st t z = .ok z1 → ∃ rs, ∀ z' log', Holds z' log' → ∃ z1', parseEntries fs ord fuel st t z' = .ok z1' ∧
      Holds z1' (log' ++ rs) ∧ (z' = z → z1' = z1)
  | 0, st, t, z, z1, h => by cases h
  | fuel + 1, st, t, z, z1, h => by
    have key : ∀ z, parseEntries fs ord (fuel + 1) st t z = (do
      let (next, t) ← tok t.peek
      match next with
      | .end => .ok z
      | .originDir => do
        let (origin, t) ← parseOrigin t st
        parseEntries fs ord fuel { st with currentOrig := origin } t z
      | .includeDir => do
        let (path, origin, t) ← parseInclude t st
        match fs path with
        | none => .err .readingErr
        | some file => do
          let included ← parseEntries fs ord fuel { st with currentOrig := origin } (Tokenizer.start file) (Zone.new st.zone)
          parseEntries fs ord fuel st t (z.extend ord included)
      | .string _ | .at | .blank => do
        let (record, t) ← parseRecord fuel t st
        parseEntries fs ord fuel { st with currentTtl := record.ttl } t (z.insert record)
      | other => .err (.unexpectedToken other)) := fun z => by rw [parseEntries]; rfl
    rw [key] at h
    obtain ⟨⟨tk, t1⟩, e1, h⟩ := bind_eq_ok h
    have recd : (tk = .at ∨ tk = .blank ∨ ∃ s, tk = .string s) → (do
        let (record, t) ← parseRecord fuel t1 st
        parseEntries fs ord fuel { st with currentTtl := record.ttl } t (z.insert record)) = .ok z1 →
        ∃ rs, ∀ z' log', Holds z' log' → ∃ z1', parseEntries fs ord (fuel + 1) st t z' = .ok z1' ∧ Holds z1' (log' ++ rs) ∧
          (z' = z → z1' = z1) := by
      intro htk h
      obtain ⟨⟨r, t2⟩, e2, h⟩ := bind_eq_ok h
      obtain ⟨rs, hrs⟩ := parseEntries_adds fuel _ _ _ _ h
      refine ⟨r :: rs, fun z' log' hz' => ?_⟩
      obtain ⟨z1', e3, h3, h4⟩ := hrs (z'.insert r) (log' ++ [r]) (hz'.insert r)
      refine ⟨z1', ?_, by rwa [List.append_assoc] at h3, fun e => h4 (by rw [e])⟩
      rw [key, e1]
      simp only [Out.bind_ok]
      rcases htk with rfl | rfl | ⟨s, rfl⟩ <;> simp only [e2, Out.bind_ok, e3]
    cases tk with
    | «end» =>
      refine ⟨[], fun z' log' hz' => ⟨z', ?_, by rwa [List.append_nil], fun e => ?_⟩⟩
      · rw [key, e1]; rfl
      · simp only [Out.ok.injEq] at h; rw [e, h]
    | originDir =>
      simp only at h
      obtain ⟨⟨o, t2⟩, e2, h⟩ := bind_eq_ok h
      obtain ⟨rs, hrs⟩ := parseEntries_adds fuel _ _ _ _ h
      refine ⟨rs, fun z' log' hz' => ?_⟩
      obtain ⟨z1', e3, h3, h4⟩ := hrs z' log' hz'
      refine ⟨z1', ?_, h3, h4⟩
      rw [key, e1]
      simp only [Out.bind_ok, e2, e3]
    | includeDir =>
      simp only at h
      obtain ⟨⟨path, o, t2⟩, e2, h⟩ := bind_eq_ok h
      simp only at h
      cases hf : fs path with
      | none => rw [hf] at h; cases h
      | some file =>
        rw [hf] at h
        simp only at h
        obtain ⟨zi, ei, h⟩ := bind_eq_ok h
        obtain ⟨ri, hri⟩ := parseEntries_adds fuel _ _ _ _ ei
        obtain ⟨zi', ei', hzi, hi⟩ := hri _ _ (Holds.new st.zone)
        rw [hi rfl, List.nil_append] at hzi
        obtain ⟨rs, hrs⟩ := parseEntries_adds fuel _ _ _ _ h
        refine ⟨ri ++ rs, fun z' log' hz' => ?_⟩
        obtain ⟨z1', e3, h3, h4⟩ := hrs (z'.extend ord zi) (log' ++ ri) (hz'.extend hzi ord)
        refine ⟨z1', ?_, by rwa [List.append_assoc] at h3, fun e => h4 (by rw [e])⟩
        rw [key, e1]
        simp only [Out.bind_ok, e2, hf, ei, e3]
    | «at» => exact recd (.inl rfl) h
    | blank => exact recd (.inr (.inl rfl)) h
    | string s => exact recd (.inr (.inr ⟨s, rfl⟩)) h
    | qString s => cases h
    | number n => cases h
    | newLine => cases h

theorem reaches_means {strict : Bool} {f : ZoneFrame} {inc : Str → Name → UInt32 → List Record → Prop} {origin o : Name}
    {last ttl : UInt32} {ls ls' : List Str} {rs rs' : List Record} (h : Reaches strict f inc origin last ls rs o ttl ls')
    (h' : FileMeans strict f inc o ttl ls' rs') : FileMeans strict f inc origin last ls (rs ++ rs') := by
  induction h generalizing rs' with
  | refl => exact h'
  | skip h hn ih => exact ih (.skip hn h')
  | @record o ttl head ws ls' left r rs h he hr ho hm ih =>
    rw [List.append_assoc]
    exact ih (.record he hr ho hm h')
  | origin h he hv ho ih => exact ih (.origin he hv ho h')
  | «include» h he hp ho hi ih =>
    rw [List.append_assoc]
    exact ih (.include he hp ho hi h')

/-! ## Sub zones -/

theorem sub_data_text {left : List Str} {origin : Name} {ds : List Spec.Word} {data : RData} (ho : origin.s ≠ ['.'])
    (h : DataText true origin ds data) {r : Record} (hr : r.data = data) (hty : r.recordType = .A ∨ r.recordType = .NS) :
    ∃ k ws ty, ds = .plain k :: ws ∧ wordToken k = .string k ∧ Class.fromString k = none ∧ RecordType.fromStr k = some ty ∧
      ∀ (d : RecData) (t : Tokenizer), d.node.isInZone origin = true → Sits left ws t →
        ∃ t', parseSubData t origin (some ty) d = .ok (d.mk' data, t') ∧ Waits left [] t' := by
  have hty : data.recordType = .A ∨ data.recordType = .NS := by rw [← hr]; exact hty
  cases h with
  | @a w ip h =>
    refine ⟨"A".toList, _, .A, rfl, by decide, by decide, by decide, fun d t _ hs => ?_⟩
    obtain ⟨t', e, hs'⟩ := parseAddress_text h (.sits hs)
    refine ⟨t', ?_, .sits hs'⟩
    simp only [parseSubData, parseA, e, Out.bind_ok]
  | @ns w n h =>
    refine ⟨"NS".toList, _, .NS, rfl, by decide, by decide, by decide, fun d t hd hs => ?_⟩
    obtain ⟨t', e, hs'⟩ := parseRelName_text ho (target_strict h) (.sits hs)
    refine ⟨t', ?_, .sits hs'⟩
    simp only [parseSubData, parseNs, e, Out.bind_ok, ensureNameInZone, hd, if_true]
  | cname => exact absurd hty (by simp [RData.recordType])
  | ptr => exact absurd hty (by simp [RData.recordType])
  | mx => exact absurd hty (by simp [RData.recordType])
  | hinfo => exact absurd hty (by simp [RData.recordType])
  | txt => exact absurd hty (by simp [RData.recordType])
  | wks => exact absurd hty (by simp [RData.recordType])

theorem parseSubRecord_text {zone : Name} (hv : ValidName zone.s) (hr : zone.s ≠ ['.']) {last minimum : UInt32} {head : Str}
    {ws : List Spec.Word} {r : Record} (h : RecordText true zone last head ws r) (hty : r.recordType = .A ∨ r.recordType = .NS)
    (hin : Within r.node zone) (hmin : minimum ≤ r.ttl) {left : List Str} {t : Tokenizer} (hs : Sits left ws t) :
    ∃ t', parseSubRecord { t with peeked := [headToken head] } zone last minimum = .ok (r, t') ∧ Past left t' := by
  obtain ⟨ts, ds, rfl, h1, h2, h3, h4, h5⟩ := h
  obtain ⟨k, dw, ty, rfl, hk, hkc, hty, hdata⟩ := sub_data_text (left := left) hr h4 rfl hty
  have hvn : ValidName r.node.s := by
    rcases owner_text hr h1 with ⟨e, -⟩ | ⟨-, -, h⟩
    · rw [e]; exact hv
    · exact h
  have hiz := (isInZone_within hvn hv hr).2 hin
  have e1 := parseOwner_text (check := fun name => ensureNameInZone name zone) hs hr h1
    (fun _ => by unfold ensureNameInZone; rw [if_pos hiz])
  obtain ⟨ot, oc, t2, e2, ho, hoc, -, -, hw⟩ := ttlClass_text h2 hk hkc hs
  obtain ⟨t3, e3, s3⟩ := hw.next
  rw [show token (.plain k) = .string k from hk] at e3
  have hoc' : oc.getD .IN = .IN := by rcases hoc with rfl | rfl <;> rfl
  have hr : (({ node := r.node, cls := .IN, ttl := r.ttl } : RecData).mk' r.data) = r := by
    unfold RecData.mk'
    obtain ⟨a, b, c, d, e⟩ := r
    simp only at h3 h5
    subst h3 h5
    rfl
  obtain ⟨t4, e4, w4⟩ := hdata { node := r.node, cls := .IN, ttl := r.ttl } t3 hiz s3
  obtain ⟨t5, e5, p5⟩ := endOfEntry_text w4
  refine ⟨t5, ?_, p5⟩
  unfold parseSubRecord
  simp only [e1, Out.bind_ok, e2, ho, hoc', ensureClassIsSupported, Class.isSupported, if_true, ensureMinTtl,
      ge_iff_le, hmin, e3, tok, Out.mapErr, hty, e4, e5, hr]

theorem parseSubEntries_text {zone : Name} (hv : ValidName zone.s) (hr : zone.s ≠ ['.']) {minimum last : UInt32} {ls : List Str}
    {rs : List Record} (h : SubMeans true zone minimum last ls rs) : ∃ bound, ∀ (t : Tokenizer) (z : Zone) (log : List Record),
      Opens ls t → Holds z log → ∀ fuel, Gives (Holds · (log ++ rs)) bound fuel (parseSubEntries fuel zone last minimum t z) := by
  induction h with
  | nil =>
    refine ⟨1, fun t z log ho hz fuel => ?_⟩
    cases fuel with
    | zero => exact .inl ⟨rfl, by omega⟩
    | succ fuel =>
      obtain ⟨t', e⟩ := opens_nil ho
      refine .inr ⟨z, ?_, by rwa [List.append_nil]⟩
      simp only [parseSubEntries, peek, e, Out.bind_ok, tok, Out.mapErr]
  | skip hn h ih =>
    obtain ⟨b, ih⟩ := ih
    exact ⟨b, fun t z log ho hz fuel => ih t z log (opens_skip ho hn) hz fuel⟩
  | @record last head ws ls left r rs he hrec hty hin hmin h ih =>
    obtain ⟨b, ih⟩ := ih
    refine ⟨b + 1, fun t z log ho hz fuel => ?_⟩
    cases fuel with
    | zero => exact .inl ⟨rfl, by omega⟩
    | succ fuel =>
      have hh := owner_text hr (by obtain ⟨_, _, _, h, _⟩ := hrec; exact h)
      obtain ⟨t', e, hs⟩ := entry_opens he (by obtain ⟨_, _, _, h, _⟩ := hrec; exact owner_head h) ho
      have e2 := peek_entry e hs
      obtain ⟨t2, e3, -, ho2⟩ := parseSubRecord_text hv hr hrec hty hin hmin hs
      have step : parseSubEntries (fuel + 1) zone last minimum t z = parseSubEntries fuel zone r.ttl minimum t2 (z.insert r) := by
        rw [parseSubEntries, e2]
        rcases hh with ⟨-, h | h⟩ | ⟨h, -⟩ <;> rw [h] at e3 ⊢ <;> simp only [tok, Out.mapErr, Out.bind_ok, e3]
      rw [step]
      have := ih t2 (z.insert r) (log ++ [r]) ho2 (hz.insert r) fuel
      rw [List.append_assoc] at this
      rcases this with ⟨h1, h2⟩ | h
      · exact .inl ⟨h1, by omega⟩
      · exact .inr h

end Ariadne.ZoneParser
