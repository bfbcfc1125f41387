import Verif.Lemmas.ZoneText3
import Verif.Lemmas.Zone

/-! # Parsing entries and files -/

namespace Ariadne.ZoneParser

open Spec Tokenizer

/-- The outcome with `fuel` is `a`, or there was too little of it; with `bound` there is enough. -/
def Gives {α : Type} (P : α → Prop) (bound fuel : Nat) (x : Out ParseErr α) : Prop :=
  (x = .diverge ∧ fuel < bound) ∨ ∃ a, x = .ok a ∧ P a

theorem within_not_root {n z : Name} (h : Within n z) (hz : z.s ≠ ['.']) : n.s ≠ ['.'] := by
  obtain ⟨L, M, hL, hM, hs⟩ := h
  intro e
  have : L = [] := nameOf_unique hL ⟨by simp, e⟩
  rw [this, List.suffix_nil] at hs
  subst hs
  exact hz hM.2

/-- What is fixed while a zone is parsed. -/
structure Frames (f : ZoneFrame) (st : AuthState) : Prop where
  zone : st.zone = f.zone
  subZones : st.subZones = f.subZones
  minimum : st.minTtl = f.minimum
  validZone : ValidName f.zone.s
  validSub : ∀ s ∈ f.subZones, ValidName s.s
  notRoot : f.zone.s ≠ ['.']
  within : Within st.currentOrig f.zone
  valid : ValidName st.currentOrig.s

theorem Frames.orig {f : ZoneFrame} {st : AuthState} (h : Frames f st) : st.currentOrig.s ≠ ['.'] :=
  within_not_root h.within h.notRoot

theorem Frames.set {f : ZoneFrame} {st : AuthState} (h : Frames f st) {o : Name} {ttl : UInt32} (hw : Within o f.zone)
    (hv : ValidName o.s) : Frames f { st with currentOrig := o, currentTtl := ttl } :=
  ⟨h.zone, h.subZones, h.minimum, h.validZone, h.validSub, h.notRoot, hw, hv⟩

theorem owns_ok {f : ZoneFrame} {st : AuthState} (h : Frames f st) {n : Name} (hv : ValidName n.s) (ho : f.Owns n) :
    ensureNameInAuthZone n st.zone st.subZones = .ok () := by
  unfold ensureNameInAuthZone
  rw [if_pos]
  unfold Name.isOnlyInAuthZone
  rw [h.zone, h.subZones, (isInZone_within hv h.validZone h.notRoot).2 ho.1]
  simp only [Bool.not_true, Bool.false_eq_true, if_false, Bool.not_eq_true', List.any_eq_false]
  intro s hs hin
  exact ho.2 s hs (within_of_isInZone hv (h.validSub s hs) hin)

theorem wordToken_head {h : Str} (hs : Solid h) (hd : h.head? ≠ some '$') : headToken h = wordToken h := by
  unfold headToken
  rw [if_neg hs.1, if_neg (by rintro rfl; exact hd rfl), if_neg (by rintro rfl; exact hd rfl)]

theorem name_head {strict : Bool} {origin n : Name} {w : Str} (h : NameText strict origin w n) : w ≠ [] ∧ w.head? ≠ some '$' := by
  obtain ⟨-, -, L, hL, h⟩ := h
  have hd : ∀ {K : List Str} {s : Str}, NameOf s K → s.head? ≠ some '$' := by
    rintro K s ⟨hall, rfl⟩ e
    unfold render at e
    cases K with
    | nil => exact absurd e (by decide)
    | cons l K =>
      rw [if_neg (by simp)] at e
      obtain ⟨-, a, z, ha, -, hl, -⟩ := hall l List.mem_cons_self
      cases l with
      | nil => cases ha
      | cons c l =>
        simp only [List.head?_cons, Option.some.injEq] at ha
        simp only [List.flatMap_cons, List.cons_append, List.head?_cons, Option.some.injEq] at e
        subst e ha
        revert hl
        unfold LetDig
        decide
  rcases h with h | ⟨K, O, hK, h, -⟩
  · refine ⟨?_, hd h⟩
    rintro rfl
    have := render_last (L := L)
    rw [← h.2] at this
    cases this
  · refine ⟨by rintro rfl; exact hK (nameOf_unique h ⟨by simp, rfl⟩), fun e => hd h ?_⟩
    cases w with
    | nil => cases e
    | cons c w => exact e

/-- The first token of a record. -/
theorem owner_text {origin n : Name} {w : Str} (ho : origin.s ≠ ['.']) (h : OwnerText true origin w n) :
    (n = origin ∧ (headToken w = .blank ∨ headToken w = .at)) ∨
    (headToken w = .string w ∧ adjustName origin w = .ok n ∧ ValidName n.s) := by
  rcases h with ⟨rfl | rfl, rfl⟩ | h
  · exact .inl ⟨rfl, .inl (by decide)⟩
  · exact .inl ⟨rfl, .inr (by decide)⟩
  · right
    have hc := name_head h
    obtain ⟨e1, e2, e3⟩ := name_text ho h
    refine ⟨?_, e2, e3⟩
    unfold headToken
    rw [if_neg hc.1, if_neg (by rintro rfl; exact hc.2 rfl), if_neg (by rintro rfl; exact hc.2 rfl), e1]

theorem owner_head {strict : Bool} {origin n : Name} {w : Str} (h : OwnerText strict origin w n) :
    w.head? = some '$' → w = "$ORIGIN".toList ∨ w = "$INCLUDE".toList := by
  intro hd
  rcases h with ⟨rfl | rfl, rfl⟩ | h
  · cases hd
  · exact absurd hd (by decide)
  · exact absurd hd (name_head h).2

/-- The result of parsing an entry. -/
def Past (left : List Str) (t : Tokenizer) : Prop := t.peeked = [] ∧ Opens left t

theorem next_held {t : Tokenizer} {tk : Token} {left : List Str} {ws : List Spec.Word} (hs : Sits left ws t) :
    ({ t with peeked := [tk] } : Tokenizer).next = .ok (tk, t) := by
  rw [next_peeked (t := { t with peeked := [tk] }) rfl hs.eq.2.2]
  show Out.ok (tk, { t with peeked := [] }) = _
  rw [hs.eq.1]

theorem parseOwner_text {t : Tokenizer} {origin n : Name} {w : Str} {check : Name → Out ParseErr Unit} {left : List Str} {ws : List Spec.Word} (hs : Sits left ws t)
    (ho : origin.s ≠ ['.']) (h : OwnerText true origin w n) (hc : ValidName n.s → check n = .ok ()) :
    parseOwner { t with peeked := [headToken w] } origin check = .ok (n, t) := by
  unfold parseOwner
  rw [next_held hs]
  rcases owner_text ho h with ⟨rfl, h | h⟩ | ⟨h, e, hv⟩
  · rw [h]
  · rw [h]
  · rw [h]
    simp only [e, Out.bind_ok, hc hv]

theorem parseRecord_text {f : ZoneFrame} {st : AuthState} (hf : Frames f st) {head : Str} {ws : List Spec.Word} {r : Record}
    (h : RecordText true st.currentOrig st.currentTtl head ws r) (hown : f.Owns r.node) (hmin : f.minimum ≤ r.ttl)
    {left : List Str} {t : Tokenizer} (hs : Sits left ws t) (fuel : Nat) :
    Gives (fun a => a.1 = r ∧ Past left a.2) (ws.length + 1) fuel (parseRecord fuel { t with peeked := [headToken head] } st) := by
  obtain ⟨ts, ds, rfl, h1, h2, h3, h4, h5⟩ := h
  obtain ⟨k, dw, ty, rfl, hk, hkc, hty, hsup, hdata⟩ := data_text (left := left) hf.orig h4
  have e1 := parseOwner_text (check := fun name => ensureNameInAuthZone name st.zone st.subZones) hs hf.orig h1
    (fun hv => owns_ok hf hv hown)
  obtain ⟨ot, oc, t2, e2, ho, hoc, -, -, hw⟩ := ttlClass_text h2 hk hkc hs
  obtain ⟨t3, e3, s3⟩ := hw.next
  rw [show token (.plain k) = .string k from hk] at e3
  have hoc' : oc.getD .IN = .IN := by rcases hoc with rfl | rfl <;> rfl
  have hr : (({ node := r.node, cls := .IN, ttl := r.ttl } : RecData).mk' r.data) = r := by
    unfold RecData.mk'
    obtain ⟨a, b, c, d, e⟩ := r
    simp only at h3 h5
    subst h3 h5
    rfl
  have start : parseRecord fuel { t with peeked := [headToken head] } st = (do
      let (record, t) ← parseAuthData fuel t3 st.currentOrig ty { node := r.node, cls := .IN, ttl := r.ttl }
      let t ← endOfEntry t
      .ok (record, t)) := by
    unfold parseRecord
    simp only [e1, Out.bind_ok, e2, ho, hoc', ensureClassIsSupported, Class.isSupported, if_true, ensureMinTtl, hf.minimum,
      ge_iff_le, hmin, e3, tok, Out.mapErr, hty, hsup, Bool.not_true, Bool.false_eq_true, if_false]
  rw [start]
  rcases hdata { node := r.node, cls := .IN, ttl := r.ttl } fuel t3 s3 with ⟨e4, hl⟩ | ⟨t4, e4, w4⟩
  · left
    rw [e4]
    exact ⟨rfl, by simp only [List.length_append, List.length_cons]; omega⟩
  · obtain ⟨t5, e5, p5, o5⟩ := endOfEntry_text w4
    refine .inr ⟨(r, t5), ?_, rfl, p5, o5⟩
    rw [e4]
    simp only [Out.bind_ok, e5, hr]

theorem assertNext_held {t : Tokenizer} {tk : Token} {left : List Str} {ws : List Spec.Word} (hs : Sits left ws t) :
    assertNext { t with peeked := [tk] } tk = .ok t := by
  unfold assertNext
  rw [next_held hs]
  simp only [if_true]

theorem parseOrigin_text {f : ZoneFrame} {st : AuthState} (hf : Frames f st) {o : Name} (hv : ValidName o.s) (hown : f.Owns o)
    {left : List Str} {t : Tokenizer} (hs : Sits left [.plain o.s] t) :
    ∃ t', parseOrigin { t with peeked := [headToken "$ORIGIN".toList] } st = .ok (o, t') ∧ Past left t' := by
  obtain ⟨t1, e1, s1⟩ := hs.reading
  obtain ⟨t2, e2, p2⟩ := endOfEntry_text (.sits s1)
  refine ⟨t2, ?_, p2⟩
  obtain ⟨-, L, hL⟩ := id hv
  have hlast : o.s.getLast? = some '.' := by rw [hL.2]; exact render_last
  have hm : '.' ∈ o.s := List.mem_of_getLast? hlast
  have hk : token (.plain o.s) = .string o.s := wordToken_string (not_numeric hm (by decide) (by decide)) (nameOf_not_at hL)
  rw [hk] at e1
  unfold parseOrigin
  rw [show headToken "$ORIGIN".toList = .originDir by decide, assertNext_held hs]
  simp only [Out.bind_ok, e1, tok, Out.mapErr, ensureAbsoluteName, if_pos hlast, nm_valid hv, owns_ok hf hv hown, e2]

theorem parseInclude_text {f : ZoneFrame} {st : AuthState} (hf : Frames f st) {o : Name} {path : Str} {ws : List Spec.Word}
    (hp : ¬ LooksNumeric path ∧ path ≠ ['@'])
    (ho : (ws = [] ∧ o = st.currentOrig) ∨ (∃ w, ws = [.plain w] ∧ NameText true st.currentOrig w o ∧ f.Owns o))
    {left : List Str} {t : Tokenizer} (hs : Sits left (.plain path :: ws) t) :
    ∃ t', parseInclude { t with peeked := [headToken "$INCLUDE".toList] } st = .ok (path, o, t') ∧ Past left t' := by
  obtain ⟨t1, e1, s1⟩ := hs.reading
  rw [show token (.plain path) = .string path from wordToken_string hp.1 hp.2] at e1
  rcases ho with ⟨rfl, rfl⟩ | ⟨w, rfl, hn, hown⟩
  · obtain ⟨tk, t2, e2, hk, h2, -, h3⟩ := s1.reading
    refine ⟨t2, ?_, h2, h3⟩
    unfold parseInclude
    rw [show headToken "$INCLUDE".toList = .includeDir by decide, assertNext_held hs]
    rcases hk with rfl | rfl
    all_goals
      simp only [Out.bind_ok, e1, tok, Out.mapErr, includeFile, e2, if_true, true_or, or_true]
  · obtain ⟨t2, e2, s2⟩ := s1.reading
    obtain ⟨hk, ha, hv⟩ := name_text hf.orig hn
    rw [show token (.plain w) = .string w from hk] at e2
    obtain ⟨tk, t3, e3, hk3, h2, -, h3⟩ := s2.reading
    refine ⟨t3, ?_, h2, h3⟩
    unfold parseInclude
    rw [show headToken "$INCLUDE".toList = .includeDir by decide, assertNext_held hs]
    simp only [Out.bind_ok, e1, tok, Out.mapErr, includeFile, e2, e3, ha, owns_ok hf hv hown, if_pos hk3]

end Ariadne.ZoneParser
