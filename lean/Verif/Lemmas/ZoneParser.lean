import Verif.Model.ZoneParser
import Verif.Lemmas.Tokens2
import Verif.Lemmas.NameValid
import Verif.Lemmas.Zone
import Mathlib.Logic.Relation

/-! # The zone parser, function by function: results, panics, progress -/

namespace Ariadne.ZoneParser

open Tokenizer Spec

/-- The tokenizer without the tokens put back. -/
def bare (t : Tokenizer) : Tokenizer := { t with peeked := [] }

/-- One call of `next`. -/
def Step (a b : Tokenizer) : Prop := ∃ tk, a.next = .ok (tk, b)

theorem bare_of {t : Tokenizer} (h : t.peeked = []) : bare t = t := by
  cases t; simp only at h; subst h; rfl

/-- Demands on the input: no word with escapes at the end of a line if panics matter, plain blanks if termination matters. -/
structure InputOk (np nd : Prop) (t : Tokenizer) : Prop where
  clean : np → t.Clean
  plain : nd → t.Plain

/-- A state inside an entry that started with `t0`. -/
structure At (np nd : Prop) (t0 t : Tokenizer) : Prop where
  after : After t0 t
  reach : Relation.ReflTransGen Step (bare t0) (bare t)
  line : t.line ≠ 0
  held : t.peeked = [] ∨ ∃ tk, t.peeked = [tk] ∧ tk ≠ .blank
  input : InputOk np nd t

variable {np nd : Prop}

theorem InputOk.after {t t' : Tokenizer} (h : InputOk np nd t) (a : After t t') : InputOk np nd t' :=
  ⟨fun x => a.clean (h.clean x), fun x => a.plain (h.plain x)⟩

theorem after_bare (t : Tokenizer) : After t (bare t) :=
  ⟨fun h => h.1, List.suffix_refl _, le_refl _, le_refl _, fun h => h.1⟩

theorem after_put (t : Tokenizer) (p : List Token) : After t { t with peeked := p } :=
  ⟨fun h => h.1, List.suffix_refl _, le_refl _, le_refl _, fun h => h.1⟩

theorem nab_reach : ∀ (n : Nat) {t t' : Tokenizer} {tk : Token}, t.size < n → Fresh t →
    t.nextAfterBlanks = .ok (tk, t') → Relation.ReflTransGen Step t t'
  | 0, t, _, _, h, _, _ => by omega
  | n + 1, t, t', tk, h, hf, e => by
    rw [nextAfterBlanks_fresh hf] at e
    have hs := next_sat (np := False) (nd := False) (pl := False) hf (fun h => h.elim) (fun h => h.elim)
    cases hx : t.next with
    | ok r =>
      obtain ⟨k, t1⟩ := r
      have hs := hs.of_ok hx
      rw [hx] at e
      simp only [Out.bind_ok] at e
      by_cases hb : k = .blank
      · rw [if_pos hb] at e
        have h1 := hs.blank hb
        simp only at h1
        exact Relation.ReflTransGen.head ⟨k, hx⟩ (nab_reach n (by omega) (hs.fresh (by rw [hb]; simp)) e)
      · rw [if_neg hb] at e
        cases e
        exact Relation.ReflTransGen.single ⟨_, hx⟩
    | err e' => rw [hx] at e; cases e
    | panic k => rw [hx] at e; cases e
    | diverge => rw [hx] at e; cases e

/-- What `next_after_blanks` gives from a state inside an entry. -/
structure Word (np nd : Prop) (t0 t : Tokenizer) (r : Token × Tokenizer) : Prop where
  at' : At np nd t0 r.2
  idle : r.2.peeked = []
  word : r.1 ≠ .blank
  shrink : nd → t.peeked = [] → r.1 ≠ .end → r.2.size < t.size

theorem nab {t0 t : Tokenizer} (h : At np nd t0 t) : Sat np nd t.nextAfterBlanks (Word np nd t0 t) := by
  rcases h.held with hp | ⟨tk, hp, hb⟩
  · have hf : Fresh t := ⟨hp, fun e => absurd e h.line⟩
    refine (nextAfterBlanks_sat (np := np) (nd := nd) (pl := nd) (t.size + 1) (Nat.lt_succ_self _) hf h.input.clean
      h.input.plain).mono fun r hr k => ?_
    have hrch := nab_reach (t.size + 1) (Nat.lt_succ_self _) hf hr
    refine ⟨⟨h.after.trans k.took.after, ?_, ?_, .inl k.took.peeked, h.input.after k.took.after⟩, k.took.peeked, k.word,
      fun x _ y => k.took.shrink x y⟩
    · rw [bare_of k.took.peeked]
      rw [← bare_of hp] at hrch
      exact h.reach.trans hrch
    · have := k.took.after.line; have := h.line; omega
  · rw [nextAfterBlanks_held hp h.line, if_neg hb]
    refine ⟨⟨h.after.trans (after_bare t), h.reach, h.line, .inl rfl, h.input.after (after_bare t)⟩, rfl, hb, ?_⟩
    intro _ e
    rw [hp] at e; cases e

theorem tok_sat {α : Type} {x : Out TokenErr α} {Q : α → Prop} (h : Sat np nd x Q) : Sat np nd (tok x) Q := h.mapErr

theorem nabT {t0 t : Tokenizer} (h : At np nd t0 t) : Sat np nd (tok t.nextAfterBlanks) (Word np nd t0 t) :=
  tok_sat (nab h)

/-- What `peek_after_blanks` gives. -/
structure Seen (np nd : Prop) (t0 t : Tokenizer) (r : Token × Tokenizer) : Prop where
  at' : At np nd t0 r.2
  held : r.2.peeked = [r.1]
  word : r.1 ≠ .blank
  shrink : nd → t.peeked = [] → r.1 ≠ .end → r.2.size < t.size

theorem peekAB {t0 t : Tokenizer} (h : At np nd t0 t) : Sat np nd (tok t.peekAfterBlanks) (Seen np nd t0 t) := by
  refine tok_sat ?_
  unfold peekAfterBlanks
  refine Sat.bind (nab h) fun r _ w => ?_
  have a := after_put r.2 (r.2.peeked ++ [r.1])
  have e : r.2.peeked ++ [r.1] = [r.1] := by rw [w.idle]; rfl
  exact ⟨⟨w.at'.after.trans a, w.at'.reach, w.at'.line, .inr ⟨_, e, w.word⟩, w.at'.input.after a⟩, e, w.word, w.shrink⟩

/-- Taking a token that was put back. -/
theorem take_next {t : Tokenizer} {tk : Token} (hp : t.peeked = [tk]) (hl : t.line ≠ 0) :
    unwrapTok t.next = .ok (bare t) := by
  rw [next_peeked hp hl]; rfl

theorem take_nab {t : Tokenizer} {tk : Token} (hp : t.peeked = [tk]) (hl : t.line ≠ 0) (hb : tk ≠ .blank) :
    unwrapTok t.nextAfterBlanks = .ok (bare t) := by
  rw [nextAfterBlanks_held hp hl, if_neg hb]; rfl

theorem At.bare {t0 t : Tokenizer} (h : At np nd t0 t) : At np nd t0 (bare t) :=
  ⟨h.after.trans (after_bare t), h.reach, h.line, .inl rfl, h.input.after (after_bare t)⟩

theorem parseTtlClass_sat {t0 t : Tokenizer} (h : At np nd t0 t) :
    Sat np nd (parseTtlClass t) fun r => At np nd t0 r.2 := by
  unfold parseTtlClass
  refine Sat.bind (peekAB h) fun r _ s => ?_
  obtain ⟨tk, t1⟩ := r
  have hh := s.held
  simp only at hh
  have h1 : At np nd t0 t1 := s.at'
  cases tk with
  | number n =>
    simp only
    rw [take_next hh h1.line, Out.bind_ok]
    refine Sat.bind (peekAB h1.bare) fun r2 _ s2 => ?_
    cases hc : tryToClass r2.1 with
    | none => exact s2.at'
    | some c =>
      simp only
      rw [take_next s2.held s2.at'.line, Out.bind_ok]
      exact s2.at'.bare
  | string w =>
    simp only
    cases hc : Class.fromString w with
    | none => exact h1
    | some c =>
      simp only
      rw [take_next hh h1.line, Out.bind_ok]
      refine Sat.bind (peekAB h1.bare) fun r2 _ s2 => ?_
      cases hc : tryToTtl r2.1 with
      | none => exact s2.at'
      | some c =>
        simp only
        rw [take_next s2.held s2.at'.line, Out.bind_ok]
        exact s2.at'.bare
  | _ => exact trivial

theorem nm_fromString (s : Str) : Sat np nd (nm (Name.fromString s)) fun n => n.s = s ∧ ValidName s := by
  have hr := validateName_returns s
  unfold nm Name.fromString
  cases hv : Name.validateName s with
  | ok u => exact ⟨rfl, (validateName_iff s).1 hv⟩
  | err e => trivial
  | panic k => rw [hv] at hr; exact hr.elim
  | diverge => rw [hv] at hr; exact hr.elim

theorem adjustName_sat (o : Name) (s : Str) :
    Sat np nd (adjustName o s) fun n => n = o ∨ ValidName n.s := by
  unfold adjustName
  refine Sat.ite (fun _ => Or.inl rfl) fun _ => ?_
  exact (nm_fromString _).mono fun n _ h => Or.inr (by rw [h.1]; exact h.2)

theorem ensureAbsoluteName_sat (s : Str) : Sat np nd (ensureAbsoluteName s) fun _ => True :=
  Sat.ite (fun _ => trivial) fun _ => trivial

theorem ensureNameInZone_sat (n z : Name) : Sat np nd (ensureNameInZone n z) fun _ => n.isInZone z = true := by
  unfold ensureNameInZone
  exact Sat.ite (fun h => h) fun _ => trivial

theorem ensureNameInAuthZone_sat (n z : Name) (s : List Name) :
    Sat np nd (ensureNameInAuthZone n z s) fun _ => n.isOnlyInAuthZone z s = true := by
  unfold ensureNameInAuthZone
  exact Sat.ite (fun h => h) fun _ => trivial

theorem ensureClass_sat (c : Class) : Sat np nd (ensureClassIsSupported c) fun _ => c = .IN := by
  unfold ensureClassIsSupported
  refine Sat.ite (fun h => ?_) fun _ => trivial
  cases c <;> first | rfl | cases h

theorem ensureMinTtl_sat (m n : UInt32) : Sat np nd (ensureMinTtl m n) fun _ => m ≤ n := by
  unfold ensureMinTtl
  exact Sat.ite (fun h => h) fun _ => trivial

/-- What the record parsers put into records: valid names, ASCII strings, no WKS ports. -/
def DataOk : RData → Prop
  | .A _ => True
  | .NS n => ValidName n.s
  | .CNAME n => ValidName n.s
  | .SOA a b _ _ _ _ _ => ValidName a.s ∧ ValidName b.s
  | .WKS _ _ ports => ports = []
  | .PTR n => ValidName n.s
  | .HINFO a b => (∀ c ∈ a, c.toNat < 128) ∧ ∀ c ∈ b, c.toNat < 128
  | .MX _ n => ValidName n.s
  | .TXT ts => ∀ s ∈ ts, ∀ c ∈ s, c.toNat < 128

/-- Result of a record parser. -/
structure Parsed (np nd : Prop) (t0 : Tokenizer) (origin : Name) (d : RecData) (ty : RecordType)
    (r : Record × Tokenizer) : Prop where
  at' : At np nd t0 r.2
  made : ∃ data, r.1 = d.mk' data
  type : r.1.recordType = ty
  data : ValidName origin.s → DataOk r.1.data

theorem parseAddress_sat {t0 t : Tokenizer} (h : At np nd t0 t) :
    Sat np nd (parseAddress t) fun r => At np nd t0 r.2 ∧ r.2.peeked = [] := by
  unfold parseAddress
  refine Sat.bind (nabT h) fun r _ w => ?_
  obtain ⟨tk, t1⟩ := r
  cases tk with
  | string s =>
    simp only
    cases parseIpv4 s with
    | some a => exact ⟨w.at', w.idle⟩
    | none => trivial
  | _ => exact trivial

theorem parseA_sat {t0 t : Tokenizer} (h : At np nd t0 t) (o : Name) (d : RecData) :
    Sat np nd (parseA t d) (Parsed np nd t0 o d .A) := by
  unfold parseA
  refine Sat.bind (parseAddress_sat h) fun r _ w => ?_
  exact ⟨w.1, ⟨_, rfl⟩, rfl, fun _ => trivial⟩

theorem parseRelName_sat {t0 t : Tokenizer} (h : At np nd t0 t) (o : Name) :
    Sat np nd (parseRelName t o) fun r => At np nd t0 r.2 ∧ (ValidName o.s → ValidName r.1.s) := by
  unfold parseRelName
  refine Sat.bind (nabT h) fun r _ w => ?_
  obtain ⟨tk, t1⟩ := r
  cases tk with
  | string s =>
    simp only
    refine Sat.bind (adjustName_sat o s) fun n _ hn => ⟨w.at', fun ho => ?_⟩
    rcases hn with rfl | hn
    · exact ho
    · exact hn
  | _ => exact trivial

theorem parseNs_sat {t0 t : Tokenizer} (h : At np nd t0 t) (o : Name) (d : RecData) :
    Sat np nd (parseNs t o d) (Parsed np nd t0 o d .NS) := by
  unfold parseNs
  refine Sat.bind (parseRelName_sat h o) fun r _ w => ?_
  exact ⟨w.1, ⟨_, rfl⟩, rfl, w.2⟩

theorem parseCname_sat {t0 t : Tokenizer} (h : At np nd t0 t) (o : Name) (d : RecData) :
    Sat np nd (parseCname t o d) (Parsed np nd t0 o d .CNAME) := by
  unfold parseCname
  refine Sat.bind (nabT h) fun r _ w => ?_
  obtain ⟨tk, t1⟩ := r
  cases tk with
  | «at» => exact ⟨w.at', ⟨_, rfl⟩, rfl, fun h => h⟩
  | string s =>
    simp only
    refine Sat.bind (adjustName_sat o s) fun n _ hn => ⟨w.at', ⟨_, rfl⟩, rfl, fun ho => ?_⟩
    rcases hn with rfl | hn
    · exact ho
    · exact hn
  | _ => exact trivial

theorem parseNumber_sat {t0 t : Tokenizer} (h : At np nd t0 t) :
    Sat np nd (parseNumber t) fun r => At np nd t0 r.2 := by
  unfold parseNumber
  refine Sat.bind (nabT h) fun r _ w => ?_
  obtain ⟨tk, t1⟩ := r
  cases tk with
  | number n => exact w.at'
  | _ => exact trivial

theorem parseSoa_sat {t0 t : Tokenizer} (h : At np nd t0 t) (o : Name) (d : RecData) :
    Sat np nd (parseSoa t o d) fun r => At np nd t0 r.2.2 ∧ (∃ a b s rf rt e, r.1 = d.mk' (.SOA a b s rf rt e r.2.1)) ∧
      (ValidName o.s → DataOk r.1.data) := by
  unfold parseSoa
  refine Sat.bind (parseRelName_sat h o) fun r1 _ w1 => Sat.bind (parseRelName_sat w1.1 o) fun r2 _ w2 =>
    Sat.bind (parseNumber_sat w2.1) fun r3 _ w3 => Sat.bind (parseNumber_sat w3) fun r4 _ w4 =>
    Sat.bind (parseNumber_sat w4) fun r5 _ w5 => Sat.bind (parseNumber_sat w5) fun r6 _ w6 =>
    Sat.bind (parseNumber_sat w6) fun r7 _ w7 => ?_
  exact ⟨w7, ⟨_, _, _, _, _, _, rfl⟩, fun h => ⟨w1.2 h, w2.2 h⟩⟩

theorem discardStrings_sat {t0 : Tokenizer} : ∀ (fuel : Nat) {t : Tokenizer}, At np nd t0 t → t.peeked = [] →
    (nd → t.size < fuel) → Sat np nd (discardStrings fuel t) fun t' => At np nd t0 t'
  | 0, t, _, _, hs => fun hd => by have := hs hd; omega
  | fuel + 1, t, h, hp, hs => by
    unfold discardStrings
    refine Sat.bind (peekAB h) fun r _ s => ?_
    obtain ⟨tk, t1⟩ := r
    cases tk with
    | newLine => exact s.at'
    | «end» => exact s.at'
    | string w =>
      simp only
      rw [take_nab s.held s.at'.line s.word, Out.bind_ok]
      refine discardStrings_sat fuel s.at'.bare rfl fun hd => ?_
      have h1 := s.shrink hd hp (by simp)
      have h2 := hs hd
      have e : (bare t1).size = t1.size := rfl
      simp only at h1 ⊢
      omega
    | _ => exact trivial

theorem parseWks_sat {t0 t : Tokenizer} {fuel : Nat} (h : At np nd t0 t) (hs : nd → t0.size < fuel) (o : Name)
    (d : RecData) : Sat np nd (parseWks fuel t d) (Parsed np nd t0 o d .WKS) := by
  unfold parseWks
  refine Sat.bind (parseAddress_sat h) fun r _ w => Sat.bind (nabT w.1) fun r2 _ w2 => ?_
  obtain ⟨tk, t1⟩ := r2
  cases tk with
  | string s =>
    simp only
    cases wksProtocol s with
    | none => trivial
    | some n =>
      refine Sat.bind (discardStrings_sat fuel w2.at' w2.idle fun hd => ?_) fun t3 _ w3 => ?_
      · exact lt_of_le_of_lt w2.at'.after.size (hs hd)
      · exact ⟨w3, ⟨_, rfl⟩, rfl, fun _ => rfl⟩
  | _ => exact trivial

theorem parsePtr_sat {t0 t : Tokenizer} (h : At np nd t0 t) (o : Name) (d : RecData) :
    Sat np nd (parsePtr t d) (Parsed np nd t0 o d .PTR) := by
  unfold parsePtr
  refine Sat.bind (nabT h) fun r _ w => ?_
  obtain ⟨tk, t1⟩ := r
  cases tk with
  | string s =>
    simp only
    refine Sat.bind (ensureAbsoluteName_sat s) fun _ _ _ => Sat.bind (nm_fromString s) fun n _ hn => ?_
    exact ⟨w.at', ⟨_, rfl⟩, rfl, fun _ => by show ValidName n.s; rw [hn.1]; exact hn.2⟩
  | _ => exact trivial

theorem parseCharString_sat (tk : Token) :
    Sat np nd (parseCharString tk) fun s => ∀ c ∈ s, c.toNat < 128 := by
  unfold parseCharString
  cases tk with
  | string s =>
    simp only
    refine Sat.ite (fun h c hc => ?_) fun _ => trivial
    simp only [isValidCharacterString, Bool.false_eq_true, if_false, List.all_eq_true] at h
    have := h c hc
    simp at this
    exact this.1
  | qString s =>
    simp only
    refine Sat.ite (fun h c hc => ?_) fun _ => trivial
    simp only [isValidCharacterString, if_true, List.all_eq_true] at h
    have := h c hc
    simpa using this
  | _ => exact trivial

theorem parseHinfo_sat {t0 t : Tokenizer} (h : At np nd t0 t) (o : Name) (d : RecData) :
    Sat np nd (parseHinfo t d) (Parsed np nd t0 o d .HINFO) := by
  unfold parseHinfo
  refine Sat.bind (nabT h) fun r _ w => Sat.bind (parseCharString_sat r.1) fun a _ ha =>
    Sat.bind (nabT w.at') fun r2 _ w2 => Sat.bind (parseCharString_sat r2.1) fun b _ hb => ?_
  exact ⟨w2.at', ⟨_, rfl⟩, rfl, fun _ => ⟨ha, hb⟩⟩

theorem parseMx_sat {t0 t : Tokenizer} (h : At np nd t0 t) (o : Name) (d : RecData) :
    Sat np nd (parseMx t o d) (Parsed np nd t0 o d .MX) := by
  unfold parseMx
  refine Sat.bind (parseNumber_sat h) fun r _ w => Sat.ite (fun _ => ?_) fun _ => trivial
  refine Sat.bind (parseRelName_sat w o) fun r2 _ w2 => ?_
  exact ⟨w2.1, ⟨_, rfl⟩, rfl, w2.2⟩

theorem txtLoop_sat {t0 : Tokenizer} : ∀ (fuel : Nat) {t : Tokenizer} (txts : List Str), At np nd t0 t → t.peeked = [] →
    (nd → t.size < fuel) → (∀ s ∈ txts, ∀ c ∈ s, c.toNat < 128) →
    Sat np nd (txtLoop fuel t txts) fun r => At np nd t0 r.2 ∧ ∀ s ∈ r.1, ∀ c ∈ s, c.toNat < 128
  | 0, t, _, _, _, hs, _ => fun hd => by have := hs hd; omega
  | fuel + 1, t, txts, h, hp, hs, hx => by
    unfold txtLoop
    refine Sat.bind (peekAB h) fun r _ s => ?_
    have key : r.1 ≠ .end → Sat np nd (do
        let t ← unwrapTok r.2.nextAfterBlanks
        let txt ← parseCharString r.1
        txtLoop fuel t (txts ++ [txt])) fun r => At np nd t0 r.2 ∧ ∀ s ∈ r.1, ∀ c ∈ s, c.toNat < 128 := fun he => by
      rw [take_nab s.held s.at'.line s.word, Out.bind_ok]
      refine Sat.bind (parseCharString_sat r.1) fun a _ ha => ?_
      refine txtLoop_sat fuel _ s.at'.bare rfl (fun hd => ?_) ?_
      · have h1 := s.shrink hd hp he
        have h2 := hs hd
        have e : (bare r.2).size = r.2.size := rfl
        omega
      · intro s hs
        rcases List.mem_append.1 hs with h1 | h1
        · exact hx s h1
        · simp at h1; subst h1; exact ha
    obtain ⟨tk, t1⟩ := r
    cases tk with
    | newLine => exact ⟨s.at', hx⟩
    | «end» => exact ⟨s.at', hx⟩
    | _ => exact key (by simp)

theorem parseTxt_sat {t0 t : Tokenizer} {fuel : Nat} (h : At np nd t0 t) (hp : t.peeked = []) (hs : nd → t0.size < fuel)
    (o : Name) (d : RecData) : Sat np nd (parseTxt fuel t d) (Parsed np nd t0 o d .TXT) := by
  unfold parseTxt
  refine Sat.bind (txtLoop_sat fuel [] h hp (fun hd => lt_of_le_of_lt h.after.size (hs hd)) (by simp)) fun r _ w => ?_
  exact ⟨w.1, ⟨_, rfl⟩, rfl, fun _ => w.2⟩

theorem parseAuthData_sat {t0 t : Tokenizer} {fuel : Nat} (h : At np nd t0 t) (hp : t.peeked = [])
    (hs : nd → t0.size < fuel) (o : Name) (ty : RecordType) (hty : ty.isSupportedForRecords = true) (d : RecData) :
    Sat np nd (parseAuthData fuel t o ty d) fun r => Parsed np nd t0 o d ty r ∧ ty ≠ .SOA := by
  cases ty <;> first
    | exact absurd hty (by decide)
    | trivial
    | (refine Sat.mono ?_ fun r _ hr => ⟨hr, by decide⟩
       first
         | exact parseA_sat h o d
         | exact parseNs_sat h o d
         | exact parseCname_sat h o d
         | exact parseWks_sat h hs o d
         | exact parsePtr_sat h o d
         | exact parseHinfo_sat h o d
         | exact parseMx_sat h o d
         | exact parseTxt_sat h hp hs o d)

theorem endOfEntry_sat {t0 t : Tokenizer} (h : At np nd t0 t) :
    Sat np nd (endOfEntry t) fun t' => At np nd t0 t' ∧ t'.peeked = [] := by
  unfold endOfEntry
  refine Sat.bind (nabT h) fun r _ w => ?_
  obtain ⟨tk, t1⟩ := r
  cases tk with
  | newLine => exact ⟨w.at', w.idle⟩
  | «end» => exact ⟨w.at', w.idle⟩
  | _ => exact trivial

/-- The state after the first token of an entry was seen and put back. -/
structure Entry (np nd : Prop) (t : Tokenizer) (tk : Token) : Prop where
  line : t.line ≠ 0
  held : t.peeked = [tk]
  input : InputOk np nd t

theorem Entry.at {t : Tokenizer} {tk : Token} (h : Entry np nd t tk) : At np nd t (bare t) :=
  ⟨after_bare t, Relation.ReflTransGen.refl, h.line, .inl rfl, h.input.after (after_bare t)⟩

theorem assertNext_sat {t : Tokenizer} {tk : Token} (h : Entry np nd t tk) : assertNext t tk = .ok (bare t) := by
  unfold assertNext
  rw [next_peeked h.held h.line]
  simp only
  rw [if_pos trivial]; rfl

theorem parseOrigin_sat {t : Tokenizer} (h : Entry np nd t .originDir) (st : AuthState) :
    Sat np nd (parseOrigin t st) fun r => At np nd t r.2 ∧ r.2.peeked = [] ∧ ValidName r.1.s ∧
      r.1.isOnlyInAuthZone st.zone st.subZones = true := by
  unfold parseOrigin
  rw [assertNext_sat h, Out.bind_ok]
  refine Sat.bind (nabT h.at) fun r _ w => ?_
  obtain ⟨tk, t1⟩ := r
  cases tk with
  | string s =>
    simp only
    refine Sat.bind (ensureAbsoluteName_sat s) fun _ _ _ => Sat.bind (nm_fromString s) fun n _ hn =>
      Sat.bind (ensureNameInAuthZone_sat n _ _) fun _ _ hz => Sat.bind (endOfEntry_sat w.at') fun t' _ ht => ?_
    exact ⟨ht.1, ht.2, by show ValidName n.s; rw [hn.1]; exact hn.2, hz⟩
  | _ => exact trivial

/-- The file named after the `$INCLUDE` the tokenizer `t` has just read. -/
def Names (t : Tokenizer) (path : Str) : Prop :=
  ∃ tk t', t.nextAfterBlanks = .ok (tk, t') ∧ includeFile tk = some path

theorem parseInclude_sat {t : Tokenizer} (h : Entry np nd t .includeDir) (st : AuthState) :
    Sat np nd (parseInclude t st) fun r => At np nd t r.2.2 ∧ r.2.2.peeked = [] ∧ Names (bare t) r.1 ∧
      (r.2.1 = st.currentOrig ∨ r.2.1.isOnlyInAuthZone st.zone st.subZones = true) ∧
      (r.2.1 = st.currentOrig ∨ ValidName r.2.1.s) := by
  unfold parseInclude
  rw [assertNext_sat h, Out.bind_ok]
  refine Sat.bind (nabT h.at) fun r hr w => ?_
  have hr' : (bare t).nextAfterBlanks = .ok (r.1, r.2) := by
    unfold tok at hr
    cases hx : (bare t).nextAfterBlanks with
    | ok a => rw [hx] at hr; cases hr; rfl
    | err e => rw [hx] at hr; cases hr
    | panic k => rw [hx] at hr; cases hr
    | diverge => rw [hx] at hr; cases hr
  cases hi : includeFile r.1 with
  | none => simp only [hi]; trivial
  | some path =>
    simp only [hi]
    have hn : Names (bare t) path := ⟨_, _, hr', hi⟩
    refine Sat.bind (nabT w.at') fun r2 _ w2 => ?_
    have other : Sat np nd (if r2.1 = .newLine ∨ r2.1 = .end then (.ok (path, st.currentOrig, r2.2) : Out ParseErr _)
        else .err (.unexpectedToken r2.1)) fun r => At np nd t r.2.2 ∧ r.2.2.peeked = [] ∧ Names (bare t) r.1 ∧
      (r.2.1 = st.currentOrig ∨ r.2.1.isOnlyInAuthZone st.zone st.subZones = true) ∧
      (r.2.1 = st.currentOrig ∨ ValidName r.2.1.s) :=
      Sat.ite (fun _ => ⟨w2.at', w2.idle, hn, .inl rfl, .inl rfl⟩) fun _ => trivial
    obtain ⟨tk2, t2⟩ := r2
    cases tk2 with
    | string s =>
      simp only
      refine Sat.bind (nabT w2.at') fun r3 _ w3 => Sat.bind (adjustName_sat _ s) fun n _ hnm =>
        Sat.bind (ensureNameInAuthZone_sat n _ _) fun _ _ hz => Sat.ite (fun _ => ?_) fun _ => trivial
      exact ⟨w3.at', w3.idle, hn, .inr hz, hnm⟩
    | _ => exact other

theorem parseOwner_sat {t : Tokenizer} {tk : Token} (h : Entry np nd t tk)
    (htk : (∃ s, tk = .string s) ∨ tk = .at ∨ tk = .blank) (origin : Name) {check : Name → Out ParseErr Unit}
    {Q : Name → Prop} (hq : ∀ n, Sat np nd (check n) fun _ => Q n) :
    Sat np nd (parseOwner t origin check) fun r => At np nd t r.2 ∧ r.2.peeked = [] ∧
      (r.1 = origin ∨ (Q r.1 ∧ ValidName r.1.s)) := by
  unfold parseOwner
  rw [next_peeked h.held h.line]
  rcases htk with ⟨s, rfl⟩ | rfl | rfl
  · simp only
    refine Sat.bind (adjustName_sat origin s) fun n _ hn => Sat.bind (hq n) fun _ _ hz => ?_
    refine ⟨h.at, rfl, ?_⟩
    rcases hn with rfl | hn
    · exact .inl rfl
    · exact .inr ⟨hz, hn⟩
  · exact ⟨h.at, rfl, .inl rfl⟩
  · exact ⟨h.at, rfl, .inl rfl⟩

/-- What the entry parser guarantees about a record. -/
structure RecOk (st : AuthState) (r : Record) : Prop where
  owner : r.node = st.currentOrig ∨ (r.node.isOnlyInAuthZone st.zone st.subZones = true ∧ ValidName r.node.s)
  cls : r.cls = .IN
  ttl : st.minTtl ≤ r.ttl
  notSoa : r.recordType ≠ .SOA
  len : r.dataLen = 0
  data : ValidName st.currentOrig.s → DataOk r.data

theorem parseRecord_sat {t : Tokenizer} {tk : Token} {fuel : Nat} (h : Entry np nd t tk)
    (htk : (∃ s, tk = .string s) ∨ tk = .at ∨ tk = .blank) (hs : nd → t.size < fuel) (st : AuthState) :
    Sat np nd (parseRecord fuel t st) fun r => At np nd t r.2 ∧ r.2.peeked = [] ∧ RecOk st r.1 := by
  unfold parseRecord
  refine Sat.bind (parseOwner_sat h htk _ fun n => ensureNameInAuthZone_sat n st.zone st.subZones) fun r1 _ w1 =>
    Sat.bind (parseTtlClass_sat w1.1) fun r2 _ w2 => Sat.bind (ensureClass_sat _) fun _ _ hcls =>
    Sat.bind (ensureMinTtl_sat _ _) fun _ _ httl => Sat.bind (nabT w2) fun r3 _ w3 => ?_
  obtain ⟨tk3, t3⟩ := r3
  cases tk3 with
  | string s =>
    simp only
    cases hty : RecordType.fromStr s with
    | none => trivial
    | some ty =>
      simp only
      refine Sat.ite (fun _ => trivial) fun hsup => ?_
      have hsup : ty.isSupportedForRecords = true := by simpa using hsup
      refine Sat.bind (parseAuthData_sat w3.at' w3.idle hs _ _ hsup _) fun r4 _ w4 =>
        Sat.bind (endOfEntry_sat w4.1.at') fun t5 _ w5 => ?_
      obtain ⟨data, hdata⟩ := w4.1.made
      refine ⟨w5.1, w5.2, ?_⟩
      have e : r4.1.node = r1.1 ∧ r4.1.cls = r2.1.2.getD .IN ∧ r4.1.ttl = r2.1.1.getD st.currentTtl ∧ r4.1.dataLen = 0 := by
        rw [hdata]; exact ⟨rfl, rfl, rfl, rfl⟩
      show RecOk st r4.1
      refine ⟨?_, by rw [e.2.1]; exact hcls, by rw [e.2.2.1]; exact httl, ?_, e.2.2.2, w4.1.data⟩
      · rw [e.1]; exact w1.2.2
      · rw [w4.1.type]; exact w4.2
  | _ => exact trivial

end Ariadne.ZoneParser
