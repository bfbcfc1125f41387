import Verif.Lemmas.ZoneEntries
import Verif.Lemmas.Tokens5
import Verif.Spec.Loader

/-! # The zone parser terminates -/

namespace Ariadne

/-- With enough fuel there is a definite outcome. -/
def Halts {ε α : Type} (f : Nat → Out ε α) : Prop := ∃ F out, out ≠ .diverge ∧ ∀ n, F ≤ n → f n = out

section
variable {ε ε' α β : Type}

theorem Halts.const {x : Out ε α} (h : x ≠ .diverge) : Halts fun _ => x := ⟨0, x, h, fun _ _ => rfl⟩

theorem Halts.ok (a : α) : Halts fun _ : Nat => (.ok a : Out ε α) := .const (by simp)
theorem Halts.err (e : ε) : Halts fun _ : Nat => (.err e : Out ε α) := .const (by simp)

theorem Halts.bind {nd : Prop} {f : Nat → Out ε α} {g : Nat → α → Out ε β} {P : α → Prop} (F0 : Nat) (hf : Halts f)
    (hp : ∀ n, F0 ≤ n → Sat False nd (f n) P) (hg : ∀ a, P a → Halts fun n => g n a) : Halts fun n => f n >>= g n := by
  obtain ⟨F, out, h1, h2⟩ := hf
  cases hout : out with
  | ok a =>
    have hP : P a := (hp (max F F0) (by omega)).of_ok (by rw [h2 _ (by omega), hout])
    obtain ⟨G, o, h3, h4⟩ := hg a hP
    refine ⟨max F G, o, h3, fun n hn => ?_⟩
    simp only
    rw [h2 n (by omega), hout, Out.bind_ok]
    exact h4 n (by omega)
  | err e => exact ⟨F, .err e, by simp, fun n hn => by simp only; rw [h2 n hn, hout]; rfl⟩
  | panic k => exact ⟨F, .panic k, by simp, fun n hn => by simp only; rw [h2 n hn, hout]; rfl⟩
  | diverge => exact absurd hout h1

theorem Halts.bindC {x : Out ε α} {g : Nat → α → Out ε β} {P : α → Prop} (hx : Sat False True x P)
    (hg : ∀ a, x = .ok a → P a → Halts fun n => g n a) : Halts fun n => x >>= g n := by
  cases x with
  | ok a => exact hg a rfl hx
  | err e => exact .err e
  | panic k => exact .const (by simp)
  | diverge => exact absurd trivial hx

theorem Halts.succ {f : Nat → Out ε α} (h : Halts fun n => f (n + 1)) : Halts f := by
  obtain ⟨F, out, h1, h2⟩ := h
  refine ⟨F + 1, out, h1, fun n hn => ?_⟩
  cases n with
  | zero => omega
  | succ n => exact h2 n (by omega)

theorem Halts.ite {c : Prop} [Decidable c] {f g : Nat → Out ε α} (hf : c → Halts f) (hg : ¬ c → Halts g) :
    Halts fun n => if c then f n else g n := by
  by_cases h : c
  · simpa only [if_pos h] using hf h
  · simpa only [if_neg h] using hg h

end

namespace ZoneParser

open Tokenizer Spec

/-- Facts about a state when termination is at stake. -/
abbrev AtD := At False True

theorem discardStrings_halts {t0 : Tokenizer} : ∀ (m : Nat) {t : Tokenizer}, t.size < m → AtD t0 t → t.peeked = [] →
    Halts fun n => discardStrings n t
  | 0, t, h, _, _ => by omega
  | m + 1, t, hm, h, hp => by
    refine Halts.succ ?_
    simp only [discardStrings]
    refine Halts.bindC (peekAB h) fun r _ s => ?_
    obtain ⟨tk, t1⟩ := r
    cases tk with
    | newLine => exact .ok _
    | «end» => exact .ok _
    | string w =>
      simp only
      have e := take_nab s.held s.at'.line s.word
      simp only at e
      simp only [e, Out.bind_ok]
      refine discardStrings_halts m ?_ s.at'.bare rfl
      have h1 := s.shrink trivial hp (by simp)
      have e : (bare t1).size = t1.size := rfl
      simp only at h1 ⊢
      omega
    | _ => exact .err _

theorem txtLoop_halts {t0 : Tokenizer} : ∀ (m : Nat) {t : Tokenizer} (txts : List Str), t.size < m → AtD t0 t →
    t.peeked = [] → Halts fun n => txtLoop n t txts
  | 0, t, _, h, _, _ => by omega
  | m + 1, t, txts, hm, h, hp => by
    refine Halts.succ ?_
    simp only [txtLoop]
    refine Halts.bindC (peekAB h) fun r _ s => ?_
    obtain ⟨tk, t1⟩ := r
    have key : tk ≠ .end → Halts fun n => (do
        let t ← unwrapTok t1.nextAfterBlanks
        let txt ← parseCharString tk
        txtLoop n t (txts ++ [txt])) := fun he => by
      have e := take_nab s.held s.at'.line s.word
      simp only at e
      simp only [e, Out.bind_ok]
      refine Halts.bindC (parseCharString_sat tk) fun a _ _ => ?_
      refine txtLoop_halts m _ ?_ s.at'.bare rfl
      have h1 := s.shrink trivial hp he
      have e : (bare t1).size = t1.size := rfl
      simp only at h1 ⊢
      omega
    cases tk with
    | newLine => exact .ok _
    | «end» => exact .ok _
    | _ => exact key (by simp)

theorem parseAuthData_halts {t0 t : Tokenizer} (h : AtD t0 t) (hp : t.peeked = []) (o : Name) (ty : RecordType)
    (d : RecData) : Halts fun n => parseAuthData n t o ty d := by
  cases ty <;> first
    | exact .const (Sat.no_diverge (parseA_sat h o d))
    | exact .const (Sat.no_diverge (parseNs_sat h o d))
    | exact .const (Sat.no_diverge (parseCname_sat h o d))
    | exact .const (Sat.no_diverge (parsePtr_sat h o d))
    | exact .const (Sat.no_diverge (parseHinfo_sat h o d))
    | exact .const (Sat.no_diverge (parseMx_sat h o d))
    | exact .err _
    | exact .const (x := .panic .explicit) (by simp)
    | skip
  · simp only [parseAuthData, parseWks]
    refine Halts.bindC (parseAddress_sat h) fun r _ w => ?_
    refine Halts.bindC (nabT w.1) fun r2 _ w2 => ?_
    obtain ⟨tk, t2⟩ := r2
    cases tk with
    | string s =>
      simp only
      cases wksProtocol s with
      | none => exact .err _
      | some k =>
        refine Halts.bind (nd := False) (P := fun _ => True) 0 (discardStrings_halts _ (Nat.lt_succ_self _) w2.at' w2.idle) (fun n _ => ?_)
          fun a _ => .ok _
        cases discardStrings n t2 <;> simp [Sat]
    | _ => exact .err _
  · simp only [parseAuthData, parseTxt]
    refine Halts.bind (nd := False) (P := fun _ => True) 0 (txtLoop_halts _ _ (Nat.lt_succ_self _) h hp) (fun n _ => ?_) fun a _ => .ok _
    cases txtLoop n t [] <;> simp [Sat]

theorem parseRecord_halts {t : Tokenizer} {tk : Token} (h : Entry False True t tk)
    (htk : (∃ s, tk = .string s) ∨ tk = .at ∨ tk = .blank) (st : AuthState) :
    Halts fun n => parseRecord n t st := by
  unfold parseRecord
  refine Halts.bindC (parseOwner_sat h htk _ fun n => ensureNameInAuthZone_sat n st.zone st.subZones) fun r1 _ w1 =>
    Halts.bindC (parseTtlClass_sat w1.1) fun r2 _ w2 => Halts.bindC (ensureClass_sat _) fun _ _ hcls =>
    Halts.bindC (ensureMinTtl_sat _ _) fun _ _ httl => Halts.bindC (nabT w2) fun r3 _ w3 => ?_
  obtain ⟨tk3, t3⟩ := r3
  cases tk3 with
  | string s =>
    simp only
    cases hty : RecordType.fromStr s with
    | none => exact .err _
    | some ty =>
      refine Halts.ite (fun _ => .err _) fun hsup => ?_
      have hsup : ty.isSupportedForRecords = true := by simpa using hsup
      refine Halts.bind (nd := True) (P := fun r : Record × Tokenizer => AtD t r.2) (t.size + 1)
        (parseAuthData_halts w3.at' w3.idle _ _ _) (fun n hn => ?_) fun a ha => ?_
      · exact (parseAuthData_sat w3.at' w3.idle (fun _ => by omega) _ ty hsup _).mono fun r _ w => w.1.at'
      · refine Halts.bindC (endOfEntry_sat ha) fun t5 _ _ => .ok _
  | _ => exact .err _

theorem reads_trans {file : List (Option Str)} {t t' : Tokenizer} (h : Reads file t)
    (hr : Relation.ReflTransGen Step t t') : Reads file t' := by
  induction hr with
  | refl => exact h
  | tail _ hs ih => obtain ⟨tk, e⟩ := hs; exact ih.next e

theorem includes_of {file : List (Option Str)} {t t1 : Tokenizer} {path : Str} (h : Reads file t)
    (e : t.next = .ok (.includeDir, t1)) (hn : Names t1 path) : Includes file path := by
  obtain ⟨tk, t2, e2, hi⟩ := hn
  refine ⟨t, t1, t2, tk, h, e, e2, ?_⟩
  unfold includeFile at hi
  split at hi
  · cases hi; exact .inr ⟨_, rfl, rfl⟩
  · cases hi; exact .inl rfl
  · cases hi

theorem plainFile {file : List (Option Str)} (h : ∀ l, some l ∈ file → NoCode l ∨ BlankRuns .between false l) : PlainFile file :=
  fun l hl => (h l hl).imp Tokenizer.NoCode_skippable.2 id

theorem entries_halts {fs : Files} (hpl : PlainBlanks fs) {path : Str} {file : List (Option Str)}
    (hfile : fs path = some file)
    (ih : ∀ q, IncludedBy fs q path → ∀ f, fs q = some f → ∀ (st : AuthState) (o : HashOrder) (z : Zone),
      Halts fun n => parseEntries fs o n st (start f) z) (o : HashOrder) :
    ∀ (m : Nat) {t : Tokenizer} (st : AuthState) (z : Zone), t.size < m → Fresh t → t.Plain → Reads file t →
    Halts fun n => parseEntries fs o n st t z
  | 0, t, _, _, h, _, _, _ => by omega
  | m + 1, t, st, z, hm, hf, hp, hr => by
    refine Halts.succ ?_
    simp only [parseEntries]
    refine Halts.bindC (peek_sat (np := False) (nd := True) hf ⟨fun h => h.elim, fun _ => hp⟩) fun r _ k => ?_
    obtain ⟨tk, t1⟩ := r
    have hstep : t.next = .ok (tk, bare t1) := k.step
    have hreach : ∀ {t2 : Tokenizer}, AtD t1 t2 → t2.peeked = [] → Reads file t2 := fun {t2} h2 hp2 => by
      have := h2.reach
      rw [bare_of hp2] at this
      exact reads_trans (hr.next hstep) this
    have cont : ∀ (st' : AuthState) (z' : Zone) {t2 : Tokenizer}, tk ≠ .end → AtD t1 t2 → t2.peeked = [] →
        Halts fun n => parseEntries fs o n st' t2 z' := fun st' z' t2 hne h2 hp2 => by
      refine entries_halts hpl hfile ih o m st' z' ?_ (h2.fresh hp2) (h2.input.plain trivial) (hreach h2 hp2)
      have h1 := k.shrink trivial hne
      have h3 := h2.after.size
      simp only at h1
      omega
    have onRecord : ((∃ s, tk = .string s) ∨ tk = .at ∨ tk = .blank) → Halts fun n => (do
        let (record, t) ← parseRecord n t1 st
        parseEntries fs o n { st with currentTtl := record.ttl } t (z.insert record)) := fun htk => by
      have hne : tk ≠ .end := by rcases htk with ⟨s, rfl⟩ | rfl | rfl <;> simp
      have he := k.entry hne
      simp only at he
      refine Halts.bind (nd := True) (P := fun r : Record × Tokenizer => AtD t1 r.2 ∧ r.2.peeked = []) (t1.size + 1)
        (parseRecord_halts he htk st) (fun n hn => ?_) fun a ha => ?_
      · exact (parseRecord_sat he htk (fun _ => by omega) st).mono fun r _ w => ⟨w.1, w.2.1⟩
      · exact cont _ _ hne ha.1 ha.2
    cases tk with
    | «end» => exact .ok _
    | originDir =>
      have he := k.entry (by simp)
      simp only at he
      refine Halts.bindC (parseOrigin_sat he st) fun r2 _ w => ?_
      exact cont _ _ (by simp) w.1 w.2.1
    | includeDir =>
      have he := k.entry (by simp)
      simp only at he
      refine Halts.bindC (parseInclude_sat he st) fun r2 _ w => ?_
      obtain ⟨q, origin, t2⟩ := r2
      simp only at w ⊢
      cases hq : fs q with
      | none => exact .err _
      | some f =>
        simp only
        have hinc : IncludedBy fs q path := ⟨file, hfile, includes_of hr hstep w.2.2.1⟩
        refine Halts.bind (nd := False) (P := fun _ => True) 0 (ih q hinc f hq _ o _) (fun n _ => ?_) fun inc _ => ?_
        · cases parseEntries fs o n { st with currentOrig := origin } (start f) (Zone.new st.zone) <;> simp [Sat]
        · exact cont _ _ (by simp) w.1 w.2.1
    | string s => exact onRecord (.inl ⟨s, rfl⟩)
    | «at» => exact onRecord (.inr (.inl rfl))
    | blank => exact onRecord (.inr (.inr rfl))
    | _ => exact .err _

theorem file_halts {fs : Files} (hpl : PlainBlanks fs) (hwf : WellFounded (IncludedBy fs)) (o : HashOrder) (path : Str) :
    ∀ file, fs path = some file → ∀ (st : AuthState) (o : HashOrder) (z : Zone),
      Halts fun n => parseEntries fs o n st (start file) z := by
  induction hwf.apply path with
  | intro path _ ih =>
    intro file hfile st o z
    exact entries_halts hpl hfile (fun q hq => ih q hq) o _ st z (Nat.lt_succ_self _) (start_fresh file)
      (start_plain (plainFile (hpl path file hfile))) .start

theorem subEntries_halts (zone : Name) (min : UInt32) : ∀ (m : Nat) (cur : UInt32) {t : Tokenizer} (z : Zone),
    t.size < m → Fresh t → t.Plain → Halts fun n => parseSubEntries n zone cur min t z
  | 0, _, t, _, h, _, _ => by omega
  | m + 1, cur, t, z, hm, hf, hp => by
    refine Halts.succ ?_
    simp only [parseSubEntries]
    refine Halts.bindC (peek_sat (np := False) (nd := True) hf ⟨fun h => h.elim, fun _ => hp⟩) fun r _ k => ?_
    obtain ⟨tk, t1⟩ := r
    have onRecord : ((∃ s, tk = .string s) ∨ tk = .at ∨ tk = .blank) → Halts fun n => (do
        let (record, t) ← parseSubRecord t1 zone cur min
        parseSubEntries n zone record.ttl min t (z.insert record)) := fun htk => by
      have hne : tk ≠ .end := by rcases htk with ⟨s, rfl⟩ | rfl | rfl <;> simp
      have he := k.entry hne
      simp only at he
      refine Halts.bindC (parseSubRecord_sat he htk zone cur min) fun r2 _ w => ?_
      obtain ⟨rec, t2⟩ := r2
      refine subEntries_halts zone min m rec.ttl _ ?_ (w.1.fresh w.2.1) (w.1.input.plain trivial)
      have h1 := k.shrink trivial hne
      have h2 := w.1.after.size
      simp only at h1 h2
      omega
    cases tk with
    | «end» => exact .ok _
    | string s => exact onRecord (.inl ⟨s, rfl⟩)
    | «at» => exact onRecord (.inr (.inl rfl))
    | blank => exact onRecord (.inr (.inr rfl))
    | _ => exact .err _

theorem subZones_halts {fs : Files} (hpl : PlainBlanks fs) : ∀ confs : List SubParams,
    Halts fun n => parseSubZones fs n confs
  | [] => .ok _
  | c :: cs => by
    simp only [parseSubZones]
    refine Halts.bind (nd := False) (P := fun _ => True) 0 ?_ (fun n _ => ?_) fun z _ => ?_
    · simp only [parseSubZoneFile]
      cases hfile : fs c.filePath with
      | none => exact .err _
      | some file =>
        exact subEntries_halts _ _ _ _ _ (Nat.lt_succ_self _) (start_fresh file) (start_plain (plainFile (hpl _ file hfile)))
    · cases parseSubZoneFile fs n c <;> simp [Sat]
    · refine Halts.bind (nd := False) (P := fun _ => True) 0 (subZones_halts hpl cs) (fun n _ => ?_) fun zs _ => .ok _
      cases parseSubZones fs n cs <;> simp [Sat]

theorem le_sum_of_mem {x : Nat} : ∀ {l : List Nat}, x ∈ l → x ≤ l.sum
  | a :: l, h => by
    rcases List.mem_cons.1 h with rfl | h
    · simp
    · have := le_sum_of_mem h
      simp only [List.sum_cons]; omega

/-- The loader terminates. -/
theorem load_halts {fs : Files} (hpl : PlainBlanks fs) (hwf : WellFounded (IncludedBy fs)) (p : Profile) (o : HashOrder)
    (conf : Params) : Halts fun n => parseZoneFiles p fs o n conf := by
  unfold parseZoneFiles
  refine Halts.bind (nd := False) (P := fun _ => True) 0 ?_ (fun n _ => ?_) fun auth _ => ?_
  · simp only [parseAuthZoneFile]
    cases hfile : fs conf.filePath with
    | none => exact .err _
    | some file =>
      simp only
      refine Halts.bindC (parseStartingSoa_sat (np := False) (nd := True) (start_fresh file)
        ⟨fun h => h.elim, fun _ => start_plain (plainFile (hpl _ file hfile))⟩ _) fun r _ w => ?_
      obtain ⟨soa, minimum, t⟩ := r
      refine Halts.bind (nd := False) (P := fun _ => True) 0 ?_ (fun n _ => ?_) fun z _ => .ok _
      · have hr := w.1.reach
        rw [bare_of (start_fresh file).peeked, bare_of w.2.1] at hr
        exact entries_halts hpl hfile (fun q hq f hf st o z => file_halts hpl hwf o q f hf st o z) o _ _ _
          (Nat.lt_succ_self _) (w.1.fresh w.2.1) (w.1.input.plain trivial) (reads_trans .start hr)
      · simp only
        generalize parseEntries fs o n _ t _ = x
        cases x <;> simp [Sat]
  · cases parseAuthZoneFile fs o n conf <;> simp [Sat]
  · refine Halts.bind (nd := True) (P := SubsLoaded conf.subZones) ?_ (subZones_halts hpl _) (fun n hn => ?_) fun subs hs => ?_
    · exact (conf.subZones.map fun c => match fs c.filePath with | none => 0 | some f => fileSize f + 1).sum + 1
    · refine parseSubZones_sat (fun h => h.elim) n conf.subZones fun _ c hc file hfile => ⟨plainFile (hpl _ file hfile), ?_⟩
      have : fileSize file + 1 ≤ (conf.subZones.map fun c => match fs c.filePath with
          | none => 0 | some f => fileSize f + 1).sum := by
        exact le_sum_of_mem (List.mem_map.2 ⟨c, hc, by rw [hfile]⟩)
      omega
    · have hv := validate_sat (np := False) (nd := True) (p := p) (o := o) (zones := ⟨auth, subs⟩) (fun z hz => by
        obtain ⟨c, _, log, hl⟩ := hs.mem z hz
        exact ⟨log, hl.holds⟩)
      refine .const ?_
      simp only
      cases h1 : validateAuthZone o ⟨auth, subs⟩ with
      | ok u =>
        rw [h1] at hv
        simp only [Out.bind_ok] at hv ⊢
        cases h2 : forAll (validateSubzone p o ⟨auth, subs⟩) subs with
        | ok _ => simp
        | err e => simp
        | panic k => simp
        | diverge => rw [h2] at hv; exact absurd trivial hv
      | err e => simp
      | panic k => simp
      | diverge => rw [h1] at hv; exact absurd trivial hv

end ZoneParser

end Ariadne
