import Verif.Lemmas.Trace
import Verif.Props.Lookup

/-!
# C76–C79: traces of lookups
-/

namespace Ariadne.Props

open Spec Resolver

/-! ## C76 -/

/-- Nothing about the trace. -/
theorem tells_anything (t : TraceParams) : Tells t fun _ _ _ => True :=
  ⟨fun _ => trivial, fun _ _ _ _ _ _ _ => trivial, fun _ _ _ _ => trivial, fun _ _ _ _ => trivial, fun _ _ _ _ => trivial,
    fun _ _ _ _ _ _ _ _ _ => trivial, fun _ _ _ _ _ _ _ _ _ _ => trivial⟩

/-- Without redirections, there is nothing to do. -/
theorem traced_zero {env : Env} {p : Profile} {t : TraceParams} {conf : Params} {fuel : Nat} {node : Name} {kind : RecordType} {w : World}
    (h : conf.maxCnameRedir = 0) : tracedLookup env p t conf fuel node kind w =
      ((lookup env p conf fuel node kind w).1, [], w) ∧ (lookup env p conf fuel node kind w).2 = w := by
  unfold tracedLookup lookup
  cases fuel with
  | zero => exact ⟨rfl, rfl⟩
  | succ fuel =>
    unfold performT perform
    simp only [h]
    exact ⟨rfl, rfl⟩

/-- What is traced, and how, makes no difference to a lookup: not to its outcome, not to the packets it sends, not to the
cache, not to the time it takes (counted in steps). `lookup` is the lookup of `Model/Resolver.lean`, which has no trace, and
about which the other theorems are. -/
theorem C76_tracing_is_transparent (env : Env) (p : Profile) (t : TraceParams) (conf : Params) (fuel : Nat) (node : Name)
    (kind : RecordType) (w : World) :
    ((tracedLookup env p t conf fuel node kind w).1, (tracedLookup env p t conf fuel node kind w).2.2) =
      lookup env p conf fuel node kind w := by
  by_cases h0 : conf.maxCnameRedir = 0
  · rw [(traced_zero h0).1]
    exact Prod.ext rfl (traced_zero (t := t) h0).2.symm
  · have h := (perform_tr (env := env) (p := p) (tells_anything t) fuel ⟨node, kind, [], [], conf⟩ h0).1 w []
    exact Prod.ext h.1 h.2.1

/-- Two lookups that differ in what they trace. -/
theorem C76_params_irrelevant (env : Env) (p : Profile) (t t' : TraceParams) (conf : Params) (fuel : Nat) (node : Name)
    (kind : RecordType) (w : World) :
    (tracedLookup env p t conf fuel node kind w).1 = (tracedLookup env p t' conf fuel node kind w).1 ∧
    (tracedLookup env p t conf fuel node kind w).2.2 = (tracedLookup env p t' conf fuel node kind w).2.2 := by
  have h1 := C76_tracing_is_transparent env p t conf fuel node kind w
  have h2 := C76_tracing_is_transparent env p t' conf fuel node kind w
  rw [← h2] at h1
  injection h1 with h3 h4
  exact ⟨h3, h4⟩

/-! ## C77 -/

/-- The full statement of C77, as the documentation of `perform` has it: if tracing is disabled, the trace is empty. -/
def C77_statement : Prop :=
  ∀ (env : Env) (p : Profile) (t : TraceParams) (conf : Params) (fuel : Nat) (node : Name) (kind : RecordType) (w : World),
    Ready env conf node kind w → t.silent = true → (tracedLookup env p t conf fuel node kind w).2.1 = []

/-- The event is the start of a lookup on behalf of other zones than these. -/
def Foreign (zs : List Name) (es : List Event) : Prop := ∃ zs' nf n k, .start zs' nf n k ∈ es ∧ zs' ≠ zs

theorem hollow_append : ∀ {a b : List TraceLine}, Hollow a → Hollow b → Hollow (a ++ b)
  | [], _, _, hb => hb
  | l :: a, b, ha, hb => by
    rw [Hollow] at ha
    rw [List.cons_append, Hollow]
    exact ⟨ha.1, hollow_append ha.2 hb⟩

theorem tells_hollow {t : TraceParams} (hs : t.silent = true) : Tells t fun zs new es => Hollow new ∧ (new ≠ [] ↔ Foreign zs es) where
  nil zs := ⟨trivial, by simp [Foreign]⟩
  append zs a b c d h1 h2 := by
    refine ⟨hollow_append h1.1 h2.1, ?_⟩
    constructor
    · intro h
      by_cases ha : a = []
      · have hb : b ≠ [] := by rintro rfl; exact h (by simp [ha])
        obtain ⟨z, nf, n, k, hm, hz⟩ := h2.2.1 hb
        exact ⟨z, nf, n, k, by simp [hm], hz⟩
      · obtain ⟨z, nf, n, k, hm, hz⟩ := h1.2.1 ha
        exact ⟨z, nf, n, k, by simp [hm], hz⟩
    · rintro ⟨z, nf, n, k, hm, hz⟩ h
      rw [List.append_eq_nil_iff] at h
      rcases List.mem_append.1 hm with hm | hm
      · exact h1.2.2 ⟨z, nf, n, k, hm, hz⟩ h.1
      · exact h2.2.2 ⟨z, nf, n, k, hm, hz⟩ h.2
  saved zs n k rs := ⟨trivial, by simp [Foreign]⟩
  start zs nf n k := by
    rw [hs, if_pos rfl]
    refine ⟨trivial, by simp [Foreign]⟩
  note h := by rw [hs] at h; cases h
  sub zs z nf n k new es h hm := by
    refine ⟨⟨h.1, trivial⟩, fun _ => ⟨_, _, _, _, hm, ?_⟩, fun _ => by simp⟩
    intro he
    have := congrArg List.length he
    simp at this
  request zs ns n k server es out _ he _ := by
    rw [hs, if_pos rfl]
    refine ⟨trivial, by simp, ?_⟩
    rintro ⟨z, nf, n, k, hm, _⟩
    rcases List.mem_cons.1 hm with hm | hm
    · cases hm
    · obtain ⟨_, _, _, h⟩ := he _ hm
      cases h

/-- C77, part: if tracing is disabled, the trace has no lines but (nested) empty traces; and it is empty unless a lookup for
the address of a name server was started. -/
theorem C77_silent_partial (env : Env) (p : Profile) (t : TraceParams) (conf : Params) (fuel : Nat) (node : Name) (kind : RecordType)
    (w : World) (hl : w.log = []) (hs : t.silent = true) (hc : Calm (tracedLookup env p t conf fuel node kind w).1) :
    Hollow (tracedLookup env p t conf fuel node kind w).2.1 ∧
    ((tracedLookup env p t conf fuel node kind w).2.1 ≠ [] ↔ Delegated (tracedLookup env p t conf fuel node kind w).2.2.log) := by
  by_cases h0 : conf.maxCnameRedir = 0
  · rw [(traced_zero h0).1, hl]
    exact ⟨trivial, by simp [Delegated]⟩
  · have h := (perform_tr (env := env) (p := p) (tells_hollow hs) fuel ⟨node, kind, [], [], conf⟩ h0).1 w []
    obtain ⟨new, es, h1, h2, h3, h4⟩ := h.2.2.2 (by rw [← h.1]; exact hc)
    rw [hl, List.nil_append] at h1
    rw [List.nil_append] at h2
    have e1 : (tracedLookup env p t conf fuel node kind w).2.1 = new := h2
    have e2 : (tracedLookup env p t conf fuel node kind w).2.2.log = es := by rw [← h1, ← h.2.1]; rfl
    rw [e1, e2]
    exact ⟨h3, h4⟩

/-- The number of lines of a trace. -/
def lineCount (r : Out LookupErr Response × List TraceLine × World) : Nat := r.2.1.length

/-- C77 does not hold: a silent trace, after a lookup for a name server. -/
theorem C77_violated : ¬ C77_statement := by
  intro h
  have hrd : Ready nestedEnv ⟨1, 1, 3, false⟩ ⟨"a.com.".toList⟩ .A ⟨.empty, 0, []⟩ :=
    ready_scripted _ (by decide) (by decide) (by decide) (by decide)
  have hz := h nestedEnv .release ⟨false, true, false⟩ ⟨1, 1, 3, false⟩ 5 ⟨"a.com.".toList⟩ .A ⟨.empty, 0, []⟩ hrd rfl
  have hn : lineCount (tracedLookup nestedEnv .release ⟨false, true, false⟩ ⟨1, 1, 3, false⟩ 5 ⟨"a.com.".toList⟩ .A ⟨.empty, 0, []⟩) = 1 := by
    decide +kernel
  unfold lineCount at hn
  rw [hz] at hn
  cases hn

/-! ## C78 -/

theorem told_append : ∀ a b : List TraceLine, told (a ++ b) = told a ++ told b
  | [], _ => rfl
  | l :: a, b => by rw [List.cons_append, told, told, told_append a b, List.append_assoc]

theorem stepsOf_append : ∀ a b : List Event, stepsOf (a ++ b) = stepsOf a ++ stepsOf b
  | [], _ => rfl
  | e :: a, b => by
    rw [List.cons_append]
    cases e with
    | start z nf n k => rw [stepsOf, stepsOf, stepsOf_append a b, List.cons_append]
    | contact z ns n k =>
      rw [stepsOf, stepsOf, stepsOf_append a b]
      split
      · rw [List.cons_append]
      · rfl
    | exchange a' q r => rw [stepsOf, stepsOf, stepsOf_append a b]
    | saved n k rs => rw [stepsOf, stepsOf, stepsOf_append a b]

theorem stepsOf_quiet : ∀ {es : List Event}, (∀ e ∈ es, ∃ a q r, e = .exchange a q r) → stepsOf es = []
  | [], _ => rfl
  | e :: es, h => by
    obtain ⟨a, q, r, rfl⟩ := h e (by simp)
    rw [stepsOf]
    exact stepsOf_quiet fun e he => h e (by simp [he])

theorem paired_append {v : Bool} {a b : List TraceLine} (ha : Paired v a) (hb : Paired v b) : Paired v (a ++ b) := by
  induction ha with
  | nil => exact hb
  | start _ ih => exact .start ih
  | hit _ ih => exact .hit ih
  | miss _ ih => exact .miss ih
  | nsHit _ ih => exact .nsHit ih
  | nsMiss _ ih => exact .nsMiss ih
  | sub h _ _ ih => exact .sub h ih
  | lost _ ih => exact .lost ih
  | @failed n k s z m e ls _ ih =>
    have := Paired.failed (n := n) (k := k) (s := s) (z := z) (m := m) (e := e) ih
    simpa using this
  | @answered n k s z m e ls _ ih =>
    have := Paired.answered (n := n) (k := k) (s := s) (z := z) (m := m) (r := e) ih
    simpa using this

theorem tells_steps {t : TraceParams} (hs : t.silent = false) : Tells t fun _ new es => told new = stepsOf es ∧ Paired t.verbose new where
  nil zs := ⟨rfl, .nil⟩
  append zs a b c d h1 h2 := ⟨by rw [told_append, stepsOf_append, h1.1, h2.1], paired_append h1.2 h2.2⟩
  saved zs n k rs := ⟨rfl, .nil⟩
  start zs nf n k := by
    rw [hs, if_neg (by simp)]
    exact ⟨rfl, .start .nil⟩
  note _ zs l hl := by
    cases hl with
    | hit => exact ⟨rfl, .hit .nil⟩
    | miss => exact ⟨rfl, .miss .nil⟩
    | nsHit => exact ⟨rfl, .nsHit .nil⟩
    | nsMiss => exact ⟨rfl, .nsMiss .nil⟩
  sub zs z nf n k new es h hm := ⟨by rw [told, toldBy, told, List.append_nil]; exact h.1, .sub h.2 .nil⟩
  request zs ns n k server es out hns he ho := by
    rw [hs, if_neg (by simp)]
    have h1 : stepsOf (.contact zs ns n k :: es) = [.ask n k server ns.nsRecord.node] := by
      rw [stepsOf, hns, stepsOf_quiet he]
    rw [h1]
    cases ho with
    | lost e => exact ⟨rfl, .lost .nil⟩
    | failed m e => exact ⟨by cases t.verbose <;> rfl, .failed .nil⟩
    | answered m r => exact ⟨by cases t.verbose <;> rfl, .answered .nil⟩

/-- A trace that is not silent tells what the lookup did: the resolutions it started, also those on behalf of others, and the
servers it asked, all of them, in the order in which that happened, and nothing else. Every request is directly followed by
its outcome. (A lookup that panics or does not end has no trace.) -/
theorem C78_trace_is_faithful (env : Env) (p : Profile) (t : TraceParams) (conf : Params) (fuel : Nat) (node : Name) (kind : RecordType)
    (w : World) (hl : w.log = []) (hs : t.silent = false) (hc : Calm (tracedLookup env p t conf fuel node kind w).1) :
    told (tracedLookup env p t conf fuel node kind w).2.1 = stepsOf (tracedLookup env p t conf fuel node kind w).2.2.log ∧
    Paired t.verbose (tracedLookup env p t conf fuel node kind w).2.1 := by
  by_cases h0 : conf.maxCnameRedir = 0
  · rw [(traced_zero h0).1, hl]
    exact ⟨rfl, .nil⟩
  · have h := (perform_tr (env := env) (p := p) (tells_steps hs) fuel ⟨node, kind, [], [], conf⟩ h0).1 w []
    obtain ⟨new, es, h1, h2, h3, h4⟩ := h.2.2.2 (by rw [← h.1]; exact hc)
    rw [hl, List.nil_append] at h1
    rw [List.nil_append] at h2
    have e1 : (tracedLookup env p t conf fuel node kind w).2.1 = new := h2
    have e2 : (tracedLookup env p t conf fuel node kind w).2.2.log = es := by rw [← h1, ← h.2.1]; rfl
    rw [e1, e2]
    exact ⟨h3, h4⟩

/-- A lookup with a nested one. -/
example : told (tracedLookup nestedEnv .release ⟨true, false, false⟩ ⟨1, 1, 3, false⟩ 5 ⟨"a.com.".toList⟩ .A ⟨.empty, 0, []⟩).2.1 =
    [.start ⟨"a.com.".toList⟩ .A, .ask ⟨"a.com.".toList⟩ .A ⟨"a.root-servers.net.".toList⟩ ⟨['.']⟩, .start ⟨"ns.org.".toList⟩ .A,
      .ask ⟨"ns.org.".toList⟩ .A ⟨"a.root-servers.net.".toList⟩ ⟨['.']⟩, .ask ⟨"a.com.".toList⟩ .A ⟨"ns.org.".toList⟩ ⟨"com.".toList⟩] := by
  decide +kernel

/-! ## C79 -/

/-- The full statement of C79: whether traces are logged makes no difference to what clients get. -/
def C79_statement : Prop :=
  ∀ (env : Env) (p : Profile) (t : TraceParams) (info : Bool) (conf : Params) (fuel : Nat) (read : ReadResult) (w : World),
    Up env conf w → handleTraced env p t info conf fuel read w = handle env p conf fuel read w

theorem addU8_ok {ε : Type} {p : Profile} {d : Nat} (h : d + 1 < 256) : (addU8 p (UInt8.ofNat d) 1 : Out ε UInt8) = .ok (UInt8.ofNat (d + 1)) := by
  unfold addU8
  have h1 : (UInt8.ofNat d).toNat = d := by simp; omega
  have h2 : (1 : UInt8).toNat = 1 := rfl
  rw [if_pos (by rw [h1, h2]; exact h)]
  congr 1
  apply UInt8.toNat_inj.1
  simp [UInt8.toNat_add]

theorem addU8_over {ε : Type} {p : Profile} {d : Nat} (h : d < 256) (h' : 256 ≤ d + 1) : (addU8 p (UInt8.ofNat d) 1 : Out ε UInt8) =
    match p with
    | .debug => .panic .overflow
    | .release => .ok 0 := by
  have hd : d = 255 := by omega
  subst hd
  cases p <;> rfl

/-- How the model writes what is shown. -/
def onScreen (l : List (Nat × Option TraceLine)) : List (UInt8 × Option TraceLine) := l.map fun x => (UInt8.ofNat x.1, x.2)

mutual

theorem displayLine_ok {ε : Type} {p : Profile} {d : Nat} : ∀ l : TraceLine, d + lineDepth l < 256 →
    (displayLine p (UInt8.ofNat d) l : Out ε _) = .ok (onScreen (shownLine d l))
  | .subResolution lines, h => by
    rw [lineDepth] at h
    rw [displayLine, addU8_ok (by omega), Out.bind_ok, displayLines_ok lines (by omega), Out.bind_ok, shownLine]
    simp [onScreen]
  | .resolutionStart _ _, _ => rfl
  | .cacheHit _ _ _, _ => rfl
  | .cacheMiss _ _, _ => rfl
  | .cacheNsHit _ _, _ => rfl
  | .cacheNsMiss _, _ => rfl
  | .nameserverStart _ _ _ _, _ => rfl
  | .nameserverResp _, _ => rfl
  | .nameserverErr _, _ => rfl
  | .rawResp _, _ => rfl

theorem displayLines_ok {ε : Type} {p : Profile} {d : Nat} : ∀ ls : List TraceLine, d + depth ls < 256 →
    (displayLines p (UInt8.ofNat d) ls : Out ε _) = .ok (onScreen (shown d ls))
  | [], _ => rfl
  | l :: ls, h => by
    rw [depth] at h
    rw [displayLines, displayLine_ok l (by omega), Out.bind_ok, displayLines_ok ls (by omega), Out.bind_ok, shown]
    simp [onScreen]

end

mutual

theorem displayLine_debug {ε : Type} {d : Nat} (hd : d < 256) : ∀ l : TraceLine, 256 ≤ d + lineDepth l →
    (displayLine .debug (UInt8.ofNat d) l : Out ε _) = .panic .overflow
  | .subResolution lines, h => by
    rw [lineDepth] at h
    rw [displayLine]
    by_cases h1 : d + 1 < 256
    · rw [addU8_ok h1, Out.bind_ok, displayLines_debug h1 lines (by omega), Out.bind_panic]
    · rw [addU8_over hd (by omega)]; rfl
  | .resolutionStart _ _, h => by simp only [lineDepth] at h; omega
  | .cacheHit _ _ _, h => by simp only [lineDepth] at h; omega
  | .cacheMiss _ _, h => by simp only [lineDepth] at h; omega
  | .cacheNsHit _ _, h => by simp only [lineDepth] at h; omega
  | .cacheNsMiss _, h => by simp only [lineDepth] at h; omega
  | .nameserverStart _ _ _ _, h => by simp only [lineDepth] at h; omega
  | .nameserverResp _, h => by simp only [lineDepth] at h; omega
  | .nameserverErr _, h => by simp only [lineDepth] at h; omega
  | .rawResp _, h => by simp only [lineDepth] at h; omega

theorem displayLines_debug {ε : Type} {d : Nat} (hd : d < 256) : ∀ ls : List TraceLine, 256 ≤ d + depth ls →
    (displayLines .debug (UInt8.ofNat d) ls : Out ε _) = .panic .overflow
  | [], h => by rw [depth] at h; omega
  | l :: ls, h => by
    rw [depth] at h
    rw [displayLines]
    by_cases h1 : d + lineDepth l < 256
    · rw [displayLine_ok l h1, Out.bind_ok, displayLines_debug hd ls (by omega), Out.bind_panic]
    · rw [displayLine_debug hd l (by omega), Out.bind_panic]

end

mutual

theorem displayLine_release {ε : Type} (d : UInt8) : ∀ l : TraceLine, ∃ s, (displayLine .release d l : Out ε _) = .ok s
  | .subResolution lines => by
    have h : ∃ d', (addU8 .release d 1 : Out ε UInt8) = .ok d' := by
      unfold addU8
      by_cases h : d.toNat + (1 : UInt8).toNat < 256
      · rw [if_pos h]; exact ⟨_, rfl⟩
      · rw [if_neg h]; exact ⟨_, rfl⟩
    obtain ⟨d', h⟩ := h
    obtain ⟨s, hs⟩ := displayLines_release (ε := ε) d' lines
    rw [displayLine, h, Out.bind_ok, hs]
    exact ⟨_, rfl⟩
  | .resolutionStart _ _ => ⟨_, rfl⟩
  | .cacheHit _ _ _ => ⟨_, rfl⟩
  | .cacheMiss _ _ => ⟨_, rfl⟩
  | .cacheNsHit _ _ => ⟨_, rfl⟩
  | .cacheNsMiss _ => ⟨_, rfl⟩
  | .nameserverStart _ _ _ _ => ⟨_, rfl⟩
  | .nameserverResp _ => ⟨_, rfl⟩
  | .nameserverErr _ => ⟨_, rfl⟩
  | .rawResp _ => ⟨_, rfl⟩

theorem displayLines_release {ε : Type} (d : UInt8) : ∀ ls : List TraceLine, ∃ s, (displayLines .release d ls : Out ε _) = .ok s
  | [] => ⟨_, rfl⟩
  | l :: ls => by
    obtain ⟨s, hs⟩ := displayLine_release (ε := ε) d l
    obtain ⟨s', hs'⟩ := displayLines_release (ε := ε) d ls
    rw [displayLines, hs, Out.bind_ok, hs']
    exact ⟨_, rfl⟩

end

/-- A trace in which less than 256 traces are nested is shown line by line, every line at the indentation that is the number
of traces it is in; if more are nested, a debug build panics, and a release build does not. -/
theorem C79_display (lines : List TraceLine) :
    (depth lines < 256 → ∀ p, (display p lines : Out LookupErr _) = .ok (onScreen (shown 0 lines))) ∧
    (256 ≤ depth lines → (display .debug lines : Out LookupErr _) = .panic .overflow) ∧
    (∃ s, (display .release lines : Out LookupErr _) = .ok s) :=
  ⟨fun h _ => displayLines_ok (d := 0) lines (by omega), fun h => displayLines_debug (d := 0) (by omega) lines (by omega),
    displayLines_release 0 lines⟩

example : depth [.cacheNsMiss ⟨['.']⟩, .subResolution [.subResolution [], .cacheNsMiss ⟨['.']⟩]] = 2 := by decide

example : shown 0 [.subResolution [.cacheNsMiss ⟨['.']⟩, .subResolution []]] = [(1, some (.cacheNsMiss ⟨['.']⟩)), (0, none), (0, none)] := rfl

theorem depth_append : ∀ a b : List TraceLine, depth (a ++ b) = max (depth a) (depth b)
  | [], b => by simp [depth]
  | l :: a, b => by rw [List.cons_append, depth, depth, depth_append a b, Nat.max_assoc]

theorem tells_depth (t : TraceParams) : Tells t fun zs new es => depth new ≠ 0 →
    ∃ zs' nf n k, .start zs' nf n k ∈ es ∧ zs'.length = zs.length + depth new where
  nil zs h := absurd rfl h
  append zs a b c d h1 h2 h := by
    rw [depth_append] at h ⊢
    by_cases hab : depth b ≤ depth a
    · obtain ⟨z, nf, n, k, hm, hz⟩ := h1 (by omega)
      exact ⟨z, nf, n, k, by simp [hm], by omega⟩
    · obtain ⟨z, nf, n, k, hm, hz⟩ := h2 (by omega)
      exact ⟨z, nf, n, k, by simp [hm], by omega⟩
  saved zs n k rs h := absurd rfl h
  start zs nf n k h := by cases hs : t.silent <;> rw [hs] at h <;> exact absurd rfl h
  note _ zs l hl h := by cases hl <;> exact absurd rfl h
  sub zs z nf n k new es h hm _ := by
    have e : depth [.subResolution new] = depth new + 1 := by rw [depth, lineDepth, depth]; omega
    rw [e]
    by_cases h0 : depth new = 0
    · exact ⟨_, _, _, _, hm, by rw [h0]; simp⟩
    · obtain ⟨z', nf', n', k', hm', hz⟩ := h h0
      exact ⟨z', nf', n', k', hm', by rw [hz]; simp; omega⟩
  request zs ns n k server es out _ _ ho h := by
    exfalso
    apply h
    cases t.silent
    · cases ho with
      | lost e => rfl
      | failed m e => cases t.verbose <;> rfl
      | answered m r => cases t.verbose <;> rfl
    · rfl

/-- Traces are nested as deep as lookups: for a trace in which 256 are nested there was a lookup on behalf of 256 zones, each
of which waited for the address of a server of it. -/
theorem C79_nesting (env : Env) (p : Profile) (t : TraceParams) (conf : Params) (fuel : Nat) (node : Name) (kind : RecordType)
    (w : World) (hl : w.log = []) (hc : Calm (tracedLookup env p t conf fuel node kind w).1)
    (hd : depth (tracedLookup env p t conf fuel node kind w).2.1 ≠ 0) :
    ∃ zs nf n k, .start zs nf n k ∈ (tracedLookup env p t conf fuel node kind w).2.2.log ∧
      zs.length = depth (tracedLookup env p t conf fuel node kind w).2.1 := by
  by_cases h0 : conf.maxCnameRedir = 0
  · rw [(traced_zero h0).1] at hd
    exact absurd rfl hd
  · have h := (perform_tr (env := env) (p := p) (tells_depth t) fuel ⟨node, kind, [], [], conf⟩ h0).1 w []
    obtain ⟨new, es, h1, h2, h3⟩ := h.2.2.2 (by rw [← h.1]; exact hc)
    rw [hl, List.nil_append] at h1
    rw [List.nil_append] at h2
    have e1 : (tracedLookup env p t conf fuel node kind w).2.1 = new := h2
    have e2 : (tracedLookup env p t conf fuel node kind w).2.2.log = es := by rw [← h1, ← h.2.1]; rfl
    rw [e1] at hd ⊢
    rw [e2]
    obtain ⟨zs, nf, n, k, hm, hz⟩ := h3 hd
    exact ⟨zs, nf, n, k, hm, by simpa using hz⟩

/-- Showing the trace, or not, and then replying. -/
theorem show_bind {α : Type} {p : Profile} {info : Bool} {lines : List TraceLine} (h : p = .release ∨ info = false ∨ depth lines < 256) (a : α) :
    (logTrace p info lines >>= fun _ => .ok a : Out LookupErr α) = .ok a := by
  unfold logTrace
  by_cases hi : (info && !lines.isEmpty) = true
  · rw [if_pos hi]
    have : ∃ s, (display p lines : Out LookupErr _) = .ok s := by
      rcases h with rfl | rfl | h
      · exact (C79_display lines).2.2
      · simp at hi
      · exact ⟨_, (C79_display lines).1 h p⟩
    obtain ⟨s, hs⟩ := this
    rw [hs, Out.bind_ok]
  · rw [if_neg hi, Out.bind_ok]

/-- C79, part: the statement for release builds, for logs without messages of level `info`, and for debug builds if less than
256 lookups are nested. Here `lines` is the trace of the lookup for the question of the request. -/
theorem C79_logging_partial (env : Env) (p : Profile) (t : TraceParams) (info : Bool) (conf : Params) (fuel : Nat) (read : ReadResult)
    (w : World) (h : p = .release ∨ info = false ∨ ∀ req q, read = .fullMessage req → req.questions.head? = some q →
      depth (tracedLookup env p t conf fuel q.node q.recordType w).2.1 < 256) :
    handleTraced env p t info conf fuel read w = handle env p conf fuel read w := by
  cases read with
  | headerOnly a b => rfl
  | parseErr a b => rfl
  | ioErr => rfl
  | fullMessage req =>
    unfold handleTraced handle
    simp only
    by_cases hv : (!validate req) = true
    · rw [if_pos hv, if_pos hv]
    · rw [if_neg hv, if_neg hv]
      cases hq : req.questions with
      | nil => rfl
      | cons q qs =>
        have hd := h.imp_right fun h => h.imp_right fun h => h req q rfl (by rw [hq]; rfl)
        have ht := C76_tracing_is_transparent env p t conf fuel q.node q.recordType w
        simp only [bind, M.bind, M.attempt]
        rw [← ht]
        clear ht h
        generalize tracedLookup env p t conf fuel q.node q.recordType w = x at hd ⊢
        obtain ⟨o, lines, w'⟩ := x
        cases o with
        | ok r => exact Prod.ext (show_bind (lines := lines) hd (some (resultReply req (.inr r)))) rfl
        | err e => exact Prod.ext (show_bind (lines := lines) hd (some (resultReply req (.inl e)))) rfl
        | panic k => rfl
        | diverge => rfl

end Ariadne.Props
