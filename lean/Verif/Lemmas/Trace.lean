import Verif.Spec.Trace
import Verif.Lemmas.Logs

/-! # Lookups with traces do what lookups without them do -/

namespace Ariadne.Resolver

open Spec

/-- The outcome of a request in a trace. -/
inductive Outcome (verbose : Bool) : List TraceLine → Prop
  | lost (e) : Outcome verbose [.nameserverErr e]
  | failed (m e) : Outcome verbose ((if verbose then [.rawResp m] else []) ++ [.nameserverErr e])
  | answered (m r) : Outcome verbose ((if verbose then [.rawResp m] else []) ++ [.nameserverResp r])

/-- Lines about the cache. -/
inductive Note : TraceLine → Prop
  | hit (n k rs) : Note (.cacheHit n k rs)
  | miss (n k) : Note (.cacheMiss n k)
  | nsHit (n nss) : Note (.cacheNsHit n nss)
  | nsMiss (n) : Note (.cacheNsMiss n)

/-- Relations between traces and histories of lookups on behalf of some zones that can be shown piecewise. -/
structure Tells (t : TraceParams) (R : List Name → List TraceLine → List Event → Prop) : Prop where
  nil : ∀ zs, R zs [] []
  append : ∀ zs a b c d, R zs a c → R zs b d → R zs (a ++ b) (c ++ d)
  saved : ∀ zs n k rs, R zs [] [.saved n k rs]
  start : ∀ zs nf n k, R zs (if t.silent then [] else [.resolutionStart n k]) [.start zs nf n k]
  note : t.silent = false → ∀ zs l, Note l → R zs [l] []
  sub : ∀ zs z nf n k new es, R (zs ++ [z]) new es → .start (zs ++ [z]) nf n k ∈ es → R zs [.subResolution new] es
  request : ∀ zs ns n k server es out, ns.nsRecord.data = .NS server → (∀ e ∈ es, ∃ a q r, e = .exchange a q r) →
    Outcome t.verbose out → R zs (if t.silent then [] else .nameserverStart n k server ns.nsRecord.node :: out) (.contact zs ns n k :: es)

/-- Neither a panic nor an endless loop. -/
def Calm {ε α : Type} : Out ε α → Prop
  | .ok _ => True
  | .err _ => True
  | _ => False

variable {α β : Type} {env : Env} {p : Profile} {t : TraceParams} {zs : List Name}

/-- The first computation does what the second does, and tells. -/
def Tr (R : List TraceLine → List Event → Prop) (Q : α → Prop) (m : TM α) (m0 : M α) : Prop := ∀ w ls,
  (m ⟨w, ls⟩).1 = (m0 w).1 ∧ (m ⟨w, ls⟩).2.world = (m0 w).2 ∧ (∀ a, (m0 w).1 = .ok a → Q a) ∧
  (Calm (m0 w).1 → ∃ new es, (m0 w).2.log = w.log ++ es ∧ (m ⟨w, ls⟩).2.lines = ls ++ new ∧ R new es)

variable {R : List TraceLine → List Event → Prop}

theorem Tr.mono {Q Q' : α → Prop} {m : TM α} {m0 : M α} (h : Tr R Q m m0) (hq : ∀ a, Q a → Q' a) : Tr R Q' m m0 := fun w ls =>
  let ⟨h1, h2, h3, h4⟩ := h w ls
  ⟨h1, h2, fun a ha => hq a (h3 a ha), h4⟩

theorem Tr.bind (hR : ∀ a b c d, R a c → R b d → R (a ++ b) (c ++ d)) {Q : α → Prop} {Q' : β → Prop} {m : TM α} {m0 : M α} {f : α → TM β}
    {f0 : α → M β} (h : Tr R Q m m0) (hf : ∀ a, Q a → Tr R Q' (f a) (f0 a)) : Tr R Q' (m >>= f) (m0 >>= f0) := by
  intro w ls
  have e1 : (m >>= f) ⟨w, ls⟩ = match m ⟨w, ls⟩ with
    | (.ok a, w') => f a w'
    | (.err e, w') => (.err e, w')
    | (.panic k, w') => (.panic k, w')
    | (.diverge, w') => (.diverge, w') := rfl
  have e2 : (m0 >>= f0) w = match m0 w with
    | (.ok a, w') => f0 a w'
    | (.err e, w') => (.err e, w')
    | (.panic k, w') => (.panic k, w')
    | (.diverge, w') => (.diverge, w') := rfl
  rw [e1, e2]
  obtain ⟨h1, h2, h3, h4⟩ := h w ls
  generalize m ⟨w, ls⟩ = x at h1 h2 h4 ⊢
  generalize m0 w = y at h1 h2 h3 h4 ⊢
  obtain ⟨o, w1, ls1⟩ := x
  obtain ⟨o', w1'⟩ := y
  simp only at h1 h2 h3 h4
  subst h1
  subst h2
  cases o with
  | ok a =>
    obtain ⟨g1, g2, g3, g4⟩ := hf a (h3 a rfl) w1 ls1
    refine ⟨g1, g2, g3, fun hc => ?_⟩
    obtain ⟨new, es, i1, i2, i3⟩ := h4 trivial
    obtain ⟨new', es', j1, j2, j3⟩ := g4 hc
    exact ⟨new ++ new', es ++ es', by rw [j1, i1, List.append_assoc], by rw [j2, i2, List.append_assoc], hR _ _ _ _ i3 j3⟩
  | err e => exact ⟨rfl, rfl, fun a ha => (by cases ha), h4⟩
  | panic k => exact ⟨rfl, rfl, fun a ha => (by cases ha), fun hc => hc.elim⟩
  | diverge => exact ⟨rfl, rfl, fun a ha => (by cases ha), fun hc => hc.elim⟩

theorem Tr.attempt {Q : α → Prop} {m : TM α} {m0 : M α} (h : Tr R Q m m0) :
    Tr R (fun x => ∀ a, x = .inr a → Q a) (TM.attempt m) (M.attempt m0) := by
  intro w ls
  obtain ⟨h1, h2, h3, h4⟩ := h w ls
  unfold TM.attempt M.attempt
  generalize m ⟨w, ls⟩ = x at h1 h2 h4 ⊢
  generalize m0 w = y at h1 h2 h3 h4 ⊢
  obtain ⟨o, w1, ls1⟩ := x
  obtain ⟨o', w1'⟩ := y
  simp only at h1 h2 h3 h4
  subst h1
  subst h2
  cases o with
  | ok a =>
    refine ⟨rfl, rfl, ?_, fun _ => h4 trivial⟩
    intro x hx b hb
    cases hx
    cases hb
    exact h3 _ rfl
  | err e =>
    refine ⟨rfl, rfl, ?_, fun _ => h4 trivial⟩
    intro x hx b hb
    cases hx
    cases hb
  | panic k => exact ⟨rfl, rfl, fun a ha => (by cases ha), fun hc => hc.elim⟩
  | diverge => exact ⟨rfl, rfl, fun a ha => (by cases ha), fun hc => hc.elim⟩

theorem Tr.run {Q : α → Prop} {m : M α} (h : Logs (fun es => R [] es) m) (hq : ∀ w a, (m w).1 = .ok a → Q a) :
    Tr R Q (TM.run m) m := by
  intro w ls
  obtain ⟨es, h1, h2⟩ := h w
  refine ⟨rfl, rfl, fun a ha => hq w a ha, fun _ => ⟨[], es, h1, (List.append_nil _).symm, h2⟩⟩

/-- What only writes to the trace goes unnoticed. -/
theorem Tr.before {Q : α → Prop} {m : TM Unit} {f : TM α} {f0 : M α} (hR : ∀ a b c d, R a c → R b d → R (a ++ b) (c ++ d))
    (hm : ∀ w ls, ∃ new, m ⟨w, ls⟩ = (.ok (), ⟨w, ls ++ new⟩) ∧ R new []) (hf : Tr R Q f f0) : Tr R Q (m >>= fun _ => f) f0 := by
  intro w ls
  obtain ⟨new, e, hn⟩ := hm w ls
  have e1 : (m >>= fun _ => f) ⟨w, ls⟩ = f ⟨w, ls ++ new⟩ := by
    simp only [Bind.bind, TM.bind, e]
  rw [e1]
  obtain ⟨h1, h2, h3, h4⟩ := hf w (ls ++ new)
  refine ⟨h1, h2, h3, fun hc => ?_⟩
  obtain ⟨new', es, i1, i2, i3⟩ := h4 hc
  exact ⟨new ++ new', es, i1, by rw [i2, List.append_assoc], hR new new' [] es hn i3⟩

theorem Tr.pure {Q : α → Prop} (h0 : R [] []) {a : α} (hq : Q a) : Tr R Q (Pure.pure a) (Pure.pure a) := by
  intro w ls
  refine ⟨rfl, rfl, ?_, fun _ => ⟨[], [], (List.append_nil _).symm, (List.append_nil _).symm, h0⟩⟩
  intro b hb
  cases hb
  exact hq

theorem Tr.bindPure {Q : α → Prop} {m : TM α} {m0 : M α} (h : Tr R Q m (m0 >>= Pure.pure)) : Tr R Q m m0 := by
  have e : m0 = (m0 >>= fun x => Pure.pure x) := by
    funext w
    simp only [Bind.bind, M.bind, Pure.pure, M.pure]
    generalize m0 w = x
    obtain ⟨o, w'⟩ := x
    cases o <;> rfl
  rw [e]
  exact h

section

variable {R : List Name → List TraceLine → List Event → Prop}

theorem Tells.additive (h : Tells t R) (zs : List Name) : Additive fun es => R zs [] es := ⟨h.nil zs, fun a b => h.append zs [] [] a b⟩

theorem push_note (h : Tells t R) (zs : List Name) {l : TraceLine} (hl : Note l) : ∀ w ls, ∃ new,
    TM.push t l ⟨w, ls⟩ = (.ok (), ⟨w, ls ++ new⟩) ∧ R zs new [] := by
  intro w ls
  cases hs : t.silent with
  | true => exact ⟨[], by simp [TM.push, hs], h.nil zs⟩
  | false => exact ⟨[l], by simp [TM.push, hs], h.note hs zs l hl⟩

theorem Tr.lift (h : Tells t R) {Q : α → Prop} {o : Out LookupErr α} (hq : ∀ a, o = .ok a → Q a) :
    Tr (R zs) Q (TM.run (M.lift o)) (M.lift o) :=
  Tr.run (Logs.lift (h.additive zs) o) fun _ a ha => hq a ha

theorem Tr.throw (h : Tells t R) {Q : α → Prop} (e : LookupErr) : Tr (R zs) Q (TM.run (M.throw e)) (M.throw e) :=
  Tr.lift h fun a ha => by cases ha

theorem Tr.panic (h : Tells t R) {Q : α → Prop} (k : Panic) : Tr (R zs) Q (TM.run (M.panic k)) (M.panic k) :=
  Tr.lift h fun a ha => by cases ha

theorem searchRecords_tr (h : Tells t R) (node : Name) (kind : RecordType) :
    Tr (R zs) (fun _ => True) (searchRecordsT env t node kind) (searchRecordsInCache env node kind) := by
  refine Tr.bindPure ?_
  unfold searchRecordsT
  refine Tr.bind (h.append zs) (Tr.run (search_logs (h.additive zs) _ _) fun _ _ _ => trivial) fun rs _ => ?_
  cases rs with
  | nil => exact Tr.before (h.append zs) (push_note h zs (.miss _ _)) (Tr.pure (h.nil zs) trivial)
  | cons r rs => exact Tr.before (h.append zs) (push_note h zs (.hit _ _ _)) (Tr.pure (h.nil zs) trivial)

/-- All of these are servers. -/
def AllNs (nss : List NextNs) : Prop := ∀ ns ∈ nss, ∃ s, ns.nsRecord.data = .NS s

theorem nsData_inv {ε : Type} {r : Record} {n : Name} (h : (r.nsData : Out ε Name) = .ok n) : r.data = .NS n := by
  unfold Record.nsData at h
  split at h
  · cases h; assumption
  · cases h

theorem bind_ok_inv {m : M α} {f : α → M β} {w : World} {b : β} (h : ((m >>= f) w).1 = .ok b) :
    ∃ a w', m w = (.ok a, w') ∧ (f a w').1 = .ok b := by
  have e : (m >>= f) w = match m w with
    | (.ok a, w') => f a w'
    | (.err e, w') => (.err e, w')
    | (.panic k, w') => (.panic k, w')
    | (.diverge, w') => (.diverge, w') := rfl
  rw [e] at h
  generalize m w = x at h
  obtain ⟨o, w'⟩ := x
  cases o with
  | ok a => exact ⟨a, w', rfl, h⟩
  | err e => cases h
  | panic k => cases h
  | diverge => cases h

theorem findAddrs_ns : ∀ {rs : List Record} {w : World} {nss : List NextNs}, (findAddrs env rs w).1 = .ok nss → AllNs nss
  | [], w, nss, h => by
    unfold findAddrs at h
    cases h
    intro ns hn
    cases hn
  | r :: rs, w, nss, h => by
    unfold findAddrs at h
    obtain ⟨n, w1, h1, h⟩ := bind_ok_inv h
    obtain ⟨as, w2, h2, h⟩ := bind_ok_inv h
    obtain ⟨rest, w3, h3, h⟩ := bind_ok_inv h
    cases h
    have hr : r.data = .NS n := nsData_inv (ε := LookupErr) (by simpa [M.lift] using congrArg Prod.fst h1)
    have ih := findAddrs_ns (rs := rs) (w := w2) (nss := rest) (by rw [h3])
    intro ns hn
    rcases List.mem_cons.1 hn with rfl | hn
    · exact ⟨n, hr⟩
    · exact ih ns hn

theorem rootZone_ns : AllNs rootZoneNameservers := by
  intro ns hn
  obtain ⟨s, _, rfl⟩ := List.mem_map.1 hn
  exact ⟨_, rfl⟩

theorem starting_tr (h : Tells t R) (lk : Lookup) {nss : List NextNs} (hn : AllNs nss) :
    Tr (R zs) AllNs (startingServersT env t lk nss) (startingServers env lk nss) := by
  unfold startingServersT startingServers
  by_cases h0 : nss.isEmpty = true
  · rw [if_pos h0, if_pos h0]
    refine Tr.bind (h.append zs) (Q := AllNs) ?_ fun c hc => Tr.pure (h.nil zs) ?_
    · unfold searchNssT searchNssInCache
      refine Tr.bind (h.append zs) (Tr.run (findNs_logs (h.additive zs) _) fun _ _ _ => trivial) fun rs (_ : True) => ?_
      cases rs with
      | nil =>
        exact Tr.before (h.append zs) (push_note h zs (.nsMiss _)) (Tr.pure (h.nil zs) (by intro ns hn; cases hn))
      | cons r rs =>
        refine Tr.bindPure ?_
        refine Tr.bind (h.append zs) (Tr.run (findAddrs_logs (h.additive zs) _) fun w a ha => findAddrs_ns ha) fun nss hns => ?_
        exact Tr.before (h.append zs) (push_note h zs (.nsHit _ _)) (Tr.pure (h.nil zs) hns)
    · by_cases hc0 : c.isEmpty = true
      · rw [if_pos hc0]; exact rootZone_ns
      · rw [if_neg hc0]; exact hc
  · rw [if_neg h0, if_neg h0]; exact Tr.pure (h.nil zs) hn

/-- The servers named in a response are servers. -/
def RespNs : NsResponse → Prop
  | .delegation nss => AllNs nss
  | .alias _ nss => AllNs nss
  | _ => True

theorem interpret_ns {resp : Message} {node : Name} {kind : RecordType} {zone : Name} {r : NsResponse}
    (h : interpret resp node kind zone = .ok r) : RespNs r := by
  have hs := interpret_sat resp node kind zone
  rw [h] at hs
  cases r with
  | delegation nss => exact fun ns hn => nsData_of (hs.2.2.2 ns hn).1.2.1
  | «alias» c nss =>
    obtain ⟨_, _, _, _, _, _, h⟩ := hs
    exact fun ns hn => nsData_of (h ns hn).1.2.1
  | noDomain s => trivial
  | answer a b => trivial

theorem request_ns {ns : NextNs} {node : Name} {kind : RecordType} {n : Nat} {w : World} {r : NsResponse}
    (h : (performRequest env p ns node kind n w).1 = .ok r) : RespNs r := by
  unfold performRequest at h
  obtain ⟨resp, w', h1, h2⟩ := bind_ok_inv h
  exact interpret_ns h2

/-- The lines of a request. -/
def reqLines (t : TraceParams) (node : Name) (kind : RecordType) (server zone : Name) (out : List TraceLine) : List TraceLine :=
  if t.silent then [] else .nameserverStart node kind server zone :: out

theorem traceNsReq_eq {ns : NextNs} {server : Name} (hs : ns.nsRecord.data = .NS server) (node : Name) (kind : RecordType)
    (w : World) (ls : List TraceLine) : traceNsReq t node kind ns ⟨w, ls⟩ =
      (.ok (), ⟨w, ls ++ if t.silent then [] else [.nameserverStart node kind server ns.zone]⟩) := by
  have hnode : (ns.node : Out LookupErr Name) = .ok server := by unfold NextNs.node Record.nsData; rw [hs]
  unfold traceNsReq
  rw [hnode]
  cases h : t.silent
  · rw [if_neg (by simp)]
    simp [bind, TM.bind, TM.run, M.lift, TM.push, h]
  · rw [if_pos rfl]
    simp [Pure.pure, TM.pure]

theorem push_eq (l : TraceLine) (w : World) (ls : List TraceLine) : TM.push t l ⟨w, ls⟩ = (.ok (), ⟨w, ls ++ if t.silent then [] else [l]⟩) := by
  cases h : t.silent <;> simp [TM.push, h]

theorem rawResp_eq (m : Message) (w : World) (ls : List TraceLine) :
    traceRawResp t m ⟨w, ls⟩ = (.ok (), ⟨w, ls ++ if t.silent then [] else if t.verbose then [.rawResp m] else []⟩) := by
  unfold traceRawResp
  cases h : t.silent <;> cases hv : t.verbose <;> simp [push_eq, h, Pure.pure, TM.pure]

theorem bind_eq {m : TM α} {f : α → TM β} {w w' : TWorld} {a : α} (h : m w = (.ok a, w')) : (m >>= f) w = f a w' := by
  simp only [bind, TM.bind, h]

theorem push_bind (l : TraceLine) (f : Unit → TM β) (w : World) (ls : List TraceLine) :
    (TM.push t l).bind f ⟨w, ls⟩ = f () ⟨w, ls ++ if t.silent then [] else [l]⟩ := by
  cases h : t.silent <;> simp [TM.bind, TM.push, h]

theorem performRequestT_spec (t : TraceParams) {ns : NextNs} {server : Name} (hs : ns.nsRecord.data = .NS server) (node : Name) (kind : RecordType) (n : Nat)
    (w : World) (ls : List TraceLine) :
    (performRequestWithTrace env p t ns node kind n ⟨w, ls⟩).1 = (performRequest env p ns node kind n w).1 ∧
    (performRequestWithTrace env p t ns node kind n ⟨w, ls⟩).2.world = (performRequest env p ns node kind n w).2 ∧
    (Calm (performRequest env p ns node kind n w).1 → ∃ out, Outcome t.verbose out ∧
      (performRequestWithTrace env p t ns node kind n ⟨w, ls⟩).2.lines = ls ++ reqLines t node kind server ns.zone out) := by
  have e1 : ∀ ls, performRequestT env p t ns node kind n ⟨w, ls⟩ = match sendQueryWithRetries env p ns node kind n none w with
      | (.ok resp, w') => (interpret resp node kind ns.zone,
          ⟨w', ls ++ if t.silent then [] else if t.verbose then [.rawResp resp] else []⟩)
      | (.err e, w') => (.err e, ⟨w', ls⟩)
      | (.panic k, w') => (.panic k, ⟨w', ls⟩)
      | (.diverge, w') => (.diverge, ⟨w', ls⟩) := by
    intro ls
    unfold performRequestT
    cases hx : sendQueryWithRetries env p ns node kind n none w with
    | mk o w' =>
    have hr : TM.run (sendQueryWithRetries env p ns node kind n none) ⟨w, ls⟩ = (o, ⟨w', ls⟩) := by simp [TM.run, hx]
    cases o with
    | ok resp => rw [bind_eq hr, bind_eq (rawResp_eq resp w' ls)]; rfl
    | err e => simp only [bind, TM.bind, hr]
    | panic e => simp only [bind, TM.bind, hr]
    | diverge => simp only [bind, TM.bind, hr]
  have e0 : performRequest env p ns node kind n w = match sendQueryWithRetries env p ns node kind n none w with
      | (.ok resp, w') => (interpret resp node kind ns.zone, w')
      | (.err e, w') => (.err e, w')
      | (.panic k, w') => (.panic k, w')
      | (.diverge, w') => (.diverge, w') := by
    unfold performRequest
    simp only [bind, M.bind]
    generalize sendQueryWithRetries env p ns node kind n none w = x
    obtain ⟨o, w'⟩ := x
    cases o <;> rfl
  unfold performRequestWithTrace
  rw [bind_eq (traceNsReq_eq hs node kind w ls), e0]
  simp only [bind, TM.bind, TM.attempt, e1]
  generalize sendQueryWithRetries env p ns node kind n none w = x
  obtain ⟨o, w'⟩ := x
  cases o with
  | ok resp =>
    simp only
    generalize interpret resp node kind ns.zone = o'
    cases o' with
    | ok r =>
      simp only [push_bind]
      refine ⟨rfl, rfl, fun _ => ⟨_, .answered resp r, ?_⟩⟩
      unfold reqLines
      cases t.silent <;> cases t.verbose <;> simp [Pure.pure, TM.pure]
    | err e =>
      simp only [push_bind]
      refine ⟨rfl, rfl, fun _ => ⟨_, .failed resp e, ?_⟩⟩
      unfold reqLines
      cases t.silent <;> cases t.verbose <;> simp [TM.run, M.throw, M.lift]
    | panic k => exact ⟨rfl, rfl, fun h => h.elim⟩
    | diverge => exact ⟨rfl, rfl, fun h => h.elim⟩
  | err e =>
    simp only [push_bind]
    refine ⟨rfl, rfl, fun _ => ⟨_, .lost e, ?_⟩⟩
    unfold reqLines
    cases t.silent <;> simp [TM.run, M.throw, M.lift]
  | panic k => exact ⟨rfl, rfl, fun h => h.elim⟩
  | diverge => exact ⟨rfl, rfl, fun h => h.elim⟩

theorem request_tr (h : Tells t R) {ns : NextNs} (hs : ∃ s, ns.nsRecord.data = .NS s) (node : Name) (kind : RecordType) (n : Nat) :
    Tr (R zs) RespNs
      (TM.run (M.emit (.contact zs ns node kind)) >>= fun _ => performRequestWithTrace env p t ns node kind n)
      (M.emit (.contact zs ns node kind) >>= fun _ => performRequest env p ns node kind n) := by
  obtain ⟨server, hs⟩ := hs
  intro w ls
  obtain ⟨h1, h2, h3⟩ := performRequestT_spec (env := env) (p := p) t hs node kind n { w with log := w.log ++ [.contact zs ns node kind] } ls
  obtain ⟨es, h4, h5, h6⟩ := request_logs (env := env) (p := p) ns node kind n { w with log := w.log ++ [.contact zs ns node kind] }
  refine ⟨h1, h2, fun a ha => request_ns (env := env) (p := p) ha, fun hc => ?_⟩
  obtain ⟨out, ho, hl⟩ := h3 hc
  refine ⟨_, .contact zs ns node kind :: es, ?_, hl, h.request zs ns node kind server es out hs (fun e he => ?_) ho⟩
  · show _ = _
    simp only [bind, M.bind, M.emit]
    rw [h4]
    simp
  · obtain ⟨_, a, _, q, r, _, _, rfl, _⟩ := h6 e he
    exact ⟨a, q, r, rfl⟩

/-- A lookup on behalf of another one starts. -/
def Starts (m : M α) (zs : List Name) : Prop := ∀ w, Calm (m w).1 → ∃ nf n k es, (m w).2.log = w.log ++ .start zs nf n k :: es

theorem subTrace_tr (h : Tells t R) {z : Name} {Q : α → Prop} {m : TM α} {m0 : M α} (hm : Tr (R (zs ++ [z])) Q m m0)
    (hs : Starts m0 (zs ++ [z])) : Tr (R zs) Q (subTrace m) m0 := by
  intro w ls
  obtain ⟨h1, h2, h3, h4⟩ := hm w []
  have h5 := hs w
  unfold subTrace
  simp only
  generalize m ⟨w, []⟩ = x at h1 h2 h4 ⊢
  generalize m0 w = y at h1 h2 h3 h4 h5 ⊢
  obtain ⟨o, w1, ls1⟩ := x
  obtain ⟨o', w1'⟩ := y
  simp only at h1 h2 h3 h4 h5
  subst h1
  subst h2
  have key : Calm o → ∃ new es, w1.log = w.log ++ es ∧ ls ++ [.subResolution ls1] = ls ++ new ∧ R zs new es := by
    intro hc
    obtain ⟨new, es, i1, i2, i3⟩ := h4 hc
    obtain ⟨nf, n, k, es', j⟩ := h5 hc
    rw [i1] at j
    have j := List.append_cancel_left j
    rw [List.nil_append] at i2
    rw [i2]
    exact ⟨_, es, i1, rfl, h.sub zs z nf n k new es i3 (by rw [j]; simp)⟩
  cases o with
  | ok a => exact ⟨rfl, rfl, h3, key⟩
  | err e => exact ⟨rfl, rfl, h3, key⟩
  | panic k => exact ⟨rfl, rfl, h3, fun hc => hc.elim⟩
  | diverge => exact ⟨rfl, rfl, h3, fun hc => hc.elim⟩

theorem resolveAddrs_tr (h : Tells t R) {sub : Lookup → TM Response} {sub0 : Lookup → M Response} {lk : Lookup} (hz : lk.previousZones = zs)
    (hsub : ∀ node z, Tr (R (zs ++ [z])) (fun _ => True) (sub ⟨node, .A, zs ++ [z], [], { lk.conf with noFollowCname := true }⟩)
      (sub0 ⟨node, .A, zs ++ [z], [], { lk.conf with noFollowCname := true }⟩))
    (hst : ∀ node z, Starts (sub0 ⟨node, .A, zs ++ [z], [], { lk.conf with noFollowCname := true }⟩) (zs ++ [z]))
    {ns : NextNs} (hn : ∃ s, ns.nsRecord.data = .NS s) :
    Tr (R zs) (fun ns => ∃ s, ns.nsRecord.data = .NS s) (resolveAddrsT sub lk ns) (resolveAddrs sub0 lk ns) := by
  unfold resolveAddrsT resolveAddrs
  refine Tr.bind (h.append zs) (Tr.lift h (Q := fun _ => True) fun _ _ => trivial) fun as _ => ?_
  by_cases h0 : as.isEmpty = true
  · rw [if_pos h0, if_pos h0]
    refine Tr.bind (h.append zs) (Tr.lift h (Q := fun _ => True) fun _ _ => trivial) fun node _ => ?_
    refine Tr.bind (h.append zs) (Tr.attempt (Q := fun _ => True) ?_) fun x _ => ?_
    · unfold resolveNsSubqueryT resolveNsSubquery
      refine Tr.bind (h.append zs) (Tr.lift h (Q := fun _ => True) fun _ _ => trivial) fun _ _ => ?_
      rw [hz]
      exact Tr.bind (h.append zs) (subTrace_tr h (hsub _ _) (hst _ _)) fun _ _ => Tr.pure (h.nil zs) trivial
    · cases x with
      | inl e => exact Tr.throw h _
      | inr r => exact Tr.pure (h.nil zs) hn
  · rw [if_neg h0, if_neg h0]; exact Tr.pure (h.nil zs) hn

section

variable {sub : Lookup → TM Response} {sub0 : Lookup → M Response} {lk : Lookup}

theorem tryServer_tr (h : Tells t R) (hz : lk.previousZones = zs)
    (hsub : ∀ node z, Tr (R (zs ++ [z])) (fun _ => True) (sub ⟨node, .A, zs ++ [z], [], { lk.conf with noFollowCname := true }⟩)
      (sub0 ⟨node, .A, zs ++ [z], [], { lk.conf with noFollowCname := true }⟩))
    (hst : ∀ node z, Starts (sub0 ⟨node, .A, zs ++ [z], [], { lk.conf with noFollowCname := true }⟩) (zs ++ [z]))
    {ns : NextNs} (hn : ∃ s, ns.nsRecord.data = .NS s) :
    Tr (R zs) RespNs (tryServerT env p t sub lk ns) (tryServer env p sub0 lk ns) := by
  unfold tryServerT tryServer
  refine Tr.bind (h.append zs) (resolveAddrs_tr h hz hsub hst hn) fun ns hn => ?_
  rw [hz]
  exact request_tr h hn _ _ _

theorem tryServers_tr (h : Tells t R) (hz : lk.previousZones = zs)
    (hsub : ∀ node z, Tr (R (zs ++ [z])) (fun _ => True) (sub ⟨node, .A, zs ++ [z], [], { lk.conf with noFollowCname := true }⟩)
      (sub0 ⟨node, .A, zs ++ [z], [], { lk.conf with noFollowCname := true }⟩))
    (hst : ∀ node z, Starts (sub0 ⟨node, .A, zs ++ [z], [], { lk.conf with noFollowCname := true }⟩) (zs ++ [z])) :
    ∀ {nss : List NextNs} (e : Option LookupErr), AllNs nss → Tr (R zs) RespNs (tryServersT env p t sub lk nss e) (tryServers env p sub0 lk nss e)
  | [], some _, _ => Tr.throw h _
  | [], none, _ => Tr.panic h _
  | ns :: nss, e, hn => by
    unfold tryServersT tryServers
    refine Tr.bind (h.append zs) (Tr.attempt (tryServer_tr h hz hsub hst (hn ns (by simp)))) fun x hx => ?_
    cases x with
    | inr r => exact Tr.pure (h.nil zs) (hx r rfl)
    | inl e' => exact tryServers_tr h hz hsub hst _ fun ns hm => hn ns (by simp [hm])

theorem query_tr (h : Tells t R) (hz : lk.previousZones = zs)
    (hsub : ∀ node z, Tr (R (zs ++ [z])) (fun _ => True) (sub ⟨node, .A, zs ++ [z], [], { lk.conf with noFollowCname := true }⟩)
      (sub0 ⟨node, .A, zs ++ [z], [], { lk.conf with noFollowCname := true }⟩))
    (hst : ∀ node z, Starts (sub0 ⟨node, .A, zs ++ [z], [], { lk.conf with noFollowCname := true }⟩) (zs ++ [z])) :
    ∀ (fuel : Nat) {nss : List NextNs}, AllNs nss → Tr (R zs) RespNs (queryIterativelyT env p t sub lk fuel nss) (queryIteratively env p sub0 lk fuel nss)
  | 0, _, _ => Tr.lift h fun _ ha => by cases ha
  | fuel + 1, nss, hn => by
    unfold queryIterativelyT queryIteratively
    by_cases h0 : nss.length = 0
    · rw [if_pos h0, if_pos h0]; exact Tr.panic h _
    · rw [if_neg h0, if_neg h0]
      refine Tr.bind (h.append zs) (tryServers_tr h hz hsub hst _ fun ns hm =>
        hn ns (mem_sortNameservers.1 (List.mem_of_mem_take hm))) fun r hr => ?_
      cases r with
      | delegation nss' =>
        exact Tr.bind (h.append zs) (Tr.run (saveNss_logs (h.additive zs) (h.saved zs) _) (Q := fun _ => True) fun _ _ _ => trivial) fun _ _ =>
          query_tr h hz hsub hst fuel hr
      | noDomain s => exact Tr.pure (h.nil zs) trivial
      | answer a b => exact Tr.pure (h.nil zs) trivial
      | «alias» a b => exact Tr.pure (h.nil zs) hr

end

theorem handleCname_logs {E : List Event → Prop} (hE : Additive E) (hs : ∀ node kind rs, E [.saved node kind rs]) (lk : Lookup) (c : Record) :
    Logs E (handleCname env lk c) := by
  unfold handleCname
  refine Logs.bind hE (Logs.lift hE _) fun t => Logs.bind hE (Logs.lift hE _) fun _ => ?_
  by_cases h : lk.conf.noFollowCname = true
  · rw [if_pos h]; exact Logs.throw hE _
  · rw [if_neg h]
    exact Logs.bind hE (save_logs hE hs _) fun _ => Logs.pure hE _

theorem handleCname_ok {lk lk' : Lookup} {c : Record} {w : World} (h : (handleCname env lk c w).1 = .ok lk') :
    lk'.previousZones = lk.previousZones ∧ lk'.conf = lk.conf := by
  unfold handleCname at h
  obtain ⟨_, _, _, h⟩ := bind_ok_inv h
  obtain ⟨_, _, _, h⟩ := bind_ok_inv h
  by_cases hc : lk.conf.noFollowCname = true
  · rw [if_pos hc] at h; cases h
  · rw [if_neg hc] at h
    obtain ⟨_, _, _, h⟩ := bind_ok_inv h
    cases h
    exact ⟨rfl, rfl⟩

theorem start_tr (h : Tells t R) {Q : α → Prop} {nf : Bool} {n : Name} {k : RecordType} {m : TM α} {m0 : M α} (hm : Tr (R zs) Q m m0) :
    Tr (R zs) Q (TM.run (M.emit (.start zs nf n k)) >>= fun _ => TM.push t (.resolutionStart n k) >>= fun _ => m)
      (M.emit (.start zs nf n k) >>= fun _ => m0) ∧ Starts (M.emit (.start zs nf n k) >>= fun _ => m0) zs := by
  refine ⟨?_, fun w hc => ?_⟩
  rotate_left
  · obtain ⟨-, -, -, h4⟩ := hm { w with log := w.log ++ [.start zs nf n k] } []
    obtain ⟨new, es, i1, -⟩ := h4 hc
    refine ⟨nf, n, k, es, ?_⟩
    rw [List.append_cons]
    exact i1
  intro w ls
  have e : ∀ ls, (TM.run (M.emit (.start zs nf n k)) >>= fun _ => TM.push t (.resolutionStart n k) >>= fun _ => m) ⟨w, ls⟩ =
      m ⟨{ w with log := w.log ++ [.start zs nf n k] }, ls ++ if t.silent then [] else [.resolutionStart n k]⟩ := by
    intro ls
    cases hs : t.silent <;> simp [bind, TM.bind, TM.run, M.emit, TM.push, hs]
  rw [e]
  obtain ⟨h1, h2, h3, h4⟩ := hm { w with log := w.log ++ [.start zs nf n k] } (ls ++ if t.silent then [] else [.resolutionStart n k])
  refine ⟨h1, h2, h3, fun hc => ?_⟩
  obtain ⟨new, es, i1, i2, i3⟩ := h4 hc
  refine ⟨(if t.silent then [] else [.resolutionStart n k]) ++ new, [.start zs nf n k] ++ es, ?_, ?_, h.append zs _ _ _ _ (h.start zs nf n k) i3⟩
  · rw [← List.append_assoc]; exact i1
  · rw [i2, List.append_assoc]

theorem loop_tr (h : Tells t R) {sub : Lookup → TM Response} {sub0 : Lookup → M Response} {conf : Params}
    (hsub : ∀ node z, Tr (R (zs ++ [z])) (fun _ => True) (sub ⟨node, .A, zs ++ [z], [], { conf with noFollowCname := true }⟩)
      (sub0 ⟨node, .A, zs ++ [z], [], { conf with noFollowCname := true }⟩))
    (hst : ∀ node z, Starts (sub0 ⟨node, .A, zs ++ [z], [], { conf with noFollowCname := true }⟩) (zs ++ [z])) (fuel : Nat) :
    ∀ (rounds : Nat) (lk : Lookup) (nss : List NextNs), lk.previousZones = zs → lk.conf = conf → AllNs nss →
      Tr (R zs) (fun _ => True) (performLoopT env p t sub fuel rounds lk nss) (performLoop env p sub0 fuel rounds lk nss) ∧
        (rounds ≠ 0 → Starts (performLoop env p sub0 fuel rounds lk nss) zs)
  | 0, _, _, _, _, _ => ⟨Tr.throw h _, fun h0 => absurd rfl h0⟩
  | rounds + 1, lk, nss, hz, hc, hn => by
    unfold performLoopT performLoop
    rw [hz]
    refine (fun x => ⟨x.1, fun _ => x.2⟩ : _ ∧ _ → _ ∧ (_ → _)) (start_tr h ?_)
    refine Tr.bind (h.append zs) (searchRecords_tr h _ _) fun cached _ => ?_
    have follow : ∀ c {nss}, AllNs nss → Tr (R zs) (fun _ => True)
        (TM.run (handleCname env lk c) >>= fun lk => performLoopT env p t sub fuel rounds lk nss)
        (handleCname env lk c >>= fun lk => performLoop env p sub0 fuel rounds lk nss) := by
      intro c nss hn
      refine Tr.bind (h.append zs) (Tr.run (handleCname_logs (h.additive zs) (h.saved zs) lk c)
        (Q := fun lk' => lk'.previousZones = zs ∧ lk'.conf = conf) fun w lk' hl => ?_) fun lk' hl => ?_
      · have := handleCname_ok hl
        rw [this.1, this.2]
        exact ⟨hz, hc⟩
      · exact (loop_tr h hsub hst fuel rounds lk' nss hl.1 hl.2 hn).1
    by_cases h0 : cached.length > 0
    · rw [if_pos h0, if_pos h0]; exact Tr.pure (h.nil zs) trivial
    · rw [if_neg h0, if_neg h0]
      refine Tr.bind (h.append zs) (searchRecords_tr h _ _) fun cn _ => ?_
      cases cn with
      | cons c rest => exact follow c (by intro ns hns; cases hns)
      | nil =>
        refine Tr.bind (h.append zs) (starting_tr h lk hn) fun nss' hn' => ?_
        refine Tr.bind (h.append zs) (query_tr h hz (by rw [hc]; exact hsub) (by rw [hc]; exact hst) fuel hn') fun r hr => ?_
        cases r with
        | delegation nss' => exact Tr.panic h _
        | noDomain s => exact Tr.pure (h.nil zs) trivial
        | answer a b =>
          exact Tr.bind (h.append zs) (Tr.run (save_logs (h.additive zs) (h.saved zs) _) (Q := fun _ => True) fun _ _ _ => trivial) fun _ _ =>
            Tr.pure (h.nil zs) trivial
        | «alias» c nss2 => exact follow c hr

theorem perform_tr (h : Tells t R) : ∀ (fuel : Nat) (lk : Lookup), lk.conf.maxCnameRedir ≠ 0 →
    Tr (R lk.previousZones) (fun _ => True) (performT env p t fuel lk) (perform env p fuel lk) ∧
      Starts (perform env p fuel lk) lk.previousZones
  | 0, _, _ => ⟨Tr.lift h fun _ ha => (by cases ha), fun _ hc => hc.elim⟩
  | fuel + 1, lk, h0 => by
    unfold performT perform
    have hl := loop_tr (env := env) (p := p) h (zs := lk.previousZones) (conf := lk.conf) (sub := performT env p t fuel) (sub0 := perform env p fuel)
      (fun node z => (perform_tr h fuel ⟨node, .A, lk.previousZones ++ [z], [], { lk.conf with noFollowCname := true }⟩ h0).1)
      (fun node z => (perform_tr h fuel ⟨node, .A, lk.previousZones ++ [z], [], { lk.conf with noFollowCname := true }⟩ h0).2)
      fuel lk.conf.maxCnameRedir lk [] rfl rfl (by intro ns hn; cases hn)
    exact ⟨hl.1, hl.2 h0⟩

end

end Ariadne.Resolver
