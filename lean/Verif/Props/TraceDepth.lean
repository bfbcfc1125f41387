import Verif.Props.TraceWorld
import Verif.Props.Referrals

/-! # C79: a trace that is nested too deep -/

namespace Ariadne.Props

open Spec Resolver

theorem deep_decodes {k : Nat} (h : k < 256) : acceptResponse .debug 7 ((deepReply k).take 512) = .ok (deepMessage k) := by
  have h1 := deepOk_all k h
  unfold deepOk at h1
  rw [Bool.and_eq_true] at h1
  have h2 := h1.1
  clear h1
  unfold acceptResponse
  generalize Message.decodeFromBytes .debug ((deepReply k).take 512) = o at h2 ⊢
  cases o with
  | ok m =>
    simp only at h2
    rw [eq_of_beq h2]
    simp only
    rw [if_neg (fun h => h rfl)]
  | err e => cases h2
  | panic e => cases h2
  | diverge => cases h2

theorem deep_interpret {k : Nat} (h : k < 256) :
    interpret (deepMessage k) (deepName k) .A ⟨['.']⟩ = .ok (.delegation [⟨deepRecord k, []⟩]) := by
  have h1 := deepOk_all k h
  unfold deepOk at h1
  rw [Bool.and_eq_true] at h1
  have h2 := h1.2
  clear h1
  generalize interpret (deepMessage k) (deepName k) .A ⟨['.']⟩ = o at h2 ⊢
  cases o with
  | ok m =>
    cases m with
    | delegation l => simp only at h2; rw [eq_of_beq h2]
    | noDomain _ => cases h2
    | answer _ _ => cases h2
    | «alias» _ _ => cases h2
  | err e => cases h2
  | panic e => cases h2
  | diverge => cases h2

theorem ofNat_inj {a b : Nat} (ha : a < 26) (hb : b < 26) (h : Char.ofNat (97 + a) = Char.ofNat (97 + b)) : a = b := by
  have e : ∀ n < 26, (Char.ofNat (97 + n)).toNat = 97 + n := by decide
  have := congrArg Char.toNat h
  rw [e a ha, e b hb] at this
  omega

theorem deepZone_inj {i k : Nat} (hi : i < 256) (hk : k < 256) (h : deepZone i = deepZone k) : i = k := by
  unfold deepZone letters at h
  simp only [Name.mk.injEq, List.cons_append, List.nil_append, List.cons.injEq, and_true] at h
  have h1 := ofNat_inj (by omega) (by omega) h.1
  have h2 := ofNat_inj (by omega) (by omega) h.2
  omega

/-- The zones that wait for the `k`-th lookup. -/
def waiting (k : Nat) : List Name := (List.range k).map deepZone

theorem deep_no_loop {k : Nat} (h : k < 256) : detectZonesLoop (deepZone k) (waiting k) = .ok () := by
  unfold detectZonesLoop
  rw [if_neg]
  intro ha
  rw [List.any_eq_true] at ha
  obtain ⟨z, hz, he⟩ := ha
  unfold waiting at hz
  obtain ⟨i, hi, rfl⟩ := List.mem_map.1 hz
  rw [List.mem_range] at hi
  have := deepZone_inj (by omega) h (eq_of_beq he)
  omega

/-! ## Running in it -/

/-- The computation returns this, and starts no lookup. -/
def Quiet {α : Type} (m : M α) (w : World) (o : Out LookupErr α) : Prop :=
  (m w).1 = o ∧ ∃ es, (m w).2.log = w.log ++ es ∧ started es = 0

/-- The computation fails after it has started a lookup on behalf of 256 zones. -/
def Deep {α : Type} (m : M α) (w : World) : Prop :=
  ∃ e, (m w).1 = .err e ∧ ∃ es, (m w).2.log = w.log ++ es ∧ ∃ nf n k, .start (waiting 256) nf n k ∈ es

theorem bind_of_ok {α β : Type} {m : M α} {f : α → M β} {w : World} {a : α} (h : (m w).1 = .ok a) : (m >>= f) w = f a (m w).2 := by
  have e : m w = (.ok a, (m w).2) := Prod.ext h rfl
  show M.bind m f w = _
  unfold M.bind
  rw [e]

theorem bind_of_err {α β : Type} {m : M α} {f : α → M β} {w : World} {e : LookupErr} (h : (m w).1 = .err e) :
    (m >>= f) w = (.err e, (m w).2) := by
  have he : m w = (.err e, (m w).2) := Prod.ext h rfl
  show M.bind m f w = _
  unfold M.bind
  rw [he]

theorem started_append (a b : List Event) : started (a ++ b) = started a + started b := List.countP_append

theorem Quiet.lift {α : Type} {o : Out LookupErr α} {w : World} : Quiet (M.lift o) w o := ⟨rfl, [], (List.append_nil _).symm, rfl⟩

theorem Quiet.pure {α : Type} {a : α} {w : World} : Quiet (Pure.pure a) w (.ok a) := ⟨rfl, [], (List.append_nil _).symm, rfl⟩

theorem Quiet.seq {α β : Type} {m : M α} {f : α → M β} {w : World} {a : α} {o : Out LookupErr β} (h : Quiet m w (.ok a))
    (h' : ∀ w', started w'.log = started w.log → Quiet (f a) w' o) : Quiet (m >>= f) w o := by
  obtain ⟨h1, es, h2, h3⟩ := h
  obtain ⟨h4, fs, h5, h6⟩ := h' (m w).2 (by rw [h2, started_append, h3, Nat.add_zero])
  unfold Quiet
  rw [bind_of_ok h1]
  exact ⟨h4, es ++ fs, by rw [h5, h2, List.append_assoc], by rw [started_append, h3, h6]⟩

theorem Quiet.bind_err {α β : Type} {m : M α} {f : α → M β} {w : World} {e : LookupErr} (h : Quiet m w (.err e)) :
    Quiet (m >>= f) w (.err e) := by
  obtain ⟨h1, es, h2, h3⟩ := h
  unfold Quiet
  rw [bind_of_err h1]
  exact ⟨rfl, es, h2, h3⟩

theorem Quiet.attempt_err {α : Type} {m : M α} {w : World} {e : LookupErr} (h : Quiet m w (.err e)) :
    Quiet (M.attempt m) w (.ok (.inl e)) := by
  obtain ⟨h1, h2⟩ := h
  have he : m w = (.err e, (m w).2) := Prod.ext h1 rfl
  unfold Quiet M.attempt
  rw [he]
  exact ⟨rfl, h2⟩

theorem Quiet.attempt_ok {α : Type} {m : M α} {w : World} {a : α} (h : Quiet m w (.ok a)) :
    Quiet (M.attempt m) w (.ok (.inr a)) := by
  obtain ⟨h1, h2⟩ := h
  have he : m w = (.ok a, (m w).2) := Prod.ext h1 rfl
  unfold Quiet M.attempt
  rw [he]
  exact ⟨rfl, h2⟩

theorem Quiet.emit {e : Event} {w : World} (h : isStart e = false) : Quiet (M.emit e) w (.ok ()) :=
  ⟨rfl, [e], rfl, by unfold started; rw [List.countP_singleton, if_neg (by rw [h]; simp)]⟩

theorem Deep.bind {α β : Type} {m : M α} {f : α → M β} {w : World} (h : Deep m w) : Deep (m >>= f) w := by
  obtain ⟨e, h1, h2⟩ := h
  unfold Deep
  rw [bind_of_err h1]
  exact ⟨e, rfl, h2⟩

theorem Deep.after {α β : Type} {m : M α} {f : α → M β} {w : World} {a : α} (h : Quiet m w (.ok a))
    (h' : ∀ w', started w'.log = started w.log → Deep (f a) w') : Deep (m >>= f) w := by
  obtain ⟨h1, es, h2, h3⟩ := h
  obtain ⟨e, h4, fs, h5, nf, n, k, h6⟩ := h' (m w).2 (by rw [h2, started_append, h3, Nat.add_zero])
  unfold Deep
  rw [bind_of_ok h1]
  exact ⟨e, h4, es ++ fs, by rw [h5, h2, List.append_assoc], nf, n, k, List.mem_append.2 (.inr h6)⟩

theorem Deep.attempt {α β : Type} {m : M α} {f : LookupErr ⊕ α → M β} {w : World} (h : Deep m w)
    (h' : ∀ e w', ∃ e', Quiet (f (.inl e)) w' (.err e')) : Deep (M.attempt m >>= f) w := by
  obtain ⟨e, h1, es, h2, nf, n, k, h3⟩ := h
  have he : m w = (.err e, (m w).2) := Prod.ext h1 rfl
  have ha : M.attempt m w = (.ok (.inl e), (m w).2) := by
    unfold M.attempt
    rw [he]
  obtain ⟨e', h4, fs, h5, -⟩ := h' e (m w).2
  unfold Deep
  rw [bind_of_ok (by rw [ha]), ha]
  exact ⟨e', h4, es ++ fs, by rw [h5, h2, List.append_assoc], nf, n, k, List.mem_append.2 (.inl h3)⟩

theorem Deep.start {α : Type} {f : Unit → M α} {w : World} {zs : List Name} {nf : Bool} {n : Name} {k : RecordType}
    (h : ∀ w', started w'.log = started w.log + 1 → Deep (f ()) w') : Deep (M.emit (.start zs nf n k) >>= f) w := by
  obtain ⟨e, h1, es, h2, nf', n', k', h3⟩ := h { w with log := w.log ++ [.start zs nf n k] } (by
    show started (w.log ++ [.start zs nf n k]) = _
    rw [started_append]
    rfl)
  unfold Deep
  rw [bind_of_ok (a := ()) rfl]
  exact ⟨e, h1, .start zs nf n k :: es, h2.trans (by simp), nf', n', k', by simp [h3]⟩

theorem Deep.here {α : Type} {f : Unit → M α} {w : World} {nf : Bool} {n : Name} {k : RecordType} {e : LookupErr}
    (h : ∀ w', started w'.log = started w.log + 1 → Quiet (f ()) w' (.err e)) : Deep (M.emit (.start (waiting 256) nf n k) >>= f) w := by
  obtain ⟨h1, es, h2, -⟩ := h { w with log := w.log ++ [.start (waiting 256) nf n k] } (by
    show started (w.log ++ [.start (waiting 256) nf n k]) = _
    rw [started_append]
    rfl)
  unfold Deep
  rw [bind_of_ok (a := ()) rfl]
  exact ⟨e, h1, .start (waiting 256) nf n k :: es, h2.trans (by simp), nf, n, k, by simp⟩

theorem quiet_search {node : Name} {kind : RecordType} {w : World} : Quiet (searchRecordsInCache deepEnv node kind) w (.ok []) := by
  unfold Quiet
  rw [searchRecords_eq]
  exact ⟨rfl, [], (List.append_nil _).symm, rfl⟩

theorem quiet_findNs : ∀ {ds : List Str} {w : World}, (ds.all fun d => match nameUnwrap d with | .ok _ => true | _ => false) = true →
    Quiet (findNsRecords deepEnv ds) w (.ok [])
  | [], w, _ => Quiet.pure
  | d :: ds, w, h => by
    rw [List.all_cons, Bool.and_eq_true] at h
    obtain ⟨h1, h2⟩ := h
    rw [findNsRecords]
    cases hn : nameUnwrap d with
    | err e => rw [hn] at h1; cases h1
    | panic e => rw [hn] at h1; cases h1
    | diverge => rw [hn] at h1; cases h1
    | ok n => exact Quiet.seq Quiet.lift fun w1 _ => Quiet.seq quiet_search fun w2 _ => quiet_findNs h2

theorem quiet_starting {lk : Lookup} {k : Nat} (hk : k < 257) (hn : lk.node = deepName k) {w : World} :
    Quiet (startingServers deepEnv lk []) w (.ok rootZoneNameservers) := by
  unfold startingServers searchNssInCache
  simp only [List.isEmpty_nil, if_true]
  rw [M.bind_assoc]
  exact Quiet.seq (quiet_findNs (by rw [hn]; exact deepParsed_all k hk)) fun w1 _ => Quiet.pure

/-- The first of the root servers. -/
def rootA : NextNs :=
  ⟨⟨⟨['.']⟩, .IN, 100000, 0, .NS ⟨"a.root-servers.net.".toList⟩⟩, [⟨⟨"a.root-servers.net.".toList⟩, .IN, 10000, 0, .A ⟨198, 41, 0, 4⟩⟩]⟩

theorem root_first : (sortNameservers rootZoneNameservers).take 1 = [rootA] := by decide +kernel

theorem quiet_udp {q : List UInt8} {w : World} : Quiet (sendUdpPacket deepEnv rootA q) w
    (if started w.log ≤ 256 then .ok ((deepReply (started w.log - 1)).take 512) else .err .io) := by
  unfold sendUdpPacket
  refine Quiet.seq (a := [⟨198, 41, 0, 4⟩]) (show Quiet (M.lift (.ok _)) _ _ from Quiet.lift) fun w1 h1 => ?_
  rw [← h1]
  by_cases hs : started w1.log ≤ 256
  · have hn : deepEnv.net w1.log ⟨198, 41, 0, 4⟩ q = some (deepReply (started w1.log - 1)) := by
      unfold deepEnv
      simp only [if_pos hs]
    simp only [List.head?_cons, Quiet, hn, if_pos hs]
    exact ⟨rfl, _, rfl, rfl⟩
  · have hn : deepEnv.net w1.log ⟨198, 41, 0, 4⟩ q = none := by
      unfold deepEnv
      simp only [if_neg hs]
    simp only [List.head?_cons, Quiet, hn, if_neg hs]
    exact ⟨trivial, _, rfl, rfl⟩

theorem quiet_query {node : Name} {w : World} : Quiet (sendQuery deepEnv .debug rootA node .A) w
    (if started w.log ≤ 256 then acceptResponse .debug 7 ((deepReply (started w.log - 1)).take 512) else .err .io) := by
  obtain ⟨q, h1, h2⟩ := request_encodes 7 (node := node) (kind := .A) rfl
  unfold sendQuery
  refine Quiet.seq (a := 7) ⟨rfl, [], (List.append_nil _).symm, rfl⟩ fun w1 e1 => ?_
  rw [h1]
  refine Quiet.seq Quiet.lift fun w2 e2 => ?_
  have hq := quiet_udp (q := q) (w := w2)
  rw [← e1, ← e2]
  by_cases hs : started w2.log ≤ 256
  · rw [if_pos hs] at hq ⊢
    exact Quiet.seq hq fun w3 _ => Quiet.lift
  · rw [if_neg hs] at hq ⊢
    exact Quiet.bind_err hq

theorem retries_one {ns : NextNs} {node : Name} : sendQueryWithRetries deepEnv .debug ns node .A 1 none =
    M.attempt (sendQuery deepEnv .debug ns node .A) >>= fun r => match r with
      | .inr resp => pure resp
      | .inl e => M.throw e := rfl

/-- The first root server answers the `k`-th lookup. -/
theorem quiet_root {sub : Lookup → M Response} {lk : Lookup} {b : Bool} {k : Nat} (hc : lk.conf = ⟨1, 1, 1, b⟩) (hk : lk.kind = .A)
    (hn : lk.node = deepName k) (hlt : k < 256) {w : World} (hs : started w.log = k + 1) :
    Quiet (tryServer deepEnv .debug sub lk rootA) w (.ok (.delegation [⟨deepRecord k, []⟩])) := by
  unfold tryServer
  refine Quiet.seq (a := rootA) (Quiet.seq (a := [⟨198, 41, 0, 4⟩]) Quiet.lift fun w1 _ => Quiet.pure) fun w1 e1 => ?_
  refine Quiet.seq (Quiet.emit rfl) fun w2 e2 => ?_
  unfold performRequest
  rw [hc, hk, hn]
  have hq := quiet_query (node := deepName k) (w := w2)
  rw [e2, e1, hs, if_pos (by omega), Nat.add_sub_cancel, deep_decodes hlt] at hq
  rw [show (⟨1, 1, 1, b⟩ : Params).maxUdpRetries = 1 from rfl, retries_one]
  refine Quiet.seq (a := deepMessage k) ?_ fun w3 _ => ?_
  · exact Quiet.seq hq.attempt_ok fun w3 _ => Quiet.pure
  · rw [show rootA.zone = ⟨['.']⟩ from rfl, deep_interpret hlt]
    exact Quiet.lift

/-- And not the 257-th. -/
theorem quiet_end {sub : Lookup → M Response} {lk : Lookup} {b : Bool} (hc : lk.conf = ⟨1, 1, 1, b⟩) (hk : lk.kind = .A)
    {w : World} (hs : started w.log = 257) : Quiet (tryServer deepEnv .debug sub lk rootA) w (.err .io) := by
  unfold tryServer
  refine Quiet.seq (a := rootA) (Quiet.seq (a := [⟨198, 41, 0, 4⟩]) Quiet.lift fun w1 _ => Quiet.pure) fun w1 e1 => ?_
  refine Quiet.seq (Quiet.emit rfl) fun w2 e2 => ?_
  unfold performRequest
  rw [hc, hk]
  have hq := quiet_query (node := lk.node) (w := w2)
  rw [e2, e1, hs, if_neg (by omega)] at hq
  rw [show (⟨1, 1, 1, b⟩ : Params).maxUdpRetries = 1 from rfl, retries_one]
  refine Quiet.bind_err ?_
  exact Quiet.seq hq.attempt_err fun w3 _ => Quiet.lift

theorem quiet_save {k : Nat} {w : World} : Quiet (saveNssInCache deepEnv [⟨deepRecord k, []⟩]) w (.ok ()) := by
  unfold saveNssInCache
  refine Quiet.seq (a := ()) ⟨rfl, [], (List.append_nil _).symm, rfl⟩ fun w1 _ => ?_
  unfold Quiet
  rw [show ([⟨deepRecord k, []⟩] : List NextNs).map NextNs.nsRecord = [deepRecord k] from rfl,
    saveRecords_eq (r0 := deepRecord k) (rs := []) (by simp)]
  exact ⟨rfl, _, rfl, rfl⟩

theorem waiting_succ (k : Nat) : waiting k ++ [deepZone k] = waiting (k + 1) := by
  unfold waiting
  rw [List.range_succ, List.map_append]
  rfl

/-- The server of zone `k` has no address: the next lookup. -/
theorem deep_server {sub : Lookup → M Response} {lk : Lookup} {b : Bool} {k : Nat} (hc : lk.conf = ⟨1, 1, 1, b⟩)
    (hz : lk.previousZones = waiting k) (hlt : k < 256) {w : World}
    (hsub : ∀ w', started w'.log = started w.log → Deep (sub ⟨deepName (k + 1), .A, waiting (k + 1), [], ⟨1, 1, 1, true⟩⟩) w') :
    Deep (tryServer deepEnv .debug sub lk ⟨deepRecord k, []⟩) w := by
  unfold tryServer
  refine Deep.bind ?_
  unfold resolveAddrs
  refine Deep.after (a := []) Quiet.lift fun w1 e1 => ?_
  simp only [List.isEmpty_nil, if_true]
  refine Deep.after (a := deepName (k + 1)) Quiet.lift fun w2 e2 => ?_
  refine Deep.attempt ?_ fun e w' => ⟨.subLookupErr e, Quiet.lift⟩
  unfold resolveNsSubquery
  refine Deep.after (a := ()) ?_ fun w3 e3 => ?_
  · rw [show (⟨deepRecord k, []⟩ : NextNs).zone = deepZone k from rfl, hz, deep_no_loop hlt]
    exact Quiet.lift
  · refine Deep.bind ?_
    rw [hz, hc, show (⟨deepRecord k, []⟩ : NextNs).zone = deepZone k from rfl, waiting_succ]
    exact hsub w3 (by rw [e3, e2, e1])

theorem tryServers_one {sub : Lookup → M Response} {lk : Lookup} {ns : NextNs} : tryServers deepEnv .debug sub lk [ns] none =
    M.attempt (tryServer deepEnv .debug sub lk ns) >>= fun r => match r with
      | .inr r => pure r
      | .inl e => M.throw e := rfl

/-- The `k`-th lookup, if the next one fails after 256 zones. -/
theorem deep_round {fuel : Nat} {k : Nat} {b : Bool} (hlt : k < 256) {w : World} (hs : started w.log = k)
    (hsub : ∀ w', started w'.log = k + 1 →
      Deep (perform deepEnv .debug (fuel + 2) ⟨deepName (k + 1), .A, waiting (k + 1), [], ⟨1, 1, 1, true⟩⟩) w') :
    Deep (perform deepEnv .debug (fuel + 3) ⟨deepName k, .A, waiting k, [], ⟨1, 1, 1, b⟩⟩) w := by
  rw [perform]
  simp only
  rw [performLoop]
  refine Deep.start fun w1 e1 => ?_
  refine Deep.after quiet_search fun w2 e2 => ?_
  rw [if_neg (by simp)]
  refine Deep.after quiet_search fun w3 e3 => ?_
  simp only
  refine Deep.after (quiet_starting (k := k) (by omega) rfl) fun w4 e4 => ?_
  refine Deep.bind ?_
  rw [queryIteratively, if_neg (by decide)]
  simp only
  rw [root_first, tryServers_one, M.bind_assoc]
  have h1 : started w4.log = k + 1 := by rw [e4, e3, e2, e1, hs]
  refine Deep.after (quiet_root (b := b) rfl rfl rfl hlt h1).attempt_ok fun w5 e5 => ?_
  refine Deep.after Quiet.pure fun w6 e6 => ?_
  refine Deep.after quiet_save fun w7 e7 => ?_
  rw [queryIteratively, if_neg (by simp)]
  simp only
  rw [show (sortNameservers [⟨deepRecord k, []⟩]).take 1 = [⟨deepRecord k, []⟩] from rfl, tryServers_one, M.bind_assoc]
  refine Deep.attempt ?_ fun e w' => ⟨e, Quiet.bind_err Quiet.lift⟩
  exact deep_server (b := b) rfl rfl hlt fun w' e' => hsub w' (by rw [e', e7, e6, e5, h1])

/-- The last one. -/
theorem deep_last {fuel : Nat} {b : Bool} {w : World} (hs : started w.log = 256) :
    Deep (perform deepEnv .debug (fuel + 2) ⟨deepName 256, .A, waiting 256, [], ⟨1, 1, 1, b⟩⟩) w := by
  rw [perform]
  simp only
  rw [performLoop]
  refine Deep.here (e := .io) fun w1 e1 => ?_
  refine Quiet.seq quiet_search fun w2 e2 => ?_
  rw [if_neg (by simp)]
  refine Quiet.seq quiet_search fun w3 e3 => ?_
  simp only
  refine Quiet.seq (quiet_starting (k := 256) (by omega) rfl) fun w4 e4 => ?_
  refine Quiet.bind_err ?_
  rw [queryIteratively, if_neg (by decide)]
  simp only
  rw [root_first, tryServers_one, M.bind_assoc]
  have h1 : started w4.log = 257 := by rw [e4, e3, e2, e1, hs]
  exact Quiet.seq (quiet_end (b := b) rfl rfl h1).attempt_err fun w5 _ => Quiet.bind_err Quiet.lift

theorem deep_all : ∀ (j k : Nat) (b : Bool) (w : World), k + j = 256 → started w.log = k →
    Deep (perform deepEnv .debug (j + 2) ⟨deepName k, .A, waiting k, [], ⟨1, 1, 1, b⟩⟩) w
  | 0, k, b, w, hk, hs => by
    have : k = 256 := by omega
    subst this
    exact deep_last hs
  | j + 1, k, b, w, hk, hs => deep_round (fuel := j) (by omega) hs fun w' hs' => deep_all j (k + 1) true w' (by omega) hs'

/-! ## The trace -/

theorem tells_deep (t : TraceParams) : Tells t fun zs new es => ∀ zs' nf n k, .start zs' nf n k ∈ es → zs'.length ≤ zs.length + depth new where
  nil zs zs' nf n k h := by cases h
  append zs a b c d h1 h2 zs' nf n k h := by
    rw [depth_append]
    rcases List.mem_append.1 h with h | h
    · have := h1 _ _ _ _ h; omega
    · have := h2 _ _ _ _ h; omega
  saved zs n k rs zs' nf n' k' h := by simp at h
  start zs nf n k zs' nf' n' k' h := by
    rw [List.mem_singleton] at h
    cases h
    omega
  note _ zs l hl zs' nf' n' k' h := by cases h
  sub zs z nf n k new es h hm zs' nf' n' k' h' := by
    have e : depth [.subResolution new] = depth new + 1 := by rw [depth, lineDepth, depth]; omega
    rw [e]
    have := h _ _ _ _ h'
    rw [List.length_append, List.length_singleton] at this
    omega
  request zs ns n k server es out _ he ho zs' nf' n' k' h := by
    exfalso
    rcases List.mem_cons.1 h with h | h
    · cases h
    · obtain ⟨_, _, _, h'⟩ := he _ h
      cases h'

theorem trace_deep (t : TraceParams) {env : Env} {p : Profile} {conf : Params} {fuel : Nat} {node : Name} {w : World}
    (h0 : conf.maxCnameRedir ≠ 0) (hl : w.log = []) (hd : Deep (perform env p fuel ⟨node, .A, [], [], conf⟩) w) :
    ∃ e lines w', tracedLookup env p t conf fuel node .A w = (.err e, lines, w') ∧ 256 ≤ depth lines := by
  obtain ⟨e, h1, es, h2, nf, n, k, h3⟩ := hd
  have h := (perform_tr (env := env) (p := p) (tells_deep t) fuel ⟨node, .A, [], [], conf⟩ h0).1 w []
  obtain ⟨new, es', h4, h5, h6⟩ := h.2.2.2 (by rw [h1]; trivial)
  rw [h2] at h4
  rw [List.append_cancel_left h4] at h3
  rw [List.nil_append] at h5
  refine ⟨e, new, _, Prod.ext (by rw [← h1, ← h.1]; rfl) (Prod.ext h5 rfl), ?_⟩
  have := h6 _ _ _ _ h3
  simpa [waiting] using this

/-- The trace of the lookup of `n.aa.` is 256 deep. -/
theorem deep_trace (t : TraceParams) : ∃ e lines w', tracedLookup deepEnv .debug t ⟨1, 1, 1, false⟩ (256 + 2) (deepName 0) .A ⟨.empty, 0, []⟩ =
    (.err e, lines, w') ∧ 256 ≤ depth lines := by
  have h := deep_all 256 0 false ⟨.empty, 0, []⟩ (by omega) rfl
  rw [show waiting 0 = [] from rfl] at h
  exact trace_deep t (by decide) rfl h

/-- A query for the address of `n.aa.`. -/
def deepQuery : Message := ⟨⟨1, false, .STD, false, false, true, false, 0, .NoError, 1, 0, 0, 0⟩, [⟨deepName 0, .A, .IN⟩], [], [], []⟩

theorem handleTraced_cases {env : Env} {p : Profile} {t : TraceParams} {info : Bool} {conf : Params} {fuel : Nat} {req : Message} {q : Question}
    {qs : List Question} {w : World} (hv : validate req = true) (hq : req.questions = q :: qs) :
    handleTraced env p t info conf fuel (.fullMessage req) w =
      match tracedLookup env p t conf fuel q.node q.recordType w with
      | (.panic k, _, w') => (.panic k, w')
      | (.diverge, _, w') => (.diverge, w')
      | (.ok r, lines, w') => (do
          let _ ← logTrace p info lines
          .ok (some (resultReply req (.inr r))), w')
      | (.err e, lines, w') => (do
          let _ ← logTrace p info lines
          .ok (some (resultReply req (.inl e))), w') := by
  have hv' : ¬ (!validate req) = true := by rw [hv]; simp
  unfold handleTraced
  simp only
  rw [if_neg hv']
  simp only [hq]
  generalize tracedLookup env p t conf fuel q.node q.recordType w = x
  obtain ⟨o, lines, w'⟩ := x
  cases o <;> rfl

theorem handleTraced_query {env : Env} {p : Profile} {t : TraceParams} {info : Bool} {conf : Params} {fuel : Nat} {req : Message} {q : Question}
    {qs : List Question} {w w' : World} {e : LookupErr} {lines : List TraceLine} (hv : validate req = true) (hq : req.questions = q :: qs)
    (ht : tracedLookup env p t conf fuel q.node q.recordType w = (.err e, lines, w')) :
    handleTraced env p t info conf fuel (.fullMessage req) w = (logTrace p info lines >>= fun _ => .ok (some (resultReply req (.inl e))), w') := by
  rw [handleTraced_cases hv hq, ht]

theorem deep_friendly : Friendly deepEnv := ⟨(fun i c _ k e r hf => by cases hf), (fun i c _ k e r hf => by cases hf)⟩

/-- C79 does not hold: in a debug build, whatever is traced, a client gets no reply if 256 lookups are nested, although there
would be one (code SERVFAIL) if the trace were not logged. -/
theorem C79_violated : ¬ C79_statement ∧ ∀ t : TraceParams, ∃ w' w'' e,
    handleTraced deepEnv .debug t true ⟨1, 1, 1, false⟩ (256 + 2) (.fullMessage deepQuery) ⟨.empty, 0, []⟩ = (.panic .overflow, w') ∧
    handle deepEnv .debug ⟨1, 1, 1, false⟩ (256 + 2) (.fullMessage deepQuery) ⟨.empty, 0, []⟩ = (.ok (some (resultReply deepQuery (.inl e))), w'') := by
  have key : ∀ t : TraceParams, ∃ w' w'' e,
      handleTraced deepEnv .debug t true ⟨1, 1, 1, false⟩ (256 + 2) (.fullMessage deepQuery) ⟨.empty, 0, []⟩ = (.panic .overflow, w') ∧
      handle deepEnv .debug ⟨1, 1, 1, false⟩ (256 + 2) (.fullMessage deepQuery) ⟨.empty, 0, []⟩ = (.ok (some (resultReply deepQuery (.inl e))), w'') := by
    intro t
    obtain ⟨e, lines, w', h1, h2⟩ := deep_trace t
    refine ⟨w', w', e, ?_, ?_⟩
    · rw [handleTraced_query (q := ⟨deepName 0, .A, .IN⟩) (qs := []) (by decide) rfl h1]
      have hd : (logTrace (ε := LookupErr) .debug true lines) = .panic .overflow := by
        unfold logTrace
        cases lines with
        | nil => rw [depth] at h2; omega
        | cons l ls =>
          rw [if_pos (by rfl : (true && !(l :: ls).isEmpty) = true)]
          exact (C79_display _).2.1 h2
      rw [hd, Out.bind_panic]
    · rw [← C79_logging_partial deepEnv .debug t false ⟨1, 1, 1, false⟩ (256 + 2) (.fullMessage deepQuery) ⟨.empty, 0, []⟩ (.inr (.inl rfl)),
        handleTraced_query (q := ⟨deepName 0, .A, .IN⟩) (qs := []) (by decide) rfl h1]
      rfl
  refine ⟨fun h => ?_, key⟩
  obtain ⟨w', w'', e, h1, h2⟩ := key ⟨false, false, false⟩
  have hup : Up deepEnv ⟨1, 1, 1, false⟩ ⟨.empty, 0, []⟩ :=
    ⟨deep_friendly, (by intro k e r hf; cases hf), rfl, (by decide), (by decide)⟩
  have := h deepEnv .debug ⟨false, false, false⟩ true ⟨1, 1, 1, false⟩ (256 + 2) (.fullMessage deepQuery) ⟨.empty, 0, []⟩ hup
  rw [h1, h2] at this
  cases this

end Ariadne.Props
