import Verif.Lemmas.Perform

/-! # What lookups do, unconditionally -/

namespace Ariadne.Resolver

open Spec

/-- Predicates of logs that can be shown piecewise. -/
structure Additive (E : List Event → Prop) : Prop where
  nil : E []
  append : ∀ a b, E a → E b → E (a ++ b)

/-- Whatever the world, what the computation adds to the log satisfies `E`. -/
def Logs (E : List Event → Prop) {α : Type} (m : M α) : Prop := ∀ w, ∃ new, (m w).2.log = w.log ++ new ∧ E new

variable {E : List Event → Prop} {α β : Type} {env : Env} {p : Profile}

theorem Logs.bind (hE : Additive E) {m : M α} {f : α → M β} (h : Logs E m) (hf : ∀ a, Logs E (f a)) : Logs E (m >>= f) := by
  intro w
  obtain ⟨new, e, hn⟩ := h w
  have hb : (m >>= f) w = match m w with
    | (.ok a, w') => f a w'
    | (.err e, w') => (.err e, w')
    | (.panic k, w') => (.panic k, w')
    | (.diverge, w') => (.diverge, w') := rfl
  rw [hb]
  generalize m w = x at e
  obtain ⟨o, w'⟩ := x
  cases o with
  | ok a =>
    obtain ⟨new2, e2, hn2⟩ := hf a w'
    exact ⟨new ++ new2, by rw [← List.append_assoc, ← e]; exact e2, hE.append _ _ hn hn2⟩
  | err _ => exact ⟨new, e, hn⟩
  | panic _ => exact ⟨new, e, hn⟩
  | diverge => exact ⟨new, e, hn⟩

theorem Logs.quiet (hE : Additive E) {m : M α} (h : ∀ w, (m w).2.log = w.log) : Logs E m :=
  fun w => ⟨[], by rw [h w]; simp, hE.nil⟩

theorem Logs.lift (hE : Additive E) (o : Out LookupErr α) : Logs E (M.lift o) := Logs.quiet hE fun _ => rfl

theorem Logs.pure (hE : Additive E) (a : α) : Logs E (Pure.pure a : M α) := Logs.quiet hE fun _ => rfl

theorem Logs.throw (hE : Additive E) (e : LookupErr) : Logs E (M.throw e : M α) := Logs.lift hE _

theorem Logs.panic (hE : Additive E) (k : Panic) : Logs E (M.panic k : M α) := Logs.lift hE _

theorem Logs.attempt {m : M α} (h : Logs E m) : Logs E (M.attempt m) := by
  intro w
  obtain ⟨new, e, hn⟩ := h w
  refine ⟨new, ?_, hn⟩
  unfold M.attempt
  generalize m w = x at e ⊢
  obtain ⟨o, w'⟩ := x
  cases o <;> exact e

theorem Logs.emit {e : Event} (h : E [e]) : Logs E (M.emit e) := fun _ => ⟨[e], rfl, h⟩

theorem Logs.mono {E' : List Event → Prop} {m : M α} (h : Logs E m) (hE : ∀ l, E l → E' l) : Logs E' m := fun w =>
  let ⟨new, e, hn⟩ := h w
  ⟨new, e, hE new hn⟩

theorem M.bind_assoc {γ : Type} (m : M α) (f : α → M β) (g : β → M γ) : (m >>= f) >>= g = m >>= fun a => f a >>= g := by
  funext w
  simp only [bind, M.bind]
  generalize m w = x
  obtain ⟨o, w'⟩ := x
  cases o <;> rfl

/-! ## Parts -/

theorem search_logs (hE : Additive E) (node : Name) (kind : RecordType) : Logs E (searchRecordsInCache env node kind) := by
  unfold searchRecordsInCache
  refine Logs.bind hE (Logs.quiet hE fun _ => rfl) fun b => Logs.bind hE ?_ fun x => ?_
  · unfold getClone
    exact Logs.bind hE (Logs.quiet hE fun _ => rfl) fun _ => Logs.bind hE (Logs.quiet hE fun _ => rfl) fun _ =>
      Logs.quiet hE fun _ => rfl
  · cases x with
    | none => exact Logs.pure hE _
    | some x => exact Logs.lift hE _

theorem save_logs (hE : Additive E) (hs : ∀ node kind rs, E [.saved node kind rs]) (rs : List Record) :
    Logs E (saveRecordsInCache env rs) := by
  unfold saveRecordsInCache
  cases rs with
  | nil => exact Logs.panic hE _
  | cons r0 rs =>
    simp only
    by_cases h : (!((r0 :: rs).all fun r => r.recordType == r0.recordType)) = true
    · rw [if_pos h]; exact Logs.panic hE _
    · rw [if_neg h]
      exact Logs.bind hE (Logs.quiet hE fun _ => rfl) fun _ => Logs.bind hE (Logs.quiet hE fun _ => rfl) fun _ =>
        Logs.bind hE (Logs.quiet hE fun _ => rfl) fun _ => Logs.bind hE (Logs.emit (hs _ _ _)) fun _ => Logs.quiet hE fun _ => rfl

theorem saveAddrs_logs (hE : Additive E) (hs : ∀ node kind rs, E [.saved node kind rs]) : ∀ nss : List NextNs,
    Logs E (saveAddrs env nss)
  | [] => Logs.pure hE _
  | ns :: nss => by
    unfold saveAddrs
    by_cases h : ns.aRecords.length > 0
    · simp only [if_pos h]; exact Logs.bind hE (save_logs hE hs _) fun _ => saveAddrs_logs hE hs nss
    · simp only [if_neg h]; exact saveAddrs_logs hE hs nss

theorem saveNss_logs (hE : Additive E) (hs : ∀ node kind rs, E [.saved node kind rs]) (nss : List NextNs) :
    Logs E (saveNssInCache env nss) := by
  unfold saveNssInCache
  exact Logs.bind hE (saveAddrs_logs hE hs nss) fun _ => save_logs hE hs _

theorem findNs_logs (hE : Additive E) : ∀ ds : List Str, Logs E (findNsRecords env ds)
  | [] => Logs.pure hE _
  | d :: ds => by
    unfold findNsRecords
    refine Logs.bind hE (Logs.lift hE _) fun n => Logs.bind hE (search_logs hE _ _) fun rs => ?_
    by_cases h : rs.length > 0
    · rw [if_pos h]; exact Logs.pure hE _
    · rw [if_neg h]; exact findNs_logs hE ds

theorem findAddrs_logs (hE : Additive E) : ∀ rs : List Record, Logs E (findAddrs env rs)
  | [] => Logs.pure hE _
  | r :: rs => by
    unfold findAddrs
    exact Logs.bind hE (Logs.lift hE _) fun n => Logs.bind hE (search_logs hE _ _) fun as =>
      Logs.bind hE (findAddrs_logs hE rs) fun _ => Logs.pure hE _

theorem starting_logs (hE : Additive E) (lk : Lookup) (nss : List NextNs) : Logs E (startingServers env lk nss) := by
  unfold startingServers
  by_cases h : nss.isEmpty
  · rw [if_pos h]
    refine Logs.bind hE ?_ fun _ => Logs.pure hE _
    unfold searchNssInCache
    exact Logs.bind hE (findNs_logs hE _) fun _ => findAddrs_logs hE _
  · rw [if_neg h]; exact Logs.pure hE _

/-! ## Packets -/

/-- Packets for a request. -/
def Burst (ns : NextNs) (node : Name) (kind : RecordType) (n : Nat) (l : List Event) : Prop :=
  l.length ≤ n ∧ ∀ e ∈ l, PacketTo ns node kind e

theorem addrsOf_head {rs : List Record} {a : Ip4} {as : List Ip4} (h : (addrsOf rs : Out LookupErr (List Ip4)) = .ok (a :: as)) :
    ∃ r, rs.head? = some r ∧ r.data = .A a := by
  cases rs with
  | nil => cases h
  | cons r rs =>
    refine ⟨r, rfl, ?_⟩
    unfold addrsOf Record.aData at h
    cases hd : r.data <;> rw [hd] at h <;> first | (cases h; done) | skip
    simp only [Out.bind_ok] at h
    cases h2 : (addrsOf rs : Out LookupErr (List Ip4)) with
    | ok l => rw [h2] at h; cases h; rfl
    | err _ => rw [h2] at h; cases h
    | panic _ => rw [h2] at h; cases h
    | diverge => rw [h2] at h; cases h

theorem sendUdp_logs {ns : NextNs} {node : Name} {kind : RecordType} {id : UInt16} {q : List UInt8} (hq : QueryFor id node kind q) :
    Logs (Burst ns node kind 1) (sendUdpPacket env ns q) := by
  intro w
  unfold sendUdpPacket NextNs.addrs
  cases h : (addrsOf ns.aRecords : Out LookupErr (List Ip4)) with
  | err _ => exact ⟨[], by simp [M.lift, bind, M.bind], by simp [Burst]⟩
  | panic _ => exact ⟨[], by simp [M.lift, bind, M.bind], by simp [Burst]⟩
  | diverge => exact ⟨[], by simp [M.lift, bind, M.bind], by simp [Burst]⟩
  | ok as =>
    cases as with
    | nil => exact ⟨[], by simp [M.lift, bind, M.bind, M.panic], by simp [Burst]⟩
    | cons a as =>
      obtain ⟨r, h1, h2⟩ := addrsOf_head h
      simp only [M.lift, bind, M.bind, List.head?_cons]
      cases hn : env.net w.log a q with
      | none => exact ⟨[.exchange a q none], rfl, by simp, by simpa using ⟨r, a, id, q, none, h1, h2, rfl, hq⟩⟩
      | some raw => exact ⟨[.exchange a q (some raw)], rfl, by simp, by simpa using ⟨r, a, id, q, some raw, h1, h2, rfl, hq⟩⟩

/-- One packet at most, to the first address. -/
theorem sendQuery_logs (ns : NextNs) (node : Name) (kind : RecordType) :
    Logs (Burst ns node kind 1) (sendQuery env p ns node kind) := by
  intro w
  unfold sendQuery encodeUnwrap
  cases he : (buildDnsRequest (env.ids w.ticks) node kind).encodeToBytes with
  | err _ => exact ⟨[], by simp [randomId, M.lift, bind, M.bind, he], by simp [Burst]⟩
  | panic _ => exact ⟨[], by simp [randomId, M.lift, bind, M.bind, he], by simp [Burst]⟩
  | diverge => exact ⟨[], by simp [randomId, M.lift, bind, M.bind, he], by simp [Burst]⟩
  | ok q =>
    have hq : QueryFor (env.ids w.ticks) node kind q := he
    obtain ⟨new, h1, h2⟩ := sendUdp_logs (env := env) (ns := ns) hq { w with ticks := w.ticks + 1 }
    refine ⟨new, ?_, h2⟩
    simp only [randomId, M.lift, bind, M.bind, he]
    generalize sendUdpPacket env ns q { w with ticks := w.ticks + 1 } = x at h1
    obtain ⟨o, w'⟩ := x
    cases o <;> exact h1

theorem retries_logs (ns : NextNs) (node : Name) (kind : RecordType) : ∀ (n : Nat) (e : Option LookupErr),
    Logs (Burst ns node kind n) (sendQueryWithRetries env p ns node kind n e)
  | 0, some e => fun w => ⟨[], by simp [sendQueryWithRetries, M.throw, M.lift], by simp [Burst]⟩
  | 0, none => fun w => ⟨[], by simp [sendQueryWithRetries, M.panic, M.lift], by simp [Burst]⟩
  | n + 1, e => by
    intro w
    unfold sendQueryWithRetries
    obtain ⟨new, h1, h2, h3⟩ := Logs.attempt (sendQuery_logs (env := env) (p := p) ns node kind) w
    simp only [bind, M.bind]
    generalize M.attempt (sendQuery env p ns node kind) w = x at h1
    obtain ⟨o, w'⟩ := x
    have one : Burst ns node kind (n + 1) new := ⟨by omega, h3⟩
    cases o with
    | ok r =>
      cases r with
      | inr r => exact ⟨new, h1, one⟩
      | inl e' =>
        obtain ⟨new2, h4, h5, h6⟩ := retries_logs ns node kind n (some e') w'
        refine ⟨new ++ new2, by simp only at h1 ⊢; rw [h4, h1, List.append_assoc], by simp; omega, ?_⟩
        intro e he
        rcases List.mem_append.1 he with he | he
        · exact h3 e he
        · exact h6 e he
    | err _ => exact ⟨new, h1, one⟩
    | panic _ => exact ⟨new, h1, one⟩
    | diverge => exact ⟨new, h1, one⟩

theorem request_logs (ns : NextNs) (node : Name) (kind : RecordType) (n : Nat) :
    Logs (Burst ns node kind n) (performRequest env p ns node kind n) := by
  intro w
  unfold performRequest
  obtain ⟨new, h1, h2⟩ := retries_logs (env := env) (p := p) ns node kind n none w
  refine ⟨new, ?_, h2⟩
  simp only [bind, M.bind]
  generalize sendQueryWithRetries env p ns node kind n none w = x at h1
  obtain ⟨o, w'⟩ := x
  cases o <;> exact h1

/-! ## Lookups -/

/-- What makes a predicate hold of the logs of all lookups on behalf of `zs` (and more zones) with the same number of
retries. -/
structure Fits (E : List Event → Prop) (zs : List Name) (n : Nat) : Prop extends Additive E where
  saved : ∀ node kind rs, E [.saved node kind rs]
  start : ∀ z nf node kind, zs <+: z → E [.start z nf node kind]
  request : ∀ z ns node kind l, zs <+: z → Burst ns node kind n l → E (.contact z ns node kind :: l)

theorem tryServer_logs {zs : List Name} {lk : Lookup} (hE : Fits E zs lk.conf.maxUdpRetries) (hz : zs <+: lk.previousZones)
    {sub : Lookup → M Response} (hs : ∀ node zone, Logs E (sub ⟨node, .A, lk.previousZones ++ [zone], [],
      { lk.conf with noFollowCname := true }⟩)) (ns : NextNs) : Logs E (tryServer env p sub lk ns) := by
  unfold tryServer
  refine Logs.bind hE.toAdditive ?_ fun ns' => ?_
  · unfold resolveAddrs
    refine Logs.bind hE.toAdditive (Logs.lift hE.toAdditive _) fun as => ?_
    by_cases h0 : as.isEmpty
    · rw [if_pos h0]
      refine Logs.bind hE.toAdditive (Logs.lift hE.toAdditive _) fun node => Logs.bind hE.toAdditive (Logs.attempt ?_) fun x => ?_
      · unfold resolveNsSubquery
        exact Logs.bind hE.toAdditive (Logs.lift hE.toAdditive _) fun _ => Logs.bind hE.toAdditive (hs _ _) fun _ =>
          Logs.pure hE.toAdditive _
      · cases x with
        | inl e => exact Logs.throw hE.toAdditive _
        | inr r => exact Logs.pure hE.toAdditive _
    · rw [if_neg h0]; exact Logs.pure hE.toAdditive _
  · intro w
    obtain ⟨new, h1, h2⟩ := request_logs (env := env) (p := p) ns' lk.node lk.kind lk.conf.maxUdpRetries
      { w with log := w.log ++ [.contact lk.previousZones ns' lk.node lk.kind] }
    exact ⟨.contact lk.previousZones ns' lk.node lk.kind :: new, by
      simp only [bind, M.bind, M.emit]; rw [h1]; simp, hE.request _ _ _ _ _ hz h2⟩

theorem tryServers_logs {zs : List Name} {lk : Lookup} (hE : Fits E zs lk.conf.maxUdpRetries) (hz : zs <+: lk.previousZones)
    {sub : Lookup → M Response} (hs : ∀ node zone, Logs E (sub ⟨node, .A, lk.previousZones ++ [zone], [],
      { lk.conf with noFollowCname := true }⟩)) : ∀ (nss : List NextNs) (e : Option LookupErr), Logs E (tryServers env p sub lk nss e)
  | [], some _ => Logs.throw hE.toAdditive _
  | [], none => Logs.panic hE.toAdditive _
  | ns :: nss, e => by
    unfold tryServers
    refine Logs.bind hE.toAdditive (Logs.attempt (tryServer_logs hE hz hs ns)) fun x => ?_
    cases x with
    | inr r => exact Logs.pure hE.toAdditive _
    | inl e' => exact tryServers_logs hE hz hs nss _

theorem query_logs {zs : List Name} {lk : Lookup} (hE : Fits E zs lk.conf.maxUdpRetries) (hz : zs <+: lk.previousZones)
    {sub : Lookup → M Response} (hs : ∀ node zone, Logs E (sub ⟨node, .A, lk.previousZones ++ [zone], [],
      { lk.conf with noFollowCname := true }⟩)) : ∀ (fuel : Nat) (nss : List NextNs), Logs E (queryIteratively env p sub lk fuel nss)
  | 0, _ => Logs.lift hE.toAdditive _
  | fuel + 1, nss => by
    unfold queryIteratively
    by_cases h0 : nss.length = 0
    · rw [if_pos h0]; exact Logs.panic hE.toAdditive _
    · rw [if_neg h0]
      refine Logs.bind hE.toAdditive (tryServers_logs hE hz hs _ _) fun r => ?_
      cases r with
      | delegation nss' => exact Logs.bind hE.toAdditive (saveNss_logs hE.toAdditive hE.saved _) fun _ => query_logs hE hz hs fuel nss'
      | noDomain s => exact Logs.pure hE.toAdditive _
      | answer a b => exact Logs.pure hE.toAdditive _
      | «alias» a b => exact Logs.pure hE.toAdditive _

theorem loop_logs {zs : List Name} {conf : Params} {pz : List Name} (hE : Fits E zs conf.maxUdpRetries) (hz : zs <+: pz)
    {sub : Lookup → M Response} (hs : ∀ node zone, Logs E (sub ⟨node, .A, pz ++ [zone], [], { conf with noFollowCname := true }⟩))
    (fuel : Nat) : ∀ (rounds : Nat) (lk : Lookup) (nss : List NextNs), lk.conf = conf → lk.previousZones = pz →
      Logs E (performLoop env p sub fuel rounds lk nss)
  | 0, _, _, _, _ => Logs.throw hE.toAdditive _
  | rounds + 1, lk, nss, hc, hp => by
    unfold performLoop
    refine Logs.bind hE.toAdditive (Logs.emit (hE.start _ _ _ _ (by rw [hp]; exact hz))) fun _ =>
      Logs.bind hE.toAdditive (search_logs hE.toAdditive _ _) fun cached => ?_
    have follow : ∀ c nss, Logs E (do
        let lk ← handleCname env lk c
        performLoop env p sub fuel rounds lk nss) := by
      intro c nss
      unfold handleCname
      rw [M.bind_assoc]
      refine Logs.bind hE.toAdditive (Logs.lift hE.toAdditive _) fun t => ?_
      rw [M.bind_assoc]
      refine Logs.bind hE.toAdditive (Logs.lift hE.toAdditive _) fun _ => ?_
      by_cases h : lk.conf.noFollowCname = true
      · rw [if_pos h]
        exact Logs.quiet hE.toAdditive fun _ => rfl
      · rw [if_neg h, M.bind_assoc]
        refine Logs.bind hE.toAdditive (save_logs hE.toAdditive hE.saved _) fun _ => ?_
        exact loop_logs hE hz hs fuel rounds _ nss hc hp
    by_cases h0 : cached.length > 0
    · rw [if_pos h0]; exact Logs.pure hE.toAdditive _
    · rw [if_neg h0]
      refine Logs.bind hE.toAdditive (search_logs hE.toAdditive _ _) fun cn => ?_
      cases cn with
      | cons c rest => exact follow c []
      | nil =>
        refine Logs.bind hE.toAdditive (starting_logs hE.toAdditive _ _) fun nss' =>
          Logs.bind hE.toAdditive (query_logs (by rw [hc]; exact hE) (by rw [hp]; exact hz) (by rw [hc, hp]; exact hs) fuel nss') fun r => ?_
        cases r with
        | delegation nss' => exact Logs.panic hE.toAdditive _
        | noDomain s => exact Logs.pure hE.toAdditive _
        | answer a b => exact Logs.bind hE.toAdditive (save_logs hE.toAdditive hE.saved _) fun _ => Logs.pure hE.toAdditive _
        | «alias» c nss2 => exact follow c nss2

theorem perform_logs {zs : List Name} {n : Nat} (hE : Fits E zs n) : ∀ (fuel : Nat) (lk : Lookup), zs <+: lk.previousZones →
    lk.conf.maxUdpRetries = n → Logs E (perform env p fuel lk)
  | 0, _, _, _ => Logs.lift hE.toAdditive _
  | fuel + 1, lk, hz, hn => by
    unfold perform
    refine loop_logs (conf := lk.conf) (pz := lk.previousZones) (by rw [hn]; exact hE) hz ?_ fuel _ lk [] rfl rfl
    intro node zone
    exact perform_logs hE fuel _ (hz.trans (List.prefix_append _ _)) hn

end Ariadne.Resolver
