import Verif.Lemmas.Delegation
import Verif.Spec.Repeat

/-! # Lookups leave their answers in the cache -/

namespace Ariadne.Resolver

open Spec

variable {env : Env} {p : Profile} {α β : Type}

/-- The computation does not turn back time, and its results satisfy `Q`. -/
def Later (m : M α) (Q : α → Prop) : Prop := ∀ w, w.ticks ≤ (m w).2.ticks ∧ ∀ a, (m w).1 = .ok a → Q a

namespace Later

theorem bind {m : M α} {f : α → M β} {Q : α → Prop} {Q' : β → Prop} (h : Later m Q) (hf : ∀ a, Q a → Later (f a) Q') :
    Later (m >>= f) Q' := by
  intro w
  have hb : (m >>= f) w = match m w with
    | (.ok a, w') => f a w'
    | (.err e, w') => (.err e, w')
    | (.panic k, w') => (.panic k, w')
    | (.diverge, w') => (.diverge, w') := rfl
  obtain ⟨h1, h2⟩ := h w
  rw [hb]
  cases hx : m w with
  | mk o w' =>
  rw [hx] at h1 h2
  cases o with
  | ok a =>
    obtain ⟨h3, h4⟩ := hf a (h2 a rfl) w'
    exact ⟨Nat.le_trans h1 h3, h4⟩
  | err e => exact ⟨h1, fun a ha => by cases ha⟩
  | panic k => exact ⟨h1, fun a ha => by cases ha⟩
  | diverge => exact ⟨h1, fun a ha => by cases ha⟩

theorem mono {m : M α} {Q Q' : α → Prop} (h : Later m Q) (hq : ∀ a, Q a → Q' a) : Later m Q' :=
  fun w => ⟨(h w).1, fun a ha => hq a ((h w).2 a ha)⟩

theorem pure {Q : α → Prop} {a : α} (h : Q a) : Later (Pure.pure a : M α) Q :=
  fun w => ⟨Nat.le_refl _, fun a' ha => by cases ha; exact h⟩

theorem lift {Q : α → Prop} {o : Out LookupErr α} (h : ∀ a, o = .ok a → Q a) : Later (M.lift o) Q :=
  fun w => ⟨Nat.le_refl _, fun a ha => h a ha⟩

theorem throw {Q : α → Prop} {e : LookupErr} : Later (M.throw e : M α) Q := lift (fun a h => by cases h)

theorem panic {Q : α → Prop} {k : Panic} : Later (M.panic k : M α) Q := lift (fun a h => by cases h)

theorem attempt {m : M α} {Q : α → Prop} (h : Later m Q) : Later (M.attempt m) (fun x => ∀ a, x = .inr a → Q a) := by
  intro w
  have hb : M.attempt m w = match m w with
    | (.ok a, w') => (.ok (.inr a), w')
    | (.err e, w') => (.ok (.inl e), w')
    | (.panic k, w') => (.panic k, w')
    | (.diverge, w') => (.diverge, w') := rfl
  obtain ⟨h1, h2⟩ := h w
  rw [hb]
  cases hx : m w with
  | mk o w' =>
  rw [hx] at h1 h2
  cases o with
  | ok a => exact ⟨h1, fun x hx => by cases hx; rintro a' h'; cases h'; exact h2 _ rfl⟩
  | err e => exact ⟨h1, fun x hx => by cases hx; rintro a' h'; cases h'⟩
  | panic k => exact ⟨h1, fun a ha => by cases ha⟩
  | diverge => exact ⟨h1, fun a ha => by cases ha⟩

theorem emit {e : Event} : Later (M.emit e) (fun _ => True) := fun _ => ⟨Nat.le_refl _, fun _ _ => trivial⟩

theorem now : Later (now env) (fun _ => True) := fun _ => ⟨Nat.le_succ _, fun _ _ => trivial⟩

theorem randomId : Later (randomId env) (fun _ => True) := fun _ => ⟨Nat.le_succ _, fun _ _ => trivial⟩

theorem lockCache : Later (lockCache env) (fun _ => True) := fun _ => ⟨Nat.le_succ _, fun _ _ => trivial⟩

theorem any {m : M α} {Q : α → Prop} (h : Later m Q) : Later m (fun _ => True) := h.mono fun _ _ => trivial

end Later

theorem search_later (node : Name) (kind : RecordType) : Later (searchRecordsInCache env node kind) (fun _ => True) := by
  intro w
  rw [searchRecords_eq]
  exact ⟨Nat.le_add_right _ _, fun _ _ => trivial⟩

theorem save_later (l : List Record) : Later (saveRecordsInCache env l) (fun _ => True) := by
  cases l with
  | nil => exact Later.panic
  | cons r rs =>
    unfold saveRecordsInCache
    simp only
    split
    · exact Later.panic
    · exact Later.lockCache.bind fun _ _ => Later.now.bind fun _ _ => Later.now.bind fun _ _ => Later.emit.bind fun _ _ =>
        fun w => ⟨Nat.le_refl _, fun _ _ => trivial⟩

theorem saveAddrs_later : ∀ (nss : List NextNs), Later (saveAddrs env nss) (fun _ => True)
  | [] => Later.pure trivial
  | ns :: nss => by
    unfold saveAddrs
    show Later (if ns.aRecords.length > 0 then (saveRecordsInCache env ns.aRecords >>= fun _ => saveAddrs env nss) else saveAddrs env nss) _
    by_cases h0 : ns.aRecords.length > 0
    · rw [if_pos h0]
      exact (save_later _).bind fun _ _ => saveAddrs_later nss
    · rw [if_neg h0]
      exact saveAddrs_later nss

theorem saveNss_later (nss : List NextNs) : Later (saveNssInCache env nss) (fun _ => True) := by
  unfold saveNssInCache
  exact (saveAddrs_later nss).bind fun _ _ => save_later _

theorem findNs_later : ∀ (ds : List Str), Later (findNsRecords env ds) (fun _ => True)
  | [] => Later.pure trivial
  | d :: ds => by
    unfold findNsRecords
    refine (Later.lift (Q := fun _ => True) fun _ _ => trivial).bind fun n _ => (search_later n .NS).bind fun rs _ => ?_
    by_cases h0 : rs.length > 0
    · simp only [if_pos h0]; exact Later.pure trivial
    · simp only [if_neg h0]; exact findNs_later ds

theorem findAddrs_later : ∀ (rs : List Record), Later (findAddrs env rs) (fun _ => True)
  | [] => Later.pure trivial
  | r :: rs => by
    unfold findAddrs
    exact (Later.lift (Q := fun _ => True) fun _ _ => trivial).bind fun n _ => (search_later n .A).bind fun _ _ =>
      (findAddrs_later rs).bind fun _ _ => Later.pure trivial

theorem starting_later (lk : Lookup) (nss : List NextNs) : Later (startingServers env lk nss) (fun _ => True) := by
  unfold startingServers
  by_cases h : nss.isEmpty = true
  · rw [if_pos h]
    unfold searchNssInCache
    exact ((findNs_later _).bind fun rs _ => findAddrs_later rs).bind fun _ _ => Later.pure trivial
  · rw [if_neg h]
    exact Later.pure trivial

theorem handleCname_later (lk : Lookup) (c : Record) : Later (handleCname env lk c)
    (fun lk' => c.data = .CNAME lk'.node ∧ lk'.kind = lk.kind ∧ lk'.previousCnames = lk.previousCnames ++ [c]) := by
  unfold handleCname
  refine (Later.lift (Q := fun t => c.data = .CNAME t) fun t h => ?_).bind fun t ht =>
    (Later.lift (Q := fun _ => True) fun _ _ => trivial).bind fun _ _ => ?_
  · unfold Record.cnameData at h
    cases hd : c.data <;> rw [hd] at h <;> cases h
    rfl
  · by_cases hn : lk.conf.noFollowCname = true
    · rw [if_pos hn]; exact Later.throw
    · rw [if_neg hn]
      exact (save_later _).bind fun _ _ => Later.pure ⟨ht, rfl, rfl⟩

theorem sendUdp_later (ns : NextNs) (q : List UInt8) : Later (sendUdpPacket env ns q) (fun _ => True) := by
  unfold sendUdpPacket
  refine (Later.lift (Q := fun _ => True) fun _ _ => trivial).bind fun addrs _ => ?_
  cases addrs.head? with
  | none => exact Later.panic
  | some a =>
    intro w
    simp only
    cases env.net w.log a q with
    | none => exact ⟨Nat.le_refl _, fun _ _ => trivial⟩
    | some r => exact ⟨Nat.le_refl _, fun _ _ => trivial⟩

theorem sendQuery_later (ns : NextNs) (node : Name) (kind : RecordType) : Later (sendQuery env p ns node kind) (fun _ => True) := by
  unfold sendQuery
  exact Later.randomId.bind fun _ _ => (Later.lift (Q := fun _ => True) fun _ _ => trivial).bind fun _ _ => (sendUdp_later _ _).bind fun _ _ =>
    Later.lift fun _ _ => trivial

theorem sendRetries_later (ns : NextNs) (node : Name) (kind : RecordType) : ∀ (n : Nat) (e : Option LookupErr),
    Later (sendQueryWithRetries env p ns node kind n e) (fun _ => True)
  | 0, some e => Later.throw
  | 0, none => Later.panic
  | n + 1, e => by
    unfold sendQueryWithRetries
    refine (sendQuery_later ns node kind).attempt.bind fun x _ => ?_
    cases x with
    | inr r => exact Later.pure trivial
    | inl e' => exact sendRetries_later ns node kind n _

/-- What an answer is. -/
def Answering (node : Name) (kind : RecordType) (r : NsResponse) : Prop :=
  ∀ a ad, r = .answer a ad → a ≠ [] ∧ ∀ x ∈ a, x.node = node ∧ x.recordType = kind

theorem interpret_answering {m : Message} {node : Name} {kind : RecordType} {zone : Name} {r : NsResponse}
    (h : interpret m node kind zone = .ok r) : Answering node kind r := by
  rintro a ad rfl
  unfold interpret at h
  cases hc : m.header.respCode with
  | NoError =>
    rw [hc] at h
    simp only at h
    by_cases h0 : (extractRecords m.answers kind node).1.length > 0
    · rw [if_pos h0] at h
      cases h
      exact ⟨List.length_pos_iff.1 h0, fun x hx => (mem_extracted hx).2⟩
    · rw [if_neg h0] at h
      cases hx : extractRecord (extractRecords m.answers kind node).2 .CNAME node with
      | mk o l =>
      rw [hx] at h
      cases o with
      | some c =>
        simp only at h
        obtain ⟨_, _, h⟩ := Out.of_bind_ok h
        obtain ⟨_, _, h⟩ := Out.of_bind_ok h
        cases h
      | none =>
        simp only at h
        obtain ⟨nss, _, h⟩ := Out.of_bind_ok h
        by_cases hn : nss.length > 0
        · rw [if_pos hn] at h; cases h
        · rw [if_neg hn] at h; cases h
  | NxDomain =>
    rw [hc] at h
    simp only at h
    by_cases haa : m.header.authAnswer = true
    · rw [if_pos haa] at h; cases h
    · rw [if_neg haa] at h; cases h
  | FormErr => rw [hc] at h; cases h
  | ServFail => rw [hc] at h; cases h
  | NotImp => rw [hc] at h; cases h
  | Refused => rw [hc] at h; cases h

theorem performRequest_later (ns : NextNs) (node : Name) (kind : RecordType) (n : Nat) :
    Later (performRequest env p ns node kind n) (Answering node kind) := by
  unfold performRequest
  exact (sendRetries_later ns node kind n none).bind fun m _ => Later.lift fun r h => interpret_answering h

section
variable {sub : Lookup → M Response} (hsub : ∀ lk, Later (sub lk) (fun _ => True))
include hsub

theorem resolveAddrs_later (lk : Lookup) (ns : NextNs) : Later (resolveAddrs sub lk ns) (fun _ => True) := by
  unfold resolveAddrs
  refine (Later.lift (Q := fun _ => True) fun _ _ => trivial).bind fun addrs _ => ?_
  by_cases h : addrs.isEmpty = true
  · rw [if_pos h]
    refine (Later.lift (Q := fun _ => True) fun _ _ => trivial).bind fun n _ => ?_
    refine (Later.attempt (Q := fun _ => True) ?_).bind fun x _ => ?_
    · unfold resolveNsSubquery
      exact (Later.lift (Q := fun _ => True) fun _ _ => trivial).bind fun _ _ => (hsub _).bind fun _ _ => Later.pure trivial
    · cases x with
      | inr r => exact Later.pure trivial
      | inl e => exact Later.throw
  · rw [if_neg h]
    exact Later.pure trivial

theorem tryServers_later (lk : Lookup) : ∀ (nss : List NextNs) (e : Option LookupErr),
    Later (tryServers env p sub lk nss e) (Answering lk.node lk.kind)
  | [], some e => Later.throw
  | [], none => Later.panic
  | ns :: nss, e => by
    unfold tryServers
    refine (Later.attempt (Q := Answering lk.node lk.kind) ?_).bind fun x hx => ?_
    · unfold tryServer
      exact (resolveAddrs_later hsub lk ns).bind fun ns' _ => Later.emit.bind fun _ _ => performRequest_later ns' _ _ _
    · cases x with
      | inr r => exact Later.pure (hx _ rfl)
      | inl e' => exact tryServers_later lk nss _

theorem query_later (lk : Lookup) : ∀ (fuel : Nat) (nss : List NextNs),
    Later (queryIteratively env p sub lk fuel nss) (Answering lk.node lk.kind)
  | 0, _ => Later.lift fun _ h => by cases h
  | fuel + 1, nss => by
    unfold queryIteratively
    by_cases h0 : nss.length = 0
    · rw [if_pos h0]; exact Later.panic
    · rw [if_neg h0]
      refine (tryServers_later hsub lk _ none).bind fun r hr => ?_
      cases r with
      | delegation nextNss => exact (saveNss_later nextNss).bind fun _ _ => query_later lk fuel nextNss
      | answer a b => exact Later.pure hr
      | «alias» a b => exact Later.pure hr
      | noDomain a => exact Later.pure hr

theorem performLoop_later (fuel : Nat) : ∀ (rounds : Nat) (lk : Lookup) (nss : List NextNs),
    Later (performLoop env p sub fuel rounds lk nss) (fun _ => True)
  | 0, _, _ => Later.throw
  | rounds + 1, lk, nss => by
    unfold performLoop
    refine Later.emit.bind fun _ _ => (search_later _ _).bind fun cached _ => ?_
    by_cases h0 : cached.length > 0
    · rw [if_pos h0]; exact Later.pure trivial
    · rw [if_neg h0]
      refine (search_later _ _).bind fun cs _ => ?_
      cases cs with
      | cons c cs => exact (handleCname_later lk c).bind fun lk' _ => performLoop_later fuel rounds lk' []
      | nil =>
        refine (starting_later lk nss).bind fun nss' _ => (query_later hsub lk fuel nss').bind fun r _ => ?_
        cases r with
        | answer a b => exact (save_later _).bind fun _ _ => Later.pure trivial
        | «alias» c nn => exact (handleCname_later lk c).bind fun lk' _ => performLoop_later fuel rounds lk' nn
        | noDomain s => exact Later.pure trivial
        | delegation n => exact Later.panic

end

theorem perform_later : ∀ (fuel : Nat) (lk : Lookup), Later (perform env p fuel lk) (fun _ => True)
  | 0, _ => Later.lift fun _ h => by cases h
  | fuel + 1, lk => by
    unfold perform
    exact performLoop_later (perform_later fuel) fuel _ lk []

/-! ## What is in the cache afterwards -/

theorem bind_ok_run {m : M α} {f : α → M β} {w w'' : World} {b : β} (h : (m >>= f) w = (.ok b, w'')) :
    ∃ a w', m w = (.ok a, w') ∧ f a w' = (.ok b, w'') := by
  have hb : (m >>= f) w = match m w with
    | (.ok a, w') => f a w'
    | (.err e, w') => (.err e, w')
    | (.panic k, w') => (.panic k, w')
    | (.diverge, w') => (.diverge, w') := rfl
  rw [hb] at h
  cases hx : m w with
  | mk o w' =>
  rw [hx] at h
  cases o with
  | ok a => exact ⟨a, w', rfl, h⟩
  | err e => cases h
  | panic k => cases h
  | diverge => cases h

theorem Later.at {m : M α} {Q : α → Prop} (h : Later m Q) {w w' : World} {a : α} (e : m w = (.ok a, w')) : w.ticks ≤ w'.ticks ∧ Q a := by
  obtain ⟨h1, h2⟩ := h w
  rw [e] at h1 h2
  exact ⟨h1, h2 a rfl⟩

/-- The cache has the records under the name and type; `exp` is when they expire. -/
def Kept (env : Env) (t0 : Nat) (w' : World) (final : Name) (kind : RecordType) (recs : List Record) : Prop :=
  ∃ m exp T, Shortest recs m ∧ (∀ x ∈ recs, ∀ y ∈ recs, x.recordType = y.recordType) ∧
    w'.cache.find (final, kind) = some (exp, recs.map fun r => r.setTtl T) ∧
    env.clock t0 + m.toNat * NANOS ≤ exp ∧ exp < env.clock w'.ticks + (m.toNat + 1) * NANOS

theorem Kept.earlier {t0 t1 : Nat} {w' : World} {final : Name} {kind : RecordType} {recs : List Record}
    (h : Kept env t1 w' final kind recs) (ht : t0 ≤ t1) : Kept env t0 w' final kind recs := by
  obtain ⟨m, exp, T, h1, h2, h3, h4, h5⟩ := h
  have := env.mono t0 t1 ht
  exact ⟨m, exp, T, h1, h2, h3, by omega, h5⟩

theorem shortest_ne {recs : List Record} {m : UInt32} (h : Shortest recs m) : recs ≠ [] := by
  obtain ⟨⟨r, hr, -⟩, -⟩ := h
  exact List.ne_nil_of_mem hr

theorem Kept.ne {t0 : Nat} {w' : World} {final : Name} {kind : RecordType} {recs : List Record}
    (h : Kept env t0 w' final kind recs) : recs ≠ [] := by
  obtain ⟨m, exp, T, h1, -⟩ := h
  exact shortest_ne h1

theorem setTtl_setTtl (r : Record) (a b : UInt32) : (r.setTtl a).setTtl b = r.setTtl b := rfl
theorem setTtl_self (r : Record) : r.setTtl r.ttl = r := rfl

theorem getClone_alive {c : RecordsCache} {key : Name × RecordType} {t : Nat} {e : Nat × List Record}
    (h : (c.getClone key t).2 = some e) : (c.getClone key t).1.find key = some e := by
  unfold Cache.getClone at h ⊢
  cases hf : c.find key with
  | none => rw [hf] at h; cases h
  | some x =>
    rw [hf] at h
    simp only at h ⊢
    by_cases hx : Cache.isExpired x.1 t = true
    · rw [if_pos hx] at h; cases h
    · rw [if_neg hx] at h ⊢
      cases h
      exact hf

theorem hit_kept {node : Name} {kind : RecordType} {w w' : World} {recs : List Record}
    (h : searchRecordsInCache env node kind w = (.ok recs, w')) (h0 : recs ≠ []) : Kept env w.ticks w' node kind recs := by
  rw [searchRecords_eq] at h
  simp only at h
  injection h with h1 h2
  cases hg : ((env.others (w.ticks + 1) w.cache).getClone (node, kind) (env.clock (w.ticks + 2))).2 with
  | none =>
    rw [hg] at h1
    cases h1
    exact absurd rfl h0
  | some e =>
    obtain ⟨exp, records⟩ := e
    rw [hg] at h1
    simp only at h1
    unfold serveCached at h1
    cases records with
    | nil => cases h1; exact absurd rfl h0
    | cons r0 rs =>
      simp only at h1
      by_cases ha : (!((r0 :: rs).all fun r => r.recordType == r0.recordType && r.ttl == r0.ttl)) = true
      · rw [if_pos ha] at h1; cases h1
      · rw [if_neg ha] at h1
        by_cases hb : exp ≤ env.clock w.ticks
        · rw [if_pos hb] at h1; cases h1
        · rw [if_neg hb] at h1
          by_cases hc : (exp - env.clock w.ticks) / NANOS ≥ 2 ^ 32
          · rw [if_pos hc] at h1; cases h1
          · rw [if_neg hc] at h1
            injection h1 with h1
            have hall : ∀ r ∈ r0 :: rs, r.recordType = r0.recordType ∧ r.ttl = r0.ttl := by
              intro r hr
              have : ((r0 :: rs).all fun r => r.recordType == r0.recordType && r.ttl == r0.ttl) = true := by simpa using ha
              rw [List.all_eq_true] at this
              have := this r hr
              rw [Bool.and_eq_true, beq_iff_eq, beq_iff_eq] at this
              exact this
            have hT : (UInt32.ofNat ((exp - env.clock w.ticks) / NANOS)).toNat = (exp - env.clock w.ticks) / NANOS :=
              UInt32.toNat_ofNat_of_lt' (by unfold UInt32.size; omega)
            have hmono := env.mono w.ticks (w.ticks + 3) (by omega)
            refine ⟨UInt32.ofNat ((exp - env.clock w.ticks) / NANOS), exp, r0.ttl, ⟨?_, ?_⟩, ?_, ?_, ?_, ?_⟩
            · subst h1
              exact ⟨_, List.mem_map_of_mem List.mem_cons_self, rfl⟩
            · subst h1
              intro r hr
              obtain ⟨x, -, rfl⟩ := List.mem_map.1 hr
              exact UInt32.le_refl _
            · subst h1
              intro x hx y hy
              obtain ⟨x', hx', rfl⟩ := List.mem_map.1 hx
              obtain ⟨y', hy', rfl⟩ := List.mem_map.1 hy
              exact (hall x' hx').1.trans (hall y' hy').1.symm
            · subst h1 h2
              simp only
              rw [getClone_alive hg, List.map_map]
              refine congrArg (fun l => some (exp, l)) ?_
              symm
              conv_rhs => rw [← List.map_id (r0 :: rs)]
              refine List.map_congr_left fun r hr => ?_
              show (r.setTtl _).setTtl r0.ttl = r
              rw [setTtl_setTtl, ← (hall r hr).2, setTtl_self]
            · rw [hT]
              have := Nat.div_mul_le_self (exp - env.clock w.ticks) NANOS
              omega
            · rw [hT, ← h2]
              simp only
              have := Nat.lt_div_mul_add (a := exp - env.clock w.ticks) (b := NANOS) (by decide)
              rw [Nat.add_mul]
              omega

theorem minTtl_min : ∀ (rs : List Record) (m : UInt32), minTtl m rs ≤ m ∧ (∀ r ∈ rs, minTtl m rs ≤ r.ttl) ∧
    (minTtl m rs = m ∨ ∃ r ∈ rs, r.ttl = minTtl m rs)
  | [], m => ⟨UInt32.le_refl _, by simp, .inl rfl⟩
  | r :: rs, m => by
    unfold minTtl
    obtain ⟨h1, h2, h3⟩ := minTtl_min rs (if r.ttl < m then r.ttl else m)
    by_cases h : r.ttl < m
    · rw [if_pos h] at h1 h2 h3 ⊢
      refine ⟨UInt32.le_trans h1 (UInt32.le_of_lt h), ?_, ?_⟩
      · intro x hx
        rcases List.mem_cons.1 hx with rfl | hx
        · exact h1
        · exact h2 x hx
      · rcases h3 with h3 | ⟨x, hx, h3⟩
        · exact .inr ⟨r, by simp, h3.symm⟩
        · exact .inr ⟨x, by simp [hx], h3⟩
    · rw [if_neg h] at h1 h2 h3 ⊢
      refine ⟨h1, ?_, ?_⟩
      · intro x hx
        rcases List.mem_cons.1 hx with rfl | hx
        · exact UInt32.le_trans h1 (UInt32.not_lt.1 h)
        · exact h2 x hx
      · rcases h3 with h3 | ⟨x, hx, h3⟩
        · exact .inl h3
        · exact .inr ⟨x, by simp [hx], h3⟩

theorem saved_kept {node : Name} {kind : RecordType} {w w' : World} {recs : List Record} {u : Unit}
    (h : saveRecordsInCache env recs w = (.ok u, w')) (h0 : recs ≠ []) (hall : ∀ r ∈ recs, r.node = node ∧ r.recordType = kind) :
    Kept env w.ticks w' node kind recs := by
  cases recs with
  | nil => exact absurd rfl h0
  | cons r0 rs =>
    rw [saveRecords_eq fun r hr => (hall r (by simp [hr])).2.trans (hall r0 (by simp)).2.symm] at h
    injection h with _ h
    obtain ⟨m1, m2, m3⟩ := minTtl_min rs r0.ttl
    have e1 := env.mono w.ticks (w.ticks + 1) (by omega)
    have e2 := env.mono (w.ticks + 1) (w.ticks + 3) (by omega)
    refine ⟨minTtl r0.ttl rs, env.clock (w.ticks + 1) + (minTtl r0.ttl rs).toNat * NANOS, minTtl r0.ttl rs, ⟨?_, ?_⟩, ?_, ?_, ?_, ?_⟩
    · rcases m3 with h | ⟨x, hx, h⟩
      · exact ⟨r0, by simp, h.symm⟩
      · exact ⟨x, by simp [hx], h⟩
    · intro r hr
      rcases List.mem_cons.1 hr with rfl | hr
      · exact m1
      · exact m2 r hr
    · intro x hx y hy
      exact (hall x hx).2.trans (hall y hy).2.symm
    · rw [← h]
      simp only
      obtain ⟨a1, a2⟩ := hall r0 (by simp)
      rw [a1, a2, find_set, Cache.find_put, if_pos rfl]
    · omega
    · rw [← h, Nat.add_mul]
      simp only
      have : 0 < NANOS := by decide
      omega

theorem performLoop_kept {sub : Lookup → M Response} (hsub : ∀ lk, Later (sub lk) (fun _ => True)) (fuel : Nat) :
    ∀ {rounds : Nat} {lk : Lookup} {nss : List NextNs} {w w' : World} {r : Response},
      performLoop env p sub fuel rounds lk nss w = (.ok r, w') → r.noRecords = false →
      ∃ pre final recs, r.answers = lk.previousCnames ++ pre ++ recs ∧ EndsAt lk.node pre final ∧ Kept env w.ticks w' final lk.kind recs
  | 0, lk, nss, w, w', r, h, _ => by cases h
  | rounds + 1, lk, nss, w, w', r, h, hno => by
    unfold performLoop at h
    obtain ⟨u, w1, e1, h⟩ := bind_ok_run h
    have t1 := (Later.emit.at e1).1
    obtain ⟨cached, w2, e2, h⟩ := bind_ok_run h
    have t2 := ((search_later _ _).at e2).1
    have more : ∀ {c : Record} {nn : List NextNs} {wa : World}, w.ticks ≤ wa.ticks →
        (handleCname env lk c >>= fun lk' => performLoop env p sub fuel rounds lk' nn) wa = (.ok r, w') →
        ∃ pre final recs, r.answers = lk.previousCnames ++ pre ++ recs ∧ EndsAt lk.node pre final ∧ Kept env w.ticks w' final lk.kind recs := by
      intro c nn wa hle h
      obtain ⟨lk', w3, e3, h⟩ := bind_ok_run h
      obtain ⟨t3, hd, hk, hp⟩ := (handleCname_later lk c).at e3
      obtain ⟨pre, final, recs, h1, h2, h3⟩ := performLoop_kept hsub fuel h hno
      refine ⟨c :: pre, final, recs, by rw [h1, hp]; simp, ?_, ?_⟩
      · rcases h2 with ⟨rfl, rfl⟩ | ⟨c', h2, h2'⟩
        · exact .inr ⟨c, rfl, hd⟩
        · refine .inr ⟨c', ?_, h2'⟩
          cases pre with
          | nil => cases h2
          | cons a l => rw [List.getLast?_cons_cons]; exact h2
      · rw [← hk]
        exact h3.earlier (by omega)
    by_cases h0 : cached.length > 0
    · rw [if_pos h0] at h
      injection h with h h'
      injection h with h
      subst h h'
      exact ⟨[], lk.node, cached, by simp, .inl ⟨rfl, rfl⟩, (hit_kept e2 (List.length_pos_iff.1 h0)).earlier t1⟩
    · rw [if_neg h0] at h
      obtain ⟨cs, w3, e3, h⟩ := bind_ok_run h
      have t3 := ((search_later _ _).at e3).1
      cases cs with
      | cons c cs => exact more (by omega) h
      | nil =>
        obtain ⟨nss', w4, e4, h⟩ := bind_ok_run h
        have t4 := ((starting_later _ _).at e4).1
        obtain ⟨resp, w5, e5, h⟩ := bind_ok_run h
        obtain ⟨t5, hans⟩ := (query_later hsub lk fuel nss').at e5
        cases resp with
        | answer a ad =>
          obtain ⟨u, w6, e6, h⟩ := bind_ok_run h
          injection h with h h'
          injection h with h
          subst h h'
          obtain ⟨a1, a2⟩ := hans a ad rfl
          exact ⟨[], lk.node, a, by simp, .inl ⟨rfl, rfl⟩, (saved_kept e6 a1 a2).earlier (by omega)⟩
        | «alias» c nn => exact more (by omega) h
        | noDomain s =>
          injection h with h _
          injection h with h
          rw [← h] at hno
          cases hno
        | delegation n => cases h

theorem perform_kept {fuel : Nat} {lk : Lookup} {w w' : World} {r : Response} (h : perform env p fuel lk w = (.ok r, w'))
    (hno : r.noRecords = false) :
    ∃ pre final recs, r.answers = lk.previousCnames ++ pre ++ recs ∧ EndsAt lk.node pre final ∧ Kept env w.ticks w' final lk.kind recs := by
  cases fuel with
  | zero => cases h
  | succ fuel =>
    unfold perform at h
    exact performLoop_kept (perform_later fuel) fuel h hno

/-- A record set in the cache is served without asking anyone. -/
theorem kept_served {t0 : Nat} {w1 w2 : World} {final : Name} {kind : RecordType} {recs : List Record} (h : Kept env t0 w1 final kind recs)
    {conf : Params} {fuel : Nat} (hc : conf.maxCnameRedir ≠ 0) (ht : w1.ticks ≤ w2.ticks)
    (hsame : (env.others (w2.ticks + 1) w2.cache).find (final, kind) = w1.cache.find (final, kind))
    (hlive : ∃ m, Shortest recs m ∧ env.clock (w2.ticks + 2) < env.clock t0 + m.toNat * NANOS) :
    ∃ T cache ticks, lookup env p conf (fuel + 1) final kind w2 = (.ok ⟨recs.map fun r => r.setTtl T, [], [], false⟩,
      ⟨cache, ticks, w2.log ++ [.start [] conf.noFollowCname final kind]⟩) ∧ ∀ r ∈ recs, T ≤ r.ttl := by
  obtain ⟨m, exp, T, hm, hty, hfind, hlo, hhi⟩ := h
  obtain ⟨m', hm', hlive⟩ := hlive
  have hmm : m' = m := by
    obtain ⟨⟨r, hr, rfl⟩, h1⟩ := hm
    obtain ⟨⟨r', hr', rfl⟩, h2⟩ := hm'
    exact UInt32.le_antisymm (h2 r hr) (h1 r' hr')
  subst hmm
  have e1 := env.mono w1.ticks w2.ticks ht
  have e2 := env.mono w2.ticks (w2.ticks + 2) (by omega)
  have hN : 0 < NANOS := by decide
  have hlt : (exp - env.clock w2.ticks) / NANOS < m'.toNat + 1 := by
    rw [Nat.div_lt_iff_lt_mul hN]
    omega
  have hm32 : m'.toNat < 2 ^ 32 := m'.toNat_lt
  obtain ⟨rounds, hr⟩ : ∃ n, conf.maxCnameRedir = n + 1 := ⟨conf.maxCnameRedir - 1, by omega⟩
  have hget : ((env.others (w2.ticks + 1) w2.cache).getClone (final, kind) (env.clock (w2.ticks + 2))).2 =
      some (exp, recs.map fun r => r.setTtl T) := by
    unfold Cache.getClone
    rw [hsame, hfind]
    simp only
    rw [if_neg]
    unfold Cache.isExpired
    simp only [decide_eq_true_eq]
    omega
  have hserve : serveCached (env.clock w2.ticks) exp (recs.map fun r => r.setTtl T) =
      .ok (recs.map fun r => r.setTtl (UInt32.ofNat ((exp - env.clock w2.ticks) / NANOS))) := by
    obtain ⟨r0, rs, rfl⟩ := List.exists_cons_of_ne_nil (shortest_ne hm)
    unfold serveCached
    simp only [List.map_cons]
    rw [if_neg, if_neg (by omega), if_neg (by omega)]
    · simp [setTtl_setTtl]
    · rw [Bool.not_eq_true', Bool.not_eq_false, List.all_eq_true]
      intro x hx
      rw [← List.map_cons (f := fun r : Record => r.setTtl T)] at hx
      obtain ⟨x', hx', rfl⟩ := List.mem_map.1 hx
      rw [Bool.and_eq_true, beq_iff_eq, beq_iff_eq]
      exact ⟨hty x' hx' r0 (by simp), rfl⟩
  refine ⟨UInt32.ofNat ((exp - env.clock w2.ticks) / NANOS),
    ((env.others (w2.ticks + 1) w2.cache).getClone (final, kind) (env.clock (w2.ticks + 2))).1, w2.ticks + 3, ?_, ?_⟩
  · unfold lookup perform
    simp only [hr]
    unfold performLoop
    rw [bind_at (m := M.emit _) (w := w2) (w' := ⟨w2.cache, w2.ticks, w2.log ++ [.start [] conf.noFollowCname final kind]⟩) (a := ()) rfl]
    have hs : searchRecordsInCache env final kind ⟨w2.cache, w2.ticks, w2.log ++ [.start [] conf.noFollowCname final kind]⟩ =
        (.ok (recs.map fun r => r.setTtl (UInt32.ofNat ((exp - env.clock w2.ticks) / NANOS))),
          ⟨((env.others (w2.ticks + 1) w2.cache).getClone (final, kind) (env.clock (w2.ticks + 2))).1, w2.ticks + 3,
            w2.log ++ [.start [] conf.noFollowCname final kind]⟩) := by
      rw [searchRecords_eq]
      simp only [hget, hserve]
    rw [bind_at hs, if_pos (by rw [List.length_map]; exact List.length_pos_iff.2 (shortest_ne hm))]
    rfl
  · intro r hr
    refine UInt32.le_trans ?_ (hm.2 r hr)
    rw [UInt32.le_iff_toNat_le, UInt32.toNat_ofNat_of_lt' (by unfold UInt32.size; omega)]
    omega

end Ariadne.Resolver
