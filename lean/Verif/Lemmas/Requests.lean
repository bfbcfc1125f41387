import Verif.Lemmas.Lookup

/-! # Requests and the cache in lookups -/

namespace Ariadne.Resolver

open Spec BitsBuf

/-- Rules as far as requests and the cache are concerned. -/
structure Rules.Fair (ρ : Rules) (p : Profile) : Prop where
  exch : ∀ addr q r id node kind, QueryFor id node kind q → ρ.E (.exchange addr q r)
  saved : ∀ node kind records, records ≠ [] → (∀ r ∈ records, r.recordType = kind) →
    (kind ≠ .NS → ∀ r ∈ records, r.node = node) → ρ.E (.saved node kind records)
  poison : ∀ l, PoisonedBy p l → ρ.P l
  hung : ∀ l, HungBy p l → ρ.H l
  keepsP : ∀ l l', ρ.P l → ρ.P (l ++ l')

variable {env : Env} {ρ : Rules} {p : Profile} {α β : Type} {w : World}

theorem request_encodes (id : UInt16) {node : Name} {kind : RecordType} (hk : kind.isSupportedForQuestion = true) :
    ∃ q, encodeUnwrap (buildDnsRequest id node kind) = .ok q ∧ QueryFor id node kind q := by
  have hq : ∀ q ∈ (buildDnsRequest id node kind).questions, ∃ x, (fun _ _ => True : Question → List UInt8 → Prop) q x ∧
      Writes (Question.encode q) x := by
    intro q hq
    simp only [buildDnsRequest, List.mem_singleton] at hq
    subst hq
    have : Writes (Question.encode ⟨node, kind, .IN⟩) (node.toBytes ++ (be16 kind.toNum.toNat ++ be16 Class.IN.toNum.toNat)) := by
      unfold Question.encode
      exact Writes.assert hk (Writes.assert rfl (Writes.bind (writes_bytes _) (Writes.bind (writes_u16 _) (writes_u16 _))))
    exact ⟨_, trivial, this⟩
  obtain ⟨y, -, hy⟩ := writes_section (U := fun _ => True) .question hq 1 0 rfl
  have e : (buildDnsRequest id node kind).encodeToBytes = .ok (headerBytes (buildDnsRequest id node kind).header ++ y) := by
    unfold Message.encodeToBytes
    have h1 : (buildDnsRequest id node kind).header.questionsCount.toNat = 1 := rfl
    have h2 : (buildDnsRequest id node kind).header.answersCount.toNat = 0 := rfl
    have h3 : (buildDnsRequest id node kind).header.authoritiesCount.toNat = 0 := rfl
    have h4 : (buildDnsRequest id node kind).header.additionalsCount.toNat = 0 := rfl
    rw [h1, h2, h3, h4]
    rw [app_nil, BufM.bind_ok ((writes_header (h := (buildDnsRequest id node kind).header) rfl).mapErr (f := MessageErr.headerErr) []),
      BufM.bind_ok (hy _)]
    simp [Message.encodeItems, BufM.pure_bind, Message.takeVec, intoVec, app]
  refine ⟨_, ?_, e⟩
  unfold encodeUnwrap
  rw [e]

/-- The query for this name and type got this response. -/
def Replied (p : Profile) (node : Name) (kind : RecordType) (resp : Message) (log : List Event) : Prop :=
  ∃ addr query reply id, .exchange addr query (some reply) ∈ log ∧ QueryFor id node kind query ∧
    Message.decodeFromBytes p (reply.take 512) = .ok resp ∧ resp.header.id = id

theorem randomId_tri (hg : Good env w) : Tri env ρ w (randomId env) (fun _ w' => w'.log = w.log ∧ w'.cache = w.cache) :=
  ⟨_, _, [], rfl, by simp, GoodCache.later hg (env.mono _ _ (Nat.le_succ _)), by simp, rfl, rfl⟩

theorem sendUdpPacket_tri {ns : NextNs} (hns : NsOk ns) {bytes : List UInt8} (hg : Good env w)
    (hE : ∀ addr r, ρ.E (.exchange addr bytes r)) (ha : ns.aRecords = [] → ρ.P w.log) :
    Tri env ρ w (sendUdpPacket env ns bytes) (fun a w' => ∃ addr raw, w'.log = w.log ++ [.exchange addr bytes (some raw)] ∧
      a = raw.take 512) := by
  obtain ⟨as, e, hl⟩ := hns.addrs_ok LookupErr
  unfold sendUdpPacket
  refine (Tri.lift (Q := fun a => a = as) hg (by rw [e]; exact Sat.ok rfl)).bind ?_
  rintro a w' new - hg' ⟨rfl, rfl⟩
  cases a with
  | nil => exact Tri.panic hg (ha (List.length_eq_zero_iff.1 (by rw [← hl]; rfl)))
  | cons addr rest =>
    simp only [List.head?_cons]
    cases hn : env.net w'.log addr bytes with
    | none =>
      refine ⟨.err .io, { w' with log := w'.log ++ [.exchange addr bytes none] }, [.exchange addr bytes none], by simp only [hn], rfl,
        hg, ?_, trivial⟩
      simpa using hE addr none
    | some raw =>
      refine ⟨.ok (raw.take 512), { w' with log := w'.log ++ [.exchange addr bytes (some raw)] }, [.exchange addr bytes (some raw)],
        by simp only [hn]; rfl, rfl, hg, ?_,
        addr, raw, rfl, rfl⟩
      simpa using hE addr (some raw)

theorem sendQuery_tri (hf : ρ.Fair p) {ns : NextNs} (hns : NsOk ns) {node : Name} {kind : RecordType}
    (hk : kind.isSupportedForQuestion = true) (hg : Good env w) (ha : ns.aRecords = [] → ρ.P w.log) :
    Tri env ρ w (sendQuery env p ns node kind) (fun resp w' => Replied p node kind resp w'.log) := by
  unfold sendQuery
  refine (randomId_tri hg).bind fun id w1 new1 _ hg1 h1 => ?_
  replace h1 := h1.1
  obtain ⟨q, e, hq⟩ := request_encodes id (node := node) hk
  refine (Tri.lift (Q := fun a => a = q) hg1 (by rw [e]; exact Sat.ok rfl)).bind ?_
  rintro bytes w2 new - hg2 ⟨rfl, rfl⟩
  refine (sendUdpPacket_tri hns hg2 (fun addr r => hf.exch _ _ _ _ _ _ hq) (by rw [h1]; exact ha)).bind ?_
  rintro reply w3 new3 - hg3 ⟨addr, raw, hl, rfl⟩
  have hmem : Event.exchange addr bytes (some raw) ∈ w3.log := by rw [hl]; simp
  refine ⟨_, w3, [], rfl, by simp, hg3, by simp, ?_⟩
  unfold acceptResponse
  cases hd : Message.decodeFromBytes p (raw.take 512) with
  | ok resp =>
    simp only
    by_cases hid : resp.header.id ≠ id
    · rw [if_pos hid]; trivial
    · rw [if_neg hid]
      exact ⟨addr, bytes, raw, id, hmem, hq, hd, not_not.1 hid⟩
  | err _ => trivial
  | panic k => exact hf.poison _ ⟨addr, bytes, raw, hmem, by rw [hd]; trivial⟩
  | diverge => exact hf.hung _ ⟨addr, bytes, raw, hmem, hd⟩

theorem sendRetries_tri (hf : ρ.Fair p) {ns : NextNs} (hns : NsOk ns) {node : Name} {kind : RecordType}
    (hk : kind.isSupportedForQuestion = true) : ∀ (n : Nat) (e : Option LookupErr) {w : World}, Good env w →
    (ns.aRecords = [] → ρ.P w.log) → (n = 0 → e ≠ none) →
    Tri env ρ w (sendQueryWithRetries env p ns node kind n e) (fun resp w' => Replied p node kind resp w'.log)
  | 0, some e, w, hg, _, _ => Tri.throw hg
  | 0, none, w, _, _, h => absurd rfl (h rfl)
  | n + 1, e, w, hg, ha, _ => by
    unfold sendQueryWithRetries
    refine (Tri.attempt (sendQuery_tri hf hns hk hg ha)).bind fun x w' new hl hg' hx => ?_
    cases x with
    | inr resp => exact Tri.pure hg' (hx _ rfl)
    | inl e' =>
      exact sendRetries_tri hf hns hk n (some e') hg' (fun h0 => by rw [hl]; exact hf.keepsP _ _ (ha h0)) (by simp)

theorem performRequest_tri (hf : ρ.Fair p) {ns : NextNs} (hns : NsOk ns) {node : Name} {kind : RecordType}
    (hk : kind.isSupportedForQuestion = true) {n : Nat} (hn : n ≠ 0) (hg : Good env w) (ha : ns.aRecords = [] → ρ.P w.log) :
    Tri env ρ w (performRequest env p ns node kind n)
      (fun r w' => ∃ resp, Replied p node kind resp w'.log ∧ Means resp node kind ns.zone r) := by
  unfold performRequest
  refine (sendRetries_tri hf hns hk n none hg ha (fun h => absurd h hn)).bind fun resp w' new hl hg' hr => ?_
  refine (Tri.lift hg' (interpret_sat resp node kind ns.zone)).mono ?_
  rintro a w2 ⟨h, rfl⟩
  exact ⟨resp, hr, h⟩

/-! ## Cache -/

theorem mem_getClone {c : RecordsCache} {key key' : Name × RecordType} {t : Nat} {e : Nat × List Record}
    (h : (c.getClone key t).1.find key' = some e) : c.find key' = some e := by
  unfold Cache.getClone at h
  cases hf : c.find key with
  | none => rw [hf] at h; exact h
  | some x =>
    rw [hf] at h
    simp only at h
    by_cases hx : Cache.isExpired x.1 t = true
    · rw [if_pos hx] at h
      rw [Cache.find_erase] at h
      by_cases hk : key = key'
      · rw [if_pos hk] at h; cases h
      · rw [if_neg hk] at h; exact h
    · rw [if_neg hx] at h; exact h

theorem getClone_some {c : RecordsCache} {key : Name × RecordType} {t : Nat} {e : Nat × List Record}
    (h : (c.getClone key t).2 = some e) : c.find key = some e ∧ t < e.1 := by
  unfold Cache.getClone at h
  cases hf : c.find key with
  | none => rw [hf] at h; cases h
  | some x =>
    rw [hf] at h
    simp only at h
    by_cases hx : Cache.isExpired x.1 t = true
    · rw [if_pos hx] at h; cases h
    · rw [if_neg hx] at h
      cases h
      refine ⟨rfl, ?_⟩
      unfold Cache.isExpired at hx
      simp at hx
      exact hx

/-- What a search does: the clock is read, the lock is taken, the clock is read again. -/
theorem searchRecords_eq (node : Name) (kind : RecordType) : searchRecordsInCache env node kind w =
    let r := (env.others (w.ticks + 1) w.cache).getClone (node, kind) (env.clock (w.ticks + 2))
    (match r.2 with
      | none => .ok []
      | some (exp, records) => serveCached (env.clock w.ticks) exp records,
     ⟨r.1, w.ticks + 3, w.log⟩) := by
  have h : searchRecordsInCache env node kind w =
    (match ((env.others (w.ticks + 1) w.cache).getClone (node, kind) (env.clock (w.ticks + 2))).2 with
      | none => pure []
      | some (exp, records) => M.lift (serveCached (env.clock w.ticks) exp records) : M (List Record))
     ⟨((env.others (w.ticks + 1) w.cache).getClone (node, kind) (env.clock (w.ticks + 2))).1, w.ticks + 3, w.log⟩ := rfl
  rw [h]
  simp only
  generalize (env.others (w.ticks + 1) w.cache).getClone (node, kind) (env.clock (w.ticks + 2)) = r
  obtain ⟨c, o⟩ := r
  cases o with
  | none => rfl
  | some e => rfl

theorem expiresBy_of_good {t : Nat} {c : RecordsCache} (h : GoodCache t c) : ExpiresBy t c := by
  intro k e r hf
  obtain ⟨-, -, -, s, ttl, h4, h5, h6, -⟩ := h k e r hf
  have : ttl * NANOS + NANOS ≤ 2 ^ 32 * NANOS := by
    rw [← Nat.succ_mul]
    exact Nat.mul_le_mul_right _ h5
  have : 0 < NANOS := by decide
  omega

theorem searchRecords_tri (hfr : Friendly env) (hg : Good env w) (node : Name) (kind : RecordType) :
    Tri env ρ w (searchRecordsInCache env node kind) (fun rs w' => w'.log = w.log ∧
      ∀ r ∈ rs, r.recordType = kind ∧ (kind ≠ .NS → r.node = node) ∧ WellFormed r) := by
  have hg1 : GoodCache (env.clock (w.ticks + 1)) (env.others (w.ticks + 1) w.cache) :=
    hfr.good _ _ (GoodCache.later hg (env.mono _ _ (Nat.le_succ _)))
  have hx1 : ExpiresBy (env.clock w.ticks) (env.others (w.ticks + 1) w.cache) := hfr.prompt _ _ (expiresBy_of_good hg)
  have heq := searchRecords_eq (env := env) (w := w) node kind
  refine ⟨_, _, [], heq, by simp, ?_, by simp, ?_⟩
  · intro k e r hf
    exact GoodCache.later hg1 (env.mono _ _ (by simp only; omega)) k e r (mem_getClone hf)
  · cases hr : ((env.others (w.ticks + 1) w.cache).getClone (node, kind) (env.clock (w.ticks + 2))).2 with
    | none => exact ⟨rfl, by simp⟩
    | some e =>
      obtain ⟨exp, rs⟩ := e
      simp only
      obtain ⟨hfind, hlt⟩ := getClone_some hr
      obtain ⟨h1, h2, h3, s, ttl, h4, h5, h6, h7⟩ := hg1 _ _ _ hfind
      have hb := hx1 _ _ _ hfind
      unfold serveCached
      cases rs with
      | nil => exact ⟨trivial, by simp⟩
      | cons r0 rest =>
        have hall : ((r0 :: rest).all fun r => r.recordType == r0.recordType && r.ttl == r0.ttl) = true := by
          rw [List.all_eq_true]
          intro r hr
          have e1 : r.recordType = r0.recordType := by rw [h1 r hr, h1 r0 (by simp)]
          have e2 : r.ttl = r0.ttl := UInt32.toNat_inj.1 (by rw [h7 r hr, h7 r0 (by simp)])
          rw [e1, e2]
          simp
        have hbe : env.clock w.ticks < exp := Nat.lt_of_le_of_lt (env.mono _ _ (by omega)) hlt
        have hq : (exp - env.clock w.ticks) / NANOS < 2 ^ 32 := by
          apply Nat.div_lt_of_lt_mul
          rw [Nat.mul_comm]
          omega
        simp only
        rw [if_neg (by rw [hall]; simp), if_neg (by omega), if_neg (by omega)]
        refine ⟨trivial, ?_⟩
        intro r hr
        obtain ⟨r', hr', rfl⟩ := List.mem_map.1 hr
        exact ⟨h1 r' hr', fun hk => h2 hk r' hr', h3 r' hr'⟩

theorem minTtl_le : ∀ (m : UInt32) (rs : List Record), (minTtl m rs).toNat ≤ m.toNat ∧ ∀ r ∈ rs, (minTtl m rs).toNat ≤ r.ttl.toNat
  | m, [] => ⟨Nat.le_refl _, by simp⟩
  | m, r :: rs => by
    unfold minTtl
    by_cases h : r.ttl < m
    · rw [if_pos h]
      obtain ⟨h1, h2⟩ := minTtl_le r.ttl rs
      have := UInt32.lt_iff_toNat_lt.1 h
      refine ⟨by omega, ?_⟩
      intro x hx
      rcases List.mem_cons.1 hx with rfl | hx
      · exact h1
      · exact h2 x hx
    · rw [if_neg h]
      obtain ⟨h1, h2⟩ := minTtl_le m rs
      have : m.toNat ≤ r.ttl.toNat := by
        have := mt UInt32.lt_iff_toNat_lt.2 h
        omega
      refine ⟨h1, ?_⟩
      intro x hx
      rcases List.mem_cons.1 hx with rfl | hx
      · omega
      · exact h2 x hx

/-- What saving does, for records of one type. -/
theorem saveRecords_eq {r0 : Record} {rs : List Record} (h : ∀ r ∈ rs, r.recordType = r0.recordType) :
    saveRecordsInCache env (r0 :: rs) w =
      (.ok (), ⟨((env.others w.ticks w.cache).set (r0.node, r0.recordType) ((minTtl r0.ttl rs).toNat * NANOS)
          ((r0 :: rs).map fun r => r.setTtl (minTtl r0.ttl rs)) (env.clock (w.ticks + 1)) (env.clock (w.ticks + 2))).1,
        w.ticks + 3, w.log ++ [.saved r0.node r0.recordType ((r0 :: rs).map fun r => r.setTtl (minTtl r0.ttl rs))]⟩) := by
  have hall : ((r0 :: rs).all fun r => r.recordType == r0.recordType) = true := by
    rw [List.all_eq_true]
    intro r hr
    rcases List.mem_cons.1 hr with rfl | hr
    · simp
    · rw [h r hr]; simp
  unfold saveRecordsInCache
  simp only
  rw [if_neg (by rw [hall]; simp)]
  rfl

theorem find_set {c : RecordsCache} {key : Name × RecordType} {ttl t t' : Nat} {v : List Record} :
    (c.set key ttl v t t').1 = c.put key (t + ttl, v) := by
  unfold Cache.set
  cases hf : c.find key <;> rfl

theorem saveRecords_tri (hfr : Friendly env) (hf : ρ.Fair p) (hg : Good env w) {rs : List Record} {kind : RecordType} (h0 : rs ≠ [])
    (ht : ∀ r ∈ rs, r.recordType = kind) (ho : kind ≠ .NS → ∀ r ∈ rs, ∀ r' ∈ rs, r.node = r'.node) (hv : ∀ r ∈ rs, WellFormed r) :
    Tri env ρ w (saveRecordsInCache env rs) (fun _ _ => True) := by
  cases rs with
  | nil => exact absurd rfl h0
  | cons r0 rest =>
    have ht0 := ht r0 (by simp)
    have heq := saveRecords_eq (env := env) (w := w) (r0 := r0) (rs := rest) fun r hr => by rw [ht r (by simp [hr]), ht0]
    refine ⟨_, _, _, heq, rfl, ?_, ?_, trivial⟩
    · intro k e r hfd
      simp only [find_set, Cache.find_put] at hfd
      by_cases hk : (r0.node, r0.recordType) = k
      · rw [if_pos hk] at hfd
        injection hfd with hfd
        injection hfd with h1 h2
        subst h1 h2 hk
        refine ⟨?_, ?_, ?_, ?_⟩
        · intro x hx
          obtain ⟨r', hr', rfl⟩ := List.mem_map.1 hx
          simp only
          rw [ht0]; exact ht r' hr'
        · intro hns x hx
          obtain ⟨r', hr', rfl⟩ := List.mem_map.1 hx
          simp only at hns
          rw [ht0] at hns
          exact ho hns r' hr' r0 (by simp)
        · intro x hx
          obtain ⟨r', hr', rfl⟩ := List.mem_map.1 hx
          exact hv r' hr'
        · refine ⟨env.clock (w.ticks + 1), (minTtl r0.ttl rest).toNat, env.mono _ _ (by simp only; omega), (minTtl r0.ttl rest).toNat_lt, rfl, ?_⟩
          intro x hx
          obtain ⟨r', hr', rfl⟩ := List.mem_map.1 hx
          rfl
      · rw [if_neg hk] at hfd
        exact GoodCache.later (hfr.good _ _ hg) (env.mono _ _ (by simp only; omega)) k e r hfd
    · intro e he
      simp only [List.mem_singleton] at he
      subst he
      refine hf.saved _ _ _ (by simp) ?_ ?_
      · intro x hx
        obtain ⟨r', hr', rfl⟩ := List.mem_map.1 hx
        rw [ht0]; exact ht r' hr'
      · intro hns x hx
        obtain ⟨r', hr', rfl⟩ := List.mem_map.1 hx
        rw [ht0] at hns
        exact ho hns r' hr' r0 (by simp)

theorem saveAddrs_tri (hfr : Friendly env) (hf : ρ.Fair p) : ∀ {nss : List NextNs} {w : World}, Good env w → (∀ ns ∈ nss, NsOk ns) →
    Tri env ρ w (saveAddrs env nss) (fun _ _ => True)
  | [], w, hg, _ => Tri.pure hg trivial
  | ns :: nss, w, hg, h => by
    have hns := h ns (by simp)
    have hrest : ∀ {w' : World}, Good env w' → Tri env ρ w' (saveAddrs env nss) (fun _ _ => True) := fun hg' =>
      saveAddrs_tri hfr hf (nss := nss) hg' fun x hx => h x (by simp [hx])
    unfold saveAddrs
    by_cases hl : ns.aRecords.length > 0
    · simp only [if_pos hl]
      refine (saveRecords_tri hfr hf hg (kind := .A) (List.ne_nil_of_length_pos hl) (fun r hr => (hns.addrs r hr).1) ?_
        (fun r hr => (hns.addrs r hr).2.1)).bind fun _ w' _ _ hg' _ => hrest hg'
      intro _ r hr r' hr'
      have e1 := (hns.addrs r hr).2.2
      have e2 := (hns.addrs r' hr').2.2
      rw [e1] at e2
      injection e2
    · simp only [if_neg hl]
      exact hrest hg

theorem saveNss_tri (hfr : Friendly env) (hf : ρ.Fair p) {nss : List NextNs} (hg : Good env w) (h0 : nss ≠ []) (h : ∀ ns ∈ nss, NsOk ns) :
    Tri env ρ w (saveNssInCache env nss) (fun _ _ => True) := by
  unfold saveNssInCache
  refine (saveAddrs_tri hfr hf hg h).bind fun _ w' _ _ hg' _ => ?_
  refine saveRecords_tri hfr hf hg' (kind := .NS) (by simpa using h0) ?_ (fun h => absurd rfl h) ?_
  · intro r hr
    obtain ⟨ns, hns, rfl⟩ := List.mem_map.1 hr
    obtain ⟨t, ht⟩ := (h ns hns).target
    unfold Record.recordType
    rw [ht]; rfl
  · intro r hr
    obtain ⟨ns, hns, rfl⟩ := List.mem_map.1 hr
    exact (h ns hns).names

end Ariadne.Resolver
