import Verif.Spec.WellRun
import Verif.Lemmas.Steps

/-! # Lookups in name spaces that are in order -/

namespace Ariadne.Resolver

open Spec NameSpace

variable {env : Env} {p : Profile} {N : NameSpace} {start stop : Nat} {α β : Type}

/-! ## Records -/

theorem bare_node {r r' : Record} (h : bare r = bare r') : r.node = r'.node := by
  show (bare r).node = (bare r').node
  rw [h]

theorem bare_data {r r' : Record} (h : bare r = bare r') : r.data = r'.data := by
  show (bare r).data = (bare r').data
  rw [h]

theorem bare_type {r r' : Record} (h : bare r = bare r') : r.recordType = r'.recordType := by
  unfold Record.recordType
  rw [bare_data h]

theorem bare_setTtl (r : Record) (v : UInt32) : bare (r.setTtl v) = bare r := rfl

theorem map_bare_setTtl (l : List Record) (v : UInt32) : (l.map fun r => r.setTtl v).map bare = l.map bare := by
  rw [List.map_map]
  rfl

theorem Same.refl (l : List Record) : Same l l := List.Perm.refl _

theorem same_symm {l l' : List Record} (h : Same l l') : Same l' l := List.Perm.symm h

theorem same_trans {l l' l'' : List Record} (h : Same l l') (h' : Same l' l'') : Same l l'' := List.Perm.trans h h'

theorem same_of_perm {l l' : List Record} (h : l.Perm l') : Same l l' := h.map _

theorem same_of_bare {l l' : List Record} (h : l.map bare = l'.map bare) : Same l l' := List.Perm.of_eq h

theorem same_setTtl (l : List Record) (v : UInt32) : Same (l.map fun r => r.setTtl v) l := same_of_bare (map_bare_setTtl l v)

theorem same_nil {l : List Record} (h : Same [] l) : l = [] := List.map_eq_nil_iff.1 (List.Perm.symm h).eq_nil

theorem same_ne {l l' : List Record} (h : Same l l') (h0 : l' ≠ []) : l ≠ [] := fun h1 => h0 (by subst h1; exact same_nil h)

theorem same_mem {l l' : List Record} (h : Same l l') {r : Record} (hr : r ∈ l) : ∃ r' ∈ l', bare r' = bare r := by
  have : bare r ∈ l'.map bare := (List.Perm.mem_iff h).1 (List.mem_map_of_mem hr)
  obtain ⟨r', h1, h2⟩ := List.mem_map.1 this
  exact ⟨r', h1, h2⟩

theorem same_single {l : List Record} {c : Record} (h : Same l [c]) : ∃ c', l = [c'] ∧ bare c' = bare c := by
  have h1 : l.map bare = [bare c] := List.perm_singleton.1 h
  cases l with
  | nil => cases h1
  | cons a l =>
    rw [List.map_cons] at h1
    injection h1 with h2 h3
    exact ⟨a, by rw [List.map_eq_nil_iff.1 h3], h2⟩

theorem targets_bare {l l' : List Record} (h : l.map bare = l'.map bare) : targets l = targets l' := by
  have key : ∀ l : List Record, targets l = targets (l.map bare) := fun l => by
    unfold targets
    rw [List.filterMap_map]
    rfl
  rw [key l, key l', h]

theorem mem_recordsOf {n : Name} {k : RecordType} {l : List Record} {r : Record} :
    r ∈ recordsOf n k l ↔ r ∈ l ∧ r.node = n ∧ r.recordType = k := by
  unfold recordsOf
  rw [List.mem_filter, decide_eq_true_eq]

theorem extracted_perm (l : List Record) (k : RecordType) (n : Name) : (extractRecords l k n).1.Perm (recordsOf n k l) := by
  obtain ⟨h1, h2, h3⟩ := extractRecords_spec l k n
  have h4 := h1.filter fun r => decide (r.node = n ∧ r.recordType = k)
  rw [List.filter_append, List.filter_eq_self.2 fun r hr => by simpa using isWanted_iff.1 (h2 r hr),
    List.filter_eq_nil_iff.2 fun r hr hx => Bool.false_ne_true ((h3 r hr).symm.trans (isWanted_iff.2 (by simpa using hx))), List.append_nil] at h4
  exact h4

theorem left_recordsOf {l : List Record} {k : RecordType} {t t' : Name} (h : t' ≠ t) :
    (recordsOf t' k (extractRecords l k t).2).Perm (recordsOf t' k l) := by
  obtain ⟨h1, h2, h3⟩ := extractRecords_spec l k t
  have h4 := h1.filter fun r => decide (r.node = t' ∧ r.recordType = k)
  rw [List.filter_append, List.filter_eq_nil_iff.2 fun r hr hx => by
    have e1 := (isWanted_iff.1 (h2 r hr)).1
    have e2 : r.node = t' := by
      rw [decide_eq_true_eq] at hx
      exact hx.1
    exact h (e2.symm.trans e1), List.nil_append] at h4
  exact h4

/-! ## A world that stays in order -/

/-- The world is in order, and the addresses of these hosts stay in the cache. -/
structure Orderly (env : Env) (N : NameSpace) (start stop : Nat) (X : List Name) (w : World) : Prop where
  span : ∀ i, w.ticks ≤ i → start ≤ env.clock i ∧ env.clock i ≤ stop
  cache : N.Coherent start stop w.cache
  fresh : Fresh (env.clock w.ticks) w.cache
  keep : ∀ t ∈ X, Alive stop w.cache (t, .A)

/-- The computation succeeds, the world stays in order, the result satisfies `Q`. -/
def Works (I : World → Prop) (m : M α) (Q : α → Prop) : Prop := ∀ w, I w → ∃ a w', m w = (.ok a, w') ∧ I w' ∧ Q a

/-- The computation returns an error, the world stays in order. -/
def Flops (I : World → Prop) (m : M α) : Prop := ∀ w, I w → ∃ e w', m w = (.err e, w') ∧ I w'

variable {I : World → Prop}

theorem Works.bind {m : M α} {f : α → M β} {Q : α → Prop} {Q' : β → Prop} (h : Works I m Q) (hf : ∀ a, Q a → Works I (f a) Q') :
    Works I (m >>= f) Q' := by
  intro w hw
  obtain ⟨a, w', e, hw', hq⟩ := h w hw
  rw [bind_at e]
  exact hf a hq w' hw'

theorem Works.then_flops {m : M α} {f : α → M β} {Q : α → Prop} (h : Works I m Q) (hf : ∀ a, Q a → Flops I (f a)) :
    Flops I (m >>= f) := by
  intro w hw
  obtain ⟨a, w', e, hw', hq⟩ := h w hw
  rw [bind_at e]
  exact hf a hq w' hw'

theorem Works.mono {m : M α} {Q Q' : α → Prop} (h : Works I m Q) (hq : ∀ a, Q a → Q' a) : Works I m Q' := by
  intro w hw
  obtain ⟨a, w', e, hw', h'⟩ := h w hw
  exact ⟨a, w', e, hw', hq a h'⟩

theorem Works.pure {Q : α → Prop} {a : α} (h : Q a) : Works I (Pure.pure a : M α) Q := fun w hw => ⟨a, w, rfl, hw, h⟩

theorem Works.lift {Q : α → Prop} {o : Out LookupErr α} {a : α} (h : o = .ok a) (hq : Q a) : Works I (M.lift o) Q :=
  fun w hw => ⟨a, w, by rw [h]; rfl, hw, hq⟩

theorem Works.attempt {m : M α} {Q : α → Prop} (h : Works I m Q) : Works I (M.attempt m) (fun x => ∃ a, x = .inr a ∧ Q a) := by
  intro w hw
  obtain ⟨a, w', e, hw', h'⟩ := h w hw
  exact ⟨_, w', attempt_ok_at e, hw', a, rfl, h'⟩

theorem Flops.attempt {m : M α} (h : Flops I m) : Works I (M.attempt m) (fun x => ∃ e, x = .inl e) := by
  intro w hw
  obtain ⟨e, w', he, hw'⟩ := h w hw
  exact ⟨_, w', attempt_err_at he, hw', e, rfl⟩

/-- The computation leaves the cache alone. -/
def Still (m : M α) : Prop := ∀ w, (m w).2.cache = w.cache ∧ w.ticks ≤ (m w).2.ticks

theorem fresh_later {t t' : Nat} {c : RecordsCache} (h : Fresh t c) (ht : t ≤ t') : Fresh t' c := by
  intro key exp rs hf
  have := h _ _ _ hf
  omega

theorem Orderly.still {X : List Name} {w w' : World} (h : Orderly env N start stop X w) (hc : w'.cache = w.cache) (ht : w.ticks ≤ w'.ticks) :
    Orderly env N start stop X w' := by
  refine ⟨fun i hi => h.span i (by omega), by rw [hc]; exact h.cache, ?_, fun t ht' => by rw [hc]; exact h.keep t ht'⟩
  rw [hc]
  exact fresh_later h.fresh (env.mono _ _ ht)

theorem Works.of_does {X : List Name} {m : M α} {Q : α → Prop} (h : Does m Q) (hs : Still m) : Works (Orderly env N start stop X) m Q := by
  intro w hw
  obtain ⟨a, w', e, hq⟩ := h w
  have := hs w
  rw [e] at this
  exact ⟨a, w', e, hw.still this.1 this.2, hq⟩

theorem Flops.of_fails {X : List Name} {m : M α} (h : Fails m) (hs : Still m) : Flops (Orderly env N start stop X) m := by
  intro w hw
  obtain ⟨e, w', he⟩ := h w
  have := hs w
  rw [he] at this
  exact ⟨e, w', he, hw.still this.1 this.2⟩

theorem Still.bind {m : M α} {f : α → M β} (h : Still m) (hf : ∀ a, Still (f a)) : Still (m >>= f) := by
  intro w
  have h1 := h w
  cases hm : m w with
  | mk o w' =>
    rw [hm] at h1
    cases o with
    | ok a =>
      rw [bind_at hm]
      have h2 := hf a w'
      exact ⟨h2.1.trans h1.1, Nat.le_trans h1.2 h2.2⟩
    | err e =>
      rw [bind_err_at hm]
      exact h1
    | panic k =>
      have : (m >>= f) w = (.panic k, w') := by
        show (match m w with
          | (.ok a, w') => f a w'
          | (.err e, w') => (.err e, w')
          | (.panic k, w') => (.panic k, w')
          | (.diverge, w') => (.diverge, w') : Out LookupErr β × World) = _
        rw [hm]
      rw [this]
      exact h1
    | diverge =>
      have : (m >>= f) w = (.diverge, w') := by
        show (match m w with
          | (.ok a, w') => f a w'
          | (.err e, w') => (.err e, w')
          | (.panic k, w') => (.panic k, w')
          | (.diverge, w') => (.diverge, w') : Out LookupErr β × World) = _
        rw [hm]
      rw [this]
      exact h1

theorem Still.lift (o : Out LookupErr α) : Still (M.lift o) := fun _ => ⟨rfl, Nat.le_refl _⟩

theorem Still.pure (a : α) : Still (Pure.pure a : M α) := fun _ => ⟨rfl, Nat.le_refl _⟩

theorem Still.emit (e : Event) : Still (M.emit e) := fun _ => ⟨rfl, Nat.le_refl _⟩

theorem Still.randomId : Still (randomId env) := fun _ => ⟨rfl, Nat.le_succ _⟩

theorem Still.attempt {m : M α} (h : Still m) : Still (M.attempt m) := by
  intro w
  have h1 := h w
  have e : (M.attempt m w).2 = (m w).2 := by
    unfold M.attempt
    generalize m w = x
    obtain ⟨o, w'⟩ := x
    cases o <;> rfl
  rw [e]
  exact h1

theorem sendUdp_still (ns : NextNs) (q : List UInt8) : Still (sendUdpPacket env ns q) := by
  unfold sendUdpPacket
  refine (Still.lift _).bind fun addrs => ?_
  cases addrs with
  | nil => exact Still.lift _
  | cons a as =>
    simp only [List.head?_cons]
    intro w
    simp only
    generalize env.net w.log a q = x
    cases x <;> exact ⟨rfl, Nat.le_refl _⟩

theorem sendRetries_still (ns : NextNs) (node : Name) (kind : RecordType) :
    ∀ (n : Nat) (e : Option LookupErr), Still (sendQueryWithRetries env p ns node kind n e)
  | 0, some _ => Still.lift _
  | 0, none => Still.lift _
  | n + 1, e => by
    unfold sendQueryWithRetries
    refine Still.bind (Still.attempt ?_) fun x => ?_
    · unfold sendQuery
      exact Still.randomId.bind fun _ => (Still.lift _).bind fun _ => (sendUdp_still ns _).bind fun _ => Still.lift _
    · cases x with
      | inr r => exact Still.pure r
      | inl e' => exact sendRetries_still ns node kind n (some e')

theorem performRequest_still (ns : NextNs) (node : Name) (kind : RecordType) (n : Nat) : Still (performRequest env p ns node kind n) := by
  unfold performRequest
  exact (sendRetries_still ns node kind n none).bind fun _ => Still.lift _

/-! ## The cache -/

theorem getClone_living {c : RecordsCache} {key key' : Name × RecordType} {t : Nat} (ht : t ≤ stop) (h : Alive stop c key') :
    Alive stop (c.getClone key t).1 key' := by
  obtain ⟨e, rs, hf, he⟩ := h
  refine ⟨e, rs, ?_, he⟩
  unfold Cache.getClone
  cases hk : c.find key with
  | none => exact hf
  | some x =>
    simp only
    by_cases hx : Cache.isExpired x.1 t = true
    · rw [if_pos hx, Cache.find_erase]
      by_cases hkk : key = key'
      · subst hkk
        rw [hf] at hk
        injection hk with hk
        subst hk
        unfold Cache.isExpired at hx
        simp at hx
        omega
      · rw [if_neg hkk]
        exact hf
    · rw [if_neg hx]
      exact hf

theorem getClone_coherent {c : RecordsCache} {key : Name × RecordType} {t : Nat} (ht : t ≤ stop) (h : N.Coherent start stop c) :
    N.Coherent start stop (c.getClone key t).1 where
  uniform hf := h.uniform (mem_getClone hf)
  answers ha hf := h.answers ha (mem_getClone hf)
  aliases ha hf := h.aliases ha (mem_getClone hf)
  hosts ha hf := h.hosts ha (mem_getClone hf)
  zones ha hu hf hs := by
    obtain ⟨h1, h2, h3, h4, h5⟩ := h.zones ha hu (mem_getClone hf) hs
    exact ⟨h1, h2, h3, h4, fun t ht' => (h5 t ht').imp_left (getClone_living ht)⟩

/-- What a search finds: nothing, if the entry is not alive; otherwise the records, with other TTLs. -/
theorem search_works (hc : N.Companions env start stop) {X : List Name} (hX : ∀ t ∈ X, ∃ z, t ∈ N.nameservers z) {w : World}
    (h : Orderly env N start stop X w) (n : Name) (k : RecordType) :
    ∃ rs w' c, searchRecordsInCache env n k w = (.ok rs, w') ∧ Orderly env N start stop X w' ∧ N.Coherent start stop c ∧
      (∀ t ∈ X, Alive stop c (t, .A)) ∧ (∀ t, Alive stop c (t, .A) → Alive stop w'.cache (t, .A)) ∧
      ((rs = [] ∧ ∀ exp records, c.find (n, k) = some (exp, records) → stop < exp → records = []) ∨
       ∃ exp records, c.find (n, k) = some (exp, records) ∧ start < exp ∧ rs.map bare = records.map bare) := by
  have hcoh := hc.coherent (w.ticks + 1) _ h.cache
  have hal : ∀ t ∈ X, Alive stop (env.others (w.ticks + 1) w.cache) (t, .A) := fun t ht => by
    obtain ⟨z, hz⟩ := hX t ht
    exact hc.alive _ _ t z hz h.cache (h.keep t ht)
  have hfr := hc.fresh (w.ticks + 1) _ (fresh_later h.fresh (env.mono _ _ (Nat.le_succ _)))
  have hN : 0 < NANOS := by decide
  have hex : ExpiresBy (env.clock w.ticks) (env.others (w.ticks + 1) w.cache) := by
    refine hc.prompt _ _ ?_
    intro key e rs hf
    have := h.fresh _ _ _ hf
    have : (2 ^ 32 - 1) * NANOS + NANOS = 2 ^ 32 * NANOS := by decide
    omega
  have ht2 := h.span (w.ticks + 2) (by omega)
  have hcalm : Orderly env N start stop X
      ⟨((env.others (w.ticks + 1) w.cache).getClone (n, k) (env.clock (w.ticks + 2))).1, w.ticks + 3, w.log⟩ :=
    ⟨fun i hi => h.span i (by simp only at hi; omega), getClone_coherent ht2.2 hcoh,
      fun _ _ _ hf => fresh_later hfr (env.mono (w.ticks + 1) (w.ticks + 3) (by omega)) _ _ _ (mem_getClone hf), fun t ht => getClone_living ht2.2 (hal t ht)⟩
  have heq := searchRecords_eq (env := env) (w := w) n k
  simp only at heq
  cases hr : ((env.others (w.ticks + 1) w.cache).getClone (n, k) (env.clock (w.ticks + 2))).2 with
  | none =>
    rw [hr] at heq
    refine ⟨_, _, env.others (w.ticks + 1) w.cache, heq, hcalm, hcoh, hal, fun t ht => getClone_living ht2.2 ht, .inl ⟨rfl, ?_⟩⟩
    intro exp records hf hs
    exfalso
    unfold Cache.getClone at hr
    rw [hf] at hr
    simp only at hr
    have : Cache.isExpired exp (env.clock (w.ticks + 2)) = false := by
      unfold Cache.isExpired
      simp
      omega
    rw [this] at hr
    cases hr
  | some e =>
    obtain ⟨exp, records⟩ := e
    obtain ⟨hf, hlt⟩ := getClone_some hr
    rw [hr] at heq
    have hlt : env.clock (w.ticks + 2) < exp := hlt
    have hst : start < exp := by omega
    have hbefore : env.clock w.ticks < exp := Nat.lt_of_le_of_lt (env.mono _ _ (by omega)) hlt
    have hb := hex _ _ _ hf
    have hq : (exp - env.clock w.ticks) / NANOS < 2 ^ 32 := by
      apply Nat.div_lt_of_lt_mul
      rw [Nat.mul_comm]
      omega
    obtain ⟨hty, httl⟩ := hcoh.uniform hf hst
    have hsv : ∃ rs, serveCached (env.clock w.ticks) exp records = .ok rs ∧ rs.map bare = records.map bare := by
      unfold serveCached
      cases records with
      | nil => exact ⟨[], rfl, rfl⟩
      | cons r0 rest =>
        have hall : ((r0 :: rest).all fun r => r.recordType == r0.recordType && r.ttl == r0.ttl) = true := by
          rw [List.all_eq_true]
          intro r hr
          rw [hty r hr, hty r0 (by simp), httl r hr r0 (by simp)]
          simp
        simp only
        rw [if_neg (by rw [hall]; simp), if_neg (by omega), if_neg (by omega)]
        exact ⟨_, rfl, map_bare_setTtl _ _⟩
    obtain ⟨rs, hrs, hbare⟩ := hsv
    simp only [hrs] at heq
    exact ⟨_, _, env.others (w.ticks + 1) w.cache, heq, hcalm, hcoh, hal, fun t ht => getClone_living ht2.2 ht,
      .inr ⟨exp, records, hf, hst, hbare⟩⟩

theorem put_alive {c : RecordsCache} {key key' : Name × RecordType} {e : Nat} {v : List Record} (h : Alive stop c key')
    (hk : key = key' → stop < e) : Alive stop (c.put key (e, v)) key' := by
  by_cases hkk : key = key'
  · exact ⟨e, v, by rw [Cache.find_put, if_pos hkk], hk hkk⟩
  · obtain ⟨e', rs, hf, he⟩ := h
    exact ⟨e', rs, by rw [Cache.find_put, if_neg hkk]; exact hf, he⟩

/-- An entry may be put into the cache. -/
structure Fit (N : NameSpace) (stop : Nat) (c : RecordsCache) (n : Name) (k : RecordType) (e : Nat) (v : List Record) : Prop where
  answers : N.asked n k → ∃ l, N.fate n k = .found l ∧ Same v l
  aliases : k = .CNAME → ∀ k', N.asked n k' → ∃ cname, N.fate n k' = .alias cname ∧ Same v [cname]
  hosts : k = .A → ∀ z, n ∈ N.nameservers z → stop < e ∧ Same v (N.hosts n)
  zones : k = .NS → stop < e ∧ N.Zone n ∧ (∀ r ∈ v, r.node = n) ∧ (targets v).Perm (N.nameservers n) ∧
    ∀ t ∈ N.nameservers n, Alive stop c (t, .A) ∨ N.Free t n

theorem put_coherent {c : RecordsCache} {n : Name} {k : RecordType} {e : Nat} {v : List Record} (h : N.Coherent start stop c)
    (hty : ∀ r ∈ v, r.recordType = k) (httl : ∀ r ∈ v, ∀ r' ∈ v, r.ttl = r'.ttl) (hfit : Fit N stop c n k e v) :
    N.Coherent start stop (c.put (n, k) (e, v)) where
  uniform {key exp rs} hf hs := by
    rw [Cache.find_put] at hf
    by_cases hk : (n, k) = key
    · rw [if_pos hk] at hf
      injection hf with hf
      injection hf with h1 h2
      subst h1 h2 hk
      exact ⟨hty, httl⟩
    · rw [if_neg hk] at hf
      exact h.uniform hf hs
  answers {n' k' exp rs} ha hf hs := by
    rw [Cache.find_put] at hf
    by_cases hk : (n, k) = (n', k')
    · rw [if_pos hk] at hf
      injection hf with hf
      injection hf with h1 h2
      injection hk with h3 h4
      subst h1 h2 h3 h4
      exact hfit.answers ha
    · rw [if_neg hk] at hf
      exact h.answers ha hf hs
  aliases {n' k' exp rs} ha hf hs := by
    rw [Cache.find_put] at hf
    by_cases hk : (n, k) = (n', .CNAME)
    · rw [if_pos hk] at hf
      injection hf with hf
      injection hf with h1 h2
      injection hk with h3 h4
      subst h1 h2 h3
      exact hfit.aliases h4 k' ha
    · rw [if_neg hk] at hf
      exact h.aliases ha hf hs
  hosts {t z exp rs} ht hf hs := by
    rw [Cache.find_put] at hf
    by_cases hk : (n, k) = (t, .A)
    · rw [if_pos hk] at hf
      injection hf with hf
      injection hf with h1 h2
      injection hk with h3 h4
      subst h1 h2 h3
      exact hfit.hosts h4 z ht
    · rw [if_neg hk] at hf
      exact h.hosts ht hf hs
  zones {n' k' z exp rs} ha hu hf hs := by
    have keep : ∀ z, N.Zone z → ∀ t ∈ N.nameservers z, Alive stop c (t, .A) ∨ N.Free t z →
        Alive stop (c.put (n, k) (e, v)) (t, .A) ∨ N.Free t z := fun z _ t ht h => h.imp_left fun h => put_alive h fun hk => by
      injection hk with h3 h4
      subst h3
      exact (hfit.hosts h4 z ht).1
    rw [Cache.find_put] at hf
    by_cases hk : (n, k) = (z, .NS)
    · rw [if_pos hk] at hf
      injection hf with hf
      injection hf with h1 h2
      injection hk with h3 h4
      subst h1 h2 h3
      obtain ⟨g1, g2, g3, g4, g5⟩ := hfit.zones h4
      exact ⟨g1, g2, g3, g4, fun t ht => keep _ g2 t ht (g5 t ht)⟩
    · rw [if_neg hk] at hf
      obtain ⟨g1, g2, g3, g4, g5⟩ := h.zones ha hu hf hs
      exact ⟨g1, g2, g3, g4, fun t ht => keep _ g2 t ht (g5 t ht)⟩

/-- Saving records that fit. -/
theorem save_works (hc : N.Companions env start stop) {X : List Name} (hX : ∀ t ∈ X, ∃ z, t ∈ N.nameservers z) {r0 : Record}
    {rs : List Record} (hty : ∀ r ∈ rs, r.recordType = r0.recordType) {w : World} (h : Orderly env N start stop X w)
    (hfit : ∀ c e v, (∀ t ∈ X, Alive stop c (t, .A)) → Same v (r0 :: rs) → v.map bare = (r0 :: rs).map bare →
      ((∀ r ∈ r0 :: rs, Lasting (stop - start) r) → stop < e) → Fit N stop c r0.node r0.recordType e v) :
    ∃ w', saveRecordsInCache env (r0 :: rs) w = (.ok (), w') ∧ Orderly env N start stop X w' ∧
      ∃ e v, w'.cache.find (r0.node, r0.recordType) = some (e, v) ∧ ((∀ r ∈ r0 :: rs, Lasting (stop - start) r) → stop < e) := by
  have hcoh := hc.coherent w.ticks _ h.cache
  have hal : ∀ t ∈ X, Alive stop (env.others w.ticks w.cache) (t, .A) := fun t ht => by
    obtain ⟨z, hz⟩ := hX t ht
    exact hc.alive _ _ t z hz h.cache (h.keep t ht)
  have hfr := hc.fresh w.ticks _ h.fresh
  have ht1 := h.span (w.ticks + 1) (by omega)
  have hlast : (∀ r ∈ r0 :: rs, Lasting (stop - start) r) → stop < env.clock (w.ticks + 1) + (minTtl r0.ttl rs).toNat * NANOS := by
    intro hl
    have hmin : ∀ (m : UInt32) (l : List Record), stop - start < m.toNat * NANOS → (∀ r ∈ l, Lasting (stop - start) r) →
        stop - start < (minTtl m l).toNat * NANOS := by
      intro m l
      induction l generalizing m with
      | nil => exact fun hm _ => hm
      | cons r l ih =>
        intro hm hl
        unfold minTtl
        refine ih _ ?_ fun x hx => hl x (by simp [hx])
        by_cases hr : r.ttl < m
        · rw [if_pos hr]
          exact hl r (by simp)
        · rw [if_neg hr]
          exact hm
    have := hmin r0.ttl rs (hl r0 (by simp)) fun r hr => hl r (by simp [hr])
    omega
  have hbare := map_bare_setTtl (r0 :: rs) (minTtl r0.ttl rs)
  have hf := hfit (env.others w.ticks w.cache) _ _ hal (same_setTtl (r0 :: rs) (minTtl r0.ttl rs)) hbare hlast
  have hput := put_coherent hcoh (fun r hr => by
      obtain ⟨r', hr', rfl⟩ := List.mem_map.1 hr
      rcases List.mem_cons.1 hr' with rfl | hr'
      · rfl
      · exact hty r' hr')
    (fun r hr r' hr' => by
      obtain ⟨x, -, rfl⟩ := List.mem_map.1 hr
      obtain ⟨y, -, rfl⟩ := List.mem_map.1 hr'
      rfl) hf
  rw [saveRecords_eq hty, find_set]
  refine ⟨_, rfl, ⟨fun i hi => h.span i (by simp only at hi; omega), hput, ?_, ?_⟩, _, _, by rw [Cache.find_put, if_pos rfl], hlast⟩
  · intro key exp v hfd
    simp only [Cache.find_put] at hfd
    by_cases hk : (r0.node, r0.recordType) = key
    · rw [if_pos hk] at hfd
      injection hfd with hfd
      injection hfd with h1 h2
      subst h1
      have h3 := (minTtl r0.ttl rs).toNat_lt
      have h4 : (minTtl r0.ttl rs).toNat * NANOS ≤ (2 ^ 32 - 1) * NANOS := Nat.mul_le_mul_right _ (by omega)
      have h5 : env.clock (w.ticks + 1) ≤ env.clock (w.ticks + 3) := env.mono _ _ (by omega)
      show _ ≤ env.clock (w.ticks + 3) + _
      omega
    · rw [if_neg hk] at hfd
      exact fresh_later hfr (env.mono w.ticks (w.ticks + 3) (by omega)) _ _ _ hfd
  · intro t ht
    refine put_alive (hal t ht) fun hk => ?_
    injection hk with h1 h2
    obtain ⟨z, hz⟩ := hX t ht
    subst h1
    exact (hf.hosts h2 z hz).1

end Ariadne.Resolver
