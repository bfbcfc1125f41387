import Verif.Lemmas.Tasks
import Verif.Lemmas.Requests

/-! # What holds of a lookup in an arbitrary world holds of lookups in threads -/

namespace Ariadne.Resolver

open Spec

/-! ## Worlds prolonged -/

/-- The environment up to a tick, then another: the clock shows `τ₁` twice and then always `τ₂`; other threads do `F`, then
nothing, and then always `G`. -/
def Env.prolong (e : Env) (T τ₁ τ₂ : Nat) (F G : RecordsCache → RecordsCache) (id : UInt16) (h : (∀ k < T, e.clock k ≤ τ₁) ∧ τ₁ ≤ τ₂) : Env where
  clock k := if k < T then e.clock k else if k < T + 2 then τ₁ else τ₂
  mono i j hij := by
    show (if i < T then e.clock i else if i < T + 2 then τ₁ else τ₂) ≤ if j < T then e.clock j else if j < T + 2 then τ₁ else τ₂
    have h1 := h.1 i
    have h2 := e.mono i j hij
    have h3 := h.2
    by_cases hi : i < T
    · rw [if_pos hi]
      have := h1 hi
      by_cases hj : j < T
      · rw [if_pos hj]; exact h2
      · rw [if_neg hj]; split <;> omega
    · rw [if_neg hi, if_neg (by omega : ¬ j < T)]
      split <;> split <;> omega
  others k := if k < T then e.others k else if k = T then F else if k = T + 1 then fun c => c else G
  ids k := if k < T then e.ids k else id
  net := e.net

/-- The worlds agree before a tick. -/
def Agree (T : Nat) (e e' : Env) : Prop :=
  e'.net = e.net ∧ ∀ k < T, e'.clock k = e.clock k ∧ e'.others k = e.others k ∧ e'.ids k = e.ids k

theorem Agree.mono {T T' : Nat} {e e' : Env} (h : Agree T e e') (ht : T' ≤ T) : Agree T' e e' :=
  ⟨h.1, fun k hk => h.2 k (by omega)⟩

theorem Agree.trans {T : Nat} {e e' e'' : Env} (h : Agree T e e') (h' : Agree T e' e'') : Agree T e e'' :=
  ⟨h'.1.trans h.1, fun k hk => ⟨(h'.2 k hk).1.trans (h.2 k hk).1, (h'.2 k hk).2.1.trans (h.2 k hk).2.1, (h'.2 k hk).2.2.trans (h.2 k hk).2.2⟩⟩

theorem prolong_agree (e : Env) (T τ₁ τ₂ : Nat) (F G : RecordsCache → RecordsCache) (id : UInt16) (h : (∀ k < T, e.clock k ≤ τ₁) ∧ τ₁ ≤ τ₂) :
    Agree T e (e.prolong T τ₁ τ₂ F G id h) :=
  ⟨rfl, fun k hk => ⟨if_pos hk, if_pos hk, if_pos hk⟩⟩

/-! ## Assumptions -/

/-- A theory of lookups: what caches are like at a time (`I`, kept by lookups; `L`, limits), what other threads may do to them
(`K`), which times occur (`R`). Records filed under `k₁` or `k₂` that do not belong there (`junk`) are incompatible with `I`. -/
structure Theory where
  I : Nat → RecordsCache → Prop
  L : Nat → RecordsCache → Prop
  K : RecordsCache → RecordsCache → Prop
  R : Nat → Prop
  k₁ : Name × RecordType
  k₂ : Name × RecordType
  junk : List Record
  apart : k₁ ≠ k₂
  spoils : ∀ {t c exp}, R t → t < exp → c.find k₁ = some (exp, junk) ∨ c.find k₂ = some (exp, junk) → ¬ I t c
  monoI : ∀ {t t' c}, t ≤ t' → R t → R t' → I t c → I t' c
  monoL : ∀ {t t' c}, t ≤ t' → R t → R t' → L t c → L t' c
  refl : ∀ c, K c c
  trans : ∀ {c c' c''}, K c c' → K c' c'' → K c c''
  get : ∀ {t c key}, R t → I t c → L t c → I t (c.getClone key t).1 ∧ K c (c.getClone key t).1
  clean : ∀ {t t' c r}, R t → R t' → t ≤ t' → (∀ key, t ≤ r key ∧ r key ≤ t') → I t c → L t c → I t' (c.clean r) ∧ K c (c.clean r)
  set : ∀ {t t' c key ttl records}, R t → R t' → t ≤ t' → I t c → L t c → I t' (c.set key ttl records t t').1 → K c (c.set key ttl records t t').1

namespace Theory

variable (θ : Theory)

/-- A cache with junk in it. -/
def bad (t : Nat) : RecordsCache := (Cache.empty.put θ.k₁ (t + 1, θ.junk)).put θ.k₂ (t + 1, θ.junk)

/-- Other threads leave the cache alone, or make a cache that the theory allows, unless it was already spoilt. -/
def Meddles (env : Env) : Prop :=
  ∀ k c, env.others k c = c ∨ (θ.I (env.clock k) (env.others k c) ∧ θ.K c (env.others k c) ∧ θ.L (env.clock k) (env.others k c)) ∨
    (¬ θ.I (env.clock k) c ∧ env.others k c = θ.bad (env.clock k))

/-- The cache has junk in it, at one of the keys. -/
def Spoilt (t : Nat) (c : RecordsCache) : Prop := c.find θ.k₁ = some (t + 1, θ.junk) ∨ c.find θ.k₂ = some (t + 1, θ.junk)

theorem bad_find (t : Nat) : (θ.bad t).find θ.k₁ = some (t + 1, θ.junk) ∧ (θ.bad t).find θ.k₂ = some (t + 1, θ.junk) := by
  unfold bad
  rw [Cache.find_put, Cache.find_put, Cache.find_put, if_neg (Ne.symm θ.apart), if_pos rfl, if_pos rfl]
  exact ⟨rfl, rfl⟩

theorem bad_get (t : Nat) (key : Name × RecordType) : θ.Spoilt t ((θ.bad t).getClone key t).1 := by
  have h := θ.bad_find t
  unfold Cache.getClone
  cases hf : (θ.bad t).find key with
  | none => exact Or.inl h.1
  | some e =>
    dsimp only
    split
    · left
      rw [Cache.find_erase]
      split
      · rename_i he hk
        subst hk
        rw [h.1] at hf
        injection hf with hf
        subst hf
        simp [Cache.isExpired] at he
      · exact h.1
    · exact Or.inl h.1

theorem bad_set (t ttl : Nat) (key : Name × RecordType) (records : List Record) : θ.Spoilt t ((θ.bad t).set key ttl records t t).1 := by
  have h := θ.bad_find t
  rw [find_set]
  unfold Spoilt
  rw [Cache.find_put, Cache.find_put]
  by_cases hk : key = θ.k₁
  · right
    rw [if_neg (by rw [hk]; exact θ.apart)]
    exact h.2
  · left
    rw [if_neg hk]
    exact h.1

open Classical in
/-- What the last meddler does: everything not allowed is spoilt for good. -/
noncomputable def spoil (t : Nat) (c : RecordsCache) : RecordsCache := if θ.I t c then c else θ.bad t

/-- A cache that is spoilt stays so. -/
theorem run_spoilt {env : Env} {T τ : Nat} (hR : θ.R τ) (hc : ∀ k, T ≤ k → env.clock k = τ) (ho : ∀ k, T ≤ k → env.others k = θ.spoil τ) {α : Type}
    (task : Task α) : ∀ w : World, T ≤ w.ticks → ¬ θ.I τ w.cache →
      ¬ θ.I (env.clock (task.run env w).2.ticks) (task.run env w).2.cache := by
  have hsp : ∀ c, θ.Spoilt τ c → ¬ θ.I τ c := fun c h => θ.spoils hR (Nat.lt_succ_self _) h
  have hbad : ∀ c, ¬ θ.I τ c → θ.spoil τ c = θ.bad τ := fun c h => if_neg h
  induction task with
  | done o => intro w hw hI; show ¬ θ.I (env.clock w.ticks) w.cache; rw [hc _ hw]; exact hI
  | emit e k ih => exact fun w hw hI => ih _ hw hI
  | now k ih => exact fun w hw hI => ih _ _ (Nat.le_succ_of_le hw) hI
  | randomId k ih => exact fun w hw hI => ih _ _ (Nat.le_succ_of_le hw) hI
  | send addr bytes k ih => exact fun w hw hI => ih _ _ hw hI
  | get key k ih =>
    intro w hw hI
    refine ih _ ⟨_, w.ticks + 2, w.log⟩ (by show T ≤ w.ticks + 2; omega) ?_
    show ¬ θ.I τ ((env.others w.ticks w.cache).getClone key (env.clock (w.ticks + 1))).1
    rw [ho _ hw, hc _ (by omega), hbad _ hI]
    exact hsp _ (θ.bad_get τ key)
  | set key ttl records k ih =>
    intro w hw hI
    refine ih ⟨_, w.ticks + 3, w.log⟩ (by show T ≤ w.ticks + 3; omega) ?_
    show ¬ θ.I τ ((env.others w.ticks w.cache).set key (ttl.toNat * NANOS) records (env.clock (w.ticks + 1)) (env.clock (w.ticks + 2))).1
    rw [ho _ hw, hc _ (by omega), hc _ (by omega), hbad _ hI]
    exact hsp _ (θ.bad_set τ _ key records)

/-! ## Threads -/

/-- What the threads have in common with single lookups. -/
structure Setting (α : Type) where
  S : Schedule
  net : Nat → List Event → Ip4 → List UInt8 → Option (List UInt8)
  s : System α
  Post : Nat → Out LookupErr α → List Event → Prop
  times : ∀ n, θ.R (S.time n) ∧ θ.R (S.time' n)
  allowed : θ.I (S.time 0) s.cache
  logs : ∀ i, (s.threads i).log = []
  single : ∀ i env o w', env.net = net i → (∀ k, θ.R (env.clock k)) → θ.Meddles env → θ.I (env.clock 0) s.cache → θ.L (env.clock 0) s.cache →
    (s.threads i).task.run env ⟨s.cache, 0, []⟩ = (o, w') → θ.I (env.clock w'.ticks) w'.cache ∧ Post i o w'.log

variable {θ} {α : Type}

/-- The system after so many events. -/
abbrev Setting.after (A : θ.Setting α) (n : Nat) : System α := System.after A.S A.net A.s n

/-- The thread's history is that of a single lookup in some world. -/
def Setting.Explained (A : θ.Setting α) (i n : Nat) : Prop :=
  ∃ (e : Env) (T : Nat) (view : RecordsCache), e.net = A.net i ∧ (∀ k, θ.R (e.clock k)) ∧ θ.Meddles e ∧ (∀ k < T, e.clock k ≤ A.S.time n) ∧
    A.S.time 0 ≤ e.clock 0 ∧ θ.I (A.S.time n) view ∧ θ.K view (A.after n).cache ∧
    ∀ env, Agree T e env → (A.s.threads i).task.run env ⟨A.s.cache, 0, []⟩ =
      ((A.after n).threads i).task.run env ⟨view, T, ((A.after n).threads i).log⟩

variable (A : θ.Setting α)

theorem Setting.time_mono (n : Nat) : A.S.time n ≤ A.S.time (n + 1) := (A.S.forward n).1.trans (A.S.forward n).2

theorem Setting.time_zero : ∀ n, A.S.time 0 ≤ A.S.time n
  | 0 => Nat.le_refl _
  | n + 1 => (time_zero n).trans (A.time_mono n)

/-- The other threads and the cleaner have done something, this one nothing. -/
theorem Setting.Explained.others {A : θ.Setting α} {i n : Nat} (h : A.Explained i n) (ht : (A.after (n + 1)).threads i = (A.after n).threads i)
    (hk : θ.K (A.after n).cache (A.after (n + 1)).cache) : A.Explained i (n + 1) := by
  obtain ⟨e, T, view, h1, h2, h3, h4, h5, h6, h7, h8⟩ := h
  exact ⟨e, T, view, h1, h2, h3, fun k hk => (h4 k hk).trans (A.time_mono n), h5, θ.monoI (A.time_mono n) (A.times _).1 (A.times _).1 h6,
    θ.trans h7 hk, fun env he => by rw [ht]; exact h8 env he⟩

/-- Between two accesses of a thread to the cache, all others: the cache as seen, turned into that it is. -/
def seen (view cache : RecordsCache) (c : RecordsCache) : RecordsCache := if c = view then cache else c

theorem prolong_times {e : Env} {T τ₁ τ₂ : Nat} {F G : RecordsCache → RecordsCache} {id : UInt16} {h : (∀ k < T, e.clock k ≤ τ₁) ∧ τ₁ ≤ τ₂}
    (hR : ∀ k, θ.R (e.clock k)) (h1 : θ.R τ₁) (h2 : θ.R τ₂) : ∀ k, θ.R ((e.prolong T τ₁ τ₂ F G id h).clock k) := by
  intro k
  show θ.R (if k < T then e.clock k else if k < T + 2 then τ₁ else τ₂)
  split
  · exact hR k
  · split
    · exact h1
    · exact h2

theorem prolong_zero {e : Env} {T τ₁ τ₂ : Nat} {F G : RecordsCache → RecordsCache} {id : UInt16} {h : (∀ k < T, e.clock k ≤ τ₁) ∧ τ₁ ≤ τ₂}
    {t : Nat} (h0 : t ≤ e.clock 0) (h1 : t ≤ τ₁) : t ≤ (e.prolong T τ₁ τ₂ F G id h).clock 0 := by
  show t ≤ if 0 < T then e.clock 0 else if 0 < T + 2 then τ₁ else τ₂
  split
  · exact h0
  · split
    · exact h1
    · omega

/-- The prolonged world is one of those the theory speaks of. -/
theorem prolong_meddles {e : Env} {T τ₁ τ₂ : Nat} {view cache : RecordsCache} {G : RecordsCache → RecordsCache} {id : UInt16}
    {h : (∀ k < T, e.clock k ≤ τ₁) ∧ τ₁ ≤ τ₂} (hm : θ.Meddles e) (hI : θ.I τ₁ cache) (hL : θ.L τ₁ cache) (hK : θ.K view cache)
    (hG : ∀ c, G c = c ∨ (¬ θ.I τ₂ c ∧ G c = θ.bad τ₂)) : θ.Meddles (e.prolong T τ₁ τ₂ (seen view cache) G id h) := by
  intro k c
  by_cases hk : k < T
  · have e1 : (e.prolong T τ₁ τ₂ (seen view cache) G id h).clock k = e.clock k := if_pos hk
    have e2 : (e.prolong T τ₁ τ₂ (seen view cache) G id h).others k = e.others k := if_pos hk
    rw [e1, e2]
    exact hm k c
  by_cases hk' : k = T
  · have e1 : (e.prolong T τ₁ τ₂ (seen view cache) G id h).clock k = τ₁ := by
      show (if k < T then e.clock k else if k < T + 2 then τ₁ else τ₂) = τ₁
      rw [if_neg hk, if_pos (by omega)]
    have e2 : (e.prolong T τ₁ τ₂ (seen view cache) G id h).others k = seen view cache := by
      show (if k < T then e.others k else if k = T then seen view cache else if k = T + 1 then fun c => c else G) = _
      rw [if_neg hk, if_pos hk']
    rw [e1, e2]
    unfold seen
    by_cases hc : c = view
    · rw [if_pos hc, hc]
      exact Or.inr (Or.inl ⟨hI, hK, hL⟩)
    · rw [if_neg hc]
      exact Or.inl rfl
  by_cases hk'' : k = T + 1
  · have e2 : (e.prolong T τ₁ τ₂ (seen view cache) G id h).others k = fun c => c := by
      show (if k < T then e.others k else if k = T then seen view cache else if k = T + 1 then fun c => c else G) = _
      rw [if_neg hk, if_neg hk', if_pos hk'']
    rw [e2]
    exact Or.inl rfl
  · have e2 : (e.prolong T τ₁ τ₂ (seen view cache) G id h).others k = G := by
      show (if k < T then e.others k else if k = T then seen view cache else if k = T + 1 then fun c => c else G) = _
      rw [if_neg hk, if_neg hk', if_neg hk'']
    have e1 : (e.prolong T τ₁ τ₂ (seen view cache) G id h).clock k = τ₂ := by
      show (if k < T then e.clock k else if k < T + 2 then τ₁ else τ₂) = _
      rw [if_neg hk, if_neg (by omega)]
    rw [e1, e2]
    rcases hG c with h1 | h1
    · exact Or.inl h1
    · exact Or.inr (Or.inr h1)

theorem single_I {i : Nat} {env : Env} (hn : env.net = A.net i) (hR : ∀ k, θ.R (env.clock k)) (hm : θ.Meddles env)
    (h0 : A.S.time 0 ≤ env.clock 0) (hL : θ.L (A.S.time 0) A.s.cache) {o : Out LookupErr α} {w' : World}
    (h : (A.s.threads i).task.run env ⟨A.s.cache, 0, []⟩ = (o, w')) : θ.I (env.clock w'.ticks) w'.cache ∧ A.Post i o w'.log :=
  A.single i env o w' hn hR hm (θ.monoI h0 (A.times 0).1 (hR 0) A.allowed) (θ.monoL h0 (A.times 0).1 (hR 0) hL) h

/-- One event. -/
theorem Setting.step (n : Nat) (hL0 : θ.L (A.S.time 0) A.s.cache) (hL : θ.L (A.S.time n) (A.after n).cache) (hI : θ.I (A.S.time n) (A.after n).cache)
    (hE : ∀ i, A.Explained i n) : θ.I (A.S.time (n + 1)) (A.after (n + 1)).cache ∧ ∀ i, A.Explained i (n + 1) := by
  have hR := (A.times n).1
  have hR' := (A.times n).2
  have hRn := (A.times (n + 1)).1
  have ht := A.S.forward n
  have hnext : A.after (n + 1) = System.next A.S A.net n (A.after n) := rfl
  cases hmv : A.S.move n with
  | clean reading =>
    have he : A.after (n + 1) = { A.after n with cache := (A.after n).cache.clean reading } := by
      rw [hnext]; unfold System.next; rw [hmv]
    obtain ⟨h1, h2⟩ := θ.clean hR hR' ht.1 (A.S.readings n reading hmv) hI hL
    rw [he]
    refine ⟨θ.monoI ht.2 hR' hRn h1, fun i => (hE i).others (by rw [he]) (by rw [he]; exact h2)⟩
  | step i =>
    generalize hr : ((A.after n).threads i).step (A.net i) (A.S.time n) (A.S.time' n) (A.S.id n) (A.after n).cache = r
    have he : A.after (n + 1) = ⟨r.2, fun j => if j = i then r.1 else (A.after n).threads j⟩ := by
      rw [hnext]; unfold System.next; rw [hmv]; dsimp only; rw [hr]
    have hsame : (A.after (n + 1)).threads i = r.1 := by rw [he]; exact if_pos rfl
    have hcache : (A.after (n + 1)).cache = r.2 := by rw [he]
    have hother : ∀ j, j ≠ i → (A.after (n + 1)).threads j = (A.after n).threads j := fun j hj => by rw [he]; exact if_neg hj
    -- it suffices to speak about this thread and the cache
    suffices h : θ.I (A.S.time (n + 1)) r.2 ∧ θ.K (A.after n).cache r.2 ∧ A.Explained i (n + 1) by
      refine ⟨by rw [hcache]; exact h.1, fun j => ?_⟩
      by_cases hj : j = i
      · rw [hj]; exact h.2.2
      · exact (hE j).others (hother j hj) (by rw [hcache]; exact h.2.1)
    obtain ⟨e, T, view, h1, h2, h3, h4, h5, h6, h7, h8⟩ := hE i
    have hmono : ∀ k < T, e.clock k ≤ A.S.time (n + 1) := fun k hk => (h4 k hk).trans (A.time_mono n)
    have hview := θ.monoI (A.time_mono n) hR hRn h6
    have hInext := θ.monoI (A.time_mono n) hR hRn hI
    unfold Thread.step at hr
    cases htask : ((A.after n).threads i).task with
    | done o =>
      rw [htask] at hr; subst hr
      exact ⟨hInext, θ.refl _, e, T, view, h1, h2, h3, hmono, h5, hview, by rw [hcache]; exact h7, fun env hg => by rw [hsame]; exact h8 env hg⟩
    | emit x k =>
      rw [htask] at hr; subst hr
      exact ⟨hInext, θ.refl _, e, T, view, h1, h2, h3, hmono, h5, hview, by rw [hcache]; exact h7,
        fun env hg => by rw [hsame, h8 env hg, htask]; rfl⟩
    | send addr bytes k =>
      rw [htask] at hr; subst hr
      refine ⟨hInext, θ.refl _, e, T, view, h1, h2, h3, hmono, h5, hview, by rw [hcache]; exact h7, fun env hg => ?_⟩
      rw [hsame, h8 env hg, htask]
      have hn : env.net = A.net i := hg.1.trans h1
      dsimp only [Task.run]
      rw [hn]
    | now k =>
      rw [htask] at hr; subst hr
      have hpre : (∀ k < T, e.clock k ≤ A.S.time n) ∧ A.S.time n ≤ A.S.time n := ⟨h4, Nat.le_refl _⟩
      refine ⟨hInext, θ.refl _, e.prolong T (A.S.time n) (A.S.time n) (seen view (A.after n).cache) (fun c => c) 0 hpre, T + 1, view, h1,
        prolong_times h2 hR hR, prolong_meddles h3 hI hL h7 (fun c => Or.inl rfl), ?_, prolong_zero h5 (A.time_zero n), hview,
        by rw [hcache]; exact h7, fun env hg => ?_⟩
      · intro k hk
        show (if k < T then e.clock k else if k < T + 2 then A.S.time n else A.S.time n) ≤ _
        split
        · exact hmono k ‹_›
        · rw [ite_self]; exact A.time_mono n
      · have hc : env.clock T = A.S.time n := by
          rw [(hg.2 T (Nat.lt_succ_self T)).1]
          show (if T < T then e.clock T else if T < T + 2 then A.S.time n else A.S.time n) = _
          rw [ite_self, if_neg (Nat.lt_irrefl T)]
        rw [hsame, h8 env ((prolong_agree ..).trans (hg.mono (Nat.le_succ T))), htask]
        dsimp only [Task.run]
        rw [hc]
    | randomId k =>
      rw [htask] at hr; subst hr
      have hpre : (∀ k < T, e.clock k ≤ A.S.time n) ∧ A.S.time n ≤ A.S.time n := ⟨h4, Nat.le_refl _⟩
      refine ⟨hInext, θ.refl _, e.prolong T (A.S.time n) (A.S.time n) (seen view (A.after n).cache) (fun c => c) (A.S.id n) hpre, T + 1, view, h1,
        prolong_times h2 hR hR, prolong_meddles h3 hI hL h7 (fun c => Or.inl rfl), ?_, prolong_zero h5 (A.time_zero n), hview,
        by rw [hcache]; exact h7, fun env hg => ?_⟩
      · intro k hk
        show (if k < T then e.clock k else if k < T + 2 then A.S.time n else A.S.time n) ≤ _
        split
        · exact hmono k ‹_›
        · rw [ite_self]; exact A.time_mono n
      · have hc : env.ids T = A.S.id n := by
          rw [(hg.2 T (Nat.lt_succ_self T)).2.2]
          exact if_neg (Nat.lt_irrefl T)
        rw [hsame, h8 env ((prolong_agree ..).trans (hg.mono (Nat.le_succ T))), htask]
        dsimp only [Task.run]
        rw [hc]
    | get key k =>
      rw [htask] at hr; subst hr
      obtain ⟨g1, g2⟩ := θ.get (key := key) hR hI hL
      have g1' := θ.monoI (A.time_mono n) hR hRn g1
      have hpre : (∀ k < T, e.clock k ≤ A.S.time n) ∧ A.S.time n ≤ A.S.time n := ⟨h4, Nat.le_refl _⟩
      refine ⟨g1', g2, e.prolong T (A.S.time n) (A.S.time n) (seen view (A.after n).cache) (fun c => c) 0 hpre, T + 2, _, h1,
        prolong_times h2 hR hR, prolong_meddles h3 hI hL h7 (fun c => Or.inl rfl), ?_, prolong_zero h5 (A.time_zero n), g1',
        by rw [hcache]; exact θ.refl _, fun env hg => ?_⟩
      · intro k hk
        show (if k < T then e.clock k else if k < T + 2 then A.S.time n else A.S.time n) ≤ _
        split
        · exact hmono k ‹_›
        · first | exact A.time_mono n | (rw [ite_self]; exact A.time_mono n)
      · have hc : env.clock (T + 1) = A.S.time n := by
          rw [(hg.2 (T + 1) (Nat.lt_succ_self _)).1]
          show (if T + 1 < T then e.clock (T + 1) else if T + 1 < T + 2 then A.S.time n else A.S.time n) = _
          rw [ite_self, if_neg (by omega)]
        have ho : env.others T view = (A.after n).cache := by
          rw [(hg.2 T (by omega)).2.1]
          show (if T < T then e.others T else if T = T then seen view (A.after n).cache else _) view = _
          rw [if_neg (Nat.lt_irrefl T), if_pos rfl]
          exact if_pos rfl
        rw [hsame, h8 env ((prolong_agree ..).trans (hg.mono (by omega))), htask]
        dsimp only [Task.run]
        rw [hc, ho]
    | set key ttl records k =>
      rw [htask] at hr; subst hr
      have hpre : (∀ k < T, e.clock k ≤ A.S.time n) ∧ A.S.time n ≤ A.S.time' n := ⟨h4, ht.1⟩
      -- the history of the thread, whatever others do afterwards
      have run : ∀ G env, Agree (T + 3) (e.prolong T (A.S.time n) (A.S.time' n) (seen view (A.after n).cache) G 0 hpre) env →
          (A.s.threads i).task.run env ⟨A.s.cache, 0, []⟩ =
            k.run env ⟨((A.after n).cache.set key (ttl.toNat * NANOS) records (A.S.time n) (A.S.time' n)).1, T + 3, ((A.after n).threads i).log⟩ := by
        intro G env hg
        have hc : env.clock (T + 1) = A.S.time n := by
          rw [(hg.2 (T + 1) (by omega)).1]
          show (if T + 1 < T then e.clock (T + 1) else if T + 1 < T + 2 then A.S.time n else A.S.time' n) = _
          rw [if_neg (by omega), if_pos (by omega)]
        have hc' : env.clock (T + 2) = A.S.time' n := by
          rw [(hg.2 (T + 2) (by omega)).1]
          show (if T + 2 < T then e.clock (T + 2) else if T + 2 < T + 2 then A.S.time n else A.S.time' n) = _
          rw [if_neg (by omega), if_neg (by omega)]
        have ho : env.others T view = (A.after n).cache := by
          rw [(hg.2 T (by omega)).2.1]
          show (if T < T then e.others T else if T = T then seen view (A.after n).cache else _) view = _
          rw [if_neg (Nat.lt_irrefl T), if_pos rfl]
          exact if_pos rfl
        rw [h8 env ((prolong_agree ..).trans (hg.mono (by omega))), htask]
        dsimp only [Task.run]
        rw [hc, hc', ho]
      have g1 : θ.I (A.S.time' n) ((A.after n).cache.set key (ttl.toNat * NANOS) records (A.S.time n) (A.S.time' n)).1 := by
        by_contra hno
        generalize hE : e.prolong T (A.S.time n) (A.S.time' n) (seen view (A.after n).cache) (θ.spoil (A.S.time' n)) 0 hpre = E
        have hEm : θ.Meddles E := by
          rw [← hE]
          refine prolong_meddles h3 hI hL h7 (fun c => ?_)
          unfold spoil
          by_cases hc : θ.I (A.S.time' n) c
          · exact Or.inl (if_pos hc)
          · exact Or.inr ⟨hc, if_neg hc⟩
        have hrun := run (θ.spoil (A.S.time' n)) E (by rw [hE]; exact ⟨rfl, fun _ _ => ⟨rfl, rfl, rfl⟩⟩)
        have hsp := run_spoilt θ (env := E) (T := T + 3) hR'
          (fun k hk => by
            rw [← hE]
            show (if k < T then e.clock k else if k < T + 2 then A.S.time n else A.S.time' n) = _
            rw [if_neg (by omega), if_neg (by omega)])
          (fun k hk => by
            rw [← hE]
            show (if k < T then e.others k else if k = T then _ else if k = T + 1 then fun c => c else θ.spoil (A.S.time' n)) = _
            rw [if_neg (by omega), if_neg (by omega), if_neg (by omega)])
          k ⟨((A.after n).cache.set key (ttl.toNat * NANOS) records (A.S.time n) (A.S.time' n)).1, T + 3, ((A.after n).threads i).log⟩
          (Nat.le_refl _) hno
        exact hsp (single_I A (i := i) (by rw [← hE]; exact h1) (by rw [← hE]; exact prolong_times h2 hR hR') hEm
          (by rw [← hE]; exact prolong_zero h5 (A.time_zero n)) hL0 (hrun.trans (Prod.mk.eta).symm)).1
      have g1' := θ.monoI ht.2 hR' hRn g1
      refine ⟨g1', θ.set hR hR' ht.1 hI hL g1, e.prolong T (A.S.time n) (A.S.time' n) (seen view (A.after n).cache) (fun c => c) 0 hpre, T + 3, _, h1,
        prolong_times h2 hR hR', prolong_meddles h3 hI hL h7 (fun c => Or.inl rfl), ?_, prolong_zero h5 (A.time_zero n), g1',
        by rw [hcache]; exact θ.refl _, fun env hg => by rw [hsame]; exact run _ env hg⟩
      intro k hk
      show (if k < T then e.clock k else if k < T + 2 then A.S.time n else A.S.time' n) ≤ _
      split
      · exact hmono k ‹_›
      · split
        · exact A.time_mono n
        · exact ht.2

/-- All events. -/
theorem Setting.all (n : Nat) (hL : ∀ m ≤ n, θ.L (A.S.time m) (A.after m).cache) :
    θ.I (A.S.time n) (A.after n).cache ∧ ∀ i, A.Explained i n := by
  induction n with
  | zero =>
    refine ⟨A.allowed, fun i => ?_⟩
    refine ⟨⟨fun _ => A.S.time 0, fun _ _ _ => Nat.le_refl _, fun _ c => c, fun _ => 0, A.net i⟩, 0, A.s.cache, rfl, fun _ => (A.times 0).1,
      fun k c => Or.inl rfl, fun k hk => absurd hk (Nat.not_lt_zero k), Nat.le_refl _, A.allowed, θ.refl _, fun env _ => ?_⟩
    show _ = (A.s.threads i).task.run env ⟨A.s.cache, 0, (A.s.threads i).log⟩
    rw [A.logs]
  | succ n ih =>
    obtain ⟨h1, h2⟩ := ih fun m hm => hL m (by omega)
    exact A.step n (hL 0 (by omega)) (hL n (by omega)) h1 h2

/-- What is known of single lookups holds of the threads. -/
theorem Setting.result (n : Nat) (hL : ∀ m ≤ n, θ.L (A.S.time m) (A.after m).cache) {i : Nat} {o : Out LookupErr α}
    (h : ((A.after n).threads i).task = .done o) : A.Post i o ((A.after n).threads i).log := by
  obtain ⟨e, T, view, h1, h2, h3, h4, h5, h6, h7, h8⟩ := (A.all n hL).2 i
  have := h8 e ⟨rfl, fun _ _ => ⟨rfl, rfl, rfl⟩⟩
  rw [h] at this
  exact (single_I A h1 h2 h3 h5 (hL 0 (by omega)) this).2

end Theory

/-! ## Progress -/

/-- A thread that is given one turn after another finishes. -/
theorem System.finishes {α : Type} {S : Schedule} {net : Nat → List Event → Ip4 → List UInt8 → Option (List UInt8)} {s : System α} {i : Nat}
    (hf : ∀ n, ∃ m, n ≤ m ∧ S.move m = .step i) : ∃ n o, ((System.after S net s n).threads i).task = .done o := by
  have idle : ∀ n, S.move n ≠ .step i → (System.after S net s (n + 1)).threads i = (System.after S net s n).threads i := by
    intro n hn
    show (System.next S net n (System.after S net s n)).threads i = _
    unfold System.next
    cases hm : S.move n with
    | clean r => rfl
    | step j =>
      have : i ≠ j := fun e => hn (by rw [hm, e])
      exact if_neg this
  have turn : ∀ n, ∃ m, n ≤ m ∧ S.move m = .step i ∧ (System.after S net s m).threads i = (System.after S net s n).threads i := by
    intro n
    obtain ⟨m, hm, hmi⟩ := hf n
    obtain ⟨d, rfl⟩ := Nat.le.dest hm
    induction d generalizing n with
    | zero => exact ⟨n, Nat.le_refl _, hmi, rfl⟩
    | succ d ih =>
      by_cases hn : S.move n = .step i
      · exact ⟨n, Nat.le_refl _, hn, rfl⟩
      · obtain ⟨m, h1, h2, h3⟩ := ih (n + 1) (by omega) (by rw [← hmi]; congr 1; omega)
        exact ⟨m, by omega, h2, h3.trans (idle n hn)⟩
  have key : ∀ (task : Task α) (n : Nat), ((System.after S net s n).threads i).task = task →
      ∃ m o, ((System.after S net s m).threads i).task = .done o := by
    intro task
    induction task with
    | done o => exact fun n h => ⟨n, o, h⟩
    | emit x k ih =>
      intro n h
      obtain ⟨m, h1, h2, h3⟩ := turn n
      refine ih (m + 1) ?_
      show ((System.next S net m (System.after S net s m)).threads i).task = _
      unfold System.next; rw [h2]; dsimp only; rw [if_pos rfl, h3]; unfold Thread.step; rw [h]
    | now k ih =>
      intro n h
      obtain ⟨m, h1, h2, h3⟩ := turn n
      refine ih (S.time m) (m + 1) ?_
      show ((System.next S net m (System.after S net s m)).threads i).task = _
      unfold System.next; rw [h2]; dsimp only; rw [if_pos rfl, h3]; unfold Thread.step; rw [h]
    | randomId k ih =>
      intro n h
      obtain ⟨m, h1, h2, h3⟩ := turn n
      refine ih (S.id m) (m + 1) ?_
      show ((System.next S net m (System.after S net s m)).threads i).task = _
      unfold System.next; rw [h2]; dsimp only; rw [if_pos rfl, h3]; unfold Thread.step; rw [h]
    | send addr bytes k ih =>
      intro n h
      obtain ⟨m, h1, h2, h3⟩ := turn n
      refine ih (net i ((System.after S net s n).threads i).log addr bytes) (m + 1) ?_
      show ((System.next S net m (System.after S net s m)).threads i).task = _
      unfold System.next; rw [h2]; dsimp only; rw [if_pos rfl, h3]; unfold Thread.step; rw [h]
    | get key k ih =>
      intro n h
      obtain ⟨m, h1, h2, h3⟩ := turn n
      refine ih ((System.after S net s m).cache.getClone key (S.time m)).2 (m + 1) ?_
      show ((System.next S net m (System.after S net s m)).threads i).task = _
      unfold System.next; rw [h2]; dsimp only; rw [if_pos rfl, h3]; unfold Thread.step; rw [h]
    | set key ttl records k ih =>
      intro n h
      obtain ⟨m, h1, h2, h3⟩ := turn n
      refine ih (m + 1) ?_
      show ((System.next S net m (System.after S net s m)).threads i).task = _
      unfold System.next; rw [h2]; dsimp only; rw [if_pos rfl, h3]; unfold Thread.step; rw [h]
  exact key _ 0 rfl

end Ariadne.Resolver
