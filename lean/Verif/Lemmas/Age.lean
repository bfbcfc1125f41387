import Verif.Lemmas.Small
import Verif.Spec.Age

/-! # The age of records -/

namespace Ariadne.Resolver

open Spec

theorem receivedBy_append (p : Profile) : ∀ a b : List Event, receivedBy p (a ++ b) = receivedBy p a ++ receivedBy p b
  | [], _ => rfl
  | e :: a, b => by
    have ih := receivedBy_append p a b
    cases e with
    | exchange addr q reply =>
      cases reply with
      | none => exact ih
      | some reply =>
        show _ ++ receivedBy p (a ++ b) = (_ ++ receivedBy p a) ++ receivedBy p b
        rw [ih, List.append_assoc]
    | start => exact ih
    | contact => exact ih
    | saved => exact ih

/-- What was received by earlier lookups, with the ends of these lookups; how long the log was, and how late it was, when this one
began. -/
structure Past where
  known : Record → Nat → Prop
  base : Nat
  start : Nat

variable (env : Env) (p : Profile) (H : Past)

/-- The record has been received by this lookup. -/
def Heard (w : World) (r : Record) : Prop := r ∈ receivedBy p (w.log.drop H.base)

/-- The record has a source whose TTL does not end before `e`. -/
def Backed (w : World) (r : Record) (e : Nat) : Prop :=
  ∃ r₀, content r₀ = content r ∧ r.ttl.toNat ≤ r₀.ttl.toNat ∧
    ((∃ T, H.known r₀ T ∧ e ≤ T + r₀.ttl.toNat * NANOS) ∨ (Heard p H w r₀ ∧ e ≤ env.clock w.ticks + r₀.ttl.toNat * NANOS))

/-- The record may be given out. -/
def Live (w : World) (r : Record) : Prop := Backed env p H w r (if r.recordType = .CNAME then 0 else H.start + r.ttl.toNat * NANOS)

/-- The world is a later one. -/
def Afterward (w w' : World) : Prop := w.ticks ≤ w'.ticks ∧ w.log <+: w'.log

/-- All entries have sources, whose TTLs do not end before they expire (but for aliases). -/
def Aged (w : World) : Prop :=
  (H.start ≤ env.clock w.ticks ∧ H.base ≤ w.log.length) ∧ ∀ key exp rs, w.cache.find key = some (exp, rs) → ∀ r ∈ rs,
    r.recordType = key.2 ∧ Backed env p H w r (if key.2 = .CNAME then 0 else exp) ∧ ∃ t, t ≤ env.clock w.ticks ∧ exp ≤ t + r.ttl.toNat * NANOS

variable {env p H}

theorem Afterward.refl (w : World) : Afterward w w := ⟨Nat.le_refl _, List.prefix_refl _⟩

theorem Afterward.trans {w w' w'' : World} (h : Afterward w w') (h' : Afterward w' w'') : Afterward w w'' := ⟨h.1.trans h'.1, h.2.trans h'.2⟩

theorem Heard.later {w w' : World} {r : Record} (h : Heard p H w r) (hl : Afterward w w') : Heard p H w' r := by
  obtain ⟨-, s, hs⟩ := hl
  unfold Heard
  rw [← hs, List.drop_append, receivedBy_append]
  exact List.mem_append_left _ h

theorem Backed.later {w w' : World} {r : Record} {e : Nat} (h : Backed env p H w r e) (hl : Afterward w w') : Backed env p H w' r e := by
  obtain ⟨r₀, h1, h2, h3 | ⟨h3, h4⟩⟩ := h
  · exact ⟨r₀, h1, h2, .inl h3⟩
  · exact ⟨r₀, h1, h2, .inr ⟨h3.later hl, h4.trans (Nat.add_le_add_right (env.mono _ _ hl.1) _)⟩⟩

theorem Backed.le {w : World} {r : Record} {e e' : Nat} (h : Backed env p H w r e) (he : e' ≤ e) : Backed env p H w r e' := by
  obtain ⟨r₀, h1, h2, ⟨T, h3, h4⟩ | ⟨h3, h4⟩⟩ := h
  · exact ⟨r₀, h1, h2, .inl ⟨T, h3, he.trans h4⟩⟩
  · exact ⟨r₀, h1, h2, .inr ⟨h3, he.trans h4⟩⟩

theorem Backed.ttl {w : World} {r : Record} {e : Nat} {t : UInt32} (h : Backed env p H w r e) (ht : t.toNat ≤ r.ttl.toNat) :
    Backed env p H w (r.setTtl t) e := by
  obtain ⟨r₀, h1, h2, h3⟩ := h
  exact ⟨r₀, h1, ht.trans h2, h3⟩

theorem Heard.backed {w : World} {r : Record} {e : Nat} (h : Heard p H w r) (he : e ≤ env.clock w.ticks + r.ttl.toNat * NANOS) :
    Backed env p H w r e := ⟨r, rfl, Nat.le_refl _, .inr ⟨h, he⟩⟩

theorem Live.later {w w' : World} {r : Record} (h : Live env p H w r) (hl : Afterward w w') : Live env p H w' r := Backed.later h hl

theorem Heard.live {w : World} {r : Record} (hw : Aged env p H w) (h : Heard p H w r) : Live env p H w r := by
  refine h.backed ?_
  have := hw.1
  split <;> omega

/-! ## Triples -/

variable (env p H)

/-- From this world, the computation leads to a later one in which entries still have sources, and its results satisfy `Q`. -/
def Ages {α : Type} (m : M α) (w : World) (Q : World → α → Prop) : Prop :=
  Aged env p H w → Afterward w (m w).2 ∧ Aged env p H (m w).2 ∧ ∀ a, (m w).1 = .ok a → Q (m w).2 a

variable {env p H} {α β : Type}

namespace Ages

theorem bind {m : M α} {f : α → M β} {w : World} {Q : World → α → Prop} {Q' : World → β → Prop} (h : Ages env p H m w Q)
    (hf : ∀ a w', Afterward w w' → Aged env p H w' → Q w' a → Ages env p H (f a) w' Q') : Ages env p H (m >>= f) w Q' := by
  intro hw
  have hb : (m >>= f) w = match m w with
    | (.ok a, w') => f a w'
    | (.err e, w') => (.err e, w')
    | (.panic k, w') => (.panic k, w')
    | (.diverge, w') => (.diverge, w') := rfl
  obtain ⟨h1, h2, h3⟩ := h hw
  rw [hb]
  cases hx : m w with
  | mk o w' =>
  rw [hx] at h1 h2 h3
  cases o with
  | ok a =>
    obtain ⟨g1, g2, g3⟩ := hf a w' h1 h2 (h3 a rfl) h2
    exact ⟨h1.trans g1, g2, g3⟩
  | err e => exact ⟨h1, h2, fun a ha => by cases ha⟩
  | panic k => exact ⟨h1, h2, fun a ha => by cases ha⟩
  | diverge => exact ⟨h1, h2, fun a ha => by cases ha⟩

theorem mono {m : M α} {w : World} {Q Q' : World → α → Prop} (h : Ages env p H m w Q)
    (hq : ∀ a w', Afterward w w' → Aged env p H w' → Q w' a → Q' w' a) : Ages env p H m w Q' :=
  fun hw => ⟨(h hw).1, (h hw).2.1, fun a ha => hq a _ (h hw).1 (h hw).2.1 ((h hw).2.2 a ha)⟩

theorem pure {w : World} {Q : World → α → Prop} {a : α} (h : Q w a) : Ages env p H (Pure.pure a : M α) w Q :=
  fun hw => ⟨Afterward.refl w, hw, fun a' ha => by cases ha; exact h⟩

theorem lift {w : World} {Q : World → α → Prop} {o : Out LookupErr α} (h : ∀ a, o = .ok a → Q w a) : Ages env p H (M.lift o) w Q :=
  fun hw => ⟨Afterward.refl w, hw, fun a ha => h a ha⟩

theorem throw {w : World} {Q : World → α → Prop} {e : LookupErr} : Ages env p H (M.throw e : M α) w Q := lift (fun a h => by cases h)

theorem panic {w : World} {Q : World → α → Prop} {k : Panic} : Ages env p H (M.panic k : M α) w Q := lift (fun a h => by cases h)

theorem attempt {m : M α} {w : World} {Q : World → α → Prop} (h : Ages env p H m w Q) :
    Ages env p H (M.attempt m) w (fun w' x => ∀ a, x = .inr a → Q w' a) := by
  intro hw
  have hb : M.attempt m w = match m w with
    | (.ok a, w') => (.ok (.inr a), w')
    | (.err e, w') => (.ok (.inl e), w')
    | (.panic k, w') => (.panic k, w')
    | (.diverge, w') => (.diverge, w') := rfl
  obtain ⟨h1, h2, h3⟩ := h hw
  rw [hb]
  cases hx : m w with
  | mk o w' =>
  rw [hx] at h1 h2 h3
  cases o with
  | ok a => exact ⟨h1, h2, fun x hx => by cases hx; rintro a' h'; cases h'; exact h3 _ rfl⟩
  | err e => exact ⟨h1, h2, fun x hx => by cases hx; rintro a' h'; cases h'⟩
  | panic k => exact ⟨h1, h2, fun a ha => by cases ha⟩
  | diverge => exact ⟨h1, h2, fun a ha => by cases ha⟩

end Ages

theorem Aged.later {w w' : World} (h : Aged env p H w) (hl : Afterward w w') (hc : w'.cache = w.cache) : Aged env p H w' := by
  refine ⟨⟨h.1.1.trans (env.mono _ _ hl.1), h.1.2.trans hl.2.length_le⟩, fun key exp rs hf r hr => ?_⟩
  rw [hc] at hf
  obtain ⟨h1, h2, t, h3, h4⟩ := h.2 key exp rs hf r hr
  exact ⟨h1, h2.later hl, t, h3.trans (env.mono _ _ hl.1), h4⟩

theorem ages_emit {w : World} {e : Event} : Ages env p H (M.emit e) w (fun _ _ => True) := fun hw => by
  have hl : Afterward w (M.emit e w).2 := ⟨Nat.le_refl _, List.prefix_append _ _⟩
  exact ⟨hl, hw.later hl rfl, fun _ _ => trivial⟩

theorem ages_randomId {w : World} : Ages env p H (randomId env) w (fun _ _ => True) := fun hw => by
  have hl : Afterward w (randomId env w).2 := ⟨Nat.le_succ _, List.prefix_refl _⟩
  exact ⟨hl, hw.later hl rfl, fun _ _ => trivial⟩

/-! ## The cache -/

theorem searchRecords_ages (ho : ∀ i c, env.others i c = c) (node : Name) (kind : RecordType) (w : World) :
    Ages env p H (searchRecordsInCache env node kind) w (fun w' rs => ∀ r ∈ rs, r.recordType = kind ∧ Live env p H w' r) := by
  intro hw
  have heq := searchRecords_eq (env := env) (w := w) node kind
  simp only at heq
  rw [heq, ho]
  have hl : Afterward w ⟨(w.cache.getClone (node, kind) (env.clock (w.ticks + 2))).1, w.ticks + 3, w.log⟩ :=
    ⟨by show w.ticks ≤ w.ticks + 3; omega, List.prefix_refl _⟩
  have hm : env.clock w.ticks ≤ env.clock (w.ticks + 3) := env.mono _ _ (by omega)
  refine ⟨hl, ⟨⟨hw.1.1.trans hm, hw.1.2.trans hl.2.length_le⟩, fun key exp rs hf r hr => ?_⟩, ?_⟩
  · obtain ⟨h1, h2, t, h3, h4⟩ := hw.2 key exp rs (mem_getClone hf) r hr
    exact ⟨h1, h2.later hl, t, h3.trans hm, h4⟩
  intro rs hrs
  cases hr : (w.cache.getClone (node, kind) (env.clock (w.ticks + 2))).2 with
  | none =>
    rw [hr] at hrs
    cases hrs
    simp
  | some e =>
    obtain ⟨exp, recs⟩ := e
    rw [hr] at hrs
    simp only at hrs
    obtain ⟨hfind, -⟩ := getClone_some hr
    have hset := hw.2 _ _ _ hfind
    unfold serveCached at hrs
    cases recs with
    | nil => cases hrs; simp
    | cons r0 rest =>
      simp only at hrs
      split at hrs
      · cases hrs
      split at hrs
      · cases hrs
      rename_i hexp
      split at hrs
      · cases hrs
      rename_i h32
      cases hrs
      intro r hr
      obtain ⟨r', hr', rfl⟩ := List.mem_map.1 hr
      obtain ⟨h1, h2, t, h3, h4⟩ := hset r' hr'
      have hto : (UInt32.ofNat ((exp - env.clock w.ticks) / NANOS)).toNat = (exp - env.clock w.ticks) / NANOS :=
        UInt32.toNat_ofNat_of_lt' (by unfold UInt32.size; omega)
      have hdiv := Nat.div_mul_le_self (exp - env.clock w.ticks) NANOS
      have hle : (exp - env.clock w.ticks) / NANOS ≤ r'.ttl.toNat := by
        have : exp - env.clock w.ticks ≤ r'.ttl.toNat * NANOS := by omega
        calc (exp - env.clock w.ticks) / NANOS ≤ (r'.ttl.toNat * NANOS) / NANOS := Nat.div_le_div_right this
          _ = r'.ttl.toNat := Nat.mul_div_cancel _ (by decide)
      refine ⟨h1, ?_⟩
      unfold Live
      have h2' := (h2.later hl).ttl (t := UInt32.ofNat ((exp - env.clock w.ticks) / NANOS)) (by rw [hto]; exact hle)
      refine h2'.le ?_
      show (if r'.recordType = .CNAME then 0 else H.start + (UInt32.ofNat ((exp - env.clock w.ticks) / NANOS)).toNat * NANOS) ≤
        if kind = .CNAME then 0 else exp
      rw [show r'.recordType = kind from h1, hto]
      have := hw.1
      split
      · exact Nat.le_refl _
      · omega

theorem saveRecords_ages (ho : ∀ i c, env.others i c = c) {rs : List Record} {kind : RecordType} {w : World}
    (h : ∀ r ∈ rs, r.recordType = kind ∧ (Heard p H w r ∨ (kind = .CNAME ∧ Live env p H w r))) :
    Ages env p H (saveRecordsInCache env rs) w (fun _ _ => True) := by
  cases rs with
  | nil => exact Ages.panic
  | cons r0 rest =>
    intro hw
    have ht0 := (h r0 (by simp)).1
    subst ht0
    have heq := saveRecords_eq (env := env) (w := w) (r0 := r0) (rs := rest) fun r hr => (h r (by simp [hr])).1
    rw [heq, ho]
    generalize hmin : minTtl r0.ttl rest = mt
    have hmt : ∀ r ∈ r0 :: rest, mt.toNat ≤ r.ttl.toNat := by
      intro r hr
      rw [← hmin]
      rcases List.mem_cons.1 hr with rfl | hr
      · exact (minTtl_le _ _).1
      · exact (minTtl_le _ _).2 r hr
    have hl : Afterward w ⟨(w.cache.set (r0.node, r0.recordType) (mt.toNat * NANOS) ((r0 :: rest).map fun r => r.setTtl mt) (env.clock (w.ticks + 1))
        (env.clock (w.ticks + 2))).1, w.ticks + 3, w.log ++ [.saved r0.node r0.recordType ((r0 :: rest).map fun r => r.setTtl mt)]⟩ :=
      ⟨by show w.ticks ≤ w.ticks + 3; omega, List.prefix_append _ _⟩
    have hm : env.clock w.ticks ≤ env.clock (w.ticks + 3) := env.mono _ _ (by omega)
    have hm1 : env.clock (w.ticks + 1) ≤ env.clock (w.ticks + 3) := env.mono _ _ (by omega)
    refine ⟨hl, ⟨⟨hw.1.1.trans hm, hw.1.2.trans hl.2.length_le⟩, fun key exp rs hf r hr => ?_⟩, fun _ _ => trivial⟩
    simp only [find_set, Cache.find_put] at hf
    by_cases hk : (r0.node, r0.recordType) = key
    · rw [if_pos hk] at hf
      injection hf with hf
      injection hf with g1 g2
      subst g1 g2 hk
      obtain ⟨r', hr', rfl⟩ := List.mem_map.1 hr
      obtain ⟨e1, e2⟩ := h r' hr'
      refine ⟨e1, ?_, env.clock (w.ticks + 1), hm1, Nat.le_refl _⟩
      have hle := hmt r' hr'
      show Backed env p H _ (r'.setTtl mt) (if r0.recordType = .CNAME then 0 else _)
      rcases e2 with e2 | ⟨hk, e2⟩
      · refine Backed.ttl ((e2.later hl).backed ?_) hle
        have : mt.toNat * NANOS ≤ r'.ttl.toNat * NANOS := Nat.mul_le_mul_right _ hle
        show _ ≤ env.clock (w.ticks + 3) + _
        split <;> omega
      · rw [if_pos hk]
        exact Backed.ttl ((Backed.later e2 hl).le (Nat.zero_le _)) hle
    · rw [if_neg hk] at hf
      obtain ⟨h1, h2, t, h3, h4⟩ := hw.2 key exp rs hf r hr
      exact ⟨h1, h2.later hl, t, h3.trans hm, h4⟩

/-! ## Exchanges -/

/-- All the records of the message have been received by this lookup. -/
def HeardAll (p : Profile) (H : Past) (w : World) (m : Message) : Prop := ∀ r ∈ m.answers ++ m.authorities ++ m.additionals, Heard p H w r

theorem receivedBy_last {log : List Event} {addr : Ip4} {query raw : List UInt8} {m : Message} {r : Record}
    (hm : Message.decodeFromBytes p (raw.take 512) = .ok m) (hr : r ∈ m.answers ++ m.authorities ++ m.additionals) :
    r ∈ receivedBy p (log ++ [.exchange addr query (some raw)]) := by
  rw [receivedBy_append]
  refine List.mem_append_right _ ?_
  unfold receivedBy
  rw [hm]
  exact List.mem_append_left _ hr

theorem sendUdpPacket_ages {ns : NextNs} {bytes : List UInt8} {w : World} :
    Ages env p H (sendUdpPacket env ns bytes) w (fun w' reply => ∀ m, Message.decodeFromBytes p reply = .ok m → HeardAll p H w' m) := by
  unfold sendUdpPacket
  refine Ages.bind (Q := fun _ _ => True) (Ages.lift fun _ _ => trivial) fun as w' _ _ _ => ?_
  cases as.head? with
  | none => exact Ages.panic
  | some addr =>
    simp only
    intro hw
    beta_reduce
    cases hn : env.net w'.log addr bytes with
    | none =>
      have hl : Afterward w' { w' with log := w'.log ++ [.exchange addr bytes none] } := ⟨Nat.le_refl _, List.prefix_append _ _⟩
      exact ⟨hl, hw.later hl rfl, fun a ha => by cases ha⟩
    | some raw =>
      have hl : Afterward w' { w' with log := w'.log ++ [.exchange addr bytes (some raw)] } := ⟨Nat.le_refl _, List.prefix_append _ _⟩
      refine ⟨hl, hw.later hl rfl, fun a ha => ?_⟩
      cases ha
      intro m hm r hr
      show r ∈ receivedBy p ((w'.log ++ [Event.exchange addr bytes (some raw)]).drop H.base)
      rw [List.drop_append_of_le_length hw.1.2]
      exact receivedBy_last hm hr

theorem sendQuery_ages {ns : NextNs} {node : Name} {kind : RecordType} {w : World} :
    Ages env p H (sendQuery env p ns node kind) w (HeardAll p H) := by
  unfold sendQuery
  refine ages_randomId.bind fun id _ _ _ _ => ?_
  refine Ages.bind (Q := fun _ _ => True) (Ages.lift fun _ _ => trivial) fun bytes _ _ _ _ => ?_
  refine sendUdpPacket_ages.bind fun reply _ _ _ hr => ?_
  refine Ages.lift fun m hm => ?_
  unfold acceptResponse at hm
  cases hd : Message.decodeFromBytes p reply with
  | ok resp =>
    rw [hd] at hm
    simp only at hm
    by_cases hid : resp.header.id ≠ id
    · rw [if_pos hid] at hm; cases hm
    · rw [if_neg hid] at hm
      cases hm
      exact hr _ hd
  | err e => rw [hd] at hm; cases hm
  | panic k => rw [hd] at hm; cases hm
  | diverge => rw [hd] at hm; cases hm

theorem sendRetries_ages {ns : NextNs} {node : Name} {kind : RecordType} :
    ∀ (n : Nat) (e : Option LookupErr) (w : World), Ages env p H (sendQueryWithRetries env p ns node kind n e) w (HeardAll p H)
  | 0, some e, _ => Ages.throw
  | 0, none, _ => Ages.panic
  | n + 1, e, _ => by
    unfold sendQueryWithRetries
    refine (Ages.attempt sendQuery_ages).bind fun x _ _ _ hx => ?_
    cases x with
    | inr resp => exact Ages.pure (hx _ rfl)
    | inl e' => exact sendRetries_ages n _ _

/-- What is known of an interpreted response. -/
def HeardMeaning (p : Profile) (H : Past) (kind : RecordType) (w : World) : NsResponse → Prop
  | .noDomain soa => ∀ r ∈ soa, Heard p H w r
  | .answer answers additionals => (∀ r ∈ answers, r.recordType = kind ∧ Heard p H w r) ∧ ∀ r ∈ additionals, Heard p H w r
  | .alias cname _ => cname.recordType = .CNAME ∧ Heard p H w cname
  | .delegation nss => ∀ ns ∈ nss, Heard p H w ns.nsRecord ∧ ns.nsRecord.recordType = .NS ∧
      ∀ r ∈ ns.aRecords, r.recordType = .A ∧ Heard p H w r

theorem pairWithAddrs_mem {P : Record → Prop} {keep : NextNs → Out LookupErr Bool} : ∀ {rs ad : List Record} {nss : List NextNs},
    (∀ r ∈ ad, P r) → pairWithAddrs keep rs ad = .ok nss → ∀ ns ∈ nss, ns.nsRecord ∈ rs ∧ ∀ r ∈ ns.aRecords, r.recordType = .A ∧ P r
  | [], ad, nss, _, h => by unfold pairWithAddrs at h; cases h; simp
  | r :: rs, ad, nss, hf, h => by
    unfold pairWithAddrs at h
    obtain ⟨t, ht, h⟩ := Out.of_bind_ok h
    simp only at h
    obtain ⟨b, hb, h⟩ := Out.of_bind_ok h
    obtain ⟨rest, hrest, h⟩ := Out.of_bind_ok h
    have ih := pairWithAddrs_mem (P := P) (keep := keep) (rs := rs) (fun x hx => hf x (mem_left hx)) hrest
    have old : ∀ ns ∈ rest, ns.nsRecord ∈ r :: rs ∧ ∀ r ∈ ns.aRecords, r.recordType = .A ∧ P r :=
      fun ns hns => ⟨List.mem_cons_of_mem _ (ih ns hns).1, (ih ns hns).2⟩
    cases b with
    | false => cases h; exact old
    | true =>
      cases h
      intro ns hns
      rcases List.mem_cons.1 hns with rfl | hns
      · exact ⟨List.mem_cons_self, fun x hx => ⟨(mem_extracted hx).2.2, hf x (mem_extracted hx).1⟩⟩
      · exact old ns hns

theorem interpret_ages {resp : Message} {node : Name} {kind : RecordType} {zone : Name} {r : NsResponse} {w : World}
    (hr : HeardAll p H w resp) (h : interpret resp node kind zone = .ok r) : HeardMeaning p H kind w r := by
  have hans : ∀ r ∈ resp.answers, Heard p H w r := fun r hr' => hr r (by simp [hr'])
  have haut : ∀ r ∈ resp.authorities, Heard p H w r := fun r hr' => hr r (by simp [hr'])
  have hadd : ∀ r ∈ resp.additionals, Heard p H w r := fun r hr' => hr r (by simp [hr'])
  unfold interpret at h
  cases hc : resp.header.respCode with
  | NoError =>
    rw [hc] at h
    simp only at h
    by_cases hl : (extractRecords resp.answers kind node).1.length > 0
    · rw [if_pos hl] at h
      cases h
      exact ⟨fun x hx => ⟨(mem_extracted hx).2.2, hans x (mem_extracted hx).1⟩, hadd⟩
    · rw [if_neg hl] at h
      cases he : extractRecord (extractRecords resp.answers kind node).2 .CNAME node with
      | mk o l =>
      rw [he] at h
      cases o with
      | some cname =>
        simp only at h
        obtain ⟨t, ht, h⟩ := Out.of_bind_ok h
        obtain ⟨nss, -, h⟩ := Out.of_bind_ok h
        cases h
        have hs := extractRecord_spec (r := cname) (congrArg Prod.fst he)
        exact ⟨cnameData_type ht, hans _ (mem_left hs.1)⟩
      | none =>
        simp only at h
        obtain ⟨nss, h1, h⟩ := Out.of_bind_ok h
        by_cases h0 : nss.length > 0
        · rw [if_pos h0] at h
          cases h
          unfold extractNextNssForSubzone at h1
          intro ns hns
          obtain ⟨a1, a2⟩ := pairWithAddrs_mem hadd h1 ns hns
          have hm := List.mem_filter.1 a1
          have hk := hm.2
          rw [Bool.and_eq_true, beq_iff_eq] at hk
          exact ⟨haut _ hm.1, hk.1, a2⟩
        · rw [if_neg h0] at h; cases h
  | NxDomain =>
    rw [hc] at h
    simp only at h
    by_cases haa : resp.header.authAnswer = true
    · rw [if_pos haa] at h
      cases h
      exact fun r hr' => haut _ (extractRecord_spec hr').1
    · rw [if_neg haa] at h; cases h
  | FormErr => rw [hc] at h; cases h
  | ServFail => rw [hc] at h; cases h
  | NotImp => rw [hc] at h; cases h
  | Refused => rw [hc] at h; cases h

theorem performRequest_ages {ns : NextNs} {node : Name} {kind : RecordType} {n : Nat} {w : World} :
    Ages env p H (performRequest env p ns node kind n) w (HeardMeaning p H kind) := by
  unfold performRequest
  refine (sendRetries_ages n none w).bind fun resp _ _ _ hr => ?_
  exact Ages.lift fun r h => interpret_ages hr h

/-! ## Lookups -/

theorem saveAddrs_ages (ho : ∀ i c, env.others i c = c) : ∀ {nss : List NextNs} {w : World},
    (∀ ns ∈ nss, ∀ r ∈ ns.aRecords, r.recordType = .A ∧ Heard p H w r) → Ages env p H (saveAddrs env nss) w (fun _ _ => True)
  | [], _, _ => Ages.pure trivial
  | ns :: nss, w, h => by
    unfold saveAddrs
    have ih : ∀ w', Afterward w w' → Ages env p H (saveAddrs env nss) w' (fun _ _ => True) := fun w' hl =>
      saveAddrs_ages ho (nss := nss) fun x hx r hr => ⟨(h x (List.mem_cons_of_mem _ hx) r hr).1, (h x (List.mem_cons_of_mem _ hx) r hr).2.later hl⟩
    show Ages env p H (if ns.aRecords.length > 0 then (saveRecordsInCache env ns.aRecords >>= fun _ => saveAddrs env nss)
      else saveAddrs env nss) w _
    by_cases h0 : ns.aRecords.length > 0
    · rw [if_pos h0]
      refine (saveRecords_ages ho (kind := .A) fun r hr => ?_).bind fun _ w' hl _ _ => ih w' hl
      exact ⟨(h ns List.mem_cons_self r hr).1, .inl (h ns List.mem_cons_self r hr).2⟩
    · rw [if_neg h0]
      exact ih w (Afterward.refl w)

theorem saveNss_ages (ho : ∀ i c, env.others i c = c) {kind : RecordType} {nss : List NextNs} {w : World}
    (h : HeardMeaning p H kind w (.delegation nss)) : Ages env p H (saveNssInCache env nss) w (fun _ _ => True) := by
  unfold saveNssInCache
  refine (saveAddrs_ages ho fun ns hns => (h ns hns).2.2).bind fun _ w' hl _ _ => ?_
  refine saveRecords_ages ho (kind := .NS) fun r hr => ?_
  obtain ⟨ns, hns, rfl⟩ := List.mem_map.1 hr
  exact ⟨(h ns hns).2.1, .inl ((h ns hns).1.later hl)⟩

theorem findNsRecords_ages (ho : ∀ i c, env.others i c = c) : ∀ (ds : List Str) (w : World),
    Ages env p H (findNsRecords env ds) w (fun _ _ => True)
  | [], _ => Ages.pure trivial
  | d :: ds, w => by
    unfold findNsRecords
    refine Ages.bind (Q := fun _ _ => True) (Ages.lift fun _ _ => trivial) fun n w' _ _ _ => ?_
    refine (searchRecords_ages ho n .NS w').bind fun rs w'' _ _ _ => ?_
    by_cases h0 : rs.length > 0
    · simp only [if_pos h0]; exact Ages.pure trivial
    · simp only [if_neg h0]; exact findNsRecords_ages ho ds w''

theorem findAddrs_ages (ho : ∀ i c, env.others i c = c) : ∀ (rs : List Record) (w : World),
    Ages env p H (findAddrs env rs) w (fun _ _ => True)
  | [], _ => Ages.pure trivial
  | r :: rs, w => by
    unfold findAddrs
    refine Ages.bind (Q := fun _ _ => True) (Ages.lift fun _ _ => trivial) fun n w' _ _ _ => ?_
    refine (searchRecords_ages ho n .A w').bind fun as w'' _ _ _ => ?_
    exact (findAddrs_ages ho rs w'').bind fun _ _ _ _ _ => Ages.pure trivial

theorem startingServers_ages (ho : ∀ i c, env.others i c = c) (lk : Lookup) (nss : List NextNs) (w : World) :
    Ages env p H (startingServers env lk nss) w (fun _ _ => True) := by
  unfold startingServers
  by_cases h0 : nss.isEmpty
  · rw [if_pos h0]
    unfold searchNssInCache
    exact Ages.bind (Q := fun _ _ => True) ((findNsRecords_ages ho _ w).bind fun rs w' _ _ _ => findAddrs_ages ho rs w')
      fun _ _ _ _ _ => Ages.pure trivial
  · rw [if_neg h0]
    exact Ages.pure trivial

/-- The sub-lookups, too, keep the sources. -/
def SubsAge (env : Env) (p : Profile) (H : Past) (sub : Lookup → M Response) : Prop :=
  ∀ lk : Lookup, lk.previousCnames = [] → ∀ w, Ages env p H (sub lk) w (fun _ _ => True)

theorem resolveAddrs_ages {sub : Lookup → M Response} (hsub : SubsAge env p H sub) (lk : Lookup) (ns : NextNs) (w : World) :
    Ages env p H (resolveAddrs sub lk ns) w (fun _ _ => True) := by
  unfold resolveAddrs
  refine Ages.bind (Q := fun _ _ => True) (Ages.lift fun _ _ => trivial) fun as w1 _ _ _ => ?_
  by_cases h0 : as.isEmpty
  · rw [if_pos h0]
    refine Ages.bind (Q := fun _ _ => True) (Ages.lift fun _ _ => trivial) fun n w2 _ _ _ => ?_
    refine (Ages.attempt (Q := fun _ _ => True) ?_).bind fun x _ _ _ _ => ?_
    · unfold resolveNsSubquery
      refine Ages.bind (Q := fun _ _ => True) (Ages.lift fun _ _ => trivial) fun _ w3 _ _ _ => ?_
      exact (hsub _ rfl w3).bind fun _ _ _ _ _ => Ages.pure trivial
    · cases x with
      | inl e => exact Ages.throw
      | inr rs => exact Ages.pure trivial
  · rw [if_neg h0]
    exact Ages.pure trivial

theorem tryServers_ages {sub : Lookup → M Response} (hsub : SubsAge env p H sub) (lk : Lookup) :
    ∀ (nss : List NextNs) (e : Option LookupErr) (w : World), Ages env p H (tryServers env p sub lk nss e) w (HeardMeaning p H lk.kind)
  | [], some e, _ => Ages.throw
  | [], none, _ => Ages.panic
  | ns :: nss, e, w => by
    unfold tryServers
    refine (Ages.attempt (Q := HeardMeaning p H lk.kind) ?_).bind fun x w' _ _ hx => ?_
    · unfold tryServer
      refine (resolveAddrs_ages hsub lk ns w).bind fun ns' _ _ _ _ => ?_
      exact ages_emit.bind fun _ _ _ _ _ => performRequest_ages
    · cases x with
      | inr r => exact Ages.pure (hx _ rfl)
      | inl e' => exact tryServers_ages hsub lk nss _ w'

theorem query_ages (ho : ∀ i c, env.others i c = c) {sub : Lookup → M Response} (hsub : SubsAge env p H sub) (lk : Lookup) :
    ∀ (fuel : Nat) (nss : List NextNs) (w : World), Ages env p H (queryIteratively env p sub lk fuel nss) w (HeardMeaning p H lk.kind)
  | 0, _, _ => Ages.lift fun _ h => by cases h
  | fuel + 1, nss, w => by
    unfold queryIteratively
    by_cases h0 : nss.length = 0
    · rw [if_pos h0]; exact Ages.panic
    · rw [if_neg h0]
      refine (tryServers_ages hsub lk _ none w).bind fun r w' _ _ hr => ?_
      cases r with
      | delegation nextNss =>
        refine (saveNss_ages ho hr).bind fun _ w'' _ _ _ => ?_
        exact query_ages ho hsub lk fuel nextNss w''
      | answer a b => exact Ages.pure hr
      | «alias» a b => exact Ages.pure hr
      | noDomain a => exact Ages.pure hr

theorem handleCname_ages (ho : ∀ i c, env.others i c = c) {lk : Lookup} {cname : Record} {w : World} (hl : Live env p H w cname) :
    Ages env p H (handleCname env lk cname) w (fun _ lk' =>
      ∃ t, lk' = { lk with node := t, previousCnames := lk.previousCnames ++ [cname] }) := by
  unfold handleCname
  refine Ages.bind (Q := fun w' _ => w' = w ∧ cname.recordType = .CNAME) ?_ fun t w' _ _ hk => ?_
  · exact fun hw => ⟨Afterward.refl w, hw, fun a h => ⟨rfl, cnameData_type h⟩⟩
  obtain ⟨rfl, hk⟩ := hk
  refine Ages.bind (Q := fun w'' _ => w'' = w') (fun hw => ⟨Afterward.refl w', hw, fun a h => rfl⟩) fun _ w'' _ _ hw'' => ?_
  subst hw''
  by_cases h0 : lk.conf.noFollowCname
  · rw [if_pos h0]; exact Ages.throw
  · rw [if_neg h0]
    refine Ages.bind (Q := fun _ _ => True) ?_ fun _ _ _ _ _ => Ages.pure ⟨t, rfl⟩
    refine saveRecords_ages ho (kind := .CNAME) fun r hr => ?_
    rw [List.mem_singleton.1 hr]
    exact ⟨hk, .inr ⟨rfl, hl⟩⟩

/-- All records may be given out. -/
def LiveAll (env : Env) (p : Profile) (H : Past) (w : World) (r : Response) : Prop :=
  ∀ x ∈ r.answers ++ r.authorities ++ r.additionals, Live env p H w x

theorem performLoop_ages (ho : ∀ i c, env.others i c = c) {sub : Lookup → M Response} (hsub : SubsAge env p H sub) (fuel : Nat) :
    ∀ (rounds : Nat) (lk : Lookup) (nss : List NextNs) (w : World), (∀ x ∈ lk.previousCnames, Live env p H w x) →
      Ages env p H (performLoop env p sub fuel rounds lk nss) w (LiveAll env p H)
  | 0, _, _, _, _ => Ages.throw
  | rounds + 1, lk, nss, w, hp => by
    unfold performLoop
    have again : ∀ (cname : Record) (nss : List NextNs) (w' : World), Afterward w w' → Live env p H w' cname →
        Ages env p H (handleCname env lk cname >>= fun lk' => performLoop env p sub fuel rounds lk' nss) w' (LiveAll env p H) := by
      intro cname nss w' hl hf
      refine (handleCname_ages ho hf).bind ?_
      rintro _ w'' hl' - ⟨t, rfl⟩
      refine performLoop_ages ho hsub fuel rounds _ nss w'' fun x hx => ?_
      rcases List.mem_append.1 hx with h | h
      · exact (hp x h).later (hl.trans hl')
      · rw [List.mem_singleton.1 h]; exact hf.later hl'
    refine ages_emit.bind fun _ w1 l1 a1 _ => ?_
    refine (searchRecords_ages ho lk.node lk.kind w1).bind fun cached w2 l2 a2 hc => ?_
    by_cases h0 : cached.length > 0
    · simp only [if_pos h0]
      refine Ages.pure ?_
      intro x hx
      simp only [List.append_nil, List.mem_append] at hx
      rcases hx with h | h
      · exact (hp x h).later (l1.trans l2)
      · exact (hc x h).2
    · simp only [if_neg h0]
      refine (searchRecords_ages ho lk.node .CNAME w2).bind fun cnames w3 l3 a3 hcn => ?_
      have l03 := (l1.trans l2).trans l3
      cases cnames with
      | cons cname rest => exact again cname [] w3 l03 (hcn cname (by simp)).2
      | nil =>
        simp only
        refine (startingServers_ages ho lk nss w3).bind fun nss' w4 l4 _ _ => ?_
        refine (query_ages ho hsub lk fuel nss' w4).bind fun r w5 l5 a5 hr => ?_
        have l05 := (l03.trans l4).trans l5
        cases r with
        | answer answers additionals =>
          simp only
          refine (saveRecords_ages ho (fun r hr' => ⟨(hr.1 r hr').1, .inl (hr.1 r hr').2⟩)).bind fun _ w6 l6 a6 _ => ?_
          refine Ages.pure ?_
          intro x hx
          simp only [List.append_nil, List.mem_append] at hx
          rcases hx with (h | h) | h
          · exact (hp x h).later (l05.trans l6)
          · exact ((hr.1 x h).2.later l6).live a6
          · exact ((hr.2 x h).later l6).live a6
        | «alias» cname nextNss => exact again cname nextNss w5 l05 (hr.2.live a5)
        | noDomain soa =>
          simp only
          refine Ages.pure ?_
          intro x hx
          simp only [List.append_nil, List.mem_append] at hx
          rcases hx with h | h
          · exact (hp x h).later l05
          · exact (hr x (by simpa using h)).live a5
        | delegation nss'' => exact Ages.panic

theorem perform_ages (ho : ∀ i c, env.others i c = c) : ∀ (fuel : Nat) (lk : Lookup) (w : World), (∀ x ∈ lk.previousCnames, Live env p H w x) →
    Ages env p H (perform env p fuel lk) w (LiveAll env p H)
  | 0, _, _, _ => Ages.lift fun _ h => by cases h
  | fuel + 1, lk, w, hp => by
    unfold perform
    exact performLoop_ages ho (fun lk' h w' => (perform_ages ho fuel lk' w' (by rw [h]; simp)).mono fun _ _ _ _ _ => trivial) fuel _ lk [] w hp

end Ariadne.Resolver
