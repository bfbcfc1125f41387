import Verif.Spec.Truth
import Verif.Lemmas.Requests

/-! # Lookups in a world of honest servers -/

namespace Ariadne.Resolver

open Spec

theorem _root_.Ariadne.Out.of_bind_ok {ε α β : Type} {x : Out ε α} {f : α → Out ε β} {b : β} (h : (x >>= f) = .ok b) :
    ∃ a, x = .ok a ∧ f a = .ok b := by
  cases x with
  | ok a => exact ⟨a, rfl, h⟩
  | err e => cases h
  | panic k => cases h
  | diverge => cases h

/-- From every world with the invariant the computation leads to one with the invariant, and its results satisfy `Q`. -/
def Keeps (I : RecordsCache → Prop) {α : Type} (m : M α) (Q : α → Prop) : Prop :=
  ∀ w, I w.cache → I (m w).2.cache ∧ ∀ a, (m w).1 = .ok a → Q a

variable {I : RecordsCache → Prop} {env : Env} {p : Profile} {α β : Type}

namespace Keeps

theorem bind {m : M α} {f : α → M β} {Q : α → Prop} {Q' : β → Prop} (h : Keeps I m Q) (hf : ∀ a, Q a → Keeps I (f a) Q') :
    Keeps I (m >>= f) Q' := by
  intro w hw
  have hb : (m >>= f) w = match m w with
    | (.ok a, w') => f a w'
    | (.err e, w') => (.err e, w')
    | (.panic k, w') => (.panic k, w')
    | (.diverge, w') => (.diverge, w') := rfl
  obtain ⟨h1, h2⟩ := h w hw
  rw [hb]
  cases hx : m w with
  | mk o w' =>
  rw [hx] at h1 h2
  cases o with
  | ok a => exact hf a (h2 a rfl) w' h1
  | err e => exact ⟨h1, fun a ha => by cases ha⟩
  | panic k => exact ⟨h1, fun a ha => by cases ha⟩
  | diverge => exact ⟨h1, fun a ha => by cases ha⟩

theorem mono {m : M α} {Q Q' : α → Prop} (h : Keeps I m Q) (hq : ∀ a, Q a → Q' a) : Keeps I m Q' :=
  fun w hw => ⟨(h w hw).1, fun a ha => hq a ((h w hw).2 a ha)⟩

theorem pure {Q : α → Prop} {a : α} (h : Q a) : Keeps I (Pure.pure a : M α) Q :=
  fun w hw => ⟨hw, fun a' ha => by cases ha; exact h⟩

theorem lift {Q : α → Prop} {o : Out LookupErr α} (h : ∀ a, o = .ok a → Q a) : Keeps I (M.lift o) Q :=
  fun w hw => ⟨hw, fun a ha => h a ha⟩

theorem throw {Q : α → Prop} {e : LookupErr} : Keeps I (M.throw e : M α) Q := lift (fun a h => by cases h)

theorem panic {Q : α → Prop} {k : Panic} : Keeps I (M.panic k : M α) Q := lift (fun a h => by cases h)

theorem attempt {m : M α} {Q : α → Prop} (h : Keeps I m Q) : Keeps I (M.attempt m) (fun x => ∀ a, x = .inr a → Q a) := by
  intro w hw
  have hb : M.attempt m w = match m w with
    | (.ok a, w') => (.ok (.inr a), w')
    | (.err e, w') => (.ok (.inl e), w')
    | (.panic k, w') => (.panic k, w')
    | (.diverge, w') => (.diverge, w') := rfl
  obtain ⟨h1, h2⟩ := h w hw
  rw [hb]
  cases hx : m w with
  | mk o w' =>
  rw [hx] at h1 h2
  cases o with
  | ok a => exact ⟨h1, fun x hx => by cases hx; rintro a' h'; cases h'; exact h2 _ rfl⟩
  | err e => exact ⟨h1, fun x hx => by cases hx; rintro a' h'; cases h'⟩
  | panic k => exact ⟨h1, fun a ha => by cases ha⟩
  | diverge => exact ⟨h1, fun a ha => by cases ha⟩

theorem emit {e : Event} : Keeps I (M.emit e) (fun _ => True) := fun _ hw => ⟨hw, fun _ _ => trivial⟩

theorem now : Keeps I (now env) (fun _ => True) := fun _ hw => ⟨hw, fun _ _ => trivial⟩

theorem randomId : Keeps I (randomId env) (fun _ => True) := fun _ hw => ⟨hw, fun _ _ => trivial⟩

end Keeps

/-- The invariant: `full` says that nothing is truncated. -/
def Truth (U : Facts) (full : Prop) (c : RecordsCache) : Prop := FactualCache U c ∧ (full → WholeCache U c)

/-- The surroundings. -/
structure Around (U : Facts) (full : Prop) (env : Env) (p : Profile) : Prop where
  single : full → ∀ n, (U n .CNAME).length ≤ 1
  honest : HonestWorld U env p
  never : full → NeverTruncated env p
  others : ∀ i c, Truth U full c → Truth U full (env.others i c)

variable {U : Facts} {full : Prop}

/-- The record set of this name and type, as it comes from the cache or from a server. -/
def TrueSet (U : Facts) (full : Prop) (node : Name) (kind : RecordType) (rs : List Record) : Prop :=
  (∀ r ∈ rs, Factual U r ∧ (kind ≠ .NS → r.node = node ∧ r.recordType = kind)) ∧
  (full → kind ≠ .NS → rs ≠ [] → HasAll U node kind rs)

theorem factual_setTtl {r : Record} {t : UInt32} : Factual U (r.setTtl t) ↔ Factual U r := Iff.rfl

theorem TrueSet.map_ttl {node : Name} {kind : RecordType} {rs : List Record} (h : TrueSet U full node kind rs) (t : UInt32) :
    TrueSet U full node kind (rs.map fun r => r.setTtl t) := by
  refine ⟨fun r hr => ?_, fun hf hk hne d hd => ?_⟩
  · obtain ⟨r', hr', rfl⟩ := List.mem_map.1 hr
    exact h.1 r' hr'
  · obtain ⟨r, hr, h1, h2, h3⟩ := h.2 hf hk (by rintro rfl; exact hne rfl) d hd
    exact ⟨_, List.mem_map_of_mem hr, h1, h2, h3⟩

theorem searchRecords_keeps (ha : Around U full env p) (node : Name) (kind : RecordType) :
    Keeps (Truth U full) (searchRecordsInCache env node kind) (TrueSet U full node kind) := by
  intro w hw
  have h1 := ha.others (w.ticks + 1) _ hw
  have heq := searchRecords_eq (env := env) (w := w) node kind
  simp only at heq
  rw [heq]
  refine ⟨⟨fun k e r hf => h1.1 k e r (mem_getClone hf), fun hfull k e r hf => h1.2 hfull k e r (mem_getClone hf)⟩, ?_⟩
  intro rs hrs
  cases hr : ((env.others (w.ticks + 1) w.cache).getClone (node, kind) (env.clock (w.ticks + 2))).2 with
  | none =>
    rw [hr] at hrs
    cases hrs
    exact ⟨by simp, fun _ _ h => absurd rfl h⟩
  | some e =>
    obtain ⟨exp, recs⟩ := e
    rw [hr] at hrs
    simp only at hrs
    obtain ⟨hfind, -⟩ := getClone_some hr
    have hset : TrueSet U full node kind recs := ⟨h1.1 _ _ _ hfind, fun hfull hk _ => h1.2 hfull _ _ _ hfind hk⟩
    unfold serveCached at hrs
    cases recs with
    | nil => cases hrs; exact hset
    | cons r0 rest =>
      simp only at hrs
      split at hrs
      · cases hrs
      split at hrs
      · cases hrs
      split at hrs
      · cases hrs
      cases hrs
      exact hset.map_ttl _

theorem saveRecords_keeps (ha : Around U full env p) {rs : List Record} {node : Name} {kind : RecordType}
    (ht : ∀ r ∈ rs, r.recordType = kind) (hh : kind ≠ .NS → ∀ r ∈ rs, r.node = node) (hs : TrueSet U full node kind rs) :
    Keeps (Truth U full) (saveRecordsInCache env rs) (fun _ => True) := by
  cases rs with
  | nil => exact Keeps.panic
  | cons r0 rest =>
    intro w hw
    have ht0 := ht r0 (by simp)
    have heq := saveRecords_eq (env := env) (w := w) (r0 := r0) (rs := rest) fun r hr => by rw [ht r (by simp [hr]), ht0]
    rw [heq]
    have h1 := ha.others w.ticks _ hw
    have hset := hs.map_ttl (minTtl r0.ttl rest)
    refine ⟨⟨?_, ?_⟩, fun _ _ => trivial⟩
    · intro k e r hfd
      simp only [find_set, Cache.find_put] at hfd
      by_cases hk : (r0.node, r0.recordType) = k
      · rw [if_pos hk] at hfd
        injection hfd with hfd
        injection hfd with h2 h3
        subst h2 h3 hk
        intro x hx
        obtain ⟨hx1, hx2⟩ := hset.1 x hx
        refine ⟨hx1, fun hns => ?_⟩
        have hk0 : kind ≠ .NS := fun h => hns (ht0.trans h)
        have := hh hk0 r0 (by simp)
        simp only
        rw [this, ht0]
        exact hx2 hk0
      · rw [if_neg hk] at hfd
        exact h1.1 _ _ _ hfd
    · intro hfull k e r hfd hns
      simp only [find_set, Cache.find_put] at hfd
      by_cases hk : (r0.node, r0.recordType) = k
      · rw [if_pos hk] at hfd
        injection hfd with hfd
        injection hfd with h2 h3
        subst h2 h3 hk
        have hk0 : kind ≠ .NS := fun h => hns (ht0.trans h)
        have e1 := hh hk0 r0 (by simp)
        simp only
        rw [e1, ht0]
        exact hset.2 hfull hk0 (by simp)
      · rw [if_neg hk] at hfd
        exact h1.2 hfull _ _ _ hfd hns

/-! ## Requests -/

/-- What is known of a response. -/
def HonestReply (U : Facts) (full : Prop) (node : Name) (m : Message) : Prop :=
  Honest U node m ∧ (full → m.header.truncated = false)

theorem sendUdpPacket_keeps {ns : NextNs} {bytes : List UInt8} :
    Keeps I (sendUdpPacket env ns bytes) (fun r => ∃ hist addr raw, env.net hist addr bytes = some raw ∧ r = raw.take 512) := by
  unfold sendUdpPacket
  refine Keeps.bind (Keeps.lift (Q := fun _ => True) fun _ _ => trivial) fun addrs _ => ?_
  cases addrs with
  | nil => exact Keeps.panic
  | cons addr rest =>
    simp only [List.head?_cons]
    intro w hw
    cases hn : env.net w.log addr bytes with
    | none => exact ⟨by simp only [hn]; exact hw, fun a h => by simp only [hn] at h; cases h⟩
    | some raw =>
      refine ⟨by simp only [hn]; exact hw, fun a h => ?_⟩
      simp only [hn] at h
      cases h
      exact ⟨_, _, _, hn, rfl⟩

theorem sendQuery_keeps (ha : Around U full env p) (ns : NextNs) (node : Name) (kind : RecordType) :
    Keeps I (sendQuery env p ns node kind) (HonestReply U full node) := by
  unfold sendQuery
  refine Keeps.randomId.bind fun id _ => ?_
  refine Keeps.bind (Keeps.lift (Q := fun q => QueryFor id node kind q) ?_) fun bytes hq => ?_
  · intro q h
    unfold encodeUnwrap at h
    cases he : (buildDnsRequest id node kind).encodeToBytes with
    | ok b => rw [he] at h; cases h; exact he
    | err e => rw [he] at h; cases h
    | panic k => rw [he] at h; cases h
    | diverge => rw [he] at h; cases h
  refine Keeps.bind sendUdpPacket_keeps fun reply hr => ?_
  obtain ⟨hist, addr, raw, hnet, rfl⟩ := hr
  refine Keeps.lift fun m hm => ?_
  unfold acceptResponse at hm
  cases hd : Message.decodeFromBytes p (raw.take 512) with
  | ok resp =>
    rw [hd] at hm
    simp only at hm
    by_cases hid : resp.header.id ≠ id
    · rw [if_pos hid] at hm; cases hm
    · rw [if_neg hid] at hm
      cases hm
      exact ⟨ha.honest _ _ _ _ _ _ _ _ hnet hq hd (not_not.1 hid), fun hf => ha.never hf _ _ _ _ _ hnet hd⟩
  | err e => rw [hd] at hm; cases hm
  | panic k => rw [hd] at hm; cases hm
  | diverge => rw [hd] at hm; cases hm

theorem sendRetries_keeps (ha : Around U full env p) (ns : NextNs) (node : Name) (kind : RecordType) :
    ∀ (n : Nat) (e : Option LookupErr), Keeps I (sendQueryWithRetries env p ns node kind n e) (HonestReply U full node)
  | 0, some e => Keeps.throw
  | 0, none => Keeps.panic
  | n + 1, e => by
    unfold sendQueryWithRetries
    refine (Keeps.attempt (sendQuery_keeps ha ns node kind)).bind fun x hx => ?_
    cases x with
    | inr resp => exact Keeps.pure (hx _ rfl)
    | inl e' => exact sendRetries_keeps ha ns node kind n _

/-- What is known of an interpreted response. -/
def TrueReply (U : Facts) (full : Prop) (node : Name) (kind : RecordType) : NsResponse → Prop
  | .noDomain soa => (∀ t, U node t = []) ∧ ∀ r ∈ soa, Factual U r
  | .answer answers additionals => TrueSet U full node kind answers ∧ (∀ r ∈ answers, r.recordType = kind ∧ r.node = node) ∧
      answers ≠ [] ∧ ∀ r ∈ additionals, Factual U r
  | .alias cname _ => Factual U cname ∧ cname.node = node ∧ cname.recordType = .CNAME
  | .delegation nss => (∀ ns ∈ nss, Factual U ns.nsRecord ∧ ns.nsRecord.recordType = .NS ∧
      ∃ t, TrueSet U full t .A ns.aRecords ∧ ∀ r ∈ ns.aRecords, r.recordType = .A ∧ r.node = t)

theorem extracted_all {rs : List Record} {kind : RecordType} {node : Name} {r : Record} (h : r ∈ rs) (hn : r.node = node)
    (hk : r.recordType = kind) : r ∈ (extractRecords rs kind node).1 := by
  obtain ⟨h1, h2, h3⟩ := extractRecords_spec rs kind node
  rcases List.mem_append.1 (h1.mem_iff.2 h) with h | h
  · exact h
  · have := h3 r h
    rw [isWanted_iff.2 ⟨hn, hk⟩] at this
    cases this

theorem left_others {rs : List Record} {kind : RecordType} {node : Name} {r : Record} (h : r ∈ rs)
    (hn : ¬ (r.node = node ∧ r.recordType = kind)) : r ∈ (extractRecords rs kind node).2 := by
  obtain ⟨h1, h2, h3⟩ := extractRecords_spec rs kind node
  rcases List.mem_append.1 (h1.mem_iff.2 h) with h | h
  · exact absurd (isWanted_iff.1 (h2 r h)) hn
  · exact h

theorem pairWithAddrs_true {keep : NextNs → Out LookupErr Bool} : ∀ {rs ad : List Record} {nss : List NextNs},
    (∀ r ∈ ad, Factual U r) → (full → ∀ r ∈ ad, HasAll U r.node r.recordType ad) →
    pairWithAddrs keep rs ad = .ok nss →
    ∀ ns ∈ nss, ns.nsRecord ∈ rs ∧ ∃ t, TrueSet U full t .A ns.aRecords ∧ ∀ r ∈ ns.aRecords, r.recordType = .A ∧ r.node = t
  | [], ad, nss, _, _, h => by unfold pairWithAddrs at h; cases h; simp
  | r :: rs, ad, nss, hf, hw, h => by
    unfold pairWithAddrs at h
    obtain ⟨t, ht, h⟩ := Out.of_bind_ok h
    simp only at h
    obtain ⟨b, hb, h⟩ := Out.of_bind_ok h
    obtain ⟨rest, hrest, h⟩ := Out.of_bind_ok h
    have ih := pairWithAddrs_true (keep := keep) (rs := rs) (fun x hx => hf x (mem_left hx)) (fun hfull x hx d hd => ?_) hrest
    · have old : ∀ ns ∈ rest, ns.nsRecord ∈ r :: rs ∧ ∃ t, TrueSet U full t .A ns.aRecords ∧ ∀ r ∈ ns.aRecords, r.recordType = .A ∧ r.node = t :=
        fun ns hns => ⟨List.mem_cons_of_mem _ (ih ns hns).1, (ih ns hns).2⟩
      cases b with
      | false => cases h; exact old
      | true =>
        cases h
        intro ns hns
        rcases List.mem_cons.1 hns with rfl | hns
        · refine ⟨List.mem_cons_self, t, ⟨fun x hx => ?_, fun hfull _ hne d hd => ?_⟩, fun x hx => ?_⟩
          · obtain ⟨a1, a2, a3⟩ := mem_extracted hx
            exact ⟨hf x a1, fun _ => ⟨a2, a3⟩⟩
          · obtain ⟨x, hx⟩ := List.exists_mem_of_ne_nil _ hne
            obtain ⟨a1, a2, a3⟩ := mem_extracted hx
            obtain ⟨y, hy, b1, b2, b3⟩ := hw hfull x a1 d (by rw [a2, a3]; exact hd)
            rw [a2] at b1
            rw [a3] at b2
            exact ⟨y, extracted_all hy b1 b2, b1, b2, b3⟩
          · obtain ⟨a1, a2, a3⟩ := mem_extracted hx
            exact ⟨a3, a2⟩
        · exact old ns hns
    · have hx0 := mem_left hx
      obtain ⟨y, hy, b1, b2, b3⟩ := hw hfull x hx0 d hd
      refine ⟨y, left_others hy ?_, b1, b2, b3⟩
      rw [b1, b2]
      rintro hh
      obtain ⟨-, -, h3⟩ := extractRecords_spec ad .A t
      have := h3 x hx
      rw [isWanted_iff.2 hh] at this
      cases this

theorem interpret_true {resp : Message} {node : Name} {kind : RecordType} {zone : Name} {r : NsResponse}
    (hr : HonestReply U full node resp) (h : interpret resp node kind zone = .ok r) : TrueReply U full node kind r := by
  have hans : ∀ r ∈ resp.answers, Factual U r := fun r hr' => hr.1.facts r (by simp [hr'])
  have haut : ∀ r ∈ resp.authorities, Factual U r := fun r hr' => hr.1.facts r (by simp [hr'])
  have hadd : ∀ r ∈ resp.additionals, Factual U r := fun r hr' => hr.1.facts r (by simp [hr'])
  unfold interpret at h
  cases hc : resp.header.respCode with
  | NoError =>
    rw [hc] at h
    simp only at h
    by_cases hl : (extractRecords resp.answers kind node).1.length > 0
    · rw [if_pos hl] at h
      cases h
      refine ⟨⟨fun x hx => ?_, fun hfull hk hne d hd => ?_⟩, fun x hx => ?_, List.ne_nil_of_length_pos hl, hadd⟩
      · obtain ⟨a1, a2, a3⟩ := mem_extracted hx
        exact ⟨hans x a1, fun _ => ⟨a2, a3⟩⟩
      · obtain ⟨x, hx⟩ := List.exists_mem_of_ne_nil _ hne
        obtain ⟨a1, a2, a3⟩ := mem_extracted hx
        obtain ⟨y, hy, b1, b2, b3⟩ := hr.1.whole (hr.2 hfull) resp.answers (by simp) x a1 d (by rw [a2, a3]; exact hd)
        rw [a2] at b1
        rw [a3] at b2
        exact ⟨y, extracted_all hy b1 b2, b1, b2, b3⟩
      · obtain ⟨a1, a2, a3⟩ := mem_extracted hx
        exact ⟨a3, a2⟩
    · rw [if_neg hl] at h
      cases he : extractRecord (extractRecords resp.answers kind node).2 .CNAME node with
      | mk o l =>
      rw [he] at h
      cases o with
      | some cname =>
        simp only at h
        obtain ⟨t, -, h⟩ := Out.of_bind_ok h
        obtain ⟨nss, -, h⟩ := Out.of_bind_ok h
        cases h
        have hs := extractRecord_spec (r := cname) (congrArg Prod.fst he)
        exact ⟨hans _ (mem_left hs.1), hs.2.1, hs.2.2⟩
      | none =>
        simp only at h
        obtain ⟨nss, h1, h⟩ := Out.of_bind_ok h
        by_cases h0 : nss.length > 0
        · rw [if_pos h0] at h
          cases h
          intro ns hns
          unfold extractNextNssForSubzone at h1
          obtain ⟨a1, a2⟩ := pairWithAddrs_true (U := U) (full := full) hadd
            (fun hfull => hr.1.whole (hr.2 hfull) resp.additionals (by simp)) h1 ns hns
          have hm := List.mem_filter.1 a1
          have hk := hm.2
          rw [Bool.and_eq_true, beq_iff_eq] at hk
          exact ⟨haut _ hm.1, hk.1, a2⟩
        · rw [if_neg h0] at h; cases h
  | NxDomain =>
    rw [hc] at h
    simp only at h
    by_cases haa : resp.header.authAnswer = true
    · rw [if_pos haa] at h
      cases h
      exact ⟨hr.1.denial hc, fun r hr' => haut _ (extractRecord_spec hr').1⟩
    · rw [if_neg haa] at h; cases h
  | FormErr => rw [hc] at h; cases h
  | ServFail => rw [hc] at h; cases h
  | NotImp => rw [hc] at h; cases h
  | Refused => rw [hc] at h; cases h

theorem performRequest_keeps (ha : Around U full env p) (ns : NextNs) (node : Name) (kind : RecordType) (n : Nat) :
    Keeps I (performRequest env p ns node kind n) (TrueReply U full node kind) := by
  unfold performRequest
  refine (sendRetries_keeps ha ns node kind n none).bind fun resp hr => ?_
  exact Keeps.lift fun r h => interpret_true hr h

/-! ## Servers -/

theorem saveAddrs_keeps (ha : Around U full env p) : ∀ {nss : List NextNs},
    (∀ ns ∈ nss, ∃ t, TrueSet U full t .A ns.aRecords ∧ ∀ r ∈ ns.aRecords, r.recordType = .A ∧ r.node = t) →
    Keeps (Truth U full) (saveAddrs env nss) (fun _ => True)
  | [], _ => Keeps.pure trivial
  | ns :: nss, h => by
    unfold saveAddrs
    have ih := saveAddrs_keeps ha (nss := nss) fun x hx => h x (List.mem_cons_of_mem _ hx)
    show Keeps (Truth U full) (if ns.aRecords.length > 0 then (saveRecordsInCache env ns.aRecords >>= fun _ => saveAddrs env nss)
      else saveAddrs env nss) _
    by_cases h0 : ns.aRecords.length > 0
    · rw [if_pos h0]
      obtain ⟨t, h1, h2⟩ := h ns (by simp)
      exact (saveRecords_keeps ha (fun r hr => (h2 r hr).1) (fun _ r hr => (h2 r hr).2) h1).bind fun _ _ => ih
    · rw [if_neg h0]
      exact ih

theorem saveNss_keeps (ha : Around U full env p) {node : Name} {kind : RecordType} {nss : List NextNs}
    (h : TrueReply U full node kind (.delegation nss)) : Keeps (Truth U full) (saveNssInCache env nss) (fun _ => True) := by
  unfold saveNssInCache
  refine (saveAddrs_keeps ha fun ns hns => (h ns hns).2.2).bind fun _ _ => ?_
  refine saveRecords_keeps ha (node := node) (kind := .NS) (fun r hr => ?_) (fun hk => absurd rfl hk) ⟨fun r hr => ⟨?_, fun hk => absurd rfl hk⟩, fun _ hk => absurd rfl hk⟩
  · obtain ⟨ns, hns, rfl⟩ := List.mem_map.1 hr
    exact (h ns hns).2.1
  · obtain ⟨ns, hns, rfl⟩ := List.mem_map.1 hr
    exact (h ns hns).1

theorem findNsRecords_keeps (ha : Around U full env p) : ∀ (ds : List Str),
    Keeps (Truth U full) (findNsRecords env ds) (fun _ => True)
  | [] => Keeps.pure trivial
  | d :: ds => by
    unfold findNsRecords
    refine (Keeps.lift (Q := fun _ => True) fun _ _ => trivial).bind fun n _ => ?_
    refine (searchRecords_keeps ha n .NS).bind fun rs _ => ?_
    by_cases h0 : rs.length > 0
    · simp only [if_pos h0]; exact Keeps.pure trivial
    · simp only [if_neg h0]; exact findNsRecords_keeps ha ds

theorem findAddrs_keeps (ha : Around U full env p) : ∀ (rs : List Record),
    Keeps (Truth U full) (findAddrs env rs) (fun _ => True)
  | [] => Keeps.pure trivial
  | r :: rs => by
    unfold findAddrs
    refine (Keeps.lift (Q := fun _ => True) fun _ _ => trivial).bind fun n _ => ?_
    refine (searchRecords_keeps ha n .A).bind fun as _ => ?_
    exact (findAddrs_keeps ha rs).bind fun _ _ => Keeps.pure trivial

theorem startingServers_keeps (ha : Around U full env p) (lk : Lookup) (nss : List NextNs) :
    Keeps (Truth U full) (startingServers env lk nss) (fun _ => True) := by
  unfold startingServers
  by_cases h0 : nss.isEmpty
  · rw [if_pos h0]
    unfold searchNssInCache
    exact Keeps.bind (Q := fun _ => True) ((findNsRecords_keeps ha _).bind fun rs _ => findAddrs_keeps ha rs)
      fun _ _ => Keeps.pure trivial
  · rw [if_neg h0]
    exact Keeps.pure trivial

/-! ## Lookups -/

/-- The sub-lookups keep the truth. -/
def SubsTrue (U : Facts) (full : Prop) (sub : Lookup → M Response) : Prop :=
  ∀ lk : Lookup, lk.previousCnames = [] → Keeps (Truth U full) (sub lk) (fun _ => True)

theorem resolveAddrs_keeps {sub : Lookup → M Response} (hsub : SubsTrue U full sub) (lk : Lookup) (ns : NextNs) :
    Keeps (Truth U full) (resolveAddrs sub lk ns) (fun _ => True) := by
  unfold resolveAddrs
  refine (Keeps.lift (Q := fun _ => True) fun _ _ => trivial).bind fun as _ => ?_
  by_cases h0 : as.isEmpty
  · rw [if_pos h0]
    refine (Keeps.lift (Q := fun _ => True) fun _ _ => trivial).bind fun n _ => ?_
    refine (Keeps.attempt (Q := fun _ => True) ?_).bind fun x _ => ?_
    · unfold resolveNsSubquery
      refine (Keeps.lift (Q := fun _ => True) fun _ _ => trivial).bind fun _ _ => ?_
      exact (hsub _ rfl).bind fun _ _ => Keeps.pure trivial
    · cases x with
      | inl e => exact Keeps.throw
      | inr rs => exact Keeps.pure trivial
  · rw [if_neg h0]
    exact Keeps.pure trivial

theorem tryServers_keeps (ha : Around U full env p) {sub : Lookup → M Response} (hsub : SubsTrue U full sub) (lk : Lookup) :
    ∀ (nss : List NextNs) (e : Option LookupErr),
      Keeps (Truth U full) (tryServers env p sub lk nss e) (TrueReply U full lk.node lk.kind)
  | [], some e => Keeps.throw
  | [], none => Keeps.panic
  | ns :: nss, e => by
    unfold tryServers
    refine (Keeps.attempt (Q := TrueReply U full lk.node lk.kind) ?_).bind fun x hx => ?_
    · unfold tryServer
      refine (resolveAddrs_keeps hsub lk ns).bind fun ns' _ => ?_
      exact Keeps.emit.bind fun _ _ => performRequest_keeps ha ns' _ _ _
    · cases x with
      | inr r => exact Keeps.pure (hx _ rfl)
      | inl e' => exact tryServers_keeps ha hsub lk nss _

theorem query_keeps (ha : Around U full env p) {sub : Lookup → M Response} (hsub : SubsTrue U full sub) (lk : Lookup) :
    ∀ (fuel : Nat) (nss : List NextNs),
      Keeps (Truth U full) (queryIteratively env p sub lk fuel nss) (TrueReply U full lk.node lk.kind)
  | 0, _ => Keeps.lift fun _ h => by cases h
  | fuel + 1, nss => by
    unfold queryIteratively
    by_cases h0 : nss.length = 0
    · rw [if_pos h0]; exact Keeps.panic
    · rw [if_neg h0]
      refine (tryServers_keeps ha hsub lk _ none).bind fun r hr => ?_
      cases r with
      | delegation nextNss =>
        refine (saveNss_keeps ha hr).bind fun _ _ => ?_
        exact query_keeps ha hsub lk fuel nextNss
      | answer a b => exact Keeps.pure hr
      | «alias» a b => exact Keeps.pure hr
      | noDomain a => exact Keeps.pure hr

/-- What is known of the response of a lookup. -/
def TrueResponse (U : Facts) (full : Prop) (lk : Lookup) (r : Response) : Prop :=
  (∀ x ∈ r.answers ++ r.authorities ++ r.additionals, Factual U x) ∧
  ∃ chain final recs, r.answers = lk.previousCnames ++ chain ++ recs ∧ Aliases lk.node chain final ∧
    (lk.kind ≠ .NS → ∀ x ∈ recs, x.node = final ∧ x.recordType = lk.kind) ∧
    (r.noRecords = true → recs = [] ∧ ∀ t, U final t = []) ∧
    (r.noRecords = false → recs ≠ [] ∧ (full → lk.kind ≠ .NS → HasAll U final lk.kind recs))

theorem handleCname_keeps (ha : Around U full env p) {lk : Lookup} {cname : Record} (hp : ∀ x ∈ lk.previousCnames, Factual U x)
    (hf : Factual U cname) (hn : cname.node = lk.node) (hk : cname.recordType = .CNAME) :
    Keeps (Truth U full) (handleCname env lk cname) (fun lk' => ∃ t, cname.data = .CNAME t ∧ lk' = { lk with node := t, previousCnames := lk.previousCnames ++ [cname] }) := by
  obtain ⟨t, ht⟩ := cnameData_of hk
  unfold handleCname
  have e : (cname.cnameData : Out LookupErr Name) = .ok t := by unfold Record.cnameData; rw [ht]
  rw [e]
  refine (Keeps.lift (Q := fun n => n = t) fun a h => by cases h; rfl).bind ?_
  rintro n rfl
  refine (Keeps.lift (Q := fun _ => True) fun _ _ => trivial).bind fun _ _ => ?_
  by_cases h0 : lk.conf.noFollowCname
  · rw [if_pos h0]; exact Keeps.throw
  · rw [if_neg h0]
    refine Keeps.bind (Q := fun _ => True) ?_ fun _ _ => Keeps.pure ⟨n, ht, rfl⟩
    refine saveRecords_keeps ha (node := cname.node) (kind := .CNAME) (by simpa using hk) (by simp) ⟨?_, ?_⟩
    · intro r hr
      rw [List.mem_singleton.1 hr]
      exact ⟨hf, fun _ => ⟨rfl, hk⟩⟩
    · intro hfull _ _ d hd
      refine ⟨cname, by simp, rfl, hk, ?_⟩
      have h1 := ha.single hfull cname.node
      unfold Factual at hf
      rw [hk] at hf
      cases hU : U cname.node .CNAME with
      | nil => rw [hU] at hd; cases hd
      | cons a l =>
        rw [hU] at h1 hd hf
        have : l = [] := List.length_eq_zero_iff.1 (by simp at h1; exact h1 ▸ rfl)
        subst this
        rw [List.mem_singleton.1 hd, List.mem_singleton.1 hf]

theorem performLoop_keeps (ha : Around U full env p) {sub : Lookup → M Response} (hsub : SubsTrue U full sub) (fuel : Nat) :
    ∀ (rounds : Nat) (lk : Lookup) (nss : List NextNs), (∀ x ∈ lk.previousCnames, Factual U x) →
      Keeps (Truth U full) (performLoop env p sub fuel rounds lk nss) (TrueResponse U full lk)
  | 0, _, _, _ => Keeps.throw
  | rounds + 1, lk, nss, hp => by
    unfold performLoop
    have again : ∀ (cname : Record) (nss : List NextNs), Factual U cname → cname.node = lk.node → cname.recordType = .CNAME →
        Keeps (Truth U full) (handleCname env lk cname >>= fun lk' => performLoop env p sub fuel rounds lk' nss) (TrueResponse U full lk) := by
      intro cname nss hf hn hk
      refine (handleCname_keeps ha hp hf hn hk).bind ?_
      rintro _ ⟨t, ht, rfl⟩
      refine (performLoop_keeps ha hsub fuel rounds _ nss ?_).mono ?_
      · intro x hx
        rcases List.mem_append.1 hx with h | h
        · exact hp x h
        · rw [List.mem_singleton.1 h]; exact hf
      · rintro r ⟨h1, chain, final, recs, h2, h3, h4⟩
        refine ⟨h1, cname :: chain, final, recs, ?_, .cons hn ht h3, h4⟩
        rw [h2]
        simp
    refine Keeps.emit.bind fun _ _ => ?_
    refine (searchRecords_keeps ha lk.node lk.kind).bind fun cached hc => ?_
    by_cases h0 : cached.length > 0
    · simp only [if_pos h0]
      refine Keeps.pure ⟨?_, [], lk.node, cached, by simp, .nil, fun hk x hx => (hc.1 x hx).2 hk, ?_, ?_⟩
      · intro x hx
        simp only [List.append_nil, List.mem_append] at hx
        rcases hx with h | h
        · exact hp x h
        · exact (hc.1 x h).1
      · intro h; cases h
      · exact fun _ => ⟨List.ne_nil_of_length_pos h0, fun hfull hk => hc.2 hfull hk (List.ne_nil_of_length_pos h0)⟩
    · simp only [if_neg h0]
      refine (searchRecords_keeps ha lk.node .CNAME).bind fun cnames hcn => ?_
      cases cnames with
      | cons cname rest =>
        obtain ⟨h1, h2⟩ := hcn.1 cname (by simp)
        obtain ⟨h3, h4⟩ := h2 (by simp)
        exact again cname [] h1 h3 h4
      | nil =>
        simp only
        refine (startingServers_keeps ha lk nss).bind fun nss' _ => ?_
        refine (query_keeps ha hsub lk fuel nss').bind fun r hr => ?_
        cases r with
        | answer answers additionals =>
          simp only
          refine (saveRecords_keeps ha (fun r hr' => (hr.2.1 r hr').1) (fun _ r hr' => (hr.2.1 r hr').2) hr.1).bind fun _ _ => ?_
          have hne : answers ≠ [] := hr.2.2.1
          refine Keeps.pure ⟨?_, [], lk.node, answers, by simp, .nil, fun _ x hx => ⟨(hr.2.1 x hx).2, (hr.2.1 x hx).1⟩, fun h => (by cases h),
            fun _ => ⟨hne, fun hfull hk => hr.1.2 hfull hk hne⟩⟩
          intro x hx
          simp only [List.append_nil, List.mem_append] at hx
          rcases hx with (h | h) | h
          · exact hp x h
          · exact (hr.1.1 x h).1
          · exact hr.2.2.2 x h
        | «alias» cname nextNss => exact again cname nextNss hr.1 hr.2.1 hr.2.2
        | noDomain soa =>
          simp only
          refine Keeps.pure ⟨?_, [], lk.node, [], by simp, .nil, by simp, fun _ => ⟨rfl, hr.1⟩, fun h => by cases h⟩
          intro x hx
          simp only [List.append_nil, List.mem_append] at hx
          rcases hx with h | h
          · exact hp x h
          · exact hr.2 x (by simpa using h)
        | delegation nss'' => exact Keeps.panic

theorem perform_keeps (ha : Around U full env p) : ∀ (fuel : Nat) (lk : Lookup), (∀ x ∈ lk.previousCnames, Factual U x) →
    Keeps (Truth U full) (perform env p fuel lk) (TrueResponse U full lk)
  | 0, _, _ => Keeps.lift fun _ h => by cases h
  | fuel + 1, lk, hp => by
    unfold perform
    exact performLoop_keeps ha (fun lk' h => (perform_keeps ha fuel lk' (by rw [h]; simp)).mono fun _ _ => trivial) fuel _ lk [] hp

end Ariadne.Resolver
