import Verif.Props.ResolverParts

/-!
# C62 (counterexample), C65, C70: referrals, ids, cached delegations
-/

namespace Ariadne.Props

open Spec Resolver

/-! ## C62 -/

/-- Encoded, if possible. -/
def datagram (m : Message) : Option (List UInt8) :=
  match m.encodeToBytes with
  | .ok b => some b
  | _ => none

/-- `ample.com.`, which is not an ancestor of `example.com.`. -/
def amplePart : Name := ⟨"ample.com.".toList⟩

/-- A referral for the query for `example.com.` with id 7. -/
def ampleReferral : Message :=
  ⟨⟨7, true, .STD, false, false, false, false, 0, .NoError, 0, 0, 1, 0⟩, [], [], [⟨amplePart, .IN, 60, 8, .NS ⟨"ns.org.".toList⟩⟩], []⟩

/-- Somebody answers every query with that referral. -/
def ampleEnv : Env := ⟨fun n => n, fun _ _ h => h, fun _ c => c, fun _ => 7, fun _ _ _ => datagram ampleReferral⟩

/-- A server of the zone `com.`. -/
def comServer : NextNs :=
  ⟨⟨⟨"com.".toList⟩, .IN, 60, 0, .NS ⟨"ns.com.".toList⟩⟩, [⟨⟨"ns.com.".toList⟩, .IN, 60, 0, .A ⟨1, 2, 3, 4⟩⟩]⟩

/-- The zones of a referral. -/
def zonesOf : Out LookupErr NsResponse → List Name
  | .ok (.delegation nss) => nss.map NextNs.zone
  | _ => []

theorem ample_run : zonesOf (performRequest ampleEnv .debug comServer ⟨"example.com.".toList⟩ .A 1 ⟨.empty, 0, []⟩).1 = [amplePart] := by
  decide +kernel

theorem validLabel_alpha {l : Str} (h : l ≠ []) (hl : l.all (fun c => decide ('a' ≤ c ∧ c ≤ 'z')) = true) : ValidLabel l := by
  have hall : ∀ c ∈ l, LetDig c := fun c hc => .inl (by simpa using List.all_eq_true.1 hl c hc)
  refine ⟨fun c hc => .inl (hall c hc), l.head h, l.getLast h, List.head?_eq_some_head h, List.getLast?_eq_some_getLast h,
    hall _ (List.head_mem h), hall _ (List.getLast_mem h)⟩

theorem nameOf_alpha {s : Str} (L : List Str) (h1 : L.all (fun l => !l.isEmpty && l.all (fun c => decide ('a' ≤ c ∧ c ≤ 'z'))) = true)
    (h2 : s = render L) : NameOf s L := by
  refine ⟨fun l hl => ?_, h2⟩
  have := List.all_eq_true.1 h1 l hl
  simp only [Bool.and_eq_true] at this
  exact validLabel_alpha (by intro h; rw [h] at this; simp at this) this.2

/-- C62 does not hold: a server of `com.` refers the lookup of `example.com.` to servers of `ample.com.`, and the referral
is followed, because the text `ample.com.` ends the text `example.com.`. -/
theorem C62_violated : ¬ C62_statement := by
  intro h
  have hrun := ample_run
  have hex : NameOf "example.com.".toList ["example".toList, "com".toList] := nameOf_alpha _ (by decide) (by decide)
  have hcom : NameOf "com.".toList ["com".toList] := nameOf_alpha _ (by decide) (by decide)
  have hample : NameOf "ample.com.".toList ["ample".toList, "com".toList] := nameOf_alpha _ (by decide) (by decide)
  cases hx : performRequest ampleEnv .debug comServer ⟨"example.com.".toList⟩ .A 1 ⟨.empty, 0, []⟩ with
  | mk o w' =>
  rw [hx] at hrun
  cases o with
  | ok r =>
    cases r with
    | delegation nss =>
      have hm : amplePart ∈ nss.map NextNs.zone := by
        have e : nss.map NextNs.zone = [amplePart] := hrun
        rw [e]; exact List.mem_singleton.2 rfl
      obtain ⟨next, hn, hz⟩ := List.mem_map.1 hm
      have hv : ValidName (⟨"example.com.".toList⟩ : Name).s := ⟨by decide, _, hex⟩
      have hu : Under ⟨"example.com.".toList⟩ comServer.zone := ⟨["example".toList], ["com".toList], hex, hcom⟩
      have := (h ampleEnv .debug comServer ⟨"example.com.".toList⟩ .A 1 ⟨.empty, 0, []⟩ w' nss hv hu hx next hn).2
      rw [hz] at this
      obtain ⟨M, L, h1, h2⟩ := this
      have e1 := nameOf_unique h1 hex
      have e2 : L = ["ample".toList, "com".toList] := nameOf_unique h2 hample
      subst e2
      cases M with
      | nil => revert e1; decide
      | cons m M =>
        have := congrArg List.length e1
        simp at this
    | _ => cases hrun
  | _ => cases hrun

/-- With the partial theorem: a referral from `com.` to `b.com.` for `a.b.com.` is followed, and it is a proper one. -/
example :
    let m : Message := ⟨⟨7, true, .STD, false, false, false, false, 0, .NoError, 0, 0, 1, 0⟩, [], [],
      [⟨⟨"b.com.".toList⟩, .IN, 60, 8, .NS ⟨"ns.org.".toList⟩⟩], []⟩
    let env : Env := ⟨fun n => n, fun _ _ h => h, fun _ c => c, fun _ => 7, fun _ _ _ => datagram m⟩
    zonesOf (performRequest env .debug comServer ⟨"a.b.com.".toList⟩ .A 1 ⟨.empty, 0, []⟩).1 = [⟨"b.com.".toList⟩] := by decide +kernel

example : AtLabel ⟨"a.b.com.".toList⟩ ⟨"b.com.".toList⟩ := ⟨"a.".toList, by decide, .inr (by decide)⟩

/-! ## C65 -/

/-- The full statement of C65: if the datagram received for a query carries another id than the query, the only effects are
that it was received and an error, upon which the query is repeated or given up. -/
def C65_statement : Prop :=
  ∀ (env : Env) (p : Profile) (ns : NextNs) (node : Name) (kind : RecordType) (w : World) (r : Record) (addr : Ip4)
    (query : List UInt8) (hi lo : UInt8) (rest : List UInt8),
    (∀ r ∈ ns.aRecords, r.recordType = .A) → ns.aRecords.head? = some r → r.data = .A addr →
    QueryFor (env.ids w.ticks) node kind query →
    env.net w.log addr query = some (hi :: lo :: rest) → hi.toNat * 256 + lo.toNat ≠ (env.ids w.ticks).toNat →
    ∃ e, sendQuery env p ns node kind w =
      (.err e, ⟨w.cache, w.ticks + 1, w.log ++ [.exchange addr query (some (hi :: lo :: rest))]⟩)

theorem sendQuery_eq {env : Env} {p : Profile} {ns : NextNs} {node : Name} {kind : RecordType} {w : World} {r : Record} {addr : Ip4}
    {query : List UInt8} {reply : List UInt8} (h0 : ∀ r ∈ ns.aRecords, r.recordType = .A) (h1 : ns.aRecords.head? = some r)
    (h2 : r.data = .A addr) (h3 : QueryFor (env.ids w.ticks) node kind query) (h4 : env.net w.log addr query = some reply) :
    sendQuery env p ns node kind w = (acceptResponse p (env.ids w.ticks) (reply.take 512),
      ⟨w.cache, w.ticks + 1, w.log ++ [.exchange addr query (some reply)]⟩) := by
  have e1 : encodeUnwrap (buildDnsRequest (env.ids w.ticks) node kind) = .ok query := by
    have h3' : (buildDnsRequest (env.ids w.ticks) node kind).encodeToBytes = .ok query := h3
    unfold encodeUnwrap
    rw [h3']
  obtain ⟨as, e2, e3⟩ : ∃ as, (ns.addrs : Out LookupErr (List Ip4)) = .ok as ∧ as.head? = some addr := by
    obtain ⟨as, ha, hl⟩ := addrsOf_ok (ε := LookupErr) h0
    refine ⟨as, ha, ?_⟩
    cases hn : ns.aRecords with
    | nil => rw [hn] at h1; cases h1
    | cons r' rs =>
      rw [hn] at h1 ha
      cases h1
      have ha' : ((do let a ← r.aData; let as ← addrsOf rs; .ok (a :: as)) : Out LookupErr (List Ip4)) = .ok as := ha
      have hr : (r.aData : Out LookupErr Ip4) = .ok addr := by unfold Record.aData; rw [h2]
      rw [hr] at ha'
      cases hrs : (addrsOf rs : Out LookupErr (List Ip4)) with
      | ok as' => rw [hrs] at ha'; cases ha'; rfl
      | err _ => rw [hrs] at ha'; cases ha'
      | panic _ => rw [hrs] at ha'; cases ha'
      | diverge => rw [hrs] at ha'; cases ha'
  unfold sendQuery sendUdpPacket
  simp only [bind, M.bind, randomId, M.lift, e1, e2, e3, h4]
  rfl

/-- C65, part: the statement for datagrams on which the decoder returns; moreover a response is only used if it decodes and
carries the id of the query. What is missing: decoding comes before the check of the id, so a datagram with another id on
which the decoder panics (C22) brings the lookup down. -/
theorem C65_other_id_partial (env : Env) (p : Profile) (ns : NextNs) (node : Name) (kind : RecordType) (w : World) (r : Record)
    (addr : Ip4) (query : List UInt8) (hi lo : UInt8) (rest : List UInt8)
    (h0 : ∀ r ∈ ns.aRecords, r.recordType = .A) (h1 : ns.aRecords.head? = some r) (h2 : r.data = .A addr)
    (h3 : QueryFor (env.ids w.ticks) node kind query) (h4 : env.net w.log addr query = some (hi :: lo :: rest))
    (h5 : hi.toNat * 256 + lo.toNat ≠ (env.ids w.ticks).toNat)
    (h6 : (Message.decodeFromBytes p ((hi :: lo :: rest).take 512)).Returns) :
    sendQuery env p ns node kind w =
      (.err .malformedResp, ⟨w.cache, w.ticks + 1, w.log ++ [.exchange addr query (some (hi :: lo :: rest))]⟩) := by
  rw [sendQuery_eq h0 h1 h2 h3 h4]
  congr 1
  unfold acceptResponse
  cases hd : Message.decodeFromBytes p ((hi :: lo :: rest).take 512) with
  | ok resp =>
    simp only
    rw [if_pos]
    intro hid
    have hf := (decoded_message hd).1.header.1
    have hm := field_mid (pre := []) (l := [hi, lo]) (post := rest.take 510)
    have e : (hi :: lo :: rest).take 512 = [] ++ [hi, lo] ++ rest.take 510 := by simp
    rw [← e] at hm
    have := BitsBuf.fieldAt_unique hf hm
    simp only [BitsBuf.beVal] at this
    rw [hid] at this
    simp at this
    omega
  | err _ => rfl
  | panic _ => rw [hd] at h6; exact absurd h6 (by simp [Out.Returns])
  | diverge => rw [hd] at h6; exact absurd h6 (by simp [Out.Returns])

/-- After such a datagram the query is repeated if retries are left, and otherwise the error is reported. -/
theorem C65_retry (env : Env) (p : Profile) (ns : NextNs) (node : Name) (kind : RecordType) (w w' : World) (e : LookupErr)
    (h : sendQuery env p ns node kind w = (.err e, w')) (n : Nat) (e' : Option LookupErr) :
    sendQueryWithRetries env p ns node kind (n + 1) e' w = sendQueryWithRetries env p ns node kind n (some e) w' ∧
    sendQueryWithRetries env p ns node kind 0 (some e) w' = (.err e, w') := by
  refine ⟨?_, rfl⟩
  rw [sendQueryWithRetries]
  simp only [bind, M.bind, M.attempt, h]

/-- Responses that are used come from exactly one exchange, whose datagram decodes to them and carries the id drawn. -/
theorem C65_used (env : Env) (p : Profile) (ns : NextNs) (node : Name) (kind : RecordType) (w w' : World) (resp : Message)
    (h : sendQuery env p ns node kind w = (.ok resp, w')) :
    ∃ addr query reply, w' = ⟨w.cache, w.ticks + 1, w.log ++ [.exchange addr query (some reply)]⟩ ∧
      QueryFor (env.ids w.ticks) node kind query ∧ env.net w.log addr query = some reply ∧
      Message.decodeFromBytes p (reply.take 512) = .ok resp ∧ resp.header.id = env.ids w.ticks := by
  unfold sendQuery sendUdpPacket at h
  simp only [bind, M.bind, randomId, M.lift] at h
  cases he : encodeUnwrap (buildDnsRequest (env.ids w.ticks) node kind) with
  | ok q =>
    rw [he] at h
    simp only at h
    have hq : QueryFor (env.ids w.ticks) node kind q := by
      unfold encodeUnwrap at he
      cases hb : (buildDnsRequest (env.ids w.ticks) node kind).encodeToBytes with
      | ok q' => rw [hb] at he; cases he; exact hb
      | err _ => rw [hb] at he; cases he
      | panic _ => rw [hb] at he; cases he
      | diverge => rw [hb] at he; cases he
    cases ha : (ns.addrs : Out LookupErr (List Ip4)) with
    | ok as =>
      rw [ha] at h
      simp only at h
      cases hh : as.head? with
      | none => rw [hh] at h; cases h
      | some addr =>
        rw [hh] at h
        simp only at h
        cases hn : env.net w.log addr q with
        | none => rw [hn] at h; cases h
        | some reply =>
          rw [hn] at h
          simp only at h
          obtain ⟨hr, rfl⟩ := Prod.mk.inj h
          have hr' : acceptResponse p (env.ids w.ticks) (reply.take 512) = .ok resp := hr
          refine ⟨addr, q, reply, rfl, hq, hn, ?_⟩
          unfold acceptResponse at hr'
          cases hd : Message.decodeFromBytes p (reply.take 512) with
          | ok m =>
            rw [hd] at hr'
            simp only at hr'
            by_cases hid : m.header.id ≠ env.ids w.ticks
            · rw [if_pos hid] at hr'; cases hr'
            · rw [if_neg hid] at hr'
              cases hr'
              exact ⟨rfl, not_not.1 hid⟩
          | err _ => rw [hd] at hr'; cases hr'
          | panic _ => rw [hd] at hr'; cases hr'
          | diverge => rw [hd] at hr'; cases hr'
    | err _ => rw [ha] at h; cases h
    | panic _ => rw [ha] at h; cases h
    | diverge => rw [ha] at h; cases h
  | err _ => rw [he] at h; cases h
  | panic _ => rw [he] at h; cases h
  | diverge => rw [he] at h; cases h

/-- A datagram with id 9: a header, one question, whose name is a pointer beyond the end of the datagram. -/
def spoofed : List UInt8 := [0, 9, 0x80, 0, 0, 1, 0, 0, 0, 0, 0, 0, 0xC0, 0xFF, 0, 1, 0, 1]

/-- Somebody answers every query with that datagram. -/
def spoofedEnv : Env := ⟨fun n => n, fun _ _ h => h, fun _ c => c, fun _ => 7, fun _ _ _ => some spoofed⟩

/-- Whether it is a panic. -/
def panicked {ε α : Type} : Out ε α → Bool
  | .panic _ => true
  | _ => false

/-- C65 does not hold: a datagram with id 9 brings down a lookup that sent a query with id 7. -/
theorem C65_violated : ¬ C65_statement := by
  intro h
  have hrun : panicked (sendQuery spoofedEnv .release comServer ⟨"a.".toList⟩ .A ⟨.empty, 0, []⟩).1 = true := by decide +kernel
  obtain ⟨q, -, hq⟩ := request_encodes 7 (node := ⟨"a.".toList⟩) (kind := .A) (by decide)
  obtain ⟨e, he⟩ := h spoofedEnv .release comServer ⟨"a.".toList⟩ .A ⟨.empty, 0, []⟩
    ⟨⟨"ns.com.".toList⟩, .IN, 60, 0, .A ⟨1, 2, 3, 4⟩⟩ ⟨1, 2, 3, 4⟩ q 0 9
    [0x80, 0, 0, 1, 0, 0, 0, 0, 0, 0, 0xC0, 0xFF, 0, 1, 0, 1] (by decide) rfl rfl hq rfl (by decide)
  rw [he] at hrun
  cases hrun

/-- A harmless datagram with another id. -/
example : (Message.decodeFromBytes .release (([0, 9, 0x80, 0, 0, 0, 0, 0, 0, 0, 0, 0] : List UInt8).take 512)).Returns := by decide +kernel

/-! ## C70 -/

theorem hasNs_earlier {c : RecordsCache} {t t' : Nat} {z : Name} {rs : List Record} (h : HasNs c t' z rs) (ht : t ≤ t') : HasNs c t z rs := by
  obtain ⟨exp, h1, h2, h3⟩ := h
  exact ⟨exp, h1, by omega, h3⟩

/-- Entries that live at the time are not removed by a search. -/
theorem getClone_keeps {c : RecordsCache} {key key' : Name × RecordType} {t : Nat} {e : Nat × List Record} (h : c.find key' = some e)
    (ht : t < e.1) : (c.getClone key t).1.find key' = some e := by
  unfold Cache.getClone
  cases hf : c.find key with
  | none => exact h
  | some x =>
    simp only
    by_cases hx : Cache.isExpired x.1 t = true
    · rw [if_pos hx]
      rw [Cache.find_erase]
      by_cases hk : key = key'
      · subst hk
        rw [hf] at h
        cases h
        rw [Cache.expired_iff] at hx
        omega
      · rw [if_neg hk]; exact h
    · rw [if_neg hx]; exact h

theorem getClone_finds {c : RecordsCache} {key : Name × RecordType} {t : Nat} {e : Nat × List Record} (h : c.find key = some e)
    (ht : t < e.1) : (c.getClone key t).2 = some e := by
  unfold Cache.getClone
  rw [h]
  simp only
  rw [if_neg]
  intro hx
  rw [Cache.expired_iff] at hx
  omega

/-- What the search for cached servers finds in a list of zones, if nobody else uses the cache. -/
theorem findNs_spec {env : Env} (quiet : ∀ i c, env.others i c = c) : ∀ {ds : List Str} {w w' : World} {rs : List Record},
    findNsRecords env ds w = (.ok rs, w') → w.ticks ≤ w'.ticks ∧
    (rs = [] ∧ (∀ d ∈ ds, ∀ recs, ¬ HasNs w.cache (env.clock w'.ticks) ⟨d⟩ recs) ∨
     ∃ pre d post stored ttl, ds = pre ++ d :: post ∧ HasNs w.cache (env.clock w.ticks) ⟨d⟩ stored ∧
       rs = stored.map (fun r => r.setTtl ttl) ∧ ∀ d' ∈ pre, ∀ recs, ¬ HasNs w.cache (env.clock w'.ticks) ⟨d'⟩ recs)
  | [], w, w', rs, h => by
    have h' : ((.ok [] : Out LookupErr (List Record)), w) = (.ok rs, w') := h
    cases h'
    exact ⟨Nat.le_refl _, .inl ⟨rfl, by simp⟩⟩
  | d :: ds, w, w', rs, h => by
    rw [findNsRecords] at h
    simp only [bind, M.bind, M.lift] at h
    cases hn : nameUnwrap d with
    | err e => rw [hn] at h; cases h
    | panic k => rw [hn] at h; cases h
    | diverge => rw [hn] at h; cases h
    | ok n =>
    have hnd : n = ⟨d⟩ := by
      unfold nameUnwrap at hn
      cases hf : Name.fromString d with
      | ok n' => rw [hf] at hn; cases hn; cases n; exact congrArg Name.mk ((fromString_iff d _).1 hf).1
      | err _ => rw [hf] at hn; cases hn
      | panic _ => rw [hf] at hn; cases hn
      | diverge => rw [hf] at hn; cases hn
    subst hnd
    rw [hn] at h
    simp only at h
    rw [searchRecords_eq] at h
    simp only [quiet] at h
    have m1 : env.clock w.ticks ≤ env.clock (w.ticks + 2) := env.mono _ _ (by omega)
    generalize hr : w.cache.getClone (⟨d⟩, RecordType.NS) (env.clock (w.ticks + 2)) = r at h
    obtain ⟨c', o⟩ := r
    have hc' : c' = (w.cache.getClone (⟨d⟩, RecordType.NS) (env.clock (w.ticks + 2))).1 := by rw [hr]
    have ho : o = (w.cache.getClone (⟨d⟩, RecordType.NS) (env.clock (w.ticks + 2))).2 := by rw [hr]
    simp only at h
    -- the rest of the search
    have later : findNsRecords env ds ⟨c', w.ticks + 3, w.log⟩ = (.ok rs, w') →
        (∀ t, env.clock (w.ticks + 3) ≤ t → ∀ recs, ¬ HasNs w.cache t ⟨d⟩ recs) → w.ticks ≤ w'.ticks ∧
        (rs = [] ∧ (∀ d' ∈ d :: ds, ∀ recs, ¬ HasNs w.cache (env.clock w'.ticks) ⟨d'⟩ recs) ∨
         ∃ pre d' post stored ttl, d :: ds = pre ++ d' :: post ∧ HasNs w.cache (env.clock w.ticks) ⟨d'⟩ stored ∧
           rs = stored.map (fun r => r.setTtl ttl) ∧ ∀ d' ∈ pre, ∀ recs, ¬ HasNs w.cache (env.clock w'.ticks) ⟨d'⟩ recs) := by
      intro h hno
      obtain ⟨ht, hcase⟩ := findNs_spec quiet h
      simp only at ht
      have m3 : env.clock (w.ticks + 3) ≤ env.clock w'.ticks := env.mono _ _ ht
      have m2 : env.clock (w.ticks + 2) ≤ env.clock (w.ticks + 3) := env.mono _ _ (by omega)
      have up : ∀ d' recs, HasNs w.cache (env.clock w'.ticks) ⟨d'⟩ recs → HasNs c' (env.clock w'.ticks) ⟨d'⟩ recs := by
        rintro d' recs ⟨exp, h1, h2, h3⟩
        exact ⟨exp, by rw [hc']; exact getClone_keeps h1 (by simp only; omega), h2, h3⟩
      refine ⟨by omega, ?_⟩
      rcases hcase with ⟨h1, h2⟩ | ⟨pre, d', post, stored, ttl, h1, h2, h3, h4⟩
      · refine .inl ⟨h1, fun d' hd' recs hh => ?_⟩
        rcases List.mem_cons.1 hd' with rfl | hd'
        · exact hno _ m3 _ hh
        · exact h2 d' hd' recs (up _ _ hh)
      · refine .inr ⟨d :: pre, d', post, stored, ttl, by rw [h1]; rfl, ?_, h3, fun x hx recs hh => ?_⟩
        · obtain ⟨exp, g1, g2, g3⟩ := h2
          rw [hc'] at g1
          exact ⟨exp, mem_getClone g1, by simp only at g2; omega, g3⟩
        · rcases List.mem_cons.1 hx with rfl | hx
          · exact hno _ m3 _ hh
          · exact h4 x hx recs (up _ _ hh)
    cases ho' : o with
    | none =>
      rw [ho'] at h
      simp only [List.length_nil, gt_iff_lt, Nat.lt_irrefl, if_false] at h
      refine later h fun t ht recs => ?_
      rintro ⟨exp, g1, g2, -⟩
      have m2 : env.clock (w.ticks + 2) ≤ env.clock (w.ticks + 3) := env.mono _ _ (by omega)
      have := getClone_finds (t := env.clock (w.ticks + 2)) g1 (by simp only; omega)
      rw [← ho, ho'] at this
      cases this
    | some e =>
      obtain ⟨exp, stored⟩ := e
      rw [ho'] at h
      simp only at h
      rw [ho'] at ho
      obtain ⟨g1, g2⟩ := getClone_some ho.symm
      cases hst : stored with
      | nil =>
        rw [hst] at h
        simp only [serveCached, List.length_nil, gt_iff_lt, Nat.lt_irrefl, if_false] at h
        refine later h fun t ht recs => ?_
        rintro ⟨exp', g3, -, g4⟩
        rw [g1, hst] at g3
        cases g3
        exact g4 rfl
      | cons r0 rest =>
        have hserve : ∀ x, serveCached (env.clock w.ticks) exp stored = .ok x → ∃ ttl, x = stored.map fun r => r.setTtl ttl := by
          intro x hx
          rw [hst] at hx ⊢
          unfold serveCached at hx
          simp only at hx
          split at hx
          · cases hx
          · split at hx
            · cases hx
            · split at hx
              · cases hx
              · cases hx; exact ⟨_, rfl⟩
        cases hs : serveCached (env.clock w.ticks) exp stored with
        | err _ => rw [hs] at h; cases h
        | panic _ => rw [hs] at h; cases h
        | diverge => rw [hs] at h; cases h
        | ok x =>
          rw [hs] at h
          obtain ⟨ttl, rfl⟩ := hserve x hs
          have hl : (stored.map fun r => r.setTtl ttl).length > 0 := by rw [hst]; simp
          simp only [if_pos hl] at h
          have h' : ((.ok (stored.map fun r => r.setTtl ttl) : Out LookupErr (List Record)), (⟨c', w.ticks + 3, w.log⟩ : World)) = (.ok rs, w') := h
          cases h'
          refine ⟨by simp, .inr ⟨[], d, ds, stored, ttl, rfl, ⟨exp, g1, by simp only at g2; omega, by rw [hst]; simp⟩, rfl, by simp⟩⟩

theorem findAddrs_records {env : Env} : ∀ {rs : List Record} {w w' : World} {nss : List NextNs},
    findAddrs env rs w = (.ok nss, w') → nss.map NextNs.nsRecord = rs ∧ w.ticks ≤ w'.ticks
  | [], w, w', nss, h => by
    have h' : ((.ok [] : Out LookupErr (List NextNs)), w) = (.ok nss, w') := h
    cases h'
    exact ⟨rfl, Nat.le_refl _⟩
  | r :: rs, w, w', nss, h => by
    rw [findAddrs] at h
    simp only [bind, M.bind, M.lift] at h
    cases hn : (r.nsData : Out LookupErr Name) with
    | err e => rw [hn] at h; cases h
    | panic k => rw [hn] at h; cases h
    | diverge => rw [hn] at h; cases h
    | ok n =>
    rw [hn] at h
    simp only at h
    have ht : (searchRecordsInCache env n .A w).2.ticks = w.ticks + 3 := by rw [searchRecords_eq]
    generalize searchRecordsInCache env n .A w = x at h ht
    obtain ⟨o, w1⟩ := x
    cases o with
    | err e => cases h
    | panic k => cases h
    | diverge => cases h
    | ok as =>
      simp only at h ht
      cases hx : findAddrs env rs w1 with
      | mk o2 w2 =>
      rw [hx] at h
      cases o2 with
      | err e => cases h
      | panic k => cases h
      | diverge => cases h
      | ok rest =>
        have h' : ((.ok (⟨r, as⟩ :: rest) : Out LookupErr (List NextNs)), w2) = (.ok nss, w') := h
        cases h'
        obtain ⟨g1, g2⟩ := findAddrs_records hx
        exact ⟨by rw [List.map_cons, g1], by omega⟩

theorem tails_pairwise {α : Type} : ∀ L : List α, L.tails.Pairwise fun a b => b <:+ a
  | [] => by simp
  | l :: L => by
    rw [List.tails_cons, List.pairwise_cons]
    exact ⟨fun b hb => ((List.mem_tails _ _).1 hb).trans (List.suffix_cons _ _), tails_pairwise L⟩

theorem mem_dropLast_tails {α : Type} : ∀ {L K : List α}, K <:+ L → K ≠ [] → K ∈ L.tails.dropLast
  | [], K, h, h0 => absurd (List.suffix_nil.1 h) h0
  | l :: L, K, h, h0 => by
    rw [List.tails_cons, List.dropLast_cons_of_ne_nil (by cases L <;> simp [List.tails])]
    rcases List.suffix_cons_iff.1 h with rfl | h
    · simp
    · exact List.mem_cons_of_mem _ (mem_dropLast_tails h h0)

/-- The full statement of C70: if nobody else uses the cache during the search, a lookup that is not given servers starts
with those in the entry for the closest enclosing zone of the queried name that has a living entry, and with the built-in root
servers only if there is no such entry. (Entries that expire during the search may or may not be found.) -/
def C70_statement : Prop :=
  ∀ (env : Env) (lk : Lookup) (w w' : World) (nss : List NextNs), (∀ i c, env.others i c = c) → ValidName lk.node.s →
    startingServers env lk [] w = (.ok nss, w') →
    (nss = rootZoneNameservers ∧ ∀ z, Under lk.node z → ∀ recs, ¬ HasNs w.cache (env.clock w'.ticks) z recs) ∨
    (∃ z stored ttl, Under lk.node z ∧ HasNs w.cache (env.clock w.ticks) z stored ∧
      nss.map NextNs.nsRecord = stored.map (fun r => r.setTtl ttl) ∧
      ∀ z', Under lk.node z' → ∀ recs, HasNs w.cache (env.clock w'.ticks) z' recs → Under z z')

/-- C70, part: the statement for all zones but the root zone, whose cached servers are never used (except for a query for
the root itself). -/
theorem C70_nearest_partial (env : Env) (lk : Lookup) (w w' : World) (nss : List NextNs) (quiet : ∀ i c, env.others i c = c)
    (hv : ValidName lk.node.s) (h : startingServers env lk [] w = (.ok nss, w')) :
    (nss = rootZoneNameservers ∧ ∀ z, z.s ≠ ['.'] → Under lk.node z → ∀ recs, ¬ HasNs w.cache (env.clock w'.ticks) z recs) ∨
    (∃ z stored ttl, Under lk.node z ∧ HasNs w.cache (env.clock w.ticks) z stored ∧
      nss.map NextNs.nsRecord = stored.map (fun r => r.setTtl ttl) ∧
      ∀ z', z'.s ≠ ['.'] → Under lk.node z' → ∀ recs, HasNs w.cache (env.clock w'.ticks) z' recs → Under z z') := by
  obtain ⟨-, L, hL⟩ := hv
  unfold startingServers searchNssInCache at h
  simp only [List.isEmpty_nil, if_true, bind, M.bind] at h
  cases hf : findNsRecords env (generateDomainHierarchy lk.node.s) w with
  | mk o w1 =>
  rw [hf] at h
  cases o with
  | err e => cases h
  | panic k => cases h
  | diverge => cases h
  | ok rs =>
  simp only at h
  cases ha : findAddrs env rs w1 with
  | mk o2 w2 =>
  rw [ha] at h
  cases o2 with
  | err e => cases h
  | panic k => cases h
  | diverge => cases h
  | ok cached =>
  have h' : ((.ok (if cached.isEmpty then rootZoneNameservers else cached) : Out LookupErr (List NextNs)), w2) = (.ok nss, w') := h
  cases h'
  obtain ⟨t1, hcase⟩ := findNs_spec quiet hf
  obtain ⟨g1, t2⟩ := findAddrs_records ha
  have m : env.clock w1.ticks ≤ env.clock w'.ticks := env.mono _ _ t2
  -- the enclosing zones of the queried name are the ones searched
  have searched : ∀ z : Name, z.s ≠ ['.'] → Under lk.node z → ∃ K, NameOf z.s K ∧ K ≠ [] ∧ K <:+ L := by
    rintro z hz ⟨M, K, h1, h2⟩
    refine ⟨K, h2, ?_, M, nameOf_unique h1 hL⟩
    rintro rfl
    exact hz (nameOf_root h2)
  by_cases hL0 : L = []
  · subst hL0
    have none : ∀ z : Name, z.s ≠ ['.'] → ¬ Under lk.node z := by
      intro z hz hu
      obtain ⟨K, -, h2, h3⟩ := searched z hz hu
      exact h2 (List.suffix_nil.1 h3)
    have e : generateDomainHierarchy lk.node.s = [['.']] := by rw [nameOf_root hL]; decide
    rcases hcase with ⟨rfl, h2⟩ | ⟨pre, d, post, stored, ttl, h1, h2, h3, h4⟩
    · have : cached = [] := by simpa using congrArg List.length g1
      subst this
      exact .inl ⟨rfl, fun z hz hu => absurd hu (none z hz)⟩
    · rw [e] at h1
      have hd : d ∈ [['.']] := by rw [h1]; simp
      simp only [List.mem_singleton] at hd
      subst hd
      refine .inr ⟨⟨['.']⟩, stored, ttl, ⟨[], [], hL, ⟨by simp, rfl⟩⟩, h2, ?_,
        fun z hz hu => absurd hu (none z hz)⟩
      have hc : cached.isEmpty = false := by
        cases cached with
        | nil =>
          obtain ⟨-, -, -, hne⟩ := h2
          rw [h3] at g1
          exact absurd (by simpa using g1.symm) hne
        | cons _ _ => rfl
      rw [hc]
      simp only [Bool.false_eq_true, if_false]
      rw [g1, h3]
  · rw [hierarchy_eq hL hL0] at hcase
    have inds : ∀ z : Name, ∀ K, NameOf z.s K → K ≠ [] → K <:+ L → z.s ∈ L.tails.dropLast.map render := fun z K h1 h2 h3 =>
      List.mem_map.2 ⟨K, mem_dropLast_tails h3 h2, h1.2.symm⟩
    rcases hcase with ⟨rfl, h2⟩ | ⟨pre, d, post, stored, ttl, h1, h2, h3, h4⟩
    · have : cached = [] := by simpa using congrArg List.length g1
      subst this
      refine .inl ⟨rfl, fun z hz hu recs hh => ?_⟩
      obtain ⟨K, k1, k2, k3⟩ := searched z hz hu
      exact h2 z.s (inds z K k1 k2 k3) recs (hasNs_earlier hh m)
    · obtain ⟨pre', rest', e1, e2, e3⟩ := List.map_eq_append_iff.1 h1
      obtain ⟨D, post', e4, e5, e6⟩ := List.map_eq_cons_iff.1 e3
      subst e2 e5 e6 e4
      have hDmem : D ∈ L.tails.dropLast := by rw [e1]; simp
      have hDs : D <:+ L := (List.mem_tails _ _).1 (List.dropLast_subset _ hDmem)
      obtain ⟨T, hT⟩ := hDs
      have hD : NameOf (render D) D := ⟨fun l hl => hL.1 l (by rw [← hT]; simp [hl]), rfl⟩
      have hc : cached.isEmpty = false := by
        cases cached with
        | nil =>
          obtain ⟨-, -, -, hne⟩ := h2
          rw [h3] at g1
          exact absurd (by simpa using g1.symm) hne
        | cons _ _ => rfl
      refine .inr ⟨⟨render D⟩, stored, ttl, ⟨T, D, by rw [hT]; exact hL, hD⟩, h2, ?_, fun z hz hu recs hh => ?_⟩
      · rw [hc]
        simp only [Bool.false_eq_true, if_false]
        rw [g1, h3]
      · obtain ⟨K, k1, k2, k3⟩ := searched z hz hu
        have hp := (tails_pairwise L).sublist (List.dropLast_sublist _)
        have hKm := mem_dropLast_tails k3 k2
        rw [e1] at hp hKm
        have hsuf : K <:+ D := by
          rcases List.mem_append.1 hKm with hKm | hKm
          · exact absurd (hasNs_earlier hh m) (h4 z.s (List.mem_map.2 ⟨K, hKm, k1.2.symm⟩) recs)
          · rcases List.mem_cons.1 hKm with rfl | hKm
            · exact List.suffix_refl _
            · exact (List.pairwise_cons.1 (List.pairwise_append.1 hp).2.1).1 K hKm
        obtain ⟨T', hT'⟩ := hsuf
        exact ⟨T', K, by rw [hT']; exact hD, k1⟩

/-- Servers of two enclosing zones and of the root. -/
def threeZones : RecordsCache :=
  ⟨[((⟨"com.".toList⟩, .NS), (100 * NANOS, [⟨⟨"com.".toList⟩, .IN, 90, 8, .NS ⟨"ns.com.".toList⟩⟩])),
    ((⟨"b.com.".toList⟩, .NS), (100 * NANOS, [⟨⟨"b.com.".toList⟩, .IN, 90, 8, .NS ⟨"ns.b.com.".toList⟩⟩])),
    ((⟨".".toList⟩, .NS), (100 * NANOS, [⟨⟨".".toList⟩, .IN, 90, 8, .NS ⟨"ns.org.".toList⟩⟩]))]⟩

/-- The zones with whose servers the lookup starts. -/
def startZones (env : Env) (node : Name) (w : World) : List Name :=
  match (startingServers env ⟨node, .A, [], [], ⟨1, 1, 1, false⟩⟩ [] w).1 with
  | .ok nss => nss.map NextNs.zone
  | _ => []

example : startZones quietEnv ⟨"a.b.com.".toList⟩ ⟨threeZones, 0, []⟩ = [⟨"b.com.".toList⟩] ∧
    startZones quietEnv ⟨"x.com.".toList⟩ ⟨threeZones, 0, []⟩ = [⟨"com.".toList⟩] := by decide +kernel

/-- C70 does not hold: the servers of the root zone in the cache are not used. -/
theorem C70_violated : ¬ C70_statement := by
  intro h
  have hn : NameOf "org.".toList ["org".toList] := nameOf_alpha _ (by decide) (by decide)
  have run : (startingServers quietEnv ⟨⟨"org.".toList⟩, .A, [], [], ⟨1, 1, 1, false⟩⟩ [] ⟨threeZones, 0, []⟩) =
    (.ok rootZoneNameservers, ⟨threeZones, 3, []⟩) := by decide +kernel
  have hroot : Under ⟨"org.".toList⟩ ⟨['.']⟩ := ⟨["org".toList], [], hn, by simp, rfl⟩
  have hns : ∀ t, t < 100 * NANOS → HasNs threeZones t ⟨['.']⟩ [⟨⟨".".toList⟩, .IN, 90, 8, .NS ⟨"ns.org.".toList⟩⟩] := fun t ht =>
    ⟨100 * NANOS, by decide, ht, by simp⟩
  rcases h quietEnv ⟨⟨"org.".toList⟩, .A, [], [], ⟨1, 1, 1, false⟩⟩ ⟨threeZones, 0, []⟩ ⟨threeZones, 3, []⟩ rootZoneNameservers
    (fun _ _ => rfl) ⟨by decide, _, hn⟩ run with ⟨-, h1⟩ | ⟨z, stored, ttl, h1, h2, h3, -⟩
  · exact h1 ⟨['.']⟩ hroot _ (hns _ (by decide))
  · obtain ⟨exp, g1, -, -⟩ := h2
    have hsmall : stored.length ≤ 1 := by
      unfold threeZones Cache.find at g1
      simp only [assocGet] at g1
      split at g1
      · cases g1; simp
      · split at g1
        · cases g1; simp
        · split at g1
          · cases g1; simp
          · cases g1
    have := congrArg List.length h3
    rw [List.length_map, List.length_map] at this
    have e : rootZoneNameservers.length = 13 := rfl
    omega

end Ariadne.Props
