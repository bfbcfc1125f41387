import Verif.Spec.Network
import Verif.Props.Together
import Verif.Props.Threads

/-! # C96: a network of name servers of this program, and its resolver -/

namespace Ariadne.Props

open Spec BitsBuf Resolver

/-! ## C96 -/

/-- A world with the name server at all addresses. -/
def constEnv (p : Profile) (zones : ManagedZone) : Env where
  clock n := n
  mono _ _ h := h
  others _ c := c
  ids n := UInt16.ofNat n
  net _ _ q := replyOf p zones q

theorem responds_of_reaches {env : Env} {p p' : Profile} {zones : ManagedZone} {addr : Ip4} {node : Name} {kind : RecordType} {P : Message → Prop}
    (h : ∀ id query, QueryFor id node kind query → ∃ out m, replyOf p' zones query = some out ∧
      Message.decodeFromBytes p (out.take 512) = .ok m ∧ m.header.id = id ∧ P m) :
    ∀ {t : Nat} {hist : List Event}, GetsThrough env p' zones addr t hist → RespondsWithin env p node kind P addr t hist
  | 0, _, hr => hr
  | t + 1, hist, hr => by
    intro id query hq
    rcases hr query with e | ⟨e, hr⟩
    · obtain ⟨out, m, h1, h2⟩ := h id query hq
      exact .inl ⟨out, m, e.trans h1, h2⟩
    · refine .inr ⟨?_, ?_⟩
      · rw [e]; intro b hb; cases hb
      · rw [e]; exact responds_of_reaches h hr

theorem within_of_under {n z : Name} (h : Under n z) : Within n z := by
  obtain ⟨M, L, h1, h2⟩ := h
  exact ⟨_, _, h1, h2, M, rfl⟩

/-- Of two zones a name is in, one is in the other. -/
theorem within_chain {n z z' : Name} (h : Within n z) (h' : Within n z') : z = z' ∨ Below z z' ∨ Below z' z := by
  obtain ⟨L, M, h1, h2, t, rfl⟩ := h
  obtain ⟨L', M', g1, g2, t', e⟩ := h'
  have eL := nameOf_unique h1 g1
  have hs : M <:+ M' ∨ M' <:+ M := List.suffix_or_suffix_of_suffix (l₃ := L') ⟨t, eL⟩ ⟨t', e⟩
  rcases hs with ⟨x, hx⟩ | ⟨x, hx⟩
  · by_cases hxn : x = []
    · subst hxn
      left
      have : M = M' := hx
      rcases z with ⟨z⟩; rcases z' with ⟨z'⟩
      have := h2.2.trans (this ▸ g2.2.symm)
      exact congrArg Name.mk this
    · exact .inr (.inr ⟨x, M, hxn, by rw [hx]; exact g2, h2⟩)
  · by_cases hxn : x = []
    · subst hxn
      left
      have : M' = M := hx
      rcases z with ⟨z⟩; rcases z' with ⟨z'⟩
      have := h2.2.trans (this ▸ g2.2.symm)
      exact congrArg Name.mk this
    · exact .inr (.inl ⟨x, M', hxn, by rw [hx]; exact h2, g2⟩)

theorem within_trans {a b c : Name} (h : Within a b) (h' : Within b c) : Within a c := by
  obtain ⟨L, M, h1, h2, h3⟩ := h
  obtain ⟨L', M', g1, g2, g3⟩ := h'
  have e := nameOf_unique h2 g1
  subst e
  exact ⟨L, M', h1, g2, g3.trans h3⟩

theorem below_not_root {a b : Name} (h : Below a b) : a.s ≠ ['.'] := by
  obtain ⟨M, L, h1, h2, -⟩ := h
  intro e
  have h3 : NameOf a.s [] := ⟨by simp, e⟩
  have := nameOf_unique h2 h3
  simp [h1] at this

section
variable {G : Network} {env : Env} {p p' : Profile} {t n d : Nat}

theorem Sound.owner (h : G.Sound env p p' t n d) {m : Name} {k : RecordType} {z : Name} {i : Installation} (ha : G.asked m k) (hz : G.zone z = some i)
    (hu : Within m z) (hs : ∀ c ∈ i.conf.subZones, ¬ Within m c.zone) : z = G.home m := by
  obtain ⟨i', hz', hu', hs'⟩ := h.home ha
  rcases within_chain hu hu' with e | hb | hb
  · exact e
  · obtain ⟨c, hc, hw⟩ := h.delegated hz' (by rw [hz]; rfl) hb
    exact absurd (within_trans hu hw) (hs' c hc)
  · obtain ⟨c, hc, hw⟩ := h.delegated hz (by rw [hz']; rfl) hb
    exact absurd (within_trans hu' hw) (hs c hc)

theorem bare_received_same (l l' : List Record) (h : l.Perm l') : Same l l' := h.map _

theorem recordsOf_received (m : Name) (k : RecordType) (l : List Record) : recordsOf m k (l.map received) = (recordsOf m k l).map received := by
  unfold recordsOf
  rw [List.filter_map]
  rfl

theorem targets_received (l : List Record) : targets (l.map received) = targets l := by
  unfold targets
  rw [List.filterMap_map]
  rfl

/-- What a name server replies to a query for a name in a sub zone. -/
theorem delegation_of (h : G.Sound env p p' t n d) {m z : Name} {k : RecordType} {i : Installation} (ha : G.asked m k) (hz : G.zone z = some i)
    (hu : Within m z) (hs : ∃ c ∈ i.conf.subZones, Within m c.zone) {id : UInt16} {query : List UInt8} (hq : QueryFor id m k query) :
    ∃ out msg, replyOf p' i.zones query = some out ∧ Message.decodeFromBytes p (out.take 512) = .ok msg ∧ msg.header.id = id ∧
      G.space.Helps d m k z msg := by
  obtain ⟨hl, hconf, hroot⟩ := h.loaded hz
  obtain ⟨he, hk, -⟩ := h.names ha
  have hroots : ∀ c ∈ i.conf.subZones, c.zone.s ≠ ['.'] := by
    intro c hc
    have : c.zone ∈ i.zones.subZones.map (·.zone) := by rw [hl.ready.names]; exact List.mem_map.2 ⟨c, hc, rfl⟩
    obtain ⟨sub, h1, h2⟩ := List.mem_map.1 this
    rw [← h2]
    exact below_not_root (h.subs hz h1).below
  obtain ⟨msg, h1, before, sub, after, e1, e2, e3, h2, h3, h4, h5, h6, h7⟩ := C47_referral_partial p' i.conf i.zones _ _ G.order hl
    (query_asks (kind := k) id he) (by rw [hconf]; exact hroot) hroots (by rw [hconf]; exact hu) hs
  have hmem : sub ∈ i.zones.subZones := by rw [e1]; simp
  have hd := h.subs hz hmem
  rw [h5] at h7
  obtain ⟨out, g1, g2, g3⟩ := delivered (p' := p) hl hq he hk h1 (by rw [h4, h5, h7]; simpa using hd.plain)
    (by rw [h4, h5, h7]; simpa using hd.fits m k ha e2)
  have hns : nsRecords (receivedMessage msg).authorities = (setAt G.order sub sub.zone .NS).map received := by
    show nsRecords (msg.authorities.map received) = _
    rw [nsRecords_received, h5]
    congr 1
    unfold nsRecords
    rw [List.filter_eq_self]
    intro r hr
    obtain ⟨log, l1, -⟩ := hl.ready.sub sub hmem
    rw [setAt_eq l1] at hr
    simpa using (recordsAt_spec hr).2
  have had : (receivedMessage msg).additionals = (glueFor G.order i.zones.subZones (setAt G.order sub sub.zone .NS)).map received := by
    show msg.additionals.map received = _
    rw [h7]
  obtain ⟨i', hz'⟩ := Option.isSome_iff_exists.1 hd.zone
  have hzone : G.space.Zone sub.zone := by
    unfold NameSpace.Zone
    obtain ⟨up, -, -, ⟨s, hs, -⟩, -⟩ := h.staffed hz'
    exact List.ne_nil_of_mem hs
  refine ⟨out, _, g1, g2, g3, .inl ⟨h2, ?_, sub.zone, hzone, ⟨?_, ?_, h.apart _, ?_, ?_, ?_⟩, under_of_within e2, hd.below⟩⟩
  · show msg.answers.map received = []
    rw [h4]; rfl
  · rw [hns]
    intro r hr
    obtain ⟨r0, hr0, rfl⟩ := List.mem_map.1 hr
    have : r0.node = sub.zone := by simpa using (List.mem_filter.1 hr0).2
    exact this
  · rw [hns, targets_received]
    exact hd.whole
  · intro s hs
    rw [had]
    rcases hd.glue s hs with hg | ⟨hg, hf⟩
    · exact .inl hg
    · exact .inr ⟨by rw [recordsOf_received, hg]; rfl, hf⟩
  · rw [hns]
    intro r hr
    obtain ⟨r0, hr0, rfl⟩ := List.mem_map.1 hr
    exact hd.lasting r0 (List.mem_append_left _ hr0)
  · intro s hs r hr
    rw [had] at hr
    obtain ⟨r0, hr0, rfl⟩ := List.mem_map.1 (List.mem_filter.1 hr).1
    exact hd.lasting r0 (List.mem_append_right _ hr0)

theorem records_eq {m : Name} {i : Installation} (hz : G.zone (G.home m) = some i) (k : RecordType) :
    G.records m k = (setAt G.order i.zones.authZone m k).map received := by
  unfold Network.records
  rw [hz]

/-- What a name server replies to a query for a name in the zone, but in no sub zone. -/
theorem answer_of (h : G.Sound env p p' t n d) {m : Name} {k : RecordType} {i : Installation} (ha : G.asked m k) (hz : G.zone (G.home m) = some i)
    (hu : Within m (G.home m)) (hs : ∀ c ∈ i.conf.subZones, ¬ Within m c.zone) {id : UInt16} {query : List UInt8} (hq : QueryFor id m k query) :
    ∃ out msg, replyOf p' i.zones query = some out ∧ Message.decodeFromBytes p (out.take 512) = .ok msg ∧ msg.header.id = id ∧
      G.space.Tells d m k msg := by
  obtain ⟨hl, hconf, hroot⟩ := h.loaded hz
  obtain ⟨he, hk, -⟩ := h.names ha
  have hfit := h.fits ha hz
  simp only [List.mem_cons, List.not_mem_nil, or_false, forall_eq_or_imp, forall_eq] at hfit
  obtain ⟨⟨f1, f2⟩, ⟨f3, f4⟩, f5, f6⟩ := hfit
  obtain ⟨msg, h1, h2, h3, h4, -⟩ := C48_nxdomain_partial p' i.conf i.zones _ _ G.order hl (query_asks (kind := k) id he)
    (by rw [hconf]; exact hroot) (by rw [hconf]; exact hu) hs
  simp only at h2 h4
  have er := records_eq (G := G) hz
  by_cases hx : msg.header.respCode = .NxDomain
  · obtain ⟨e1, e2⟩ := h2.1 hx
    obtain ⟨a1, a2, a3, a4⟩ := h3 hx
    obtain ⟨out, g1, g2, g3⟩ := delivered (p' := p) hl hq he hk h1 (by rw [a2, a3, a4]; simpa using f5) (by rw [a2, a3, a4]; simpa using f6)
    refine ⟨out, _, g1, g2, g3, ?_⟩
    have ef : G.space.fate m k = .absent := by
      simp only [Network.space, er, e1, e2, List.map_nil, ne_eq, not_true, if_false]
    unfold NameSpace.Tells
    rw [ef]
    exact ⟨hx, a1⟩
  · obtain ⟨a1, -, a2, a3, a4, a5⟩ := h4 hx
    have hor : (setAt G.order i.zones.authZone m k ≠ [] ∧ msg.answers = setAt G.order i.zones.authZone m k) ∨
        (setAt G.order i.zones.authZone m k = [] ∧ msg.answers = setAt G.order i.zones.authZone m .CNAME) := by
      rcases a5 with a5 | a5
      · exact .inl ⟨by rw [← a5]; exact a4, a5⟩
      · exact .inr a5
    rcases hor with ⟨b1, b2⟩ | ⟨b1, b2⟩
    · obtain ⟨out, g1, g2, g3⟩ := delivered (p' := p) hl hq he hk h1 (by rw [b2, a2, a3]; simpa using f1) (by rw [b2, a2, a3]; simpa using f2)
      refine ⟨out, _, g1, g2, g3, ?_⟩
      have hne : G.records m k ≠ [] := by rw [er]; simpa using b1
      have ef : G.space.fate m k = .found (G.records m k) := by
        simp only [Network.space]
        rw [if_pos hne]
      have ea : recordsOf m k (receivedMessage msg).answers = G.records m k := by
        show recordsOf m k (msg.answers.map received) = _
        rw [recordsOf_received, b2, er]
        congr 1
        unfold recordsOf
        rw [List.filter_eq_self]
        intro r hr
        simpa using set_spec hl hr
      unfold NameSpace.Tells
      rw [ef]
      refine ⟨a1, by rw [ea]; exact List.Perm.refl _, fun z ek hm => ?_⟩
      subst ek
      rw [ea]
      exact h.lasting hm
    · obtain ⟨out, g1, g2, g3⟩ := delivered (p' := p) hl hq he hk h1 (by rw [b2, a2, a3]; simpa using f3) (by rw [b2, a2, a3]; simpa using f4)
      refine ⟨out, _, g1, g2, g3, ?_⟩
      have hc : G.records m .CNAME ≠ [] := by rw [er, ← b2]; simpa using a4
      obtain ⟨-, c, s, c1, c2, c3⟩ := h.aliases ha hc
      have ef : G.space.fate m k = .alias c := by
        simp only [Network.space, c1]
        rw [if_neg (by rw [er, b1]; simp)]
      have ea : (receivedMessage msg).answers = [c] := by
        show msg.answers.map received = _
        rw [b2, ← er, c1]
      have hcs : c.node = m ∧ c.recordType = .CNAME := by
        have : c ∈ G.records m .CNAME := by rw [c1]; simp
        rw [er] at this
        obtain ⟨r0, hr0, rfl⟩ := List.mem_map.1 this
        exact (set_spec hl hr0 : r0.node = m ∧ r0.recordType = .CNAME)
      unfold NameSpace.Tells
      rw [ef]
      refine ⟨a1, ?_, ⟨c, ?_, rfl⟩, fun s' _ => .inl fun r hr => ?_⟩
      · rw [ea]
        have hkc := (h.names ha).2.2.2
        simp [recordsOf, hcs.2, Ne.symm hkc]
      · rw [ea]
        simp [recordsOf, hcs.1, hcs.2]
      · have : (receivedMessage msg).authorities = [] := by
          show msg.authorities.map received = []
          rw [a2]; rfl
        rw [this] at hr
        simp [nsRecords] at hr

theorem helps_of (h : G.Sound env p p' t n d) {m z : Name} {k : RecordType} {i : Installation} (ha : G.asked m k) (hz : G.zone z = some i)
    (hu : Within m z) {id : UInt16} {query : List UInt8} (hq : QueryFor id m k query) :
    ∃ out msg, replyOf p' i.zones query = some out ∧ Message.decodeFromBytes p (out.take 512) = .ok msg ∧ msg.header.id = id ∧
      G.space.Helps d m k z msg := by
  by_cases hs : ∃ c ∈ i.conf.subZones, Within m c.zone
  · exact delegation_of h ha hz hu hs hq
  · have hs' : ∀ c ∈ i.conf.subZones, ¬ Within m c.zone := fun c hc hw => hs ⟨c, hc, hw⟩
    have e := Sound.owner h ha hz hu hs'
    subst e
    obtain ⟨out, msg, h1, h2, h3, h4⟩ := answer_of h ha hz hu hs' hq
    exact ⟨out, msg, h1, h2, h3, .inr h4⟩

theorem records_spec (h : G.Sound env p p' t n d) {m : Name} {k : RecordType} {r : Record} (hr : r ∈ G.records m k) : r.node = m ∧ r.recordType = k := by
  unfold Network.records at hr
  split at hr
  · rename_i i e
    obtain ⟨r0, hr0, rfl⟩ := List.mem_map.1 hr
    exact (set_spec (h.loaded e).1 hr0 : r0.node = m ∧ r0.recordType = k)
  · cases hr

theorem zone_of {z : Name} (h : G.space.Zone z) : ∃ i, G.zone z = some i := by
  unfold NameSpace.Zone at h
  have h' : G.servers z ≠ [] := h
  unfold Network.servers at h'
  cases e : G.zone z with
  | none => rw [e] at h'; exact absurd rfl h'
  | some i => exact ⟨i, rfl⟩

theorem address_of {m : Name} {l : List Record} (h : ∀ r ∈ l, r.node = m ∧ r.recordType = .A) (hne : l ≠ []) : addressesOf m l ≠ [] := by
  cases l with
  | nil => exact absurd rfl hne
  | cons r l =>
    obtain ⟨h1, h2⟩ := h r (List.mem_cons_self ..)
    obtain ⟨node, cls, ttl, len, data⟩ := r
    cases data <;> first | (cases h2; done) | skip
    simp only [addressesOf, List.filterMap_cons]
    rw [if_pos h1]
    simp

/-- C96: zones run by name servers of this program that fit together are a name space that is in order: of this everything proved of
such name spaces follows (C88, C89, C92, C94). -/
theorem C96_in_order (G : Network) (env : Env) (p p' : Profile) (t n d : Nat) (h : G.Sound env p p' t n d) : G.space.WellRun env p t n d where
  names ha := ⟨valid_of_encodable (h.names ha).1, (h.names ha).2⟩
  found := by
    intro m k l ha hf
    simp only [Network.space] at hf
    split at hf
    · rename_i hne
      cases hf
      exact ⟨hne, fun r hr => records_spec h hr⟩
    · split at hf <;> cases hf
  aliases := by
    intro m k c ha hf
    simp only [Network.space] at hf
    split at hf
    · cases hf
    · split at hf
      · rename_i c' cs e
        cases hf
        obtain ⟨-, c', s, c1, c2, c3⟩ := h.aliases ha (by rw [e]; simp)
        rw [e] at c1
        have hc := (List.cons.inj c1).1
        subst hc
        exact ⟨(records_spec h (by rw [e]; simp : c ∈ G.records m .CNAME)).1, s, c2, c3⟩
      · cases hf
  uniform := by
    intro m k k' c ha ha' hf
    simp only [Network.space] at hf ⊢
    split at hf
    · cases hf
    · split at hf
      · rename_i c' cs e
        cases hf
        obtain ⟨h1, -⟩ := h.aliases ha' (by rw [e]; simp)
        rw [if_neg (by rw [h1]; simp)]
      · cases hf
  hosts hm := ⟨h.hosts hm, fun r hr => records_spec h hr⟩
  agree := by
    intro s z hm ha
    simp only [Network.space]
    rw [if_pos (h.hosts hm)]
  ranks hz := h.ranks (by obtain ⟨i, e⟩ := zone_of hz; rw [e]; rfl)
  root ha := h.root ha
  zones := by
    intro m k z ha hz hu
    obtain ⟨i, e⟩ := zone_of hz
    obtain ⟨up, h1, h2, ⟨s, hs, h3⟩, h4⟩ := h.staffed e
    refine ⟨up, ?_, ?_, ⟨_, List.mem_map.2 ⟨s, hs, rfl⟩, h3⟩, ?_⟩
    · intro l hl
      obtain ⟨s, hs, rfl⟩ := List.mem_map.1 hl
      exact ⟨address_of (fun r hr => records_spec h hr) (h.hosts hs), h1 s hs⟩
    · intro l hl a hla
      obtain ⟨s, hs, rfl⟩ := List.mem_map.1 hl
      exact ⟨fun hu' hist => responds_of_reaches (fun id query hq => helps_of h ha e (within_of_under hu) hq) ((h2 s hs a hla).1 hu' hist),
        fun hd => (h2 s hs a hla).2 hd m k ha⟩
    · have : G.space.addresses z = (G.servers z).map fun s => addressesOf s (G.records s .A) := rfl
      rw [this, List.countP_map]
      exact h4

/-- C96: so the resolver, asked one question after the other, answers each with what is in the zones, aliases followed, whether it asks the
servers or knows it from before; also if some servers are down, and some queries are lost. -/
theorem C96_session (G : Network) (env : Env) (p p' : Profile) (conf : Params) (start stop fuel ticks : Nat) (log : List Event)
    (h : G.Sound env p p' conf.maxUdpRetries conf.maxNsQueried (stop - start)) (ho : G.space.Companions env start stop)
    (hs : ∀ i, ticks ≤ i → start ≤ env.clock i ∧ env.clock i ≤ stop) (hfollow : conf.noFollowCname = false) (hretries : conf.maxUdpRetries ≠ 0)
    (hfuel : 256 + G.depth < fuel) (questions : List (Name × RecordType)) (hq : ∀ q ∈ questions, Resolvable G.space conf.maxCnameRedir q) :
    List.Forall₂ (Resolved G.space) questions (session env p conf fuel questions ⟨.empty, ticks, log⟩) :=
  C88_session_partial G.space env p conf start stop fuel ticks log ⟨hs, C96_in_order G env p p' _ _ _ h, ho, hfollow, hretries⟩ hfuel questions hq

/-- C96: and so do the threads of the resolver, however they take turns (the first two premises are those of C92, without that on
the name space). -/
theorem C96_threads (G : Network) (S : Schedule) (net : Nat → List Event → Ip4 → List UInt8 → Option (List UInt8)) (p p' : Profile) (conf : Params)
    (fuel : Nat) (q : Nat → Name × RecordType) (start stop : Nat) (i : Nat)
    (h : ∀ i env, env.net = net i → G.Sound env p p' conf.maxUdpRetries conf.maxNsQueried (stop - start))
    (htimes : ∀ m, start < S.time m ∧ S.time' m ≤ stop) (hperiod : stop < start + 2 ^ 32 * NANOS)
    (hfollow : conf.noFollowCname = false) (hretries : conf.maxUdpRetries ≠ 0) (hfuel : 256 + G.depth < fuel)
    (hmodest : ∀ m, Modest S start m (System.after S net (.start p conf fuel q .empty) m))
    (hq : ∀ i, Resolvable G.space conf.maxCnameRedir (q i)) (hi : Fair S i) :
    ∃ n o, ((System.after S net (.start p conf fuel q .empty) n).threads i).task = .done o ∧ Resolved G.space (q i) o :=
  C92_all_answered (fun n => ⟨htimes, hperiod, fun i env e => C96_in_order G env p p' _ _ _ (h i env e), hfollow, hretries, hfuel,
    empty_coherent G.space start stop, Cache.distinct_empty, (empty_limited 0 (S.time 0)).1, (empty_limited start 0).2.1, fun m _ => hmodest m, hq⟩) i hi

end

/-! ## Example

The zone e. with the sub zone s.e.; the latter has two servers, ns.s.e., which is down, and m.e., whose address is to be looked up. Of the queries
to the others every second is lost. The name u.e. is an alias of v.s.e., which is an alias of w.s.e. -/

def gE : Name := ⟨"e.".toList⟩
def gS : Name := ⟨"s.e.".toList⟩
def gNsE : Name := ⟨"ns.e.".toList⟩
def gNsS : Name := ⟨"ns.s.e.".toList⟩
def gM : Name := ⟨"m.e.".toList⟩
def gU : Name := ⟨"u.e.".toList⟩
def gV : Name := ⟨"v.s.e.".toList⟩
def gW : Name := ⟨"w.s.e.".toList⟩
def gX : Name := ⟨"x.s.e.".toList⟩

/-- The configuration of the first zone. -/
def upperConf : ZoneParser.Params :=
  { filePath := "auth".toList, zone := gE, startingTtl := 60, subZones := [{ filePath := "sub".toList, zone := gS, startingTtl := 60, minTtl := 1 }] }

/-- Its files. -/
def upperFiles : ZoneParser.Files := files
  [("auth", ["@ 60 IN SOA ns mail.f. 1 2 3 4 5", "@ NS ns", "ns A 9.9.9.9", "m A 8.8.4.4", "u CNAME v.s"]), ("sub", ["@ NS ns", "@ NS m.e.", "ns A 8.8.8.8"])]

/-- The configuration of the second zone. -/
def lowerConf : ZoneParser.Params := { filePath := "auth".toList, zone := gS, startingTtl := 60, subZones := [] }

/-- Its files. -/
def lowerFiles : ZoneParser.Files := files
  [("auth", ["@ 60 IN SOA ns mail.f. 1 2 3 4 5", "@ NS ns", "@ NS m.e.", "ns A 8.8.8.8", "w A 1.2.3.4", "v CNAME w"])]

/-- Records as loaded, and as received. -/
def loadedA (n : Name) (a : Ip4) : Record := ⟨n, .IN, 60, 0, .A a⟩
def loadedNs (z t : Name) : Record := ⟨z, .IN, 60, 0, .NS t⟩
def loadedCname (n t : Name) : Record := ⟨n, .IN, 60, 0, .CNAME t⟩
def loadedSoa (z t : Name) : Record := ⟨z, .IN, 60, 0, .SOA t ⟨"mail.f.".toList⟩ 1 2 3 4 5⟩

/-- What is loaded of the first zone. -/
structure UpperIs (zones : ManagedZone) (sub : Zone) : Prop where
  loaded : Loaded upperConf zones
  subs : zones.subZones = [sub]
  name : sub.zone = gS
  subNs : setAt forwards sub gS .NS = [loadedNs gS gNsS, loadedNs gS gM]
  subA : setAt forwards sub gNsS .A = [loadedA gNsS ⟨8, 8, 8, 8⟩]
  ns : setAt forwards zones.authZone gE .NS = [loadedNs gE gNsE]
  nsA : setAt forwards zones.authZone gNsE .A = [loadedA gNsE ⟨9, 9, 9, 9⟩]
  mA : setAt forwards zones.authZone gM .A = [loadedA gM ⟨8, 8, 4, 4⟩]
  mC : setAt forwards zones.authZone gM .CNAME = []
  uA : setAt forwards zones.authZone gU .A = []
  uC : setAt forwards zones.authZone gU .CNAME = [loadedCname gU gV]
  soa : zones.authZone.getAllOfType forwards .SOA = [loadedSoa gE gNsE]

/-- What is loaded of the second zone. -/
structure LowerIs (zones : ManagedZone) : Prop where
  loaded : Loaded lowerConf zones
  subs : zones.subZones = []
  ns : setAt forwards zones.authZone gS .NS = [loadedNs gS gNsS, loadedNs gS gM]
  nsA : setAt forwards zones.authZone gNsS .A = [loadedA gNsS ⟨8, 8, 8, 8⟩]
  wA : setAt forwards zones.authZone gW .A = [loadedA gW ⟨1, 2, 3, 4⟩]
  wC : setAt forwards zones.authZone gW .CNAME = []
  vA : setAt forwards zones.authZone gV .A = []
  vC : setAt forwards zones.authZone gV .CNAME = [loadedCname gV gW]
  xA : setAt forwards zones.authZone gX .A = []
  xC : setAt forwards zones.authZone gX .CNAME = []
  soa : zones.authZone.getAllOfType forwards .SOA = [loadedSoa gS gNsS]

theorem upper_loads : ∃ zones sub, UpperIs zones sub := by
  obtain ⟨zones, h1, h2⟩ := ok_of (x := ZoneParser.parseZoneFiles .debug upperFiles forwards 20 upperConf) (fun zones =>
    match zones.subZones with
    | [sub] => decide (sub.zone = gS ∧ setAt forwards sub gS .NS = [loadedNs gS gNsS, loadedNs gS gM] ∧
      setAt forwards sub gNsS .A = [loadedA gNsS ⟨8, 8, 8, 8⟩] ∧ setAt forwards zones.authZone gE .NS = [loadedNs gE gNsE] ∧
      setAt forwards zones.authZone gNsE .A = [loadedA gNsE ⟨9, 9, 9, 9⟩] ∧ setAt forwards zones.authZone gM .A = [loadedA gM ⟨8, 8, 4, 4⟩] ∧
      setAt forwards zones.authZone gM .CNAME = [] ∧ setAt forwards zones.authZone gU .A = [] ∧
      setAt forwards zones.authZone gU .CNAME = [loadedCname gU gV] ∧ zones.authZone.getAllOfType forwards .SOA = [loadedSoa gE gNsE])
    | _ => false) (by decide +kernel)
  have hl : Loaded upperConf zones := ⟨⟨validName_of (by decide +kernel), fun c hc => by
    have : c.zone.s = "s.e.".toList := by simp only [upperConf, List.mem_singleton] at hc; rw [hc]; rfl
    rw [this]; exact validName_of (by decide +kernel)⟩, _, _, _, _, h1⟩
  split at h2
  · rename_i sub e
    obtain ⟨a1, a2, a3, a4, a5, a6, a7, a8, a9, a10⟩ := of_decide_eq_true h2
    exact ⟨zones, sub, hl, e, a1, a2, a3, a4, a5, a6, a7, a8, a9, a10⟩
  · cases h2

theorem lower_loads : ∃ zones, LowerIs zones := by
  obtain ⟨zones, h1, h2⟩ := ok_of (x := ZoneParser.parseZoneFiles .debug lowerFiles forwards 20 lowerConf) (fun zones =>
    decide (zones.subZones.length = 0 ∧ setAt forwards zones.authZone gS .NS = [loadedNs gS gNsS, loadedNs gS gM] ∧
      setAt forwards zones.authZone gNsS .A = [loadedA gNsS ⟨8, 8, 8, 8⟩] ∧ setAt forwards zones.authZone gW .A = [loadedA gW ⟨1, 2, 3, 4⟩] ∧
      setAt forwards zones.authZone gW .CNAME = [] ∧ setAt forwards zones.authZone gV .A = [] ∧
      setAt forwards zones.authZone gV .CNAME = [loadedCname gV gW] ∧ setAt forwards zones.authZone gX .A = [] ∧
      setAt forwards zones.authZone gX .CNAME = [] ∧ zones.authZone.getAllOfType forwards .SOA = [loadedSoa gS gNsS])) (by decide +kernel)
  have hl : Loaded lowerConf zones := ⟨⟨validName_of (by decide +kernel), fun c hc => by cases hc⟩, _, _, _, _, h1⟩
  obtain ⟨a1, a2, a3, a4, a5, a6, a7, a8, a9, a10⟩ := of_decide_eq_true h2
  exact ⟨zones, hl, List.eq_nil_of_length_eq_zero a1, a2, a3, a4, a5, a6, a7, a8, a9, a10⟩

/-- The network. -/
def exampleNetwork (upper lower : ManagedZone) : Network where
  zone z := if z = gE then some ⟨upperConf, upper⟩ else if z = gS then some ⟨lowerConf, lower⟩ else none
  order := forwards
  home n := if n = gNsE ∨ n = gM ∨ n = gU then gE else gS
  asked n k := k = .A ∧ (n = gU ∨ n = gV ∨ n = gW ∨ n = gX ∨ n = gM)
  rank z := if z = gS then 1 else 0
  depth := 2

/-- What comes back over the network. -/
def exampleNet (p : Profile) (upper lower : ManagedZone) (hist : List Event) (addr : Ip4) (q : List UInt8) : Option (List UInt8) :=
  if addr = ⟨9, 9, 9, 9⟩ then if hist.length % 2 = 0 then none else replyOf p upper q
  else if addr = ⟨8, 8, 4, 4⟩ then if hist.length % 2 = 0 then none else replyOf p lower q
  else if addr = ⟨8, 8, 8, 8⟩ then none
  else match (withId (rootReferral 0) (queryId q)).encodeToBytes with
    | .ok b => some b
    | _ => none

theorem gE_enc : Encodable gE := encodable_of ["e".toList] (by decide) (by decide) (by decide) (by decide) (by decide)
theorem gS_enc : Encodable gS := encodable_of ["s".toList, "e".toList] (by decide) (by decide) (by decide) (by decide) (by decide)
theorem gNsE_enc : Encodable gNsE := encodable_of ["ns".toList, "e".toList] (by decide) (by decide) (by decide) (by decide) (by decide)
theorem gNsS_enc : Encodable gNsS := encodable_of ["ns".toList, "s".toList, "e".toList] (by decide) (by decide) (by decide) (by decide) (by decide)
theorem gM_enc : Encodable gM := encodable_of ["m".toList, "e".toList] (by decide) (by decide) (by decide) (by decide) (by decide)
theorem gU_enc : Encodable gU := encodable_of ["u".toList, "e".toList] (by decide) (by decide) (by decide) (by decide) (by decide)
theorem gV_enc : Encodable gV := encodable_of ["v".toList, "s".toList, "e".toList] (by decide) (by decide) (by decide) (by decide) (by decide)
theorem gW_enc : Encodable gW := encodable_of ["w".toList, "s".toList, "e".toList] (by decide) (by decide) (by decide) (by decide) (by decide)
theorem gX_enc : Encodable gX := encodable_of ["x".toList, "s".toList, "e".toList] (by decide) (by decide) (by decide) (by decide) (by decide)
theorem gE_of : NameOf gE.s ["e".toList] := nameOf_of (by decide) (by decide)
theorem gS_of : NameOf gS.s ["s".toList, "e".toList] := nameOf_of (by decide) (by decide)
theorem gNsE_of : NameOf gNsE.s ["ns".toList, "e".toList] := nameOf_of (by decide) (by decide)
theorem gNsS_of : NameOf gNsS.s ["ns".toList, "s".toList, "e".toList] := nameOf_of (by decide) (by decide)
theorem gM_of : NameOf gM.s ["m".toList, "e".toList] := nameOf_of (by decide) (by decide)
theorem gU_of : NameOf gU.s ["u".toList, "e".toList] := nameOf_of (by decide) (by decide)
theorem gV_of : NameOf gV.s ["v".toList, "s".toList, "e".toList] := nameOf_of (by decide) (by decide)
theorem gW_of : NameOf gW.s ["w".toList, "s".toList, "e".toList] := nameOf_of (by decide) (by decide)
theorem gX_of : NameOf gX.s ["x".toList, "s".toList, "e".toList] := nameOf_of (by decide) (by decide)

theorem below_longer {a b : Name} {L M : List Str} (h : Below a b) (ha : NameOf a.s L) (hb : NameOf b.s M) : M.length < L.length := by
  obtain ⟨x, y, h1, h2, h3⟩ := h
  rw [nameOf_unique ha h2, nameOf_unique hb h3, List.length_append]
  have := List.length_pos_iff.2 h1
  omega

theorem not_within {n z : Name} {L M : List Str} (hn : NameOf n.s L) (hz : NameOf z.s M) (h : ¬ M <:+ L) : ¬ Within n z := by
  rintro ⟨L', M', h1, h2, h3⟩
  rw [nameOf_unique hn h1, nameOf_unique hz h2] at h
  exact h h3

section
variable {upper lower : ManagedZone} {sub : Zone}

theorem ex_zoneE : (exampleNetwork upper lower).zone gE = some ⟨upperConf, upper⟩ := by simp [exampleNetwork]
theorem ex_zoneS : (exampleNetwork upper lower).zone gS = some ⟨lowerConf, lower⟩ := by
  have : gS ≠ gE := by decide
  simp [exampleNetwork, this]

theorem ex_zone {z : Name} {i : Installation} (h : (exampleNetwork upper lower).zone z = some i) :
    (z = gE ∧ i = ⟨upperConf, upper⟩) ∨ (z = gS ∧ i = ⟨lowerConf, lower⟩) := by
  have h' : (if z = gE then some (⟨upperConf, upper⟩ : Installation) else if z = gS then some ⟨lowerConf, lower⟩ else none) = some i := h
  split at h'
  · rename_i e
    exact .inl ⟨e, (Option.some.inj h').symm⟩
  · split at h'
    · rename_i e
      exact .inr ⟨e, (Option.some.inj h').symm⟩
    · cases h'

theorem ex_serversE (hu : UpperIs upper sub) : (exampleNetwork upper lower).servers gE = [gNsE] := by
  unfold Network.servers
  rw [ex_zoneE]
  show targets (setAt forwards upper.authZone gE .NS) = _
  rw [hu.ns]
  rfl

theorem ex_serversS (hl : LowerIs lower) : (exampleNetwork upper lower).servers gS = [gNsS, gM] := by
  unfold Network.servers
  rw [ex_zoneS]
  show targets (setAt forwards lower.authZone gS .NS) = _
  rw [hl.ns]
  rfl

theorem ex_servers (hu : UpperIs upper sub) (hl : LowerIs lower) {z h : Name} (hh : h ∈ (exampleNetwork upper lower).servers z) :
    (z = gE ∧ h = gNsE) ∨ (z = gS ∧ (h = gNsS ∨ h = gM)) := by
  cases e : (exampleNetwork upper lower).zone z with
  | none => unfold Network.servers at hh; rw [e] at hh; cases hh
  | some i =>
    rcases ex_zone e with ⟨rfl, -⟩ | ⟨rfl, -⟩
    · rw [ex_serversE hu, List.mem_singleton] at hh
      exact .inl ⟨rfl, hh⟩
    · rw [ex_serversS hl, List.mem_cons, List.mem_singleton] at hh
      exact .inr ⟨rfl, hh⟩

theorem ex_home {n : Name} (h : n = gNsE ∨ n = gM ∨ n = gU) : (exampleNetwork upper lower).home n = gE := if_pos h
theorem ex_home' {n : Name} (h : ¬ (n = gNsE ∨ n = gM ∨ n = gU)) : (exampleNetwork upper lower).home n = gS := if_neg h

theorem ex_recordsE {n : Name} (h : n = gNsE ∨ n = gM ∨ n = gU) (k : RecordType) :
    (exampleNetwork upper lower).records n k = (setAt forwards upper.authZone n k).map received := by
  unfold Network.records
  rw [ex_home h, ex_zoneE]
  rfl

theorem ex_recordsS {n : Name} (h : ¬ (n = gNsE ∨ n = gM ∨ n = gU)) (k : RecordType) :
    (exampleNetwork upper lower).records n k = (setAt forwards lower.authZone n k).map received := by
  unfold Network.records
  rw [ex_home' h, ex_zoneS]
  rfl

theorem ex_nsE (hu : UpperIs upper sub) : (exampleNetwork upper lower).records gNsE .A = [received (loadedA gNsE ⟨9, 9, 9, 9⟩)] := by
  rw [ex_recordsE (.inl rfl), hu.nsA]; rfl
theorem ex_m (hu : UpperIs upper sub) : (exampleNetwork upper lower).records gM .A = [received (loadedA gM ⟨8, 8, 4, 4⟩)] := by
  rw [ex_recordsE (.inr (.inl rfl)), hu.mA]; rfl
theorem ex_nsS (hl : LowerIs lower) : (exampleNetwork upper lower).records gNsS .A = [received (loadedA gNsS ⟨8, 8, 8, 8⟩)] := by
  rw [ex_recordsS (by decide), hl.nsA]; rfl

theorem ex_glue (hu : UpperIs upper sub) : glueFor forwards upper.subZones [loadedNs gS gNsS, loadedNs gS gM] = [loadedA gNsS ⟨8, 8, 8, 8⟩] := by
  have h1 : Within gNsS sub.zone := by rw [hu.name]; exact ⟨_, _, gNsS_of, gS_of, ["ns".toList], rfl⟩
  have h2 : ¬ Within gM sub.zone := by rw [hu.name]; exact not_within gM_of gS_of (by decide)
  simp only [glueFor, loadedNs, hu.subs, List.flatMap_cons, List.flatMap_nil, List.append_nil, if_pos h1, if_neg h2]
  exact hu.subA

theorem loadedA_plain {n : Name} (h : Encodable n) (a : Ip4) : Plain (loadedA n a) := ⟨h, rfl, trivial⟩
theorem loadedNs_plain {z t : Name} (h : Encodable z) (ht : Encodable t) : Plain (loadedNs z t) := ⟨h, rfl, ht⟩
theorem loadedCname_plain {z t : Name} (h : Encodable z) (ht : Encodable t) : Plain (loadedCname z t) := ⟨h, rfl, ht⟩
theorem loadedSoa_plain {z t : Name} (h : Encodable z) (ht : Encodable t) : Plain (loadedSoa z t) := ⟨h, rfl, ht, mailf_encodable⟩

theorem ex_free (hu : UpperIs upper sub) (hl : LowerIs lower) : (exampleNetwork upper lower).space.Free gM gS := by
  refine ⟨⟨rfl, .inr (.inr (.inr (.inr rfl)))⟩, fun z hz hun => ?_, by decide⟩
  obtain ⟨i, e⟩ := zone_of hz
  rcases ex_zone e with ⟨rfl, -⟩ | ⟨rfl, -⟩
  · show (if gE = gS then 1 else 0) < if gS = gS then 1 else 0
    decide
  · exact absurd (within_of_under hun) (not_within gM_of gS_of (by decide))

theorem ex_delegates (hu : UpperIs upper sub) (hl : LowerIs lower) {d : Nat} (hd : d < 60 * NANOS) :
    (exampleNetwork upper lower).Delegates d gE ⟨upperConf, upper⟩ sub := by
  have e1 : setAt (exampleNetwork upper lower).order sub gS .NS = [loadedNs gS gNsS, loadedNs gS gM] := hu.subNs
  have e2 : glueFor (exampleNetwork upper lower).order upper.subZones [loadedNs gS gNsS, loadedNs gS gM] = [loadedA gNsS ⟨8, 8, 8, 8⟩] := ex_glue hu
  refine ⟨?_, ?_, ?_, ?_, ?_, ?_, ?_⟩
  · rw [hu.name, ex_zoneS]; rfl
  · rw [hu.name]; exact ⟨["s".toList], ["e".toList], by simp, gS_of, gE_of⟩
  · rw [hu.name, e1, ex_serversS hl]
    exact List.Perm.refl _
  · rw [hu.name, e1, ex_serversS hl]
    simp only [e2]
    intro t ht
    rw [List.mem_cons, List.mem_singleton] at ht
    rcases ht with rfl | rfl
    · rw [ex_nsS hl]
      exact .inl (by unfold Same; decide +kernel)
    · exact .inr ⟨by decide +kernel, ex_free hu hl⟩
  · rw [hu.name, e1]
    simp only [e2]
    intro r hr
    simp only [List.cons_append, List.nil_append, List.mem_cons, List.not_mem_nil, or_false] at hr
    rcases hr with rfl | rfl | rfl <;> exact hd
  · rw [hu.name, e1]
    simp only [e2]
    intro r hr
    simp only [List.cons_append, List.nil_append, List.mem_cons, List.not_mem_nil, or_false] at hr
    rcases hr with rfl | rfl | rfl
    · exact loadedNs_plain gS_enc gNsS_enc
    · exact loadedNs_plain gS_enc gM_enc
    · exact loadedA_plain gNsS_enc _
  · rw [hu.name, e1]
    simp only [e2]
    rintro n k ⟨-, rfl | rfl | rfl | rfl | rfl⟩ - <;> unfold Spec.Fits <;> decide +kernel

theorem ex_reaches {env : Env} {p : Profile} {zones : ManagedZone} {a : Ip4}
    (h : ∀ hist q, env.net hist a q = if hist.length % 2 = 0 then none else replyOf p zones q) (hist : List Event) : GetsThrough env p zones a 3 hist := by
  intro q
  rw [h]
  split
  · refine .inr ⟨rfl, fun q' => .inl ?_⟩
    rw [h, if_neg (by rw [List.length_append, List.length_singleton]; omega)]
  · exact .inl rfl

theorem ex_staffed {env : Env} {p p' : Profile} (he : ∀ hist a q, env.net hist a q = exampleNet p' upper lower hist a q) (hu : UpperIs upper sub)
    (hl : LowerIs lower) {z : Name} {i : Installation} (hz : (exampleNetwork upper lower).zone z = some i) :
    (exampleNetwork upper lower).Staffed env p p' 3 2 z i := by
  have h9 : ∀ hist q, env.net hist ⟨9, 9, 9, 9⟩ q = if hist.length % 2 = 0 then none else replyOf p' upper q := fun hist q => by
    rw [he]; unfold exampleNet; rw [if_pos rfl]
  have h4 : ∀ hist q, env.net hist ⟨8, 8, 4, 4⟩ q = if hist.length % 2 = 0 then none else replyOf p' lower q := fun hist q => by
    rw [he]; unfold exampleNet; rw [if_neg (by decide), if_pos rfl]
  have h8 : ∀ hist q, env.net hist ⟨8, 8, 8, 8⟩ q = none := fun hist q => by
    rw [he]; unfold exampleNet; rw [if_neg (by decide), if_neg (by decide), if_pos rfl]
  have a1 : addressesOf gNsE ((exampleNetwork upper lower).records gNsE .A) = [⟨9, 9, 9, 9⟩] := by rw [ex_nsE hu]; decide +kernel
  have a2 : addressesOf gM ((exampleNetwork upper lower).records gM .A) = [⟨8, 8, 4, 4⟩] := by rw [ex_m hu]; decide +kernel
  have a3 : addressesOf gNsS ((exampleNetwork upper lower).records gNsS .A) = [⟨8, 8, 8, 8⟩] := by rw [ex_nsS hl]; decide +kernel
  refine ⟨fun a => a ≠ ⟨8, 8, 8, 8⟩, ?_⟩
  rcases ex_zone hz with ⟨rfl, rfl⟩ | ⟨rfl, rfl⟩
  · rw [ex_serversE hu]
    simp only [List.mem_singleton, forall_eq, exists_eq_left, a1, List.countP_cons, List.countP_nil]
    exact ⟨.inl (by decide), ⟨fun _ => ex_reaches h9, (fun h => absurd h (by decide))⟩, by decide, by decide⟩
  · rw [ex_serversS hl]
    simp only [List.mem_cons, List.not_mem_nil, or_false, forall_eq_or_imp, forall_eq, exists_eq_or_imp, exists_eq_left, a2, a3, List.countP_cons, List.countP_nil]
    exact ⟨⟨.inr (by decide), .inl (by decide)⟩, ⟨⟨(fun h => absurd h (by decide)), fun _ m k _ hist id q r _ hr => by rw [h8] at hr; cases hr⟩,
      ⟨fun _ => ex_reaches h4, (fun h => absurd h (by decide))⟩⟩, .inr (by decide), by decide⟩

theorem ex_asked {n : Name} {k : RecordType} (h : (exampleNetwork upper lower).asked n k) : k = .A ∧ (n = gU ∨ n = gV ∨ n = gW ∨ n = gX ∨ n = gM) := h

theorem ex_root {env : Env} {p p' : Profile} (he : ∀ hist a q, env.net hist a q = exampleNet p' upper lower hist a q) (hu : UpperIs upper sub)
    {d : Nat} (hd : d < 9 * NANOS) {n : Name} {k : RecordType} (hk : k.isSupportedForQuestion = true) (hn : Encodable n) (hun : Under n gE) :
    Served env p n k 3 2 ((exampleNetwork upper lower).space.Helps d n k ⟨['.']⟩) (rootServers.map fun s => [s.2]) := by
  have hzone : (exampleNetwork upper lower).space.Zone gE := by
    unfold NameSpace.Zone
    have : (exampleNetwork upper lower).space.nameservers gE = [gNsE] := ex_serversE hu
    rw [this]
    simp
  refine served_of_all (by decide) (by decide) (by decide) fun s hs => ⟨by revert s; decide, fun a ha => ?_⟩
  refine plain_answers' rootReferral_plain (by decide +kernel) hk hn (fun hist q => ?_) fun id => ?_
  · have h9 : ∀ s ∈ rootServers.map (fun s => [s.2]), (⟨9, 9, 9, 9⟩ : Ip4) ∉ s ∧ (⟨8, 8, 4, 4⟩ : Ip4) ∉ s ∧ (⟨8, 8, 8, 8⟩ : Ip4) ∉ s := by decide
    obtain ⟨x1, x2, x3⟩ := h9 s hs
    rw [he]
    unfold exampleNet
    rw [if_neg (fun e : a = ⟨9, 9, 9, 9⟩ => x1 (e ▸ ha)), if_neg (fun e : a = ⟨8, 8, 4, 4⟩ => x2 (e ▸ ha)), if_neg (fun e : a = ⟨8, 8, 8, 8⟩ => x3 (e ▸ ha))]
    generalize (withId (rootReferral 0) (queryId q)).encodeToBytes = o
    cases o <;> rfl
  · have hns : nsRecords (rootReferral 0).authorities = [⟨gE, .IN, 9, 6, .NS gNsE⟩] := by decide +kernel
    have had : recordsOf gNsE .A (rootReferral 0).additionals = [⟨gNsE, .IN, 9, 4, .A ⟨9, 9, 9, 9⟩⟩] := by decide +kernel
    have hs : (exampleNetwork upper lower).space.nameservers gE = [gNsE] := ex_serversE hu
    refine .inl ⟨rfl, rfl, gE, hzone, ⟨?_, ?_, ?_, ?_, ?_, ?_⟩, hun, ⟨["e".toList], [], by simp, gE_of, by simp, rfl⟩⟩
    · show ∀ r ∈ nsRecords (rootReferral 0).authorities, _
      rw [hns]
      simp
    · show (targets (nsRecords (rootReferral 0).authorities)).Perm _
      rw [hns, hs]
      exact List.Perm.refl _
    · rw [hs]; simp
    · rw [hs]
      intro t ht
      rw [List.mem_singleton] at ht
      subst ht
      refine .inl ?_
      show Same (recordsOf gNsE .A (rootReferral 0).additionals) ((exampleNetwork upper lower).records gNsE .A)
      rw [had, ex_nsE hu]
      unfold Same
      decide +kernel
    · show ∀ r ∈ nsRecords (rootReferral 0).authorities, _
      rw [hns]
      intro r hr
      rw [List.mem_singleton] at hr
      subst hr
      exact hd
    · rw [hs]
      intro t ht
      rw [List.mem_singleton] at ht
      subst ht
      show ∀ r ∈ recordsOf gNsE .A (rootReferral 0).additionals, _
      rw [had]
      intro r hr
      rw [List.mem_singleton] at hr
      subst hr
      exact hd

/-- The zones fit together. -/
theorem example_sound {env : Env} {p p' : Profile} (he : ∀ hist a q, env.net hist a q = exampleNet p' upper lower hist a q) (hu : UpperIs upper sub)
    (hl : LowerIs lower) {d : Nat} (hd : d < 9 * NANOS) : (exampleNetwork upper lower).Sound env p p' 3 2 d := by
  have hd' : d < 60 * NANOS := by unfold NANOS at *; omega
  have hout : ∀ {n : Name} {L : List Str}, NameOf n.s L → ¬ ["s".toList, "e".toList] <:+ L → ∀ c ∈ upperConf.subZones, ¬ Within n c.zone := by
    intro n L h1 h2 c hc
    simp only [upperConf, List.mem_singleton] at hc
    subst hc
    exact not_within h1 gS_of h2
  refine ⟨?_, ?_, ?_, ?_, ?_, ?_, ?_, ?_, ?_, ?_, ?_, ?_, ?_⟩
  · intro z i hz
    rcases ex_zone hz with ⟨rfl, rfl⟩ | ⟨rfl, rfl⟩
    · exact ⟨hu.loaded, rfl, by decide⟩
    · exact ⟨hl.loaded, rfl, by decide⟩
  · intro z h hh
    rcases ex_servers hu hl hh with ⟨rfl, rfl⟩ | ⟨rfl, rfl | rfl⟩
    · rw [ex_nsE hu]; simp
    · rw [ex_nsS hl]; simp
    · rw [ex_m hu]; simp
  · intro z
    cases e : (exampleNetwork upper lower).zone z with
    | none => unfold Network.servers; rw [e]; exact List.nodup_nil
    | some i =>
      rcases ex_zone e with ⟨rfl, -⟩ | ⟨rfl, -⟩
      · rw [ex_serversE hu]; decide
      · rw [ex_serversS hl]; decide
  · exact fun hz => ex_staffed he hu hl hz
  · intro z i s hz hs
    rcases ex_zone hz with ⟨rfl, rfl⟩ | ⟨rfl, rfl⟩
    · rw [hu.subs, List.mem_singleton] at hs
      subst hs
      exact ex_delegates hu hl hd'
    · rw [hl.subs] at hs
      cases hs
  · intro z i z' hz hz' hb
    obtain ⟨i', e'⟩ := Option.isSome_iff_exists.1 hz'
    rcases ex_zone hz with ⟨rfl, rfl⟩ | ⟨rfl, rfl⟩ <;> rcases ex_zone e' with ⟨rfl, -⟩ | ⟨rfl, -⟩
    · exact absurd (below_longer hb gE_of gE_of) (by decide)
    · exact ⟨_, List.mem_singleton.2 rfl, _, _, gS_of, gS_of, List.suffix_rfl⟩
    · exact absurd (below_longer hb gE_of gS_of) (by decide)
    · exact absurd (below_longer hb gS_of gS_of) (by decide)
  · intro m k ha
    obtain ⟨rfl, rfl | rfl | rfl | rfl | rfl⟩ := ex_asked ha
    · exact ⟨gU_enc, rfl, by simp, by simp⟩
    · exact ⟨gV_enc, rfl, by simp, by simp⟩
    · exact ⟨gW_enc, rfl, by simp, by simp⟩
    · exact ⟨gX_enc, rfl, by simp, by simp⟩
    · exact ⟨gM_enc, rfl, by simp, by simp⟩
  · intro m k ha
    obtain ⟨rfl, rfl | rfl | rfl | rfl | rfl⟩ := ex_asked ha
    · rw [ex_home (.inr (.inr rfl))]
      exact ⟨_, ex_zoneE, ⟨_, _, gU_of, gE_of, ["u".toList], rfl⟩, hout gU_of (by decide)⟩
    · rw [ex_home' (by decide)]
      exact ⟨_, ex_zoneS, ⟨_, _, gV_of, gS_of, ["v".toList], rfl⟩, (fun c hc => nomatch hc)⟩
    · rw [ex_home' (by decide)]
      exact ⟨_, ex_zoneS, ⟨_, _, gW_of, gS_of, ["w".toList], rfl⟩, (fun c hc => nomatch hc)⟩
    · rw [ex_home' (by decide)]
      exact ⟨_, ex_zoneS, ⟨_, _, gX_of, gS_of, ["x".toList], rfl⟩, (fun c hc => nomatch hc)⟩
    · rw [ex_home (.inr (.inl rfl))]
      exact ⟨_, ex_zoneE, ⟨_, _, gM_of, gE_of, ["m".toList], rfl⟩, hout gM_of (by decide)⟩
  · intro m k i ha hz
    have hE : ∀ {m : Name} {i : Installation}, m = gNsE ∨ m = gM ∨ m = gU → (exampleNetwork upper lower).zone ((exampleNetwork upper lower).home m) = some i →
        i = ⟨upperConf, upper⟩ := by
      intro m i h1 h2
      rw [ex_home h1, ex_zoneE] at h2
      exact (Option.some.inj h2).symm
    have hS : ∀ {m : Name} {i : Installation}, ¬ (m = gNsE ∨ m = gM ∨ m = gU) → (exampleNetwork upper lower).zone ((exampleNetwork upper lower).home m) = some i →
        i = ⟨lowerConf, lower⟩ := by
      intro m i h1 h2
      rw [ex_home' h1, ex_zoneS] at h2
      exact (Option.some.inj h2).symm
    have eo : (exampleNetwork upper lower).order = forwards := rfl
    obtain ⟨rfl, rfl | rfl | rfl | rfl | rfl⟩ := ex_asked ha
    · have := hE (.inr (.inr rfl)) hz
      subst this
      simp only [eo, hu.uA, hu.uC, hu.soa, List.mem_cons, List.not_mem_nil, or_false, forall_eq_or_imp, forall_eq]
      exact ⟨⟨(fun _ h => nomatch h), by unfold Spec.Fits; decide +kernel⟩, ⟨loadedCname_plain gU_enc gV_enc, by unfold Spec.Fits; decide +kernel⟩,
        loadedSoa_plain gE_enc gNsE_enc, by unfold Spec.Fits; decide +kernel⟩
    · have := hS (by decide) hz
      subst this
      simp only [eo, hl.vA, hl.vC, hl.soa, List.mem_cons, List.not_mem_nil, or_false, forall_eq_or_imp, forall_eq]
      exact ⟨⟨(fun _ h => nomatch h), by unfold Spec.Fits; decide +kernel⟩, ⟨loadedCname_plain gV_enc gW_enc, by unfold Spec.Fits; decide +kernel⟩,
        loadedSoa_plain gS_enc gNsS_enc, by unfold Spec.Fits; decide +kernel⟩
    · have := hS (by decide) hz
      subst this
      simp only [eo, hl.wA, hl.wC, hl.soa, List.mem_cons, List.not_mem_nil, or_false, forall_eq_or_imp, forall_eq]
      exact ⟨⟨loadedA_plain gW_enc _, by unfold Spec.Fits; decide +kernel⟩, ⟨(fun _ h => nomatch h), by unfold Spec.Fits; decide +kernel⟩,
        loadedSoa_plain gS_enc gNsS_enc, by unfold Spec.Fits; decide +kernel⟩
    · have := hS (by decide) hz
      subst this
      simp only [eo, hl.xA, hl.xC, hl.soa, List.mem_cons, List.not_mem_nil, or_false, forall_eq_or_imp, forall_eq]
      exact ⟨⟨(fun _ h => nomatch h), by unfold Spec.Fits; decide +kernel⟩, ⟨(fun _ h => nomatch h), by unfold Spec.Fits; decide +kernel⟩,
        loadedSoa_plain gS_enc gNsS_enc, by unfold Spec.Fits; decide +kernel⟩
    · have := hE (.inr (.inl rfl)) hz
      subst this
      simp only [eo, hu.mA, hu.mC, hu.soa, List.mem_cons, List.not_mem_nil, or_false, forall_eq_or_imp, forall_eq]
      exact ⟨⟨loadedA_plain gM_enc _, by unfold Spec.Fits; decide +kernel⟩, ⟨(fun _ h => nomatch h), by unfold Spec.Fits; decide +kernel⟩,
        loadedSoa_plain gE_enc gNsE_enc, by unfold Spec.Fits; decide +kernel⟩
  · intro m k ha hc
    obtain ⟨rfl, rfl | rfl | rfl | rfl | rfl⟩ := ex_asked ha
    · rw [ex_recordsE (.inr (.inr rfl)), ex_recordsE (.inr (.inr rfl)), hu.uA, hu.uC]
      exact ⟨rfl, _, gV, rfl, rfl, rfl, .inr (.inl rfl)⟩
    · rw [ex_recordsS (by decide), ex_recordsS (by decide), hl.vA, hl.vC]
      exact ⟨rfl, _, gW, rfl, rfl, rfl, .inr (.inr (.inl rfl))⟩
    · rw [ex_recordsS (by decide), hl.wC] at hc
      exact absurd rfl hc
    · rw [ex_recordsS (by decide), hl.xC] at hc
      exact absurd rfl hc
    · rw [ex_recordsE (.inr (.inl rfl)), hu.mC] at hc
      exact absurd rfl hc
  · intro h z hh r hr
    rcases ex_servers hu hl hh with ⟨rfl, rfl⟩ | ⟨rfl, rfl | rfl⟩
    · rw [ex_nsE hu, List.mem_singleton] at hr
      subst hr
      exact hd'
    · rw [ex_nsS hl, List.mem_singleton] at hr
      subst hr
      exact hd'
    · rw [ex_m hu, List.mem_singleton] at hr
      subst hr
      exact hd'
  · intro z hz
    show (if z = gS then 1 else 0) < 2
    split <;> decide
  · intro m k ha
    obtain ⟨rfl, rfl | rfl | rfl | rfl | rfl⟩ := ex_asked ha
    · exact ex_root he hu hd rfl gU_enc ⟨["u".toList], ["e".toList], gU_of, gE_of⟩
    · exact ex_root he hu hd rfl gV_enc ⟨["v".toList, "s".toList], ["e".toList], gV_of, gE_of⟩
    · exact ex_root he hu hd rfl gW_enc ⟨["w".toList, "s".toList], ["e".toList], gW_of, gE_of⟩
    · exact ex_root he hu hd rfl gX_enc ⟨["x".toList, "s".toList], ["e".toList], gX_of, gE_of⟩
    · exact ex_root he hu hd rfl gM_enc ⟨["m".toList], ["e".toList], gM_of, gE_of⟩

theorem ex_fateW (hl : LowerIs lower) : (exampleNetwork upper lower).space.fate gW .A = .found [received (loadedA gW ⟨1, 2, 3, 4⟩)] := by
  have e : (exampleNetwork upper lower).records gW .A = [received (loadedA gW ⟨1, 2, 3, 4⟩)] := by rw [ex_recordsS (by decide), hl.wA]; rfl
  simp only [Network.space, e]
  rw [if_pos (by simp)]

theorem ex_fateV (hl : LowerIs lower) : (exampleNetwork upper lower).space.fate gV .A = .alias (received (loadedCname gV gW)) := by
  have e : (exampleNetwork upper lower).records gV .A = [] := by rw [ex_recordsS (by decide), hl.vA]; rfl
  have e' : (exampleNetwork upper lower).records gV .CNAME = [received (loadedCname gV gW)] := by rw [ex_recordsS (by decide), hl.vC]; rfl
  simp only [Network.space, e, e']
  rw [if_neg (by simp)]

theorem ex_fateU (hu : UpperIs upper sub) : (exampleNetwork upper lower).space.fate gU .A = .alias (received (loadedCname gU gV)) := by
  have e : (exampleNetwork upper lower).records gU .A = [] := by rw [ex_recordsE (.inr (.inr rfl)), hu.uA]; rfl
  have e' : (exampleNetwork upper lower).records gU .CNAME = [received (loadedCname gU gV)] := by rw [ex_recordsE (.inr (.inr rfl)), hu.uC]; rfl
  simp only [Network.space, e, e']
  rw [if_neg (by simp)]

theorem ex_fateX (hl : LowerIs lower) : (exampleNetwork upper lower).space.fate gX .A = .absent := by
  have e : (exampleNetwork upper lower).records gX .A = [] := by rw [ex_recordsS (by decide), hl.xA]; rfl
  have e' : (exampleNetwork upper lower).records gX .CNAME = [] := by rw [ex_recordsS (by decide), hl.xC]; rfl
  simp only [Network.space, e, e']
  rw [if_neg (by simp)]

theorem ex_resolvable (hu : UpperIs upper sub) (hl : LowerIs lower) {n : Name} (h : n = gU ∨ n = gW ∨ n = gX) :
    Resolvable (exampleNetwork upper lower).space 3 (n, .A) := by
  rcases h with rfl | rfl | rfl
  · exact ⟨⟨rfl, .inl rfl⟩, _, _, .follow (ex_fateU hu) rfl (.follow (ex_fateV hl) rfl (.last (ex_fateW hl) (by simp))), by decide⟩
  · exact ⟨⟨rfl, .inr (.inr (.inl rfl))⟩, _, _, .last (ex_fateW hl) (by simp), by decide⟩
  · exact ⟨⟨rfl, .inr (.inr (.inr (.inl rfl)))⟩, _, _, .last (ex_fateX hl) (by simp), by decide⟩

end

/-- The world; within a microsecond. -/
def exampleEnv (p : Profile) (upper lower : ManagedZone) : Env where
  clock n := min (n + 1) 1000
  mono i j h := by show min (i + 1) 1000 ≤ min (j + 1) 1000; omega
  others _ c := c
  ids n := UInt16.ofNat n
  net := exampleNet p upper lower

/-- The resolver answers the questions for w.s.e., u.e. and x.s.e., one after the other. -/
example (p p' : Profile) : ∃ upper lower, Loaded upperConf upper ∧ Loaded lowerConf lower ∧
    List.Forall₂ (Resolved (exampleNetwork upper lower).space) [(gW, .A), (gU, .A), (gX, .A)]
      (session (exampleEnv p' upper lower) p ⟨2, 3, 3, false⟩ 259 [(gW, .A), (gU, .A), (gX, .A)] ⟨.empty, 0, []⟩) := by
  obtain ⟨upper, sub, hu⟩ := upper_loads
  obtain ⟨lower, hl⟩ := lower_loads
  refine ⟨upper, lower, hu.loaded, hl.loaded, ?_⟩
  refine C96_session (exampleNetwork upper lower) (exampleEnv p' upper lower) p p' ⟨2, 3, 3, false⟩ 0 1000 259 0 []
    (example_sound (fun _ _ _ => rfl) hu hl (by decide)) ⟨(fun _ _ h => h), (fun _ _ _ _ _ _ h => h), (fun _ _ h => h), (fun _ _ h => h)⟩
    (fun i _ => ⟨Nat.zero_le _, Nat.min_le_right _ _⟩) rfl (by decide) (show 256 + 2 < 259 by decide) _ ?_
  intro q hq
  simp only [List.mem_cons, List.not_mem_nil, or_false] at hq
  rcases hq with rfl | rfl | rfl
  · exact ex_resolvable hu hl (.inr (.inl rfl))
  · exact ex_resolvable hu hl (.inl rfl)
  · exact ex_resolvable hu hl (.inr (.inr rfl))

/-- Two threads and the cleaner in turns, within a microsecond. -/
def quickTurns : Schedule where
  move n := if n % 8 = 7 then .clean (fun _ => min (n + 1) 1000) else .step (n % 2)
  time n := min (n + 1) 1000
  time' n := min (n + 1) 1000
  id n := UInt16.ofNat n
  forward n := by omega
  readings n r h key := by
    split at h
    · injection h with h
      subst h
      exact ⟨Nat.le_refl _, Nat.le_refl _⟩
    · cases h

/-- Two threads of the resolver answer the questions for u.e. and w.s.e. at the same time. -/
example (p p' : Profile) (i : Nat) (hi : i = 0 ∨ i = 1) : ∃ upper lower, Loaded upperConf upper ∧ Loaded lowerConf lower ∧
    ∃ n o, ((System.after quickTurns (fun _ => exampleNet p' upper lower)
        (.start p ⟨2, 3, 3, false⟩ 259 (fun i => (if i = 0 then gU else gW, .A)) .empty) n).threads i).task = .done o ∧
      Resolved (exampleNetwork upper lower).space (if i = 0 then gU else gW, .A) o := by
  obtain ⟨upper, sub, hu⟩ := upper_loads
  obtain ⟨lower, hl⟩ := lower_loads
  refine ⟨upper, lower, hu.loaded, hl.loaded, ?_⟩
  refine C96_threads (exampleNetwork upper lower) quickTurns (fun _ => exampleNet p' upper lower) p p' ⟨2, 3, 3, false⟩ 259
    (fun i => (if i = 0 then gU else gW, .A)) 0 1000 i (fun i env e => example_sound (fun hist a q => by rw [e]) hu hl (by decide))
    (fun m => ⟨show 0 < min (m + 1) 1000 by omega, show min (m + 1) 1000 ≤ 1000 by omega⟩) (by decide) rfl (by decide)
    (show 256 + 2 < 259 by decide) ?_ (fun i => ?_) ?_
  · intro m j key ttl records k _ _
    show min (m + 1) 1000 + ttl.toNat * NANOS < 0 + 2 ^ 32 * NANOS
    have := ttl.toNat_lt
    unfold NANOS
    omega
  · show Resolvable _ 3 ((if i = 0 then gU else gW), .A)
    split
    · exact ex_resolvable hu hl (.inl rfl)
    · exact ex_resolvable hu hl (.inr (.inl rfl))
  · intro n
    refine ⟨8 * n + i, by omega, ?_⟩
    show (if (8 * n + i) % 8 = 7 then Move.clean _ else Move.step ((8 * n + i) % 2)) = _
    rw [if_neg (by omega), show (8 * n + i) % 2 = i by omega]

end Ariadne.Props
