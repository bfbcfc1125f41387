import Verif.Props.Delegation
import Verif.Props.EndToEnd
import Verif.Spec.Together

/-! # C85: the resolver and the name server together -/

namespace Ariadne.Props

open Spec BitsBuf

/-! ## C85 -/

/-- The query. -/
def queryMessage (id : UInt16) (node : Name) (kind : RecordType) : Message :=
  ⟨⟨id, false, .STD, false, false, false, false, 0, .NoError, 1, 0, 0, 0⟩, [⟨node, kind, .IN⟩], [], [], []⟩

theorem query_plain {node : Name} {kind : RecordType} (id : UInt16) (he : Encodable node) (hk : kind.isSupportedForQuestion = true) :
    PlainMessage (queryMessage id node kind) :=
  ⟨rfl, Nat.zero_lt_succ _, rfl, rfl, rfl, rfl, by intro q hq; simp [queryMessage] at hq; subst hq; exact ⟨he, hk, rfl⟩, by simp [queryMessage]⟩

theorem valid_of_encodable {n : Name} (h : Encodable n) : ValidName n.s := ⟨h.1, _, h.2.choose_spec.1⟩

theorem query_asks {node : Name} {kind : RecordType} (id : UInt16) (he : Encodable node) :
    Asks (queryMessage id node kind) ⟨node, kind, .IN⟩ :=
  ⟨rfl, rfl, rfl, rfl, rfl, rfl, valid_of_encodable he⟩

/-- The records of a message, as they are decoded from their encodings. -/
def receivedMessage (m : Message) : Message :=
  { m with answers := m.answers.map received, authorities := m.authorities.map received, additionals := m.additionals.map received }

theorem rdLength_lt {d : RData} (h : PlainData d) : rdLength d < 65536 := by
  obtain ⟨x, -, h1, h2, -⟩ := writes_data h
  omega

theorem received_plain {r : Record} (h : Plain r) : Plain (received r) ∧ (received r).dataLen.toNat = rdLength (received r).data :=
  ⟨h, by show (UInt16.ofNat (rdLength r.data)).toNat = rdLength r.data; exact UInt16.toNat_ofNat_of_lt' (rdLength_lt h.2.2)⟩

theorem wire_size {n : Name} {x : List UInt8} (h : NameWire n x) (he : Encodable n) : x.length = n.s.length + 1 := by
  obtain ⟨L, h1, -, rfl⟩ := h
  obtain ⟨M, g1, g2, -⟩ := he.2
  have e := nameOf_unique h1 g1
  subst e
  rw [← toBytes_rfc h1 g2, toBytes_length he]

theorem encodings_size {rs : List Record} (h : ∀ r ∈ rs, Plain r) :
    ∃ ws, Encodings Record.encode rs ws ∧ ws.flatten.length = (rs.map recordSize).sum := by
  induction rs with
  | nil => exact ⟨[], .nil, rfl⟩
  | cons r rs ih =>
    obtain ⟨ws, h1, h2⟩ := ih fun r hr => h r (List.mem_cons_of_mem _ hr)
    have hr := h r (List.mem_cons_self ..)
    obtain ⟨rdata, x, ⟨o, g1, g2, g3, rfl⟩, g4, g5⟩ := writes_record hr
    refine ⟨_ :: ws, .cons g5 h1, ?_⟩
    simp only [List.flatten_cons, List.length_append, h2, List.map_cons, List.sum_cons, recordSize, wire_size g1 hr.1, g4]
    simp [be16, be32]
    omega

theorem sum_ge (rs : List Record) : 11 * rs.length ≤ (rs.map recordSize).sum := by
  induction rs with
  | nil => simp
  | cons r rs ih =>
    simp only [List.length_cons, List.map_cons, List.sum_cons, recordSize] at ih ⊢
    omega

/-- A reply that fits arrives complete. -/
theorem delivered {p p' : Profile} {conf : ZoneParser.Params} {zones : ManagedZone} (hl : Loaded conf zones) {node : Name}
    {kind : RecordType} {id : UInt16} {query : List UInt8} (hq : QueryFor id node kind query) (he : Encodable node)
    (hk : kind.isSupportedForQuestion = true) {m : Message} (hr : Replies p zones (queryMessage id node kind) m)
    (hpl : ∀ r ∈ m.answers ++ m.authorities ++ m.additionals, Plain r) (hfit : Fits node (m.answers ++ m.authorities ++ m.additionals)) :
    ∃ out, replyOf p zones query = some out ∧
      Message.decodeFromBytes p' (out.take 512) = .ok (receivedMessage m) ∧ m.header.id = id := by
  -- the query arrives
  obtain ⟨x, h1, -, h2⟩ := C21_plain_message p _ (query_plain id he hk)
  have e : x = query := Out.ok.inj (h1.symm.trans hq)
  subst e
  have hqs : Encodings Question.encode [⟨node, kind, .IN⟩] [node.toBytes ++ (be16 kind.toNum.toNat ++ be16 Class.IN.toNum.toNat)] := by
    refine .cons ?_ .nil
    exact .assert hk (.assert rfl (.bind (writes_bytes _) (.bind (writes_u16 _) (writes_u16 _))))
  have hlen : x.length ≤ 512 := by
    have e := encode_of_encodings (m := queryMessage id node kind) rfl ⟨rfl, rfl, rfl, rfl⟩ hqs .nil .nil .nil
    rw [h1] at e
    rw [Out.ok.inj e]
    have := he.1
    simp [headerBytes_length, toBytes_length he, be16]
    omega
  have hread : Net.udpRead p x = .ok (.fullMessage (queryMessage id node kind)) := by
    rw [C30_classification.1, List.take_of_length_le hlen]
    exact .full (by simpa using h2 [])
  -- the reply
  have hsum := sum_ge (m.answers ++ m.authorities ++ m.additionals)
  have hfit' := hfit
  unfold Fits at hfit'
  have hlens : m.answers.length < 65536 ∧ m.authorities.length < 65536 ∧ m.additionals.length < 65536 := by
    simp only [List.length_append] at hsum
    omega
  obtain ⟨g1, g2, -, -, -, -, g7, -⟩ := C49_echo_partial p conf zones _ m hl hr
  obtain ⟨c1, c2, c3, c4⟩ := g7 rfl hlens.1 hlens.2.1 hlens.2.2
  have hm : PlainMessage (receivedMessage m) := by
    refine ⟨g1.2.2.2.2.1, by rw [show (receivedMessage m).header.z = 0 from g1.2.2.2.1]; decide, c1, ?_, ?_, ?_, ?_, ?_⟩
    · simpa [receivedMessage] using c2
    · simpa [receivedMessage] using c3
    · simpa [receivedMessage] using c4
    · intro q hq
      have : q ∈ [(⟨node, kind, .IN⟩ : Question)] := by have h : q ∈ m.questions := hq; rw [g2] at h; exact h
      rw [List.mem_singleton] at this
      subst this
      exact ⟨he, hk, rfl⟩
    · intro r hr
      simp only [receivedMessage, ← List.map_append] at hr
      obtain ⟨r0, hr0, rfl⟩ := List.mem_map.1 hr
      exact received_plain (hpl r0 hr0)
  obtain ⟨y, y1, -, y2⟩ := C21_plain_message p' _ hm
  obtain ⟨wa, a1, a2⟩ := encodings_size (rs := m.answers) (fun r hr => hpl r (by simp [hr]))
  obtain ⟨wb, b1, b2⟩ := encodings_size (rs := m.authorities) (fun r hr => hpl r (by simp [hr]))
  obtain ⟨wc, d1, d2⟩ := encodings_size (rs := m.additionals) (fun r hr => hpl r (by simp [hr]))
  have em := encode_of_encodings (m := m) g1.2.2.2.2.1 ⟨c1, c2, c3, c4⟩ (by rw [g2]; exact hqs) a1 b1 d1
  have hsame : Message.SameItems m (receivedMessage m) :=
    ⟨rfl, fun _ _ => rfl, fun j _ => by
      show (m.answers[j]?).map Record.encode = ((m.answers.map received)[j]?).map Record.encode
      rw [List.getElem?_map, Option.map_map]
      rfl, fun j _ => by
      show (m.authorities[j]?).map Record.encode = ((m.authorities.map received)[j]?).map Record.encode
      rw [List.getElem?_map, Option.map_map]
      rfl, fun j _ => by
      show (m.additionals[j]?).map Record.encode = ((m.additionals.map received)[j]?).map Record.encode
      rw [List.getElem?_map, Option.map_map]
      rfl⟩
  have ey : m.encodeToBytes = .ok y := by rw [hsame.encode, y1]
  have hy : y.length = 12 + (node.s.length + 1 + 4) + ((m.answers ++ m.authorities ++ m.additionals).map recordSize).sum := by
    rw [em] at ey
    rw [← Out.ok.inj ey]
    simp [headerBytes_length, toBytes_length he, be16, a2, b2, d2]
    omega
  have ht := C26_no_truncation m ⟨c1, c2, c3, c4⟩ y ey (by omega)
  refine ⟨y, ?_, ?_, g1.1⟩
  · have : Nameserver.serveUdp p zones x [some 512] = .ok ([y], true) := by
      unfold Nameserver.serveUdp
      unfold Replies at hr
      rw [hread, Out.bind_ok, hr, Out.bind_ok]
      exact udpReply_once ht (by omega) (by omega)
    unfold replyOf
    rw [this]
  · rw [List.take_of_length_le (by omega)]
    simpa using y2 []

theorem set_spec {o : HashOrder} {conf : ZoneParser.Params} {zones : ManagedZone} (hl : Loaded conf zones) {n : Name} {k : RecordType}
    {r : Record} (h : r ∈ setAt o zones.authZone n k) : r.node = n ∧ r.recordType = k := by
  obtain ⟨log, soa, g1, -⟩ := hl.ready.auth
  rw [setAt_eq g1] at h
  exact recordsAt_spec h

/-- C85, answers: a name server at an address answers every query of the resolver for a record set of its zone with it. -/
theorem C85_server_answers (env : Resolver.Env) (p p' : Profile) (conf : ZoneParser.Params) (zones : ManagedZone) (o : HashOrder) (node : Name)
    (kind : RecordType) (addr : Ip4) (hrun : Runs env p' zones addr) (hl : Loaded conf zones) (he : Encodable node)
    (hk : kind.isSupportedForQuestion = true) (hs : ∀ c ∈ conf.subZones, ¬ Within node c.zone)
    (hne : setAt o zones.authZone node kind ≠ []) (hpl : ∀ r ∈ setAt o zones.authZone node kind, Plain r)
    (hfit : Fits node (setAt o zones.authZone node kind)) :
    Answers env p node kind (IsAnswer node kind ((setAt o zones.authZone node kind).map received)) addr := by
  intro hist id query hq
  obtain ⟨m, h1, h2, -, h4, h5, h6⟩ := C46_authoritative p' conf zones _ _ hl (query_asks (kind := kind) id he) hs o hne
  obtain ⟨out, g1, g2, g3⟩ := delivered (p' := p) hl hq he hk h1 (by rw [h4, h5, h6]; simpa using hpl) (by rw [h4, h5, h6]; simpa using hfit)
  refine ⟨out, _, (hrun _ _).trans g1, g2, g3, h2, List.Perm.of_eq ?_⟩
  show (m.answers.map received).filter _ = _
  rw [h4, List.filter_eq_self]
  intro r hr
  obtain ⟨r0, hr0, rfl⟩ := List.mem_map.1 hr
  have := set_spec hl hr0
  simp only [decide_eq_true_eq]
  exact this

/-- C85, denials: it answers every query for a name of its zone of which it has neither records of the type nor an alias
with a denial. -/
theorem C85_server_denies (env : Resolver.Env) (p p' : Profile) (conf : ZoneParser.Params) (zones : ManagedZone) (o : HashOrder) (node : Name)
    (kind : RecordType) (addr : Ip4) (hrun : Runs env p' zones addr) (hl : Loaded conf zones) (he : Encodable node)
    (hk : kind.isSupportedForQuestion = true) (hroot : conf.zone.s ≠ ['.']) (hin : Within node conf.zone)
    (hs : ∀ c ∈ conf.subZones, ¬ Within node c.zone)
    (hno : setAt o zones.authZone node kind = []) (hno' : setAt o zones.authZone node .CNAME = [])
    (hpl : ∀ r ∈ zones.authZone.getAllOfType o .SOA, Plain r) (hfit : Fits node (zones.authZone.getAllOfType o .SOA)) :
    Answers env p node kind IsDenial addr := by
  intro hist id query hq
  obtain ⟨m, h1, h2, h3, -⟩ := C48_nxdomain_partial p' conf zones _ _ o hl (query_asks (kind := kind) id he) hroot hin hs
  have hx := h2.2 ⟨hno, hno'⟩
  obtain ⟨h4, h5, h6, h7⟩ := h3 hx
  obtain ⟨out, g1, g2, g3⟩ := delivered (p' := p) hl hq he hk h1 (by rw [h5, h6, h7]; simpa using hpl) (by rw [h5, h6, h7]; simpa using hfit)
  exact ⟨out, _, (hrun _ _).trans g1, g2, g3, hx, h4⟩

theorem addressesOf_received (n : Name) (l : List Record) : addressesOf n (l.map received) = addressesOf n l := by
  induction l with
  | nil => rfl
  | cons r l ih =>
    unfold addressesOf at ih ⊢
    simp only [List.map_cons, List.filterMap_cons]
    rw [ih]
    rfl

theorem nsRecords_received (l : List Record) : nsRecords (l.map received) = (nsRecords l).map received := by
  unfold nsRecords
  rw [List.filter_map]
  rfl

theorem hostsOf_received (l g : List Record) : hostsOf (l.map received) (g.map received) = hostsOf l g := by
  induction l with
  | nil => rfl
  | cons r l ih =>
    unfold hostsOf at ih ⊢
    simp only [List.map_cons, List.filterMap_cons]
    rw [ih]
    have : (received r).data = r.data := rfl
    rw [this]
    cases r.data <;> simp [addressesOf_received]

theorem first_unique {α : Type} {P : α → Prop} : ∀ {before before' after after' : List α} {z z' : α},
    before ++ z :: after = before' ++ z' :: after' → P z → P z' → (∀ b ∈ before, ¬ P b) → (∀ b ∈ before', ¬ P b) → z = z'
  | [], [], _, _, _, _, e, _, _, _, _ => (List.cons.inj e).1
  | [], b :: _, _, _, _, _, e, hz, _, _, h' => absurd ((List.cons.inj e).1 ▸ hz) (h' b (List.mem_cons_self ..))
  | b :: _, [], _, _, _, _, e, _, hz, h, _ => absurd ((List.cons.inj e).1 ▸ hz) (h b (List.mem_cons_self ..))
  | _ :: _, _ :: _, _, _, _, _, e, hz, hz', h, h' => first_unique (List.cons.inj e).2 hz hz'
      (fun b hb => h b (List.mem_cons_of_mem _ hb)) (fun b hb => h' b (List.mem_cons_of_mem _ hb))

/-- C85, referrals: it answers every query for a name in a sub zone with a referral to it, given that the hosts named by the NS records
of the sub zone differ and have addresses among the sub zones. -/
theorem C85_server_refers (env : Resolver.Env) (p p' : Profile) (conf : ZoneParser.Params) (zones : ManagedZone) (o : HashOrder) (node : Name)
    (kind : RecordType) (addr : Ip4) (before after : List Zone) (sub : Zone) (hrun : Runs env p' zones addr) (hl : Loaded conf zones) (he : Encodable node)
    (hk : kind.isSupportedForQuestion = true) (hroot : conf.zone.s ≠ ['.']) (hroots : ∀ c ∈ conf.subZones, c.zone.s ≠ ['.'])
    (hin : Within node conf.zone) (hsubs : zones.subZones = before ++ sub :: after) (hsub : Within node sub.zone)
    (hfirst : ∀ z ∈ before, ¬ Within node z.zone)
    (hhosts : (setAt o sub sub.zone .NS).Pairwise fun r r' => r.data ≠ r'.data)
    (hglue : ∀ s ∈ hostsOf (setAt o sub sub.zone .NS) (glueFor o zones.subZones (setAt o sub sub.zone .NS)), s ≠ [])
    (hpl : ∀ r ∈ setAt o sub sub.zone .NS ++ glueFor o zones.subZones (setAt o sub sub.zone .NS), Plain r)
    (hfit : Fits node (setAt o sub sub.zone .NS ++ glueFor o zones.subZones (setAt o sub sub.zone .NS))) :
    Answers env p node kind (fun m => IsReferral m sub.zone ∧
      glueOf m = hostsOf (setAt o sub sub.zone .NS) (glueFor o zones.subZones (setAt o sub sub.zone .NS))) addr := by
  intro hist id query hq
  have hmem : sub ∈ zones.subZones := by rw [hsubs]; simp
  obtain ⟨c, hc, ec⟩ : ∃ c ∈ conf.subZones, c.zone = sub.zone := by
    have : sub.zone ∈ conf.subZones.map (·.zone) := by rw [← hl.ready.names]; exact List.mem_map.2 ⟨sub, hmem, rfl⟩
    exact List.mem_map.1 this
  obtain ⟨m, h1, before', z, after', e1, e2, e3, h2, h3, h4, h5, h6, h7⟩ := C47_referral_partial p' conf zones _ _ o hl
    (query_asks (kind := kind) id he) hroot hroots hin ⟨c, hc, by rw [ec]; exact hsub⟩
  have ez : z = sub := by
    rw [hsubs] at e1
    exact (first_unique e1 hsub e2 hfirst e3).symm
  subst ez
  rw [h5] at h7
  obtain ⟨out, g1, g2, g3⟩ := delivered (p' := p) hl hq he hk h1 (by rw [h4, h5, h7]; simpa using hpl) (by rw [h4, h5, h7]; simpa using hfit)
  have hns : nsRecords (receivedMessage m).authorities = (setAt o z z.zone .NS).map received := by
    show nsRecords (m.authorities.map received) = _
    rw [nsRecords_received, h5]
    congr 1
    unfold nsRecords
    rw [List.filter_eq_self]
    intro r hr
    obtain ⟨log, l1, -⟩ := hl.ready.sub z hmem
    rw [setAt_eq l1] at hr
    simpa using (recordsAt_spec hr).2
  have hg : glueOf (receivedMessage m) = hostsOf (setAt o z z.zone .NS) (glueFor o zones.subZones (setAt o z z.zone .NS)) := by
    rw [← hostsOf_received, ← h7, ← hns]
    rfl
  refine ⟨out, _, (hrun _ _).trans g1, g2, g3, ⟨h2, ?_, ?_, ?_, ?_, ?_⟩, hg⟩
  · show m.answers.map received = []
    rw [h4]; rfl
  · rw [hns, ← h5]
    simpa using h6
  · rw [hns]
    intro r hr
    obtain ⟨r0, hr0, rfl⟩ := List.mem_map.1 hr
    have : r0.node = z.zone := by simpa using (List.mem_filter.1 hr0).2
    exact this
  · rw [hns, List.pairwise_map]
    exact hhosts
  · rw [hg]
    exact hglue

theorem served_mono {env : Resolver.Env} {p : Profile} {node : Name} {kind : RecordType} {t n : Nat} {P Q : Message → Prop} (h : ∀ m, P m → Q m)
    {servers : List (List Ip4)} (hs : Served env p node kind t n P servers) : Served env p node kind t n Q servers := by
  obtain ⟨up, h1, h2, h3, h4⟩ := hs
  exact ⟨up, h1, fun s hs a ha => ⟨fun hu => ((h2 s hs a ha).1 hu).mono h, (h2 s hs a ha).2⟩, h3, h4⟩

theorem leadsTo_mono {env : Resolver.Env} {p : Profile} {node : Name} {kind : RecordType} {t n : Nat} {last last' : List (List Ip4) → Prop}
    (h : ∀ S, last S → last' S) : ∀ (depth : Nat) (zone : Name) (servers : List (List Ip4)),
    LeadsTo env p node kind t n last depth zone servers → LeadsTo env p node kind t n last' depth zone servers
  | 0, _, servers, hl => h servers hl
  | depth + 1, _, _, hl => served_mono (fun _ ⟨next, h1, h2, h3, h4⟩ => ⟨next, h1, h2, h3, leadsTo_mono h depth next _ h4⟩) hl

theorem served_of_all {env : Resolver.Env} {p : Profile} {node : Name} {kind : RecordType} {t n : Nat} {P : Message → Prop}
    {servers : List (List Ip4)} (ht : t ≠ 0) (hn : n ≠ 0) (hne : servers ≠ []) (h : ∀ s ∈ servers, s ≠ [] ∧ ∀ a ∈ s, Answers env p node kind P a) :
    Served env p node kind t n P servers := by
  refine ⟨fun _ => true, fun s hs => ⟨(h s hs).1, .inl fun _ _ => rfl⟩, fun s hs a ha => ⟨fun _ => ((h s hs).2 a ha).responds ht, fun e => by cases e⟩, ?_, ?_⟩
  · obtain ⟨s, hs⟩ := List.exists_mem_of_ne_nil _ hne
    exact ⟨s, hs, fun _ _ => rfl⟩
  · have : servers.countP (fun s => s.all fun _ => !true) = 0 := by
      rw [List.countP_eq_zero]
      intro s hs
      simpa using List.exists_mem_of_ne_nil _ (h s hs).1
    show servers.countP (fun s => s.all fun _ => !true) < n
    omega

/-- C85, a whole zone: if referrals lead from the root servers to name servers of this program with a zone, the resolver finds each of
the record sets of the zone that fits in one datagram, exactly as loaded but for the lengths of the data. -/
theorem C85_zone_is_resolved (env : Resolver.Env) (p p' : Profile) (rconf : Resolver.Params) (conf : ZoneParser.Params) (zones : ManagedZone)
    (o : HashOrder) (node : Name) (kind : RecordType) (w : Resolver.World) (depth fuel : Nat)
    (hl : LeadsTo env p node kind rconf.maxUdpRetries rconf.maxNsQueried (AllRun env p' zones) depth ⟨['.']⟩ rootAddrs) (hz : Loaded conf zones)
    (he : Encodable node) (hk : kind.isSupportedForQuestion = true) (hs : ∀ c ∈ conf.subZones, ¬ Within node c.zone)
    (hne : setAt o zones.authZone node kind ≠ []) (hpl : ∀ r ∈ setAt o zones.authZone node kind, Plain r)
    (hfit : Fits node (setAt o zones.authZone node kind)) (hr : rconf.maxUdpRetries ≠ 0) (hc : rconf.maxCnameRedir ≠ 0)
    (hm : rconf.maxNsQueried ≠ 0) (hnone : NothingAbout node kind w.cache) (hoth : OthersKeepOff env node kind) (hf : depth + 1 < fuel) :
    ∃ r, (Resolver.lookup env p rconf fuel node kind w).1 = .ok r ∧ r.noRecords = false ∧
      r.answers.Perm ((setAt o zones.authZone node kind).map received) :=
  C83_answer_is_found env p rconf node kind w depth fuel _ (valid_of_encodable he) hk hr hc hnone hoth (by simpa using hne)
    (leadsTo_mono (fun _ h => served_of_all hr hm h.1 fun s hs' => ⟨(h.2 s hs').1, fun a ha =>
      C85_server_answers env p p' conf zones o node kind a ((h.2 s hs').2 a ha) hz he hk hs hne hpl hfit⟩) depth _ _ hl) hf

/-- C85, a whole zone: the same for the names the zone denies. -/
theorem C85_zone_is_denied (env : Resolver.Env) (p p' : Profile) (rconf : Resolver.Params) (conf : ZoneParser.Params) (zones : ManagedZone)
    (o : HashOrder) (node : Name) (kind : RecordType) (w : Resolver.World) (depth fuel : Nat)
    (hl : LeadsTo env p node kind rconf.maxUdpRetries rconf.maxNsQueried (AllRun env p' zones) depth ⟨['.']⟩ rootAddrs) (hz : Loaded conf zones)
    (he : Encodable node) (hk : kind.isSupportedForQuestion = true) (hroot : conf.zone.s ≠ ['.']) (hin : Within node conf.zone)
    (hs : ∀ c ∈ conf.subZones, ¬ Within node c.zone)
    (hno : setAt o zones.authZone node kind = []) (hno' : setAt o zones.authZone node .CNAME = [])
    (hpl : ∀ r ∈ zones.authZone.getAllOfType o .SOA, Plain r) (hfit : Fits node (zones.authZone.getAllOfType o .SOA))
    (hr : rconf.maxUdpRetries ≠ 0) (hc : rconf.maxCnameRedir ≠ 0)
    (hm : rconf.maxNsQueried ≠ 0) (hnone : NothingAbout node kind w.cache) (hoth : OthersKeepOff env node kind) (hf : depth + 1 < fuel) :
    ∃ r, (Resolver.lookup env p rconf fuel node kind w).1 = .ok r ∧ r.noRecords = true ∧ r.answers = [] :=
  C83_denial_is_found env p rconf node kind w depth fuel (valid_of_encodable he) hk hr hc hnone hoth
    (leadsTo_mono (fun _ h => served_of_all hr hm h.1 fun s hs' => ⟨(h.2 s hs').1, fun a ha =>
      C85_server_denies env p p' conf zones o node kind a ((h.2 s hs').2 a ha) hz he hk hroot hin hs hno hno' hpl hfit⟩) depth _ _ hl) hf

theorem under_of_within {n z : Name} (h : Within n z) : Under n z := by
  obtain ⟨L, M, h1, h2, t, rfl⟩ := h
  exact ⟨t, M, h1, h2⟩

/-- C85, delegation: if the servers of a zone are name servers of this program, a sub zone is one more referral on the way of the
resolver. -/
theorem C85_sub_zone_is_found (env : Resolver.Env) (p p' : Profile) (conf : ZoneParser.Params) (zones : ManagedZone) (o : HashOrder)
    (node : Name) (kind : RecordType) (before after : List Zone) (sub : Zone) (t n depth : Nat) (last : List (List Ip4) → Prop)
    (servers : List (List Ip4)) (hrun : AllRun env p' zones servers) (hl : Loaded conf zones) (he : Encodable node)
    (hk : kind.isSupportedForQuestion = true) (ht : t ≠ 0) (hn : n ≠ 0) (hroot : conf.zone.s ≠ ['.']) (hroots : ∀ c ∈ conf.subZones, c.zone.s ≠ ['.'])
    (hin : Within node conf.zone) (hsubs : zones.subZones = before ++ sub :: after) (hsub : Within node sub.zone)
    (hfirst : ∀ z ∈ before, ¬ Within node z.zone) (hbelow : Below sub.zone conf.zone)
    (hhosts : (setAt o sub sub.zone .NS).Pairwise fun r r' => r.data ≠ r'.data)
    (hglue : ∀ s ∈ hostsOf (setAt o sub sub.zone .NS) (glueFor o zones.subZones (setAt o sub sub.zone .NS)), s ≠ [])
    (hpl : ∀ r ∈ setAt o sub sub.zone .NS ++ glueFor o zones.subZones (setAt o sub sub.zone .NS), Plain r)
    (hfit : Fits node (setAt o sub sub.zone .NS ++ glueFor o zones.subZones (setAt o sub sub.zone .NS)))
    (hnext : LeadsTo env p node kind t n last depth sub.zone
      (hostsOf (setAt o sub sub.zone .NS) (glueFor o zones.subZones (setAt o sub sub.zone .NS)))) :
    LeadsTo env p node kind t n last (depth + 1) conf.zone servers := by
  refine served_of_all ht hn hrun.1 fun s hs => ⟨(hrun.2 s hs).1, fun a ha => ?_⟩
  intro hist id query hq
  obtain ⟨reply, m, g1, g2, g3, g4, g5⟩ := C85_server_refers env p p' conf zones o node kind a before after sub ((hrun.2 s hs).2 a ha) hl he hk hroot
    hroots hin hsubs hsub hfirst hhosts hglue hpl hfit hist id query hq
  exact ⟨reply, m, g1, g2, g3, sub.zone, g4, under_of_within hsub, hbelow, by rw [g5]; exact hnext⟩

/-! Two name servers: the one of e. with the sub zone s.e., and the one of s.e.; the root servers refer to the first. -/

/-- The configuration of the first. -/
def parentConf : ZoneParser.Params :=
  { filePath := "auth".toList, zone := ⟨"e.".toList⟩, startingTtl := 60,
    subZones := [{ filePath := "sub".toList, zone := ⟨"s.e.".toList⟩, startingTtl := 60, minTtl := 1 }] }

/-- Its files. -/
def parentFiles : ZoneParser.Files := files
  [("auth", ["@ 60 IN SOA ns mail.f. 1 2 3 4 5", "@ NS ns", "ns A 9.9.9.9"]),
   ("sub", ["@ NS ns", "ns A 8.8.8.8"])]

/-- The configuration of the second. -/
def childConf : ZoneParser.Params := { filePath := "auth".toList, zone := ⟨"s.e.".toList⟩, startingTtl := 60, subZones := [] }

/-- Its files. -/
def childFiles : ZoneParser.Files := files
  [("auth", ["@ 60 IN SOA ns mail.f. 1 2 3 4 5", "@ NS ns", "ns A 8.8.8.8", "w A 1.2.3.4", "w A 1.2.3.5"])]

/-- The referral of the root servers. -/
def rootReferral (id : UInt16) : Message :=
  ⟨⟨id, true, .STD, false, false, false, false, 0, .NoError, 0, 0, 1, 1⟩, [], [],
    [⟨⟨"e.".toList⟩, .IN, 9, 6, .NS ⟨"ns.e.".toList⟩⟩], [⟨⟨"ns.e.".toList⟩, .IN, 9, 4, .A ⟨9, 9, 9, 9⟩⟩]⟩

/-- The world. -/
def twoEnv (p : Profile) (parent child : ManagedZone) : Resolver.Env where
  clock n := n
  mono _ _ h := h
  others _ c := c
  ids n := UInt16.ofNat n
  net _ addr q :=
    if addr = ⟨9, 9, 9, 9⟩ then replyOf p parent q
    else if addr = ⟨8, 8, 8, 8⟩ then replyOf p child q
    else match (withId (rootReferral 0) (queryId q)).encodeToBytes with
      | .ok b => some b
      | _ => none

theorem wse_encodable : Encodable ⟨"w.s.e.".toList⟩ :=
  encodable_of ["w".toList, "s".toList, "e".toList] (by decide) (by decide) (by decide) (by decide) (by decide)
theorem se_encodable : Encodable ⟨"s.e.".toList⟩ := encodable_of ["s".toList, "e".toList] (by decide) (by decide) (by decide) (by decide) (by decide)
theorem e_encodable : Encodable ⟨"e.".toList⟩ := encodable_of ["e".toList] (by decide) (by decide) (by decide) (by decide) (by decide)
theorem nsse_encodable : Encodable ⟨"ns.s.e.".toList⟩ :=
  encodable_of ["ns".toList, "s".toList, "e".toList] (by decide) (by decide) (by decide) (by decide) (by decide)

theorem rootReferral_plain : PlainMessage (rootReferral 0) := by
  refine ⟨rfl, by decide, rfl, rfl, rfl, rfl, by simp [rootReferral], ?_⟩
  intro r hr
  simp only [rootReferral, List.nil_append, List.cons_append, List.mem_cons, List.not_mem_nil, or_false] at hr
  rcases hr with rfl | rfl
  · exact ⟨⟨e_encodable, rfl, nsE_encodable⟩, rfl⟩
  · exact ⟨⟨nsE_encodable, rfl, trivial⟩, rfl⟩

theorem plain_answers' {env : Resolver.Env} {p : Profile} {m : Message} {addr : Ip4} {node : Name} {kind : RecordType} {P : Message → Prop}
    (h : PlainMessage m) (hl : encodedLength (withId m 0) ≤ 512) (hk : kind.isSupportedForQuestion = true) (he : Encodable node)
    (hnet : ∀ hist q, env.net hist addr q = match (withId m (queryId q)).encodeToBytes with | .ok b => some b | _ => none)
    (hP : ∀ id, P (withId m id)) : Answers env p node kind P addr := by
  intro hist id q hq
  have hid : queryId q = id := queryId_of hq hk he
  obtain ⟨b, e1, e2⟩ := send_of h hl p (hnet hist q)
  rw [hid] at e2
  exact ⟨b, _, e1, e2, rfl, hP id⟩

theorem nE : NameOf "e.".toList ["e".toList] := nameOf_of (by decide) (by decide)
theorem nSE : NameOf "s.e.".toList ["s".toList, "e".toList] := nameOf_of (by decide) (by decide)
theorem nWSE : NameOf "w.s.e.".toList ["w".toList, "s".toList, "e".toList] := nameOf_of (by decide) (by decide)
theorem nNSSE : NameOf "ns.s.e.".toList ["ns".toList, "s".toList, "e".toList] := nameOf_of (by decide) (by decide)

/-- The records of the sub zone. -/
def subRecords : List Record := [⟨⟨"s.e.".toList⟩, .IN, 60, 0, .NS ⟨"ns.s.e.".toList⟩⟩]
def subGlue : List Record := [⟨⟨"ns.s.e.".toList⟩, .IN, 60, 0, .A ⟨8, 8, 8, 8⟩⟩]
def wRecords : List Record := [⟨⟨"w.s.e.".toList⟩, .IN, 60, 0, .A ⟨1, 2, 3, 4⟩⟩, ⟨⟨"w.s.e.".toList⟩, .IN, 60, 0, .A ⟨1, 2, 3, 5⟩⟩]

def soaRecords : List Record :=
  [⟨⟨"s.e.".toList⟩, .IN, 60, 0, .SOA ⟨"ns.s.e.".toList⟩ ⟨"mail.f.".toList⟩ 1 2 3 4 5⟩]

theorem parent_loads : ∃ parent, ∃ sub, Loaded parentConf parent ∧ parent.subZones = [sub] ∧ sub.zone = ⟨"s.e.".toList⟩ ∧
    setAt forwards sub ⟨"s.e.".toList⟩ .NS = subRecords ∧ setAt forwards sub ⟨"ns.s.e.".toList⟩ .A = subGlue := by
  obtain ⟨zones, h1, h2⟩ := ok_of (x := ZoneParser.parseZoneFiles .debug parentFiles forwards 20 parentConf) (fun zones =>
    match zones.subZones with
    | [sub] => sub.zone = ⟨"s.e.".toList⟩ && setAt forwards sub ⟨"s.e.".toList⟩ .NS = subRecords &&
      setAt forwards sub ⟨"ns.s.e.".toList⟩ .A = subGlue
    | _ => false) (by decide +kernel)
  have hl : Loaded parentConf zones := ⟨⟨validName_of (by decide +kernel), fun c hc => by
    have : c.zone.s = "s.e.".toList := by simp only [parentConf, List.mem_singleton] at hc; rw [hc]
    rw [this]; exact validName_of (by decide +kernel)⟩, _, _, _, _, h1⟩
  split at h2
  · rename_i sub e
    simp only [Bool.and_eq_true, decide_eq_true_eq] at h2
    exact ⟨zones, sub, hl, e, h2.1.1, h2.1.2, h2.2⟩
  · cases h2

theorem child_loads : ∃ child, Loaded childConf child ∧ setAt forwards child.authZone ⟨"w.s.e.".toList⟩ .A = wRecords ∧
    setAt forwards child.authZone ⟨"w.s.e.".toList⟩ .MX = [] ∧ setAt forwards child.authZone ⟨"w.s.e.".toList⟩ .CNAME = [] ∧
    child.authZone.getAllOfType forwards .SOA = soaRecords := by
  obtain ⟨zones, h1, h2⟩ := ok_of (x := ZoneParser.parseZoneFiles .debug childFiles forwards 20 childConf) (fun zones =>
    decide (setAt forwards zones.authZone ⟨"w.s.e.".toList⟩ .A = wRecords ∧
      setAt forwards zones.authZone ⟨"w.s.e.".toList⟩ .MX = [] ∧ setAt forwards zones.authZone ⟨"w.s.e.".toList⟩ .CNAME = [] ∧
      zones.authZone.getAllOfType forwards .SOA = soaRecords)) (by decide +kernel)
  exact ⟨zones, ⟨⟨validName_of (by decide +kernel), fun c hc => by cases hc⟩, _, _, _, _, h1⟩, of_decide_eq_true h2⟩

theorem mailf_encodable : Encodable ⟨"mail.f.".toList⟩ :=
  encodable_of ["mail".toList, "f".toList] (by decide) (by decide) (by decide) (by decide) (by decide)

theorem two_leads (p p' : Profile) {parent child : ManagedZone} {sub : Zone} {kind : RecordType} (hk : kind.isSupportedForQuestion = true)
    (h1 : Loaded parentConf parent) (h2 : parent.subZones = [sub]) (h3 : sub.zone = ⟨"s.e.".toList⟩)
    (h4 : setAt forwards sub ⟨"s.e.".toList⟩ .NS = subRecords) (h5 : setAt forwards sub ⟨"ns.s.e.".toList⟩ .A = subGlue) :
    LeadsTo (twoEnv p' parent child) p ⟨"w.s.e.".toList⟩ kind 3 2 (AllRun (twoEnv p' parent child) p' child) 2 ⟨['.']⟩ rootAddrs := by
  have hglue : glueFor forwards parent.subZones subRecords = subGlue := by
    have : Within ⟨"ns.s.e.".toList⟩ sub.zone := by rw [h3]; exact ⟨_, _, nNSSE, nSE, ["ns".toList], rfl⟩
    simp only [glueFor, subRecords, h2, List.flatMap_cons, List.flatMap_nil, List.append_nil, if_pos this]
    exact h5
  have hhosts : hostsOf subRecords subGlue = [[⟨8, 8, 8, 8⟩]] := by decide +kernel
  have hrun : ∀ a ∈ [(⟨8, 8, 8, 8⟩ : Ip4)], Runs (twoEnv p' parent child) p' child a := by
    intro a ha hist q
    rw [List.mem_singleton] at ha
    subst ha
    simp only [twoEnv]
    rw [if_neg (by decide), if_pos trivial]
  have hrun' : Runs (twoEnv p' parent child) p' parent ⟨9, 9, 9, 9⟩ := by
    intro hist q
    simp only [twoEnv, if_true]
  have hrefer : LeadsTo (twoEnv p' parent child) p ⟨"w.s.e.".toList⟩ kind 3 2 (AllRun (twoEnv p' parent child) p' child) 1 ⟨"e.".toList⟩ [[⟨9, 9, 9, 9⟩]] := by
    refine C85_sub_zone_is_found (twoEnv p' parent child) p p' parentConf parent forwards ⟨"w.s.e.".toList⟩ kind [] [] sub 3 2 0 _ _
      ⟨by simp, fun s hs => ?_⟩ h1 wse_encodable hk (by decide) (by decide) (by decide +kernel) (by decide +kernel) ⟨_, _, nWSE, nE, ["w".toList, "s".toList], rfl⟩
      h2 (by rw [h3]; exact ⟨_, _, nWSE, nSE, ["w".toList], rfl⟩) (by simp)
      (by rw [h3]; exact ⟨["s".toList], ["e".toList], by simp, nSE, nE⟩) ?_ ?_ ?_ ?_ ?_
    · rw [List.mem_singleton] at hs
      subst hs
      exact ⟨by simp, fun a ha => by rw [List.mem_singleton] at ha; subst ha; exact hrun'⟩
    · rw [h3, h4]
      exact List.pairwise_singleton _ _
    · rw [h3, h4, hglue, hhosts]
      decide
    · rw [h3, h4, hglue]
      intro r hr
      simp only [subRecords, subGlue, List.cons_append, List.nil_append, List.mem_cons, List.not_mem_nil, or_false] at hr
      rcases hr with rfl | rfl
      · exact ⟨se_encodable, rfl, nsse_encodable⟩
      · exact ⟨nsse_encodable, rfl, trivial⟩
    · rw [h3, h4, hglue]
      unfold Fits
      decide +kernel
    · rw [h3, h4, hglue, hhosts]
      exact ⟨by simp, fun s hs => by rw [List.mem_singleton] at hs; subst hs; exact ⟨by simp, hrun⟩⟩
  refine served_of_all (by decide) (by decide) (by decide) fun s hs => ⟨by revert s; decide, fun a ha => ?_⟩
  refine plain_answers' rootReferral_plain (by decide +kernel) hk wse_encodable (fun hist q => ?_) fun id => ?_
  · simp only [twoEnv]
    have h9 : ∀ s ∈ rootAddrs, (⟨9, 9, 9, 9⟩ : Ip4) ∉ s ∧ (⟨8, 8, 8, 8⟩ : Ip4) ∉ s := by decide
    rw [if_neg (fun e : a = ⟨9, 9, 9, 9⟩ => (h9 s hs).1 (e ▸ ha)), if_neg (fun e : a = ⟨8, 8, 8, 8⟩ => (h9 s hs).2 (e ▸ ha))]
  · refine ⟨⟨"e.".toList⟩, ⟨rfl, rfl, ?_, ?_, ?_, ?_⟩, ⟨["w".toList, "s".toList], ["e".toList], nWSE, nE⟩,
      ⟨["e".toList], [], by simp, nE, by simp, rfl⟩, ?_⟩
    · show nsRecords (rootReferral 0).authorities ≠ []
      decide +kernel
    · show ∀ r ∈ nsRecords (rootReferral 0).authorities, _
      decide +kernel
    · show (nsRecords (rootReferral 0).authorities).Pairwise _
      decide +kernel
    · show ∀ s ∈ glueOf (rootReferral 0), s ≠ []
      decide +kernel
    · have e : glueOf (withId (rootReferral 0) id) = [[⟨9, 9, 9, 9⟩]] := by
        show glueOf (rootReferral 0) = _
        decide +kernel
      rw [e]
      exact hrefer

/-- The resolver finds the records of w.s.e. -/
example (p p' : Profile) : ∃ parent child, Loaded parentConf parent ∧ Loaded childConf child ∧
    ∃ r, (Resolver.lookup (twoEnv p' parent child) p ⟨2, 3, 2, false⟩ 4 ⟨"w.s.e.".toList⟩ .A ⟨.empty, 0, []⟩).1 = .ok r ∧ r.noRecords = false ∧
      r.answers.Perm (wRecords.map received) := by
  obtain ⟨parent, sub, h1, h2, h3, h4, h5⟩ := parent_loads
  obtain ⟨child, g1, g2, -⟩ := child_loads
  refine ⟨parent, child, h1, g1, ?_⟩
  rw [← g2]
  refine C85_zone_is_resolved (twoEnv p' parent child) p p' ⟨2, 3, 2, false⟩ childConf child forwards ⟨"w.s.e.".toList⟩ .A _ 2 4 (two_leads p p' rfl h1 h2 h3 h4 h5) g1 wse_encodable rfl
    (fun c hc => by cases hc) (by rw [g2]; simp [wRecords]) ?_ ?_ (by decide) (by decide) (by decide) ⟨rfl, rfl, fun _ _ => rfl⟩ (fun _ _ h => h) (by decide)
  · rw [g2]
    intro r hr
    simp only [wRecords, List.mem_cons, List.not_mem_nil, or_false] at hr
    rcases hr with rfl | rfl <;> exact ⟨wse_encodable, rfl, trivial⟩
  · rw [g2]
    unfold Fits
    decide +kernel

/-- It reports that w.s.e. has no MX records as a denial. -/
example (p p' : Profile) : ∃ parent child, Loaded parentConf parent ∧ Loaded childConf child ∧
    ∃ r, (Resolver.lookup (twoEnv p' parent child) p ⟨2, 3, 2, false⟩ 4 ⟨"w.s.e.".toList⟩ .MX ⟨.empty, 0, []⟩).1 = .ok r ∧ r.noRecords = true ∧
      r.answers = [] := by
  obtain ⟨parent, sub, h1, h2, h3, h4, h5⟩ := parent_loads
  obtain ⟨child, g1, -, g2, g3, g4⟩ := child_loads
  refine ⟨parent, child, h1, g1, ?_⟩
  refine C85_zone_is_denied (twoEnv p' parent child) p p' ⟨2, 3, 2, false⟩ childConf child forwards ⟨"w.s.e.".toList⟩ .MX _ 2 4
    (two_leads p p' rfl h1 h2 h3 h4 h5) g1 wse_encodable rfl (by decide) ⟨_, _, nWSE, nSE, ["w".toList], rfl⟩ (fun c hc => by cases hc) g2 g3 ?_ ?_
    (by decide) (by decide) (by decide) ⟨rfl, rfl, fun _ _ => rfl⟩ (fun _ _ h => h) (by decide)
  · rw [g4]
    intro r hr
    rw [soaRecords, List.mem_singleton] at hr
    subst hr
    exact ⟨se_encodable, rfl, nsse_encodable, mailf_encodable⟩
  · rw [g4]
    unfold Fits
    decide +kernel

end Ariadne.Props
