import Verif.Spec.Expected
import Verif.Props.Accepts
import Verif.Props.Nameserver

/-!
# C101, C102: what clients get is what the zone files say
-/

namespace Ariadne.Props

open Spec ZoneParser Nameserver

theorem recordsAt_unique {z : Zone} {log rs : List Record} (h : Holds z log) (hr : Returns z rs) (n : Name) (k : RecordType) :
    recordsAt log n k = recordsAt rs n k := by
  have h1 := hr.1 .debug n k
  rw [h.get] at h1
  have h2 := Out.ok.inj h1
  by_cases e : recordsAt log n k = [] <;> by_cases e' : recordsAt rs n k = []
  · rw [e, e']
  · rw [if_pos e, if_neg e'] at h2; cases h2
  · rw [if_neg e, if_pos e'] at h2; cases h2
  · rw [if_neg e, if_neg e'] at h2; exact Option.some.inj h2

theorem glue_list {p : Profile} {n : Name} (hn : ValidName n.s) : ∀ {zs : List Zone} {subs : List (Name × List Record)},
    List.Forall₂ (fun z (s : Name × List Record) => ZoneIs z s.1 s.2) zs subs → (∀ s ∈ subs, ValidName s.1.s ∧ s.1.s ≠ ['.']) →
    Nameserver.glue p n zs = .ok (addressesIn subs n)
  | _, _, .nil, _ => rfl
  | z :: zs, s :: subs, .cons hz hzs, h => by
    have ih := glue_list (p := p) hn hzs fun s hs => h s (List.mem_cons_of_mem _ hs)
    obtain ⟨hv, hr⟩ := h s List.mem_cons_self
    obtain ⟨log, hl⟩ := hz.holds
    unfold Nameserver.glue addressesIn
    rw [hz.zone, List.flatMap_cons]
    unfold addressesIn at ih
    by_cases hw : n.isInZone s.1 = true
    · rw [if_pos hw, if_pos ((isInZone_within hn hv hr).1 hw)]
      obtain ⟨r, h1, h2⟩ := get_getD (p := p) (n := n) (k := .A) hl
      rw [h1, Out.bind_ok, ih, Out.bind_ok, h2, recordsAt_unique hl hz.returns]
    · rw [if_neg hw, if_neg (fun x => hw ((isInZone_within hn hv hr).2 x)), ih, List.nil_append]

theorem allGlue_list {p : Profile} {zs : List Zone} {subs : List (Name × List Record)}
    (h : List.Forall₂ (fun z (s : Name × List Record) => ZoneIs z s.1 s.2) zs subs) (hs : ∀ s ∈ subs, ValidName s.1.s ∧ s.1.s ≠ ['.']) :
    ∀ {ns : List Record}, (∀ r ∈ ns, ∃ n, r.data = .NS n ∧ ValidName n.s) → allGlue p zs ns = .ok (serverAddresses subs ns)
  | [], _ => rfl
  | r :: ns, hr => by
    have ih := allGlue_list (p := p) h hs (ns := ns) fun r h => hr r (List.mem_cons_of_mem _ h)
    obtain ⟨n, hd, hv⟩ := hr r List.mem_cons_self
    unfold allGlue
    rw [hd]
    simp only
    rw [glue_list hv h hs, Out.bind_ok, ih, Out.bind_ok]
    unfold serverAddresses
    rw [List.flatMap_cons, hd]

theorem find_both {α β : Type} {R : α → β → Prop} {f : α → Bool} {g : β → Bool} : ∀ {l : List α} {l' : List β}, List.Forall₂ R l l' →
    (∀ a b, R a b → b ∈ l' → f a = g b) →
    (l.find? f = none ∧ l'.find? g = none) ∨ ∃ a b, l.find? f = some a ∧ l'.find? g = some b ∧ b ∈ l' ∧ R a b
  | _, _, .nil, _ => .inl ⟨rfl, rfl⟩
  | a :: l, b :: l', .cons h t, hfg => by
    have e := hfg a b h List.mem_cons_self
    rw [List.find?_cons, List.find?_cons, e]
    cases hg : g b with
    | true => exact .inr ⟨a, b, rfl, rfl, List.mem_cons_self, h⟩
    | false =>
      rcases find_both t (fun a b hr hb => hfg a b hr (List.mem_cons_of_mem _ hb)) with h | ⟨x, y, h1, h2, h3, h4⟩
      · exact .inl h
      · exact .inr ⟨x, y, h1, h2, List.mem_cons_of_mem _ h3, h4⟩

open Classical in
/-- The reply from the records, for any request. -/
noncomputable def listReply (zone : Name) (soa : Record) (rs : List Record) (subs : List (Name × List Record)) (req : Message)
    (q : Question) : Message :=
  if ¬ Within q.node zone then errReply req .Refused
  else match subs.find? fun s => decide (Within q.node s.1) with
    | some s => referralReply req (recordsAt s.2 s.1 .NS) (serverAddresses subs (recordsAt s.2 s.1 .NS))
    | none =>
      if recordsAt (rs ++ [soa]) q.node q.recordType ≠ [] then answerReply req (recordsAt (rs ++ [soa]) q.node q.recordType)
      else if recordsAt rs q.node .CNAME ≠ [] then answerReply req (recordsAt rs q.node .CNAME)
      else { header := { respHeader req.header .NxDomain with
               authAnswer := true, answersCount := 0, authoritiesCount := 1, additionalsCount := 0 }
             questions := req.questions, answers := [], authorities := [soa], additionals := [] }

theorem listReply_expected {zone : Name} {soa : Record} {rs : List Record} {subs : List (Name × List Record)} {req : Message}
    {q : Question} (hq : req.header.questionsCount = 1) : listReply zone soa rs subs req q = expectedReply zone soa rs subs req q := by
  unfold listReply expectedReply
  split
  · unfold errReply replyWith respHeader
    rw [← hq]; rfl
  · generalize List.find? _ subs = x
    cases x with
    | some s => rfl
    | none =>
      simp only
      split
      · rfl
      · split
        · rfl
        · unfold replyWith respHeader
          simp only [hq]
          rfl

/-- What the files say, and what was loaded. -/
structure FilesSay (fs : Files) (conf : Params) (soa : Record) (rs : List Record) (subs : List (Name × List Record)) : Prop where
  valid : ValidConf conf
  notRoot : conf.zone.s ≠ ['.']
  subNotRoot : ∀ c ∈ conf.subZones, c.zone.s ≠ ['.']
  zone : ∃ depth, ZoneMeans true fs conf (fun _ => conf.startingTtl) (fun f => Included true fs f depth) soa rs
  sub : List.Forall₂ (fun c s => s.1 = c.zone ∧ SubZoneMeans true fs c s.2) conf.subZones subs

theorem zip_pairs {P : SubParams → List Record → Prop} : ∀ {cs : List SubParams} {subs : List (Name × List Record)},
    List.Forall₂ (fun c s => s.1 = c.zone ∧ P c s.2) cs subs →
    List.Forall₂ P cs (subs.map Prod.snd) ∧ (cs.map (·.zone)).zip (subs.map Prod.snd) = subs
  | _, _, .nil => ⟨.nil, rfl⟩
  | c :: cs, s :: subs, .cons h t => by
    obtain ⟨h1, h2⟩ := zip_pairs t
    refine ⟨.cons h.2 h1, ?_⟩
    rw [List.map_cons, List.map_cons, List.zip_cons_cons, h2, ← h.1]

theorem soa_of_means {fs : Files} {conf : Params} {next : Record → UInt32} {inc : ZoneFrame → Str → Name → UInt32 → List Record → Prop}
    {soa : Record} {rs : List Record} (h : ZoneMeans true fs conf next inc soa rs) : soa.node = conf.zone ∧ soa.recordType = .SOA := by
  obtain ⟨pre, ls, left, head, ws, minimum, -, -, -, hs, -, -⟩ := h
  obtain ⟨ts, m, e, n1, n2, n3, n4, n5, mname, rname, serial, refresh, retry, expire, -, -, hn, -, -, -, -, hd, -⟩ := hs
  exact ⟨hn, soaType hd⟩

/-- The zones that come out of the loader hold what the files say. -/
theorem loaded_say {p : Profile} {fs : Files} {o : HashOrder} {fuel : Nat} {conf : Params} {soa : Record} {rs : List Record}
    {subs : List (Name × List Record)} {zones : ManagedZone} (h : FilesSay fs conf soa rs subs)
    (hz : parseZoneFiles p fs o fuel conf = .ok zones) :
    ZoneIs zones.authZone conf.zone (rs ++ [soa]) ∧
    List.Forall₂ (fun z (s : Name × List Record) => ZoneIs z s.1 s.2) zones.subZones subs ∧
    ∀ s ∈ subs, ValidName s.1.s ∧ s.1.s ≠ ['.'] := by
  obtain ⟨depth, hm⟩ := h.zone
  obtain ⟨h1, h2⟩ := zip_pairs h.sub
  obtain ⟨auth, e1, hz⟩ := bind_eq_ok hz
  obtain ⟨sub, e2, hz⟩ := bind_eq_ok hz
  obtain ⟨_, _, hz⟩ := bind_eq_ok hz
  obtain ⟨_, _, hz⟩ := bind_eq_ok hz
  cases hz
  obtain ⟨h3, h4⟩ := loaded_zones h.valid h.notRoot h.subNotRoot hm h1 e1 e2
  rw [h2] at h4
  refine ⟨h3, h4, fun s hs => ?_⟩
  obtain ⟨c, hc, e, -⟩ := forall₂_right h.sub s hs
  rw [e]
  exact ⟨h.valid.2 c hc, h.subNotRoot c hc⟩

theorem recordsAt_soa {rs : List Record} {soa : Record} (h : soa.recordType = .SOA) (n : Name) {k : RecordType} (hk : k ≠ .SOA) :
    recordsAt (rs ++ [soa]) n k = recordsAt rs n k := by
  rw [recordsAt_append]
  have : recordsAt [soa] n k = [] := by
    rw [recordsAt, List.filter_eq_nil_iff]
    intro r hr
    rw [List.mem_singleton.1 hr, h]
    simpa using fun _ => Ne.symm hk
  rw [this, List.append_nil]

/-- The handler replies what the records say. -/
theorem query_list {p p' : Profile} {fs : Files} {o : HashOrder} {fuel : Nat} {conf : Params} {soa : Record} {rs : List Record}
    {subs : List (Name × List Record)} {zones : ManagedZone} (h : FilesSay fs conf soa rs subs)
    (hz : parseZoneFiles p fs o fuel conf = .ok zones) (req : Message) (q : Question) (hv : ValidName q.node.s) :
    query p' req q zones = .ok (listReply conf.zone soa rs subs req q) := by
  classical
  have hrd : Ready conf zones := Loaded.ready ⟨h.valid, _, _, _, _, hz⟩
  obtain ⟨ha, hs, hsv⟩ := loaded_say h hz
  obtain ⟨m, e, hk⟩ := query_kind hrd p' req q
  rw [e]
  congr 1
  have hin := isInZone_within hv h.valid.1 h.notRoot
  have hfind := find_both (f := fun sub => q.node.isInZone sub.zone)
    (g := fun s : Name × List Record => decide (Within q.node s.1)) hs fun z s hzs hs => by
      rw [hzs.zone, Bool.eq_iff_iff, isInZone_within hv (hsv s hs).1 (hsv s hs).2, decide_eq_true_eq]
  obtain ⟨depth, hm⟩ := h.zone
  obtain ⟨hsn, hst⟩ := soa_of_means hm
  unfold listReply
  cases hk with
  | refused hz =>
    rw [if_pos fun x => by rw [hin.2 x] at hz; cases hz]
  | @referral sub log g h1 h2 h3 h4 h5 h6 =>
    rw [if_neg (not_not.2 (hin.1 h1))]
    rcases hfind with ⟨h7, -⟩ | ⟨z, s, h7, h8, h9, h10⟩
    · rw [h7] at h2; cases h2
    · rw [h7] at h2
      cases h2
      rw [h8]
      simp only
      have e2 : recordsAt log sub.zone .NS = recordsAt s.2 s.1 .NS := by rw [recordsAt_unique h3 h10.returns, h10.zone]
      rw [e2] at h5 ⊢
      rw [allGlue_list hs hsv fun r hr => ?_] at h5
      · rw [Out.ok.inj h5]
      · obtain ⟨n, hd⟩ := ns_data (recordsAt_spec hr).2
        exact ⟨n, hd, h10.targets r (List.mem_filter.1 hr).1 n hd⟩
  | @found log h1 h2 h3 h4 =>
    rw [if_neg (not_not.2 (hin.1 h1))]
    rcases hfind with ⟨-, h7⟩ | ⟨z, s, h7, -⟩
    · rw [h7]
      simp only
      rw [recordsAt_unique h3 ha.returns] at h4 ⊢
      rw [if_pos h4]
    · rw [h7] at h2; cases h2
  | @cname log h1 h2 h3 h4 h5 =>
    rw [if_neg (not_not.2 (hin.1 h1))]
    rcases hfind with ⟨-, h7⟩ | ⟨z, s, h7, -⟩
    · rw [h7]
      simp only
      rw [recordsAt_unique h3 ha.returns] at h4 h5 ⊢
      rw [recordsAt_soa hst _ (by decide)] at h5 ⊢
      rw [if_neg (not_not.2 h4), if_pos h5]
    · rw [h7] at h2; cases h2
  | @nx log soa' m h1 h2 h3 h4 h5 h6 h7 h8 h9 =>
    rw [if_neg (not_not.2 (hin.1 h1))]
    rcases hfind with ⟨-, h10⟩ | ⟨z, s, h10, -⟩
    · rw [h10]
      simp only
      rw [recordsAt_unique h3 ha.returns] at h4 h5
      rw [recordsAt_soa hst _ (by decide)] at h5
      rw [if_neg (not_not.2 h4), if_neg (not_not.2 h5)]
      have : soa = soa' := by
        have : soa ∈ zones.authZone.getAllOfType o .SOA := (ha.mem o .SOA soa).2 ⟨by simp, hst⟩
        rw [h6 o] at this
        exact List.mem_singleton.1 this
      subst this
      unfold nxReply at h8
      rw [if_neg (not_not.2 hst)] at h8
      exact (Out.ok.inj h8).symm
    · rw [h10] at h2; cases h2

/-- **C101.** The one reply to a question is the reply that the records in the files stand for. -/
theorem C101_text (p p' : Profile) (fs : Files) (o : HashOrder) (fuel : Nat) (conf : Params) (soa : Record) (rs : List Record)
    (subs : List (Name × List Record)) (zones : ManagedZone) (h : FilesSay fs conf soa rs subs)
    (hz : parseZoneFiles p fs o fuel conf = .ok zones) (req : Message) (q : Question) (hq : Asks req q) :
    (∀ m, Replies p' zones req m ↔ m = expectedReply conf.zone soa rs subs req q) ∧
    (∀ datagram sends, Net.udpRead p' datagram = .ok (.fullMessage req) →
      Nameserver.serveUdp p' zones datagram sends = Net.udpReply (expectedReply conf.zone soa rs subs req q) sends) ∧
    (∀ stream rest room, Net.tcpRead p' stream = .ok (.fullMessage req, rest) →
      Nameserver.serveTcp p' zones stream room = Net.tcpReply (expectedReply conf.zone soa rs subs req q) room) := by
  have key : Nameserver.handle p' zones (.fullMessage req) = .ok (some (expectedReply conf.zone soa rs subs req q)) := by
    unfold Nameserver.handle
    simp only [validate_asks hq]
    rw [query_list h hz req q hq.valid, Out.bind_ok, listReply_expected hq.count]
  refine ⟨fun m => ?_, fun datagram sends hr => ?_, fun stream rest room hr => ?_⟩
  · unfold Replies
    rw [key]
    constructor
    · intro e; exact (Option.some.inj (Out.ok.inj e)).symm
    · rintro rfl; rfl
  · unfold Nameserver.serveUdp
    rw [hr, Out.bind_ok, key, Out.bind_ok]
  · unfold Nameserver.serveTcp
    rw [hr, Out.bind_ok]
    simp only
    rw [key, Out.bind_ok]

/-! ## C102 -/

theorem addressesIn_same {n : Name} : ∀ {subs subs' : List (Name × List Record)},
    List.Forall₂ (fun s s' : Name × List Record => s.1 = s'.1 ∧ ∀ n kind, recordsAt s.2 n kind = recordsAt s'.2 n kind) subs subs' →
    addressesIn subs n = addressesIn subs' n
  | _, _, .nil => rfl
  | s :: subs, s' :: subs', .cons h t => by
    have ih := addressesIn_same (n := n) t
    unfold addressesIn at ih ⊢
    rw [List.flatMap_cons, List.flatMap_cons, ih, h.1, h.2]

theorem listReply_same {zone : Name} {soa : Record} {rs rs' : List Record} {subs subs' : List (Name × List Record)} {req : Message}
    {q : Question} (hs : soa.recordType = .SOA) (h : SameFor q.node (rs ++ [soa]) (rs' ++ [soa]) subs subs') :
    listReply zone soa rs subs req q = listReply zone soa rs' subs' req q := by
  have hc := h.own .CNAME
  rw [recordsAt_soa hs _ (by decide), recordsAt_soa hs _ (by decide)] at hc
  have hfind := find_both (f := fun s : Name × List Record => open Classical in decide (Within q.node s.1))
    (g := fun s : Name × List Record => open Classical in decide (Within q.node s.1)) h.sub fun s s' hss _ => by rw [hss.1]
  unfold listReply
  rw [h.own, hc]
  rcases hfind with ⟨h1, h2⟩ | ⟨s, s', h1, h2, -, h3⟩
  · rw [h1, h2]
  · rw [h1, h2]
    simp only
    have ha : ∀ ns, serverAddresses subs ns = serverAddresses subs' ns := by
      intro ns
      unfold serverAddresses
      congr 1
      funext r
      cases r.data <;> first | rfl | exact addressesIn_same h.sub
    rw [h3.1, h3.2, ha]

theorem validate_mem {req : Message} {q : Question} (h : Nameserver.validate req = some q) : q ∈ req.questions := by
  unfold Nameserver.validate at h
  split at h
  · cases h
  split at h
  · cases h
  split at h
  · cases h
  split at h
  · rename_i e; rw [e, Option.some.inj h]; exact List.mem_singleton.2 rfl
  · cases h

/-- Two loaded zone sets give the same replies to what is read, if they have the same records for the names in question. -/
theorem handle_same {p p₁ p₂ : Profile} {fs₁ fs₂ : Files} {o₁ o₂ : HashOrder} {fuel₁ fuel₂ : Nat} {conf₁ conf₂ : Params} {soa : Record}
    {rs₁ rs₂ : List Record} {subs₁ subs₂ : List (Name × List Record)} {zones₁ zones₂ : ManagedZone}
    (h₁ : FilesSay fs₁ conf₁ soa rs₁ subs₁) (hz₁ : parseZoneFiles p₁ fs₁ o₁ fuel₁ conf₁ = .ok zones₁)
    (h₂ : FilesSay fs₂ conf₂ soa rs₂ subs₂) (hz₂ : parseZoneFiles p₂ fs₂ o₂ fuel₂ conf₂ = .ok zones₂) (hc : conf₁.zone = conf₂.zone)
    (read : ReadResult) (hv : ∀ req, read = .fullMessage req → ∀ q ∈ req.questions, ValidName q.node.s)
    (h : ∀ req, read = .fullMessage req → ∀ q ∈ req.questions, SameFor q.node (rs₁ ++ [soa]) (rs₂ ++ [soa]) subs₁ subs₂) :
    Nameserver.handle p zones₁ read = Nameserver.handle p zones₂ read := by
  cases read with
  | fullMessage req =>
    unfold Nameserver.handle
    simp only
    cases hval : Nameserver.validate req with
    | none => rfl
    | some q =>
      have hm := validate_mem hval
      obtain ⟨depth, hmeans⟩ := h₁.zone
      simp only
      rw [query_list h₁ hz₁ req q (hv req rfl q hm), query_list h₂ hz₂ req q (hv req rfl q hm),
        listReply_same (soa_of_means hmeans).2 (h req rfl q hm), hc]
  | headerOnly _ _ => rfl
  | parseErr _ _ => rfl
  | ioErr => rfl

/-- **C102.** Two zone sets, however written and loaded, with the same SOA record and the same records for the names in a datagram's
questions: exactly the same is sent. -/
theorem C102_udp (p p₁ p₂ : Profile) (fs₁ fs₂ : Files) (o₁ o₂ : HashOrder) (fuel₁ fuel₂ : Nat) (conf₁ conf₂ : Params) (soa : Record)
    (rs₁ rs₂ : List Record) (subs₁ subs₂ : List (Name × List Record)) (zones₁ zones₂ : ManagedZone)
    (h₁ : FilesSay fs₁ conf₁ soa rs₁ subs₁) (hz₁ : parseZoneFiles p₁ fs₁ o₁ fuel₁ conf₁ = .ok zones₁)
    (h₂ : FilesSay fs₂ conf₂ soa rs₂ subs₂) (hz₂ : parseZoneFiles p₂ fs₂ o₂ fuel₂ conf₂ = .ok zones₂) (hc : conf₁.zone = conf₂.zone)
    (datagram : List UInt8) (sends : List (Option Nat))
    (h : ∀ req, Net.udpRead p datagram = .ok (.fullMessage req) → ∀ q ∈ req.questions,
      SameFor q.node (rs₁ ++ [soa]) (rs₂ ++ [soa]) subs₁ subs₂) :
    Nameserver.serveUdp p zones₁ datagram sends = Nameserver.serveUdp p zones₂ datagram sends := by
  unfold Nameserver.serveUdp
  cases hr : Net.udpRead p datagram with
  | ok read =>
    rw [Out.bind_ok, Out.bind_ok, handle_same h₁ hz₁ h₂ hz₂ hc read]
    · rintro req rfl q hq
      have hd := (C30_classification.1 p datagram _).1 hr
      cases hd with
      | full hd => exact (decoded_message hd).2.qs q hq
    · rintro req rfl
      exact h req hr
  | _ => rfl

/-- **C102**, over TCP. -/
theorem C102_tcp (p p₁ p₂ : Profile) (fs₁ fs₂ : Files) (o₁ o₂ : HashOrder) (fuel₁ fuel₂ : Nat) (conf₁ conf₂ : Params) (soa : Record)
    (rs₁ rs₂ : List Record) (subs₁ subs₂ : List (Name × List Record)) (zones₁ zones₂ : ManagedZone)
    (h₁ : FilesSay fs₁ conf₁ soa rs₁ subs₁) (hz₁ : parseZoneFiles p₁ fs₁ o₁ fuel₁ conf₁ = .ok zones₁)
    (h₂ : FilesSay fs₂ conf₂ soa rs₂ subs₂) (hz₂ : parseZoneFiles p₂ fs₂ o₂ fuel₂ conf₂ = .ok zones₂) (hc : conf₁.zone = conf₂.zone)
    (stream : List UInt8) (room : Nat)
    (h : ∀ req rest, Net.tcpRead p stream = .ok (.fullMessage req, rest) → ∀ q ∈ req.questions,
      SameFor q.node (rs₁ ++ [soa]) (rs₂ ++ [soa]) subs₁ subs₂) :
    Nameserver.serveTcp p zones₁ stream room = Nameserver.serveTcp p zones₂ stream room := by
  unfold Nameserver.serveTcp
  cases hr : Net.tcpRead p stream with
  | ok x =>
    obtain ⟨read, rest⟩ := x
    rw [Out.bind_ok, Out.bind_ok]
    simp only
    rw [handle_same h₁ hz₁ h₂ hz₂ hc read]
    · rintro req rfl q hq
      rcases C29_tcp_framing_partial.2.2.1 p stream _ rest hr with e | ⟨body, -, -, hd⟩
      · cases e
      · cases hd with
        | full hd => exact (decoded_message hd).2.qs q hq
    · rintro req rfl
      exact h req rest hr
  | _ => rfl

/-! ## The sample -/

theorem sample_says : FilesSay sampleFiles sampleConf sampleSoaRec
    [sampleApexNs, sampleAddr, sampleIncA, sampleCname, sampleTxtRec] [(⟨"s.e.".toList⟩, sampleSubRecs)] :=
  ⟨sample_valid, by decide, sample_roots, ⟨1, sample_means⟩, .cons ⟨rfl, sample_sub⟩ .nil⟩

theorem sample_in {n : Name} (hv : ValidName n.s) (h : n.isInZone sampleConf.zone = true) : Within n sampleConf.zone :=
  within_of_isInZone hv sample_valid.1 h

theorem sample_not_sub {n : Name} (hv : ValidName n.s) (h : n.isInZone ⟨"s.e.".toList⟩ = false) : ¬ Within n ⟨"s.e.".toList⟩ := fun hw => by
  rw [← isInZone_within hv (validName_of (by decide +kernel)) (by decide)] at hw
  rw [h] at hw
  cases hw

theorem expected_alias {zone : Name} {soa : Record} {rs l : List Record} {subs : List (Name × List Record)} {req : Message} {q : Question}
    (h1 : Within q.node zone) (h2 : ∀ s ∈ subs, ¬ Within q.node s.1) (h3 : recordsAt (rs ++ [soa]) q.node q.recordType = [])
    (h4 : recordsAt rs q.node .CNAME = l) (h5 : l ≠ []) : expectedReply zone soa rs subs req q = replyWith req .NoError true l [] [] := by
  classical
  unfold expectedReply
  rw [if_neg (not_not.2 h1), List.find?_eq_none.2 fun s hs => by simpa using h2 s hs]
  simp only
  rw [if_neg (not_not.2 h3), h4, if_pos h5]

theorem expected_referral {zone : Name} {soa : Record} {rs l a : List Record} {s : Name × List Record} {subs : List (Name × List Record)}
    {req : Message} {q : Question} (h1 : Within q.node zone) (h2 : Within q.node s.1) (h3 : recordsAt s.2 s.1 .NS = l)
    (h4 : serverAddresses (s :: subs) l = a) : expectedReply zone soa rs (s :: subs) req q = replyWith req .NoError false [] l a := by
  classical
  unfold expectedReply
  rw [if_neg (not_not.2 h1), List.find?_cons, decide_eq_true h2]
  simp only
  rw [h3, h4]

theorem two_targets {s : Name × List Record} {r₁ r₂ : Record} {n₁ n₂ : Name} {a : List Record} (h₁ : r₁.data = .NS n₁) (h₂ : r₂.data = .NS n₂)
    (w₁ : Within n₁ s.1) (w₂ : ¬ Within n₂ s.1) (h : recordsAt s.2 n₁ .A = a) : serverAddresses [s] [r₁, r₂] = a := by
  classical
  unfold serverAddresses addressesIn
  simp only [List.flatMap_cons, List.flatMap_nil, List.append_nil, h₁, h₂]
  rw [if_pos w₁, if_neg w₂, h, List.append_nil]

/-- What the specification says of the sample: an alias, -/
example : expectedReply sampleConf.zone sampleSoaRec [sampleApexNs, sampleAddr, sampleIncA, sampleCname, sampleTxtRec]
      [(⟨"s.e.".toList⟩, sampleSubRecs)] (ask "b.y.e." .A) ⟨⟨"b.y.e.".toList⟩, .A, .IN⟩ =
    replyWith (ask "b.y.e." .A) .NoError true [sampleCname] [] [] := by
  have hv : ValidName "b.y.e.".toList := validName_of (by decide +kernel)
  exact expected_alias (sample_in hv (by decide +kernel)) (fun s hs => by
    rw [List.mem_singleton.1 hs]; exact sample_not_sub hv (by decide +kernel)) (by decide) (by decide) (by decide)

/-- and a referral, with the address of the one name server that lies in the sub zone. -/
example : expectedReply sampleConf.zone sampleSoaRec [sampleApexNs, sampleAddr, sampleIncA, sampleCname, sampleTxtRec]
      [(⟨"s.e.".toList⟩, sampleSubRecs)] (ask "x.s.e." .A) ⟨⟨"x.s.e.".toList⟩, .A, .IN⟩ =
    replyWith (ask "x.s.e." .A) .NoError false [] [⟨⟨"s.e.".toList⟩, .IN, 60, 0, .NS ⟨"ns.s.e.".toList⟩⟩,
      ⟨⟨"s.e.".toList⟩, .IN, 60, 0, .NS ⟨"ns.f.".toList⟩⟩] [⟨⟨"ns.s.e.".toList⟩, .IN, 60, 0, .A ⟨10, 0, 0, 3⟩⟩] := by
  have hv : ValidName "x.s.e.".toList := validName_of (by decide +kernel)
  have hs : ValidName "s.e.".toList := validName_of (by decide +kernel)
  have hn : ValidName "ns.s.e.".toList := validName_of (by decide +kernel)
  have hf : ValidName "ns.f.".toList := validName_of (by decide +kernel)
  have e : recordsAt sampleSubRecs ⟨"s.e.".toList⟩ .NS = [⟨⟨"s.e.".toList⟩, .IN, 60, 0, .NS ⟨"ns.s.e.".toList⟩⟩,
      ⟨⟨"s.e.".toList⟩, .IN, 60, 0, .NS ⟨"ns.f.".toList⟩⟩] := by decide
  refine expected_referral (s := (⟨"s.e.".toList⟩, sampleSubRecs)) (sample_in hv (by decide +kernel))
    (within_of_isInZone hv hs (by decide +kernel)) e ?_
  exact two_targets rfl rfl (within_of_isInZone hn hs (by decide +kernel)) (sample_not_sub hf (by decide +kernel)) (by decide)

/-- C101 applies to the sample. -/
example (p p' : Profile) (o : HashOrder) (n : String) (k : RecordType)
    (hn : (Name.fromString n.toList : Out NameErr Name) = .ok ⟨n.toList⟩) : ∃ fuel zones, parseZoneFiles p sampleFiles o fuel sampleConf = .ok zones ∧
    Replies p' zones (ask n k) (expectedReply sampleConf.zone sampleSoaRec
      [sampleApexNs, sampleAddr, sampleIncA, sampleCname, sampleTxtRec] [(⟨"s.e.".toList⟩, sampleSubRecs)] (ask n k) ⟨⟨n.toList⟩, k, .IN⟩) := by
  obtain ⟨N, h⟩ := (C100_accepts p sampleFiles o sampleConf 1 _ _ _ sample_valid (by decide) sample_roots sample_means sample_subs).1 sample_fits
  obtain ⟨zones, hz⟩ := h N (Nat.le_refl _)
  exact ⟨N, zones, hz, ((C101_text p p' sampleFiles o N sampleConf _ _ _ zones sample_says hz _ _ (asks_ask hn)).1 _).2 rfl⟩

/-- C102 applies to the sample loaded twice, with different orders of iteration. -/
example (p p₁ p₂ : Profile) (o₁ o₂ : HashOrder) (fuel₁ fuel₂ : Nat) (zones₁ zones₂ : ManagedZone)
    (hz₁ : parseZoneFiles p₁ sampleFiles o₁ fuel₁ sampleConf = .ok zones₁) (hz₂ : parseZoneFiles p₂ sampleFiles o₂ fuel₂ sampleConf = .ok zones₂)
    (datagram : List UInt8) : Nameserver.serveUdp p zones₁ datagram [some 512] = Nameserver.serveUdp p zones₂ datagram [some 512] :=
  C102_udp p p₁ p₂ _ _ o₁ o₂ fuel₁ fuel₂ _ _ _ _ _ _ _ _ _ sample_says hz₁ sample_says hz₂ rfl datagram _
    fun _ _ _ _ => ⟨fun _ => rfl, .cons ⟨rfl, fun _ _ => rfl⟩ .nil⟩

/-- A zone before and after a record was added. -/
def smallConf : Params := { filePath := "small".toList, zone := ⟨"e.".toList⟩, startingTtl := 60, subZones := [] }
def smallFiles : Files := files [("small", ["@ 60 IN SOA ns mail.f. 1 2 3 4 5", "@ NS ns.f."])]
def moreFiles : Files := files [("small", ["@ 60 IN SOA ns mail.f. 1 2 3 4 5", "@ NS ns.f.", "x A 10.0.0.9"])]

def smallNs : Record := ⟨⟨"e.".toList⟩, .IN, 60, 0, .NS ⟨"ns.f.".toList⟩⟩
def moreAddr : Record := ⟨⟨"x.e.".toList⟩, .IN, 60, 0, .A ⟨10, 0, 0, 9⟩⟩

theorem small_valid : ValidConf smallConf := ⟨validName_of (by decide +kernel), fun c hc => nomatch hc⟩

theorem small_owns {n : Name} (h : (Name.fromString n.s : Out NameErr Name) = .ok ⟨n.s⟩) (hz : n.isInZone smallConf.zone = true) :
    (frameOf smallConf 5).Owns n :=
  ⟨within_of_isInZone (validName_of h) small_valid.1 hz, fun s hs => nomatch hs⟩

theorem small_soa (left : List Str) : SoaText true smallConf.zone smallConf.startingTtl "@".toList
    ([.plain "60".toList, .plain "IN".toList] ++ [.plain "SOA".toList, .plain "ns".toList, .plain "mail.f.".toList, .plain "1".toList,
      .plain "2".toList, .plain "3".toList, .plain "4".toList, .plain "5".toList]) sampleSoaRec 5 :=
  ⟨_, _, _, _, _, _, _, _, ⟨"ns.e.".toList⟩, ⟨"mail.f.".toList⟩, 1, 2, 3, 4, rfl, .inl ⟨.inr (by decide), rfl⟩, rfl,
    .ttlClass (numeral_of (by decide)), rfl, rfl, by decide, rfl,
    .inr (nameText_rel ["ns".toList] ["e".toList] (by decide)), .inr (nameText_abs ["mail".toList, "f".toList] (by decide)),
    numeral_of (by decide), numeral_of (by decide), numeral_of (by decide), numeral_of (by decide), numeral_of (by decide)⟩

theorem small_ns {inc : Str → Name → UInt32 → List Record → Prop} {left : List Str} {rs : List Record}
    (he : Spec.Entry "@".toList ([] ++ [.plain "NS".toList, .plain "ns.f.".toList]) ("@ NS ns.f.".toList :: left) left)
    (h : FileMeans true (frameOf smallConf 5) inc ⟨"e.".toList⟩ 60 left rs) :
    FileMeans true (frameOf smallConf 5) inc ⟨"e.".toList⟩ 60 ("@ NS ns.f.".toList :: left) (smallNs :: rs) :=
  .record (r := smallNs) he ⟨[], _, rfl, .inl ⟨.inr (by decide), rfl⟩, .neither, rfl,
    .ns (.inr (nameText_abs ["ns".toList, "f".toList] (by decide))), rfl⟩ (small_owns (by decide +kernel) (by decide +kernel)) (by decide) h

theorem small_says : FilesSay smallFiles smallConf sampleSoaRec [smallNs] [] := by
  refine ⟨small_valid, by decide, (fun c hc => nomatch hc), ⟨0, ?_⟩, .nil⟩
  exact ⟨[], ["@ 60 IN SOA ns mail.f. 1 2 3 4 5".toList, "@ NS ns.f.".toList], ["@ NS ns.f.".toList], "@".toList, _, 5, by decide, by simp,
    entryOf_sound (n := 60) (by decide +kernel), small_soa [], by decide, small_ns (entryOf_sound (n := 60) (by decide +kernel)) .nil⟩

theorem more_says : FilesSay moreFiles smallConf sampleSoaRec [smallNs, moreAddr] [] := by
  refine ⟨small_valid, by decide, (fun c hc => nomatch hc), ⟨0, ?_⟩, .nil⟩
  refine ⟨[], ["@ 60 IN SOA ns mail.f. 1 2 3 4 5".toList, "@ NS ns.f.".toList, "x A 10.0.0.9".toList],
    ["@ NS ns.f.".toList, "x A 10.0.0.9".toList], "@".toList, _, 5, by decide, by simp,
    entryOf_sound (n := 60) (by decide +kernel), small_soa [], by decide, small_ns (entryOf_sound (n := 60) (by decide +kernel)) ?_⟩
  exact .record (r := moreAddr) (head := "x".toList) (ws := [] ++ [.plain "A".toList, .plain "10.0.0.9".toList]) (left := [])
    (entryOf_sound (n := 60) (by decide +kernel))
    ⟨[], _, rfl, .inr (nameText_rel ["x".toList] ["e".toList] (by decide)), .neither, rfl,
      .a ⟨"10".toList, "0".toList, "0".toList, "9".toList, by decide, octet_of (by decide), octet_of (by decide),
          octet_of (by decide), octet_of (by decide)⟩, rfl⟩ (small_owns (by decide +kernel) (by decide +kernel)) (by decide) .nil

theorem same_elsewhere {n : Name} (h : n ≠ ⟨"x.e.".toList⟩) :
    SameFor n ([smallNs] ++ [sampleSoaRec]) ([smallNs, moreAddr] ++ [sampleSoaRec]) [] [] := by
  refine ⟨fun k => ?_, .nil⟩
  have : recordsAt [moreAddr] n k = [] := by
    rw [recordsAt, List.filter_eq_nil_iff]
    intro r hr
    rw [List.mem_singleton.1 hr]
    have : (moreAddr.node == n) = false := by simpa using fun e : moreAddr.node = n => h e.symm
    rw [this]
    simp
  show recordsAt ([smallNs] ++ [sampleSoaRec]) n k = recordsAt ([smallNs] ++ ([moreAddr] ++ [sampleSoaRec])) n k
  rw [recordsAt_append, recordsAt_append, recordsAt_append, this, List.nil_append]

/-- Both are loaded, and the added record makes no difference to a question for another name. -/
example (p : Profile) : ∃ zones zones', parseZoneFiles p smallFiles forwards 20 smallConf = .ok zones ∧
    parseZoneFiles p moreFiles forwards 20 smallConf = .ok zones' ∧ ∀ datagram sends,
    (∀ req, Net.udpRead p datagram = .ok (.fullMessage req) → ∀ q ∈ req.questions, q.node ≠ ⟨"x.e.".toList⟩) →
    Nameserver.serveUdp p zones datagram sends = Nameserver.serveUdp p zones' datagram sends := by
  obtain ⟨zones, h1, -⟩ := ok_of (x := parseZoneFiles p smallFiles forwards 20 smallConf) (fun _ => true) (by cases p <;> decide +kernel)
  obtain ⟨zones', h2, -⟩ := ok_of (x := parseZoneFiles p moreFiles forwards 20 smallConf) (fun _ => true) (by cases p <;> decide +kernel)
  exact ⟨zones, zones', h1, h2, fun datagram sends h => C102_udp p p p _ _ _ _ _ _ _ _ _ _ _ _ _ _ _ small_says h1 more_says h2 rfl datagram sends
    fun req hr q hq => same_elsewhere (h req hr q hq)⟩

end Ariadne.Props
