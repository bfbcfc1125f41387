import Verif.Lemmas.Requests
import Mathlib.Data.List.Infix
import Mathlib.Data.Set.Finite.List
import Mathlib.Data.Finset.Card

/-! # Lookups: what they return, and when they do not -/

namespace Ariadne.Resolver

open Spec

variable {env : Env} {p : Profile} {w : World} {n0 : Name}

/-! ## The hierarchy of a name -/

/-- Every label followed by a dot. -/
def flat (L : List Str) : Str := L.flatMap fun l => l ++ ['.']

theorem hierTail_label {l : Str} (h : '.' ∉ l) (rest : Str) :
    hierTail (l ++ '.' :: rest) = if rest = [] then [] else rest :: hierTail rest := by
  induction l with
  | nil => rw [List.nil_append, hierTail, if_pos rfl]
  | cons c l ih =>
    have hc : c ≠ '.' := fun h' => h (by simp [h'])
    rw [List.cons_append, hierTail, if_neg hc]
    exact ih fun h' => h (by simp [h'])

theorem flat_cons (l : Str) (L : List Str) : flat (l :: L) = l ++ '.' :: flat L := by
  unfold flat
  simp

theorem flat_eq_nil {L : List Str} (h : flat L = []) : L = [] := by
  cases L with
  | nil => rfl
  | cons l L => rw [flat_cons] at h; simp at h

theorem hierTail_flat : ∀ {L : List Str}, (∀ l ∈ L, ValidLabel l) → hierTail (flat L) = (L.tails.dropLast.map flat).tail
  | [], _ => rfl
  | l :: L, h => by
    rw [flat_cons, hierTail_label (h l (by simp)).no_dot]
    have ih := hierTail_flat (L := L) fun x hx => h x (by simp [hx])
    by_cases h0 : flat L = []
    · rw [if_pos h0]
      have := flat_eq_nil h0
      subst this
      rfl
    · rw [if_neg h0, ih]
      cases L with
      | nil => exact absurd rfl h0
      | cons l' L' =>
        have hne : L'.tails ≠ [] := by cases L' <;> simp [List.tails]
        show flat (l' :: L') :: _ = _
        simp only [List.tails]
        simp only [List.dropLast_cons_of_ne_nil hne, List.dropLast_cons_of_ne_nil (List.cons_ne_nil _ _), List.map_cons, List.tail_cons]

theorem hierarchy_eq {s : Str} {L : List Str} (hs : NameOf s L) (h0 : L ≠ []) :
    generateDomainHierarchy s = L.tails.dropLast.map render := by
  have hr : ∀ M : List Str, M ≠ [] → render M = flat M := fun M hM => by unfold render flat; rw [if_neg hM]
  have e : s = flat L := by rw [hs.2, hr L h0]
  unfold generateDomainHierarchy
  rw [e, hierTail_flat hs.1]
  have hm : L.tails.dropLast.map render = L.tails.dropLast.map flat := by
    apply List.map_congr_left
    intro M hM
    apply hr
    rintro rfl
    have hlast : L.tails = L.tails.dropLast ++ [[]] := by
      clear hs h0 hr e hM
      induction L with
      | nil => rfl
      | cons l L ih =>
        rw [List.tails_cons, List.dropLast_cons_of_ne_nil (by cases L <;> simp [List.tails]), List.cons_append, ← ih]
    have hn : L.tails.Nodup := by
      clear hs h0 hr e hM hlast
      induction L with
      | nil => simp
      | cons l L ih =>
        rw [List.tails_cons, List.nodup_cons]
        refine ⟨fun hm => ?_, ih⟩
        have := (List.mem_tails _ _).1 hm
        have := this.length_le
        simp at this
    rw [hlast] at hn
    have := (List.nodup_append.1 hn).2.2 [] hM [] (by simp)
    exact this rfl
  rw [hm]
  cases L with
  | nil => exact absurd rfl h0
  | cons l L =>
    rw [List.tails_cons, List.dropLast_cons_of_ne_nil (by cases L <;> simp [List.tails])]
    rfl

theorem hierarchy_valid {s : Str} (hs : ValidName s) : ∀ d ∈ generateDomainHierarchy s, ValidName d := by
  obtain ⟨hl, L, hL⟩ := hs
  by_cases h0 : L = []
  · subst h0
    have : s = ['.'] := by rw [hL.2]; rfl
    subst this
    intro d hd
    have : d = ['.'] := by
      have e : generateDomainHierarchy ['.'] = [['.']] := by decide
      rw [e] at hd
      simpa using hd
    subst this
    exact ⟨hl, [], hL⟩
  · rw [hierarchy_eq hL h0]
    intro d hd
    obtain ⟨M, hM, rfl⟩ := List.mem_map.1 hd
    have hsuf : M <:+ L := (List.mem_tails _ _).1 (List.dropLast_subset _ hM)
    obtain ⟨K, rfl⟩ := hsuf
    refine ⟨?_, M, fun l hl => hL.1 l (by simp [hl]), rfl⟩
    rw [hL.2] at hl
    unfold render at hl ⊢
    rw [if_neg h0] at hl
    by_cases hM0 : M = []
    · rw [if_pos hM0]; simp
    · rw [if_neg hM0]
      rw [List.flatMap_append, List.length_append] at hl
      omega

/-! ## Servers in the cache -/

section
variable {ρ : Rules}

theorem findNsRecords_tri (hfr : Friendly env) : ∀ {ds : List Str} {w : World}, Good env w → (∀ d ∈ ds, ValidName d) →
    Tri env ρ w (findNsRecords env ds) (fun rs w' => w'.log = w.log ∧ ∀ r ∈ rs, r.recordType = .NS ∧ WellFormed r)
  | [], w, hg, _ => Tri.pure hg ⟨rfl, by simp⟩
  | d :: ds, w, hg, h => by
    unfold findNsRecords
    have e : nameUnwrap d = .ok ⟨d⟩ := by
      unfold nameUnwrap
      rw [(fromString_iff d ⟨d⟩).2 ⟨rfl, h d (by simp)⟩]
    refine (Tri.lift (Q := fun n => n = (⟨d⟩ : Name)) hg (by rw [e]; exact Sat.ok rfl)).bind ?_
    rintro n w1 new1 - hg1 ⟨rfl, rfl⟩
    refine (searchRecords_tri hfr hg1 ⟨d⟩ .NS).bind fun rs w2 new2 _ hg2 ⟨hl, hrs⟩ => ?_
    by_cases h0 : rs.length > 0
    · simp only [if_pos h0]
      exact Tri.pure hg2 ⟨hl, fun r hr => ⟨(hrs r hr).1, (hrs r hr).2.2⟩⟩
    · simp only [if_neg h0]
      exact (findNsRecords_tri hfr hg2 fun x hx => h x (by simp [hx])).mono fun a w' ⟨h1, h2⟩ => ⟨by rw [h1, hl], h2⟩

theorem findAddrs_tri (hfr : Friendly env) : ∀ {rs : List Record} {w : World}, Good env w →
    (∀ r ∈ rs, r.recordType = .NS ∧ WellFormed r) →
    Tri env ρ w (findAddrs env rs) (fun nss w' => w'.log = w.log ∧ ∀ ns ∈ nss, NsOk ns)
  | [], w, hg, _ => Tri.pure hg ⟨rfl, by simp⟩
  | r :: rs, w, hg, h => by
    unfold findAddrs
    obtain ⟨hns, hv⟩ := h r (by simp)
    obtain ⟨t, ht⟩ := nsData_of hns
    have e : (r.nsData : Out LookupErr Name) = .ok t := by unfold Record.nsData; rw [ht]
    refine (Tri.lift (Q := fun n => n = t) hg (by rw [e]; exact Sat.ok rfl)).bind ?_
    rintro n w1 new1 - hg1 ⟨rfl, rfl⟩
    refine (searchRecords_tri hfr hg1 n .A).bind fun as w2 new2 _ hg2 ⟨hl, has⟩ => ?_
    refine (findAddrs_tri hfr (rs := rs) hg2 fun x hx => h x (by simp [hx])).bind fun rest w3 _ _ hg3 ⟨hl3, hrest⟩ => ?_
    refine Tri.pure hg3 ⟨by rw [hl3, hl], ?_⟩
    intro ns hns'
    rcases List.mem_cons.1 hns' with rfl | hns'
    · refine ⟨hv, ⟨n, ht⟩, fun x hx => ?_⟩
      obtain ⟨h1, h2, h3⟩ := has x hx
      exact ⟨h1, h3, by rw [ht, h2 (by simp)]⟩
    · exact hrest ns hns'

theorem rootServers_ok : ∀ ns ∈ rootZoneNameservers, NsOk ns ∧ ns.aRecords ≠ [] := by
  have hv : ∀ s ∈ rootServers, ValidName s.1.toList := by
    have : ∀ s ∈ rootServers, Name.validateName s.1.toList = .ok () := by decide +kernel
    intro s hs
    exact (validateName_iff _).1 (this s hs)
  have hdot : ValidName ['.'] := (validateName_iff _).1 (by decide)
  intro ns hns
  obtain ⟨s, hs, rfl⟩ := List.mem_map.1 hns
  refine ⟨⟨⟨hdot, ?_, rfl, trivial⟩, ⟨_, rfl⟩, ?_⟩, by simp⟩
  · intro n hn
    simp only [dataNames, List.mem_singleton] at hn
    subst hn
    exact hv s hs
  · intro r hr
    simp only [List.mem_singleton] at hr
    subst hr
    refine ⟨rfl, ⟨hv s hs, by simp [dataNames], rfl, trivial⟩, rfl⟩

theorem startingServers_tri (hfr : Friendly env) {lk : Lookup} (hn : ValidName lk.node.s) {nss : List NextNs} (hg : Good env w)
    (h : ∀ ns ∈ nss, NsOk ns) :
    Tri env ρ w (startingServers env lk nss) (fun nss' w' => w'.log = w.log ∧ nss' ≠ [] ∧ ∀ ns ∈ nss', NsOk ns) := by
  unfold startingServers
  by_cases h0 : nss.isEmpty
  · rw [if_pos h0]
    unfold searchNssInCache
    refine Tri.bind (Q := fun nss' w' => w'.log = w.log ∧ ∀ ns ∈ nss', NsOk ns) ?_ fun c w' new _ hg' ⟨hl, hc⟩ => ?_
    · refine (findNsRecords_tri hfr hg (hierarchy_valid hn)).bind fun rs w' _ _ hg' ⟨hl, hrs⟩ => ?_
      exact (findAddrs_tri hfr hg' hrs).mono fun a w2 ⟨h1, h2⟩ => ⟨by rw [h1, hl], h2⟩
    · refine Tri.pure hg' ⟨hl, ?_⟩
      by_cases hc0 : c.isEmpty
      · rw [if_pos hc0]
        exact ⟨by simp [rootZoneNameservers, rootServers], fun ns hns => (rootServers_ok ns hns).1⟩
      · rw [if_neg hc0]
        exact ⟨by simpa using hc0, hc⟩
  · rw [if_neg h0]
    exact Tri.pure hg ⟨rfl, by simpa using h0, h⟩

end

/-! ## Rules of a lookup -/

/-- Events of a lookup of type `kind` (and, if `nf`, name `n0`) made on behalf of `zs`. -/
def EvOk (zs : List Name) (nf : Bool) (n0 : Name) (kind : RecordType) : Event → Prop
  | .start z nf' node kind' => zs <+: z ∧ z.Nodup ∧
      (z = zs ∧ nf' = nf ∧ kind' = kind ∧ (nf = true → node = n0) ∨ z ≠ zs ∧ nf' = true ∧ kind' = .A) ∧ ValidName node.s
  | .contact z ns node kind' => zs <+: z ∧ z.Nodup ∧ (z = zs ∧ kind' = kind ∨ z ≠ zs ∧ kind' = .A) ∧ ValidName node.s ∧ NsOk ns
  | .exchange _ q _ => ∃ id node kind, QueryFor id node kind q
  | .saved node kind records => records ≠ [] ∧ (∀ r ∈ records, r.recordType = kind) ∧
      (kind ≠ .NS → ∀ r ∈ records, r.node = node)

/-- The rules: panics and hanging are the fault of a datagram, or (hanging) of a lack of fuel. -/
def lkRules (p : Profile) (zs : List Name) (nf : Bool) (n0 : Name) (kind : RecordType) (D : Prop) : Rules where
  E := EvOk zs nf n0 kind
  P := fun l => PoisonedBy p l ∨ AddrDenied p l
  H := fun l => D ∨ HungBy p l

theorem PoisonedBy.append {l l' : List Event} (h : PoisonedBy p l) : PoisonedBy p (l ++ l') := by
  obtain ⟨a, q, r, h1, h2⟩ := h
  exact ⟨a, q, r, List.mem_append_left _ h1, h2⟩

theorem Denied.append {n : Name} {k : RecordType} {l l' : List Event} (h : Denied p n k l) : Denied p n k (l ++ l') := by
  obtain ⟨a, q, r, id, m, h1, h2⟩ := h
  exact ⟨a, q, r, id, m, List.mem_append_left _ h1, h2⟩

theorem lkRules_fair (zs : List Name) (nf : Bool) (n0 : Name) (kind : RecordType) (D : Prop) : (lkRules p zs nf n0 kind D).Fair p where
  exch _ _ _ _ _ _ h := ⟨_, _, _, h⟩
  saved _ _ _ h1 h2 h3 := ⟨h1, h2, h3⟩
  poison _ h := .inl h
  hung _ h := .inr h
  keepsP l l' h := by
    rcases h with h | ⟨n, h⟩
    · exact .inl (PoisonedBy.append h)
    · exact .inr ⟨n, Denied.append h⟩

/-- A lookup as they occur. -/
structure LkOk (lk : Lookup) : Prop where
  node : ValidName lk.node.s
  kind : lk.kind.isSupportedForQuestion = true
  nodup : lk.previousZones.Nodup
  zones : ∀ z ∈ lk.previousZones, ValidName z.s
  cnames : ∀ c ∈ lk.previousCnames, c.recordType = .CNAME ∧ WellFormed c
  noWay : NoWayBack lk.previousCnames
  nsq : lk.conf.maxNsQueried ≠ 0
  retries : lk.conf.maxUdpRetries ≠ 0

/-- What a sub-lookup for the address of a server has to return. -/
def SubOk (p : Profile) (node : Name) (r : Response) (log : List Event) : Prop :=
  (∀ x ∈ r.answers, WellFormed x) ∧ ((∃ x ∈ r.answers, x.node = node ∧ x.recordType = .A) ∨ AddrDenied p log)

/-- The rules of a lookup with a given excuse for hanging. -/
def rulesOf (p : Profile) (n0 : Name) (lk : Lookup) (D : Prop) : Rules := lkRules p lk.previousZones lk.conf.noFollowCname n0 lk.kind D

/-- The sub-lookups behave. -/
def SubsOk (env : Env) (p : Profile) (sub : Lookup → M Response) (lk : Lookup) (D : Prop) : Prop :=
  ∀ (node zone : Name) (w : World), ValidName node.s → ValidName zone.s → zone ∉ lk.previousZones → Good env w →
    Tri env (lkRules p (lk.previousZones ++ [zone]) true node .A D) w
      (sub { node := node, kind := .A, previousZones := lk.previousZones ++ [zone], previousCnames := [],
             conf := { lk.conf with noFollowCname := true } })
      (fun r w' => SubOk p node r w'.log)

theorem sub_weaken {zs : List Name} {zone : Name} {nf : Bool} {kind : RecordType} {n0 n1 : Name} {e : Event}
    (h : EvOk (zs ++ [zone]) true n1 .A e) : EvOk zs nf n0 kind e := by
  have hp : ∀ z, zs ++ [zone] <+: z → zs <+: z ∧ z ≠ zs := by
    intro z hz
    refine ⟨(List.prefix_append _ _).trans hz, ?_⟩
    rintro rfl
    have := hz.length_le
    simp at this
  cases e with
  | start z nf' node kind' =>
    obtain ⟨h1, h2, h3, h4⟩ := h
    obtain ⟨h5, h6⟩ := hp z h1
    refine ⟨h5, h2, .inr ⟨h6, ?_⟩, h4⟩
    rcases h3 with ⟨-, a, b, -⟩ | ⟨-, a, b⟩
    · exact ⟨a, b⟩
    · exact ⟨a, b⟩
  | contact z ns node kind' =>
    obtain ⟨h1, h2, h3, h4⟩ := h
    obtain ⟨h5, h6⟩ := hp z h1
    refine ⟨h5, h2, .inr ⟨h6, ?_⟩, h4⟩
    rcases h3 with ⟨-, a⟩ | ⟨-, a⟩
    · exact a
    · exact a
  | exchange => exact h
  | saved => exact h

theorem resolveNs_tri {sub : Lookup → M Response} {lk : Lookup} {D : Prop} (hsub : SubsOk env p sub lk D) {node zone : Name}
    (hn : ValidName node.s) (hz : ValidName zone.s) (hg : Good env w) :
    Tri env (rulesOf p n0 lk D) w (resolveNsSubquery sub lk node zone)
      (fun rs w' => (∀ r ∈ rs, r.recordType = .A ∧ WellFormed r ∧ r.node = node) ∧ (rs = [] → AddrDenied p w'.log)) := by
  unfold resolveNsSubquery
  refine (Tri.lift (Q := fun _ => zone ∉ lk.previousZones) hg ?_).bind ?_
  · unfold detectZonesLoop
    by_cases h : (lk.previousZones.any fun z => z == zone) = true
    · rw [if_pos h]; exact Sat.err
    · rw [if_neg h]
      refine Sat.ok fun hm => h ?_
      rw [List.any_eq_true]
      exact ⟨zone, hm, by simp⟩
  rintro _ w1 new1 - hg1 ⟨hzone, rfl⟩
  refine ((hsub node zone w1 hn hz hzone hg1).weaken (ρ := rulesOf p n0 lk D) (fun e he => sub_weaken he) (fun _ h => h) (fun _ h => h)).bind
    fun r w2 new2 _ hg2 ⟨hv, hr⟩ => ?_
  refine Tri.pure hg2 ⟨?_, ?_⟩
  · intro x hx
    obtain ⟨h1, h2, h3⟩ := mem_extracted hx
    exact ⟨h3, hv x h1, h2⟩
  · intro h0
    rcases hr with ⟨x, hx, hn', hk⟩ | h
    · exfalso
      obtain ⟨hperm, -, hleft⟩ := extractRecords_spec r.answers .A node
      rw [h0, List.nil_append] at hperm
      have := hleft x (hperm.mem_iff.2 hx)
      rw [isWanted_iff.2 ⟨hn', hk⟩] at this
      cases this
    · exact h

theorem resolveAddrs_tri {sub : Lookup → M Response} {lk : Lookup} {D : Prop} (hsub : SubsOk env p sub lk D) {ns : NextNs}
    (hns : NsOk ns) (hg : Good env w) :
    Tri env (rulesOf p n0 lk D) w (resolveAddrs sub lk ns)
      (fun ns' w' => NsOk ns' ∧ ns'.nsRecord = ns.nsRecord ∧ (ns'.aRecords = [] → AddrDenied p w'.log)) := by
  unfold resolveAddrs
  obtain ⟨as, e, hl⟩ := hns.addrs_ok LookupErr
  refine (Tri.lift (Q := fun a => a = as) hg (by rw [e]; exact Sat.ok rfl)).bind ?_
  rintro a w1 new1 - hg1 ⟨rfl, rfl⟩
  by_cases h0 : a.isEmpty
  · rw [if_pos h0]
    obtain ⟨t, ht, hv, et⟩ := hns.node
    refine (Tri.lift (Q := fun a => a = t) hg1 (by rw [et]; exact Sat.ok rfl)).bind ?_
    rintro n w2 new2 - hg2 ⟨rfl, rfl⟩
    refine (Tri.attempt (resolveNs_tri hsub hv hns.zone hg2)).bind fun x w3 new3 _ hg3 hx => ?_
    cases x with
    | inl e' => exact Tri.throw hg3
    | inr rs =>
      obtain ⟨h1, h2⟩ := hx rs rfl
      refine Tri.pure hg3 ⟨⟨hns.names, hns.target, fun r hr => ?_⟩, rfl, h2⟩
      obtain ⟨h3, h4, h5⟩ := h1 r hr
      exact ⟨h3, h4, by rw [h5]; exact ht⟩
  · rw [if_neg h0]
    refine Tri.pure hg1 ⟨hns, rfl, fun h => ?_⟩
    rw [h] at hl
    have := List.length_eq_zero_iff.1 hl
    subst this
    exact absurd rfl h0

/-- What a server of a zone at least `b` bytes long may have answered. -/
def Got (p : Profile) (lk : Lookup) (b : Nat) (r : NsResponse) (log : List Event) : Prop :=
  ∃ resp zone, Replied p lk.node lk.kind resp log ∧ Means resp lk.node lk.kind zone r ∧ b ≤ strLen zone.s

theorem tryServer_tri {sub : Lookup → M Response} {lk : Lookup} {D : Prop} (hlk : LkOk lk) (hsub : SubsOk env p sub lk D)
    {ns : NextNs} {b : Nat} (hns : NsOk ns) (hb : b ≤ strLen ns.zone.s) (hg : Good env w) :
    Tri env (rulesOf p n0 lk D) w (tryServer env p sub lk ns) (fun r w' => Got p lk b r w'.log) := by
  unfold tryServer
  refine (resolveAddrs_tri hsub hns hg).bind fun ns' w1 new1 _ hg1 ⟨h1, h2, h3⟩ => ?_
  refine (Tri.emit (ρ := rulesOf p n0 lk D) hg1 (e := .contact lk.previousZones ns' lk.node lk.kind)
    ⟨List.prefix_refl _, hlk.nodup, .inl ⟨rfl, rfl⟩, hlk.node, h1⟩).bind fun _ w2 new2 _ hg2 hw => ?_
  refine (performRequest_tri (lkRules_fair _ _ _ _ _) h1 hlk.kind hlk.retries hg2 ?_).mono ?_
  · intro h0
    obtain ⟨n, h⟩ := h3 h0
    subst hw
    exact .inr ⟨n, Denied.append h⟩
  · rintro r w3 ⟨resp, hr, hm⟩
    refine ⟨resp, ns'.zone, hr, hm, ?_⟩
    unfold NextNs.zone at hb ⊢
    rw [h2]
    exact hb

theorem tryServers_tri {sub : Lookup → M Response} {lk : Lookup} {D : Prop} (hlk : LkOk lk) (hsub : SubsOk env p sub lk D) {b : Nat} :
    ∀ {nss : List NextNs} {e : Option LookupErr} {w : World}, (nss = [] → e ≠ none) → (∀ ns ∈ nss, NsOk ns ∧ b ≤ strLen ns.zone.s) →
    Good env w → Tri env (rulesOf p n0 lk D) w (tryServers env p sub lk nss e) (fun r w' => Got p lk b r w'.log)
  | [], some e, w, _, _, hg => Tri.throw hg
  | [], none, w, h, _, _ => absurd rfl (h rfl)
  | ns :: nss, e, w, _, h, hg => by
    unfold tryServers
    refine (Tri.attempt (tryServer_tri hlk hsub (h ns (by simp)).1 (h ns (by simp)).2 hg)).bind fun x w' new _ hg' hx => ?_
    cases x with
    | inr r => exact Tri.pure hg' (hx r rfl)
    | inl e' => exact tryServers_tri hlk hsub (by simp) (fun ns hns => h ns (by simp [hns])) hg'

theorem NsFrom.ok {ns : NextNs} {resp : Message} (h : NsFrom ns resp.authorities resp.additionals) (hn : MessageNames resp) : NsOk ns := by
  obtain ⟨h1, h2, h3⟩ := h
  exact ⟨hn.au _ h1, nsData_of h2, fun r hr => ⟨(h3 r hr).2.1, hn.ad _ (h3 r hr).1, (h3 r hr).2.2⟩⟩

theorem Replied.names {n : Name} {k : RecordType} {resp : Message} {log : List Event} (h : Replied p n k resp log) : MessageNames resp := by
  obtain ⟨_, _, _, _, -, -, h, -⟩ := h
  exact (decoded_message h).2

theorem endsWith_le {n z : Name} (h : endsWith n z = true) : strLen z.s ≤ strLen n.s := by
  unfold endsWith at h
  rw [List.isSuffixOf_iff_suffix] at h
  obtain ⟨t, ht⟩ := h
  rw [← ht, strLen_append]
  omega

/-- What the iteration may end with. -/
def Final (p : Profile) (lk : Lookup) (r : NsResponse) (log : List Event) : Prop :=
  (∀ nss, r ≠ .delegation nss) ∧ ∃ resp zone, Replied p lk.node lk.kind resp log ∧ Means resp lk.node lk.kind zone r

theorem query_tri (hfr : Friendly env) {sub : Lookup → M Response} {lk : Lookup} {D : Prop} (hlk : LkOk lk)
    (hsub : SubsOk env p sub lk D) : ∀ (fuel : Nat) {nss : List NextNs} {b : Nat} {w : World}, nss ≠ [] →
    (∀ ns ∈ nss, NsOk ns ∧ b ≤ strLen ns.zone.s) → (fuel ≤ strLen lk.node.s + 1 - b → D) → Good env w →
    Tri env (rulesOf p n0 lk D) w (queryIteratively env p sub lk fuel nss) (fun r w' => Final p lk r w'.log)
  | 0, nss, b, w, _, _, hD, hg => ⟨_, w, [], rfl, by simp, hg, by simp, .inl (hD (Nat.zero_le _))⟩
  | fuel + 1, nss, b, w, h0, h, hD, hg => by
    unfold queryIteratively
    rw [if_neg (by rw [List.length_eq_zero_iff]; exact h0)]
    refine (tryServers_tri (b := b) hlk hsub ?_ ?_ hg).bind ?_
    · intro h1 _
      have hs : (sortNameservers nss).length = nss.length := (sortNameservers_perm nss).length_eq
      have := List.length_pos_of_ne_nil h0
      have hl := congrArg List.length h1
      rw [List.length_take, hs, List.length_nil] at hl
      have := hlk.nsq
      omega
    · intro ns hns
      exact h ns (mem_sortNameservers.1 (List.mem_of_mem_take hns))
    rintro r w1 new1 - hg1 ⟨resp, zone, hr, hm, hb⟩
    cases r with
    | noDomain soa => exact Tri.pure hg1 ⟨by simp, resp, zone, hr, hm⟩
    | answer a b => exact Tri.pure hg1 ⟨by simp, resp, zone, hr, hm⟩
    | «alias» a b => exact Tri.pure hg1 ⟨by simp, resp, zone, hr, hm⟩
    | delegation nss' =>
      obtain ⟨-, hne, -, hall⟩ := hm
      have hok : ∀ ns ∈ nss', NsOk ns := fun ns hns => (hall ns hns).1.ok hr.names
      refine (saveNss_tri hfr (lkRules_fair _ _ _ _ _) hg1 hne hok).bind fun _ w2 _ _ hg2 _ => ?_
      refine query_tri hfr hlk hsub fuel (b := b + 1) hne (fun ns hns => ⟨hok ns hns, ?_⟩) ?_ hg2
      · have := (hall ns hns).2.2.1
        omega
      · intro hf
        apply hD
        obtain ⟨ns, hns⟩ := List.exists_mem_of_ne_nil _ hne
        have h1 := endsWith_le (hall ns hns).2.1
        have h2 := (hall ns hns).2.2.1
        omega

/-! ## The loop over the CNAMEs -/

theorem handleCname_tri (hfr : Friendly env) {lk : Lookup} {D : Prop} {c : Record} (hc : c.recordType = .CNAME)
    (hv : WellFormed c) (hg : Good env w) :
    Tri env (rulesOf p n0 lk D) w (handleCname env lk c) (fun lk' _ => ∃ t, c.data = .CNAME t ∧ lk.conf.noFollowCname = false ∧
      (∀ d ∈ lk.previousCnames, d.node ≠ t) ∧ lk' = { lk with node := t, previousCnames := lk.previousCnames ++ [c] }) := by
  unfold handleCname
  obtain ⟨t, ht⟩ := cnameData_of hc
  have e : (c.cnameData : Out LookupErr Name) = .ok t := by unfold Record.cnameData; rw [ht]
  refine (Tri.lift (Q := fun n => n = t) hg (by rw [e]; exact Sat.ok rfl)).bind ?_
  rintro n w1 new1 - hg1 ⟨rfl, rfl⟩
  refine (Tri.lift (Q := fun _ => ∀ d ∈ lk.previousCnames, d.node ≠ n) hg1 ?_).bind ?_
  · unfold detectCnameLoops
    by_cases h : (lk.previousCnames.any fun r => r.node == n) = true
    · rw [if_pos h]; exact Sat.err
    · rw [if_neg h]
      refine Sat.ok fun d hd he => h ?_
      rw [List.any_eq_true]
      exact ⟨d, hd, by simpa using he⟩
  rintro _ w2 new2 - hg2 ⟨hloop, rfl⟩
  cases hnf : lk.conf.noFollowCname with
  | true => exact Tri.throw hg2
  | false =>
    simp only [Bool.false_eq_true, if_false]
    refine (saveRecords_tri hfr (lkRules_fair _ _ _ _ _) hg2 (kind := .CNAME) (by simp) ?_ ?_ ?_).bind fun _ w3 _ _ hg3 _ => ?_
    · intro r hr; simp only [List.mem_singleton] at hr; subst hr; exact hc
    · intro _ r hr r' hr'
      simp only [List.mem_singleton] at hr hr'
      subst hr hr'
      rfl
    · intro r hr; simp only [List.mem_singleton] at hr; subst hr; exact hv
    exact Tri.pure hg3 ⟨n, ht, trivial, hloop, rfl⟩

/-- What a lookup returns: the CNAME records found so far, more of them, and either records of the final name or nothing and
then a server has denied it. -/
def Result (p : Profile) (lk : Lookup) (rounds : Nat) (r : Response) (log : List Event) : Prop :=
  ∃ chain final recs, r.answers = lk.previousCnames ++ chain ++ recs ∧ Aliases lk.node chain final ∧ chain.length < rounds ∧
    (lk.conf.noFollowCname = true → chain = []) ∧ NoWayBack (lk.previousCnames ++ chain) ∧ (∀ x ∈ r.answers ++ r.authorities ++ r.additionals, WellFormed x) ∧
    (∀ x ∈ recs, x.recordType = lk.kind ∧ (lk.kind ≠ .NS → x.node = final)) ∧
    (r.noRecords = false → recs ≠ []) ∧ (r.noRecords = true → recs = [] ∧ Denied p final lk.kind log)

theorem LkOk.next {lk : Lookup} (h : LkOk lk) {c : Record} {t : Name} (hc : c.data = .CNAME t) (hv : WellFormed c)
    (hl : ∀ d ∈ lk.previousCnames, d.node ≠ t) : LkOk { lk with node := t, previousCnames := lk.previousCnames ++ [c] } where
  node := hv.2.1 t (by rw [hc]; simp [dataNames])
  kind := h.kind
  nodup := h.nodup
  zones := h.zones
  cnames := by
    intro d hd
    rcases List.mem_append.1 hd with hd | hd
    · exact h.cnames d hd
    · simp only [List.mem_singleton] at hd
      subst hd
      refine ⟨?_, hv⟩
      unfold Record.recordType
      rw [hc]; rfl
  noWay := by
    unfold NoWayBack
    rw [List.pairwise_append]
    refine ⟨h.noWay, by simp, ?_⟩
    intro a ha b hb
    simp only [List.mem_singleton] at hb
    subst hb
    rw [hc]
    intro he
    injection he with he
    exact hl a ha he.symm
  nsq := h.nsq
  retries := h.retries

theorem Result.cname {lk : Lookup} {c : Record} {t : Name} {rounds : Nat} {r : Response} {log : List Event} (hn : c.node = lk.node)
    (hc : c.data = .CNAME t) (hnf : lk.conf.noFollowCname = false)
    (h : Result p { lk with node := t, previousCnames := lk.previousCnames ++ [c] } rounds r log) : Result p lk (rounds + 1) r log := by
  obtain ⟨chain, final, recs, h1, h2, h3, h4, h5, h6⟩ := h
  refine ⟨c :: chain, final, recs, by simpa using h1, .cons hn hc h2, by simpa using h3, ?_, by simpa using h5, h6⟩
  intro h
  rw [hnf] at h
  cases h

theorem performLoop_tri (hfr : Friendly env) {sub : Lookup → M Response} {D : Prop} {fuel : Nat} (hD : fuel ≤ 256 → D) :
    ∀ (rounds : Nat) {lk : Lookup} {nss : List NextNs} {w : World}, LkOk lk → (lk.conf.noFollowCname = true → lk.node = n0) →
    (∀ ns ∈ nss, NsOk ns) → SubsOk env p sub lk D → Good env w →
    Tri env (rulesOf p n0 lk D) w (performLoop env p sub fuel rounds lk nss) (fun r w' => Result p lk rounds r w'.log)
  | 0, lk, nss, w, _, _, _, _, hg => Tri.throw hg
  | rounds + 1, lk, nss, w, hlk, hn0, hnss, hsub, hg => by
    unfold performLoop
    refine (Tri.emit (ρ := rulesOf p n0 lk D) hg (e := .start lk.previousZones lk.conf.noFollowCname lk.node lk.kind)
      ⟨List.prefix_refl _, hlk.nodup, .inl ⟨rfl, rfl, rfl, hn0⟩, hlk.node⟩).bind fun _ w1 _ _ hg1 _ => ?_
    refine (searchRecords_tri hfr hg1 lk.node lk.kind).bind fun cached w2 _ _ hg2 ⟨_, hc⟩ => ?_
    by_cases h0 : cached.length > 0
    · rw [if_pos h0]
      refine Tri.pure hg2 ⟨[], lk.node, cached, by simp, .nil, by simp, by simp, by simpa using hlk.noWay, ?_,
        fun x hx => ⟨(hc x hx).1, (hc x hx).2.1⟩, fun _ => List.ne_nil_of_length_pos h0, by simp⟩
      intro x hx
      simp only [List.append_nil] at hx
      rcases List.mem_append.1 hx with hx | hx
      · exact (hlk.cnames x hx).2
      · exact (hc x hx).2.2
    · rw [if_neg h0]
      refine (searchRecords_tri hfr hg2 lk.node .CNAME).bind fun cn w3 _ _ hg3 ⟨_, hcn⟩ => ?_
      -- what a CNAME leads to
      have follow : ∀ {w : World} {c : Record} {nss : List NextNs}, Good env w → c.recordType = .CNAME → c.node = lk.node → WellFormed c →
          (∀ ns ∈ nss, NsOk ns) → Tri env (rulesOf p n0 lk D) w (do
            let lk ← handleCname env lk c
            performLoop env p sub fuel rounds lk nss) (fun r w' => Result p lk (rounds + 1) r w'.log) := by
        intro w c nss hg hcr hcn hcv hnss
        refine (handleCname_tri hfr hcr hcv hg).bind ?_
        rintro lk' w1 new1 - hg1 ⟨t, ht, hnf, hl, rfl⟩
        refine Tri.mono (Q := fun r w' => Result p { lk with node := t, previousCnames := lk.previousCnames ++ [c] } rounds r w'.log) ?_
          fun r w' h => Result.cname hcn ht hnf h
        exact performLoop_tri hfr hD rounds (hlk.next ht hcv hl) (fun h => absurd (hnf.symm.trans h) (by simp)) hnss hsub hg1
      cases cn with
      | cons c rest =>
        obtain ⟨h1, h2, h3⟩ := hcn c (by simp)
        exact follow hg3 h1 (h2 (by simp)) h3 (by simp)
      | nil =>
        simp only
        refine (startingServers_tri hfr hlk.node hg3 hnss).bind fun nss' w4 _ _ hg4 ⟨_, hne, hok⟩ => ?_
        refine (query_tri hfr hlk hsub fuel (b := 0) hne (fun ns hns => ⟨hok ns hns, Nat.zero_le _⟩) ?_ hg4).bind ?_
        · intro hf
          apply hD
          have := validName_strLen hlk.node
          omega
        rintro r w5 new5 - hg5 ⟨hnd, resp, zone, hr, hm⟩
        cases r with
        | delegation nss => exact absurd rfl (hnd nss)
        | answer an ad =>
          obtain ⟨-, hne, hall, rfl⟩ := hm
          have hv : ∀ x ∈ an, WellFormed x := fun x hx => hr.names.an x (hall x hx).1
          refine (saveRecords_tri hfr (lkRules_fair _ _ _ _ _) hg5 hne (fun x hx => (hall x hx).2.2) ?_ hv).bind
            fun _ w6 _ _ hg6 _ => ?_
          · intro _ x hx y hy
            rw [(hall x hx).2.1, (hall y hy).2.1]
          refine Tri.pure hg6 ⟨[], lk.node, an, by simp, .nil, by simp, by simp, by simpa using hlk.noWay, ?_,
            fun x hx => ⟨(hall x hx).2.2, fun _ => (hall x hx).2.1⟩, fun _ => hne, by simp⟩
          intro x hx
          simp only [List.append_nil] at hx
          rcases List.mem_append.1 hx with hx | hx
          · rcases List.mem_append.1 hx with hx | hx
            · exact (hlk.cnames x hx).2
            · exact hv x hx
          · exact hr.names.ad x hx
        | «alias» c nss2 =>
          obtain ⟨-, h1, h2, -, t, ht, h3⟩ := hm
          refine follow hg5 ?_ h2 (hr.names.an _ h1) fun ns hns => (h3 ns hns).1.ok hr.names
          unfold Record.recordType
          rw [ht]; rfl
        | noDomain soa =>
          obtain ⟨h1, h2, h7⟩ := hm
          have hn := hr.names
          obtain ⟨a, q, raw, id, h3, h4, h5, h6⟩ := hr
          refine Tri.pure hg5 ⟨[], lk.node, [], by simp, .nil, by simp, by simp, by simpa using hlk.noWay, ?_, by simp, by simp,
            fun _ => ⟨rfl, a, q, raw, id, resp, h3, h4, h5, h6, h1, h2⟩⟩
          intro x hx
          simp only [List.append_nil] at hx
          rcases List.mem_append.1 hx with hx | hx
          · exact (hlk.cnames x hx).2
          · exact hn.au x (h7 x (Option.mem_toList.1 hx)).1

/-! ## Whole lookups -/

theorem finite_valid : Set.Finite {n : Name | ValidName n.s} := by
  have h : Set.Finite {l : List (Fin 128) | l.length ≤ 255} := List.finite_length_le _ _
  refine (h.image (fun l => (⟨l.map fun i => Char.ofNat i.val⟩ : Name))).subset ?_
  rintro ⟨s⟩ hs
  obtain ⟨hl, L, hL⟩ := hs
  have ha : ∀ c ∈ s, c.toNat < 128 := hL.ascii
  refine ⟨s.map fun c => if h : c.toNat < 128 then ⟨c.toNat, h⟩ else 0, by simpa using hl, ?_⟩
  simp only [List.map_map, Name.mk.injEq]
  conv_rhs => rw [← List.map_id s]
  apply List.map_congr_left
  intro c hc
  simp [ha c hc]

/-- How many valid names there are. -/
noncomputable def validCount : Nat := finite_valid.toFinset.card

theorem zones_le {zs : List Name} (h : zs.Nodup) (hv : ∀ z ∈ zs, ValidName z.s) : zs.length ≤ validCount := by
  classical
  rw [← List.toFinset_card_of_nodup h]
  apply Finset.card_le_card
  intro z hz
  rw [Set.Finite.mem_toFinset]
  exact hv z (by simpa using hz)

theorem LkOk.sub {lk : Lookup} (h : LkOk lk) {node zone : Name} (hn : ValidName node.s) (hz : ValidName zone.s)
    (hzn : zone ∉ lk.previousZones) :
    LkOk ⟨node, .A, lk.previousZones ++ [zone], [], { lk.conf with noFollowCname := true }⟩ where
  node := hn
  kind := rfl
  nodup := by
    rw [List.nodup_append]
    refine ⟨h.nodup, by simp, ?_⟩
    intro a ha b hb
    simp only [List.mem_singleton] at hb
    subst hb
    rintro rfl
    exact hzn ha
  zones := by
    intro z hz'
    rcases List.mem_append.1 hz' with hz' | hz'
    · exact h.zones z hz'
    · simp only [List.mem_singleton] at hz'
      subst hz'
      exact hz
  cnames := by simp
  noWay := by simp [NoWayBack]
  nsq := h.nsq
  retries := h.retries

theorem perform_tri (hfr : Friendly env) : ∀ (fuel : Nat) {lk : Lookup} {w : World}, LkOk lk → Good env w →
    Tri env (rulesOf p lk.node lk (fuel < validCount - lk.previousZones.length + 258)) w (perform env p fuel lk)
      (fun r w' => Result p lk lk.conf.maxCnameRedir r w'.log)
  | 0, lk, w, _, hg => ⟨_, w, [], rfl, by simp, hg, by simp, .inl (by omega)⟩
  | fuel + 1, lk, w, hlk, hg => by
    unfold perform
    refine performLoop_tri hfr (by omega) _ hlk (fun _ => rfl) (by simp) ?_ hg
    intro node zone w hn hz hzn hg
    have hlk' := hlk.sub hn hz hzn
    have hle := zones_le hlk'.nodup hlk'.zones
    simp only [List.length_append, List.length_singleton] at hle
    refine ((perform_tri hfr fuel hlk' hg).weaken (ρ := lkRules p (lk.previousZones ++ [zone]) true node .A
      (fuel + 1 < validCount - lk.previousZones.length + 258)) (fun e he => he) (fun _ h => h) ?_).mono ?_
    · rintro l (h | h)
      · refine .inl ?_
        simp only [List.length_append, List.length_singleton] at h
        omega
      · exact .inr h
    · rintro r w' ⟨chain, final, recs, h1, h2, -, h4, -, h6, h7, h8, h9⟩
      have hc := h4 rfl
      subst hc
      cases h2
      refine ⟨fun x hx => h6 x (by simp [hx]), ?_⟩
      cases hr : r.noRecords with
      | false =>
        obtain ⟨x, hx⟩ := List.exists_mem_of_ne_nil _ (h8 hr)
        refine .inl ⟨x, by rw [h1]; simp [hx], (h7 x hx).2 (by simp), (h7 x hx).1⟩
      | true => exact .inr ⟨_, (h9 hr).2⟩

end Ariadne.Resolver
