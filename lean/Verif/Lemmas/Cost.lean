import Verif.Lemmas.AgeThreads
import Verif.Lemmas.Perform

/-! # Accounts: how often things happen during a lookup -/

namespace Ariadne.Resolver

open Spec

variable {α β : Type} {p : Profile}

/-- Whatever the thread finds and receives: when each event brings, or costs, so much, and it begins with these credits, it never gets into debt; and its
result satisfies `Q`. -/
def Pays (V : Event → Int) (Q : α → Prop) : Int → Task α → Prop
  | b, .done o => 0 ≤ b ∧ ∀ a, o = .ok a → Q a
  | b, .emit e k => 0 ≤ b ∧ Pays V Q (b + V e) k
  | b, .now k => 0 ≤ b ∧ ∀ t, Pays V Q b (k t)
  | b, .randomId k => 0 ≤ b ∧ ∀ i, Pays V Q b (k i)
  | b, .send addr bytes k => 0 ≤ b ∧ ∀ reply, Pays V Q (b + V (.exchange addr bytes reply)) (k reply)
  | b, .get _ k => 0 ≤ b ∧ ∀ r, Pays V Q b (k r)
  | b, .set _ _ _ k => 0 ≤ b ∧ Pays V Q b k

namespace Pays

variable {V : Event → Int}

theorem nonneg {Q : α → Prop} {t : Task α} {b : Int} (h : Pays V Q b t) : 0 ≤ b := by
  cases t <;> exact h.1

theorem mono {Q Q' : α → Prop} {t : Task α} : ∀ {b b' : Int}, Pays V Q b t → b ≤ b' → (∀ a, Q a → Q' a) → Pays V Q' b' t := by
  induction t with
  | done o => exact fun h hb hq => ⟨by have := h.1; omega, fun a ha => hq a (h.2 a ha)⟩
  | emit e k ih => exact fun h hb hq => ⟨by have := h.1; omega, ih h.2 (by omega) hq⟩
  | now k ih => exact fun h hb hq => ⟨by have := h.1; omega, fun t => ih t (h.2 t) hb hq⟩
  | randomId k ih => exact fun h hb hq => ⟨by have := h.1; omega, fun t => ih t (h.2 t) hb hq⟩
  | send addr bytes k ih => exact fun h hb hq => ⟨by have := h.1; omega, fun r => ih r (h.2 r) (by omega) hq⟩
  | get key k ih => exact fun h hb hq => ⟨by have := h.1; omega, fun r => ih r (h.2 r) hb hq⟩
  | set key ttl records k ih => exact fun h hb hq => ⟨by have := h.1; omega, ih h.2 hb hq⟩

theorem more {Q : α → Prop} {t : Task α} {b b' : Int} (h : Pays V Q b t) (hb : b ≤ b') : Pays V Q b' t := h.mono hb fun _ => id

theorem bind {Q : α → Prop} {Q' : β → Prop} {f : α → Task β} {c : Int} (hc : 0 ≤ c) {t : Task α} : ∀ {b : Int}, Pays V Q b t →
    (∀ a, Q a → Pays V Q' c (f a)) → Pays V Q' (b + c) (t >>= f) := by
  induction t with
  | done o =>
    intro b h hf
    cases o with
    | ok a => exact (hf a (h.2 a rfl)).more (by have := h.1; omega)
    | err e => exact ⟨by have := h.1; omega, fun a ha => nomatch ha⟩
    | panic e => exact ⟨by have := h.1; omega, fun a ha => nomatch ha⟩
    | diverge => exact ⟨by have := h.1; omega, fun a ha => nomatch ha⟩
  | emit e k ih =>
    intro b h hf
    refine ⟨by have := h.1; omega, ?_⟩
    have := ih h.2 hf
    exact this.more (by omega)
  | now k ih => exact fun h hf => ⟨by have := h.1; omega, fun t => ih t (h.2 t) hf⟩
  | randomId k ih => exact fun h hf => ⟨by have := h.1; omega, fun t => ih t (h.2 t) hf⟩
  | send addr bytes k ih =>
    intro b h hf
    refine ⟨by have := h.1; omega, fun r => ?_⟩
    have := ih r (h.2 r) hf
    exact this.more (by omega)
  | get key k ih => exact fun h hf => ⟨by have := h.1; omega, fun r => ih r (h.2 r) hf⟩
  | set key ttl records k ih => exact fun h hf => ⟨by have := h.1; omega, ih h.2 hf⟩

/-- The second part is free. -/
theorem bind₀ {Q : α → Prop} {Q' : β → Prop} {f : α → Task β} {t : Task α} {b : Int} (h : Pays V Q b t) (hf : ∀ a, Q a → Pays V Q' 0 (f a)) :
    Pays V Q' b (t >>= f) := by
  have := h.bind (Int.le_refl 0) hf
  rwa [Int.add_zero] at this

/-- The first part is free. -/
theorem free {Q : α → Prop} {Q' : β → Prop} {f : α → Task β} {t : Task α} {b : Int} (hb : 0 ≤ b) (h : Pays V Q 0 t)
    (hf : ∀ a, Q a → Pays V Q' b (f a)) : Pays V Q' b (t >>= f) := by
  have := h.bind hb hf
  rwa [Int.zero_add] at this

theorem attempt {Q : α → Prop} {t : Task α} : ∀ {b : Int}, Pays V Q b t → Pays V (fun x => ∀ a, x = .inr a → Q a) b t.attempt := by
  induction t with
  | done o =>
    intro b h
    cases o with
    | ok a => exact ⟨h.1, fun x hx => by cases hx; rintro a' h'; cases h'; exact h.2 a rfl⟩
    | err e => exact ⟨h.1, fun x hx => by cases hx; rintro a' h'; cases h'⟩
    | panic e => exact ⟨h.1, fun a ha => nomatch ha⟩
    | diverge => exact ⟨h.1, fun a ha => nomatch ha⟩
  | emit e k ih => exact fun h => ⟨h.1, ih h.2⟩
  | now k ih => exact fun h => ⟨h.1, fun t => ih t (h.2 t)⟩
  | randomId k ih => exact fun h => ⟨h.1, fun t => ih t (h.2 t)⟩
  | send addr bytes k ih => exact fun h => ⟨h.1, fun r => ih r (h.2 r)⟩
  | get key k ih => exact fun h => ⟨h.1, fun r => ih r (h.2 r)⟩
  | set key ttl records k ih => exact fun h => ⟨h.1, ih h.2⟩

theorem pure {Q : α → Prop} {a : α} {b : Int} (hb : 0 ≤ b) (h : Q a) : Pays V Q b (Pure.pure a : Task α) :=
  ⟨hb, fun a' ha => by cases ha; exact h⟩

theorem done {Q : α → Prop} {o : Out LookupErr α} {b : Int} (hb : 0 ≤ b) (h : ∀ a, o = .ok a → Q a) : Pays V Q b (.done o : Task α) := ⟨hb, h⟩

theorem skip {o : Out LookupErr α} : Pays V (fun _ => True) 0 (.done o : Task α) := ⟨Int.le_refl 0, fun _ _ => trivial⟩

theorem throw {Q : α → Prop} {e : LookupErr} {b : Int} (hb : 0 ≤ b) : Pays V Q b (.done (.err e) : Task α) := ⟨hb, fun a h => nomatch h⟩

theorem panic {Q : α → Prop} {e : Panic} {b : Int} (hb : 0 ≤ b) : Pays V Q b (.done (.panic e) : Task α) := ⟨hb, fun a h => nomatch h⟩

end Pays

/-- What events bring and cost, so that a lookup can pay for all: a query costs `query`; to start the resolution of a name on behalf of
`d` zones costs at most `nested d`, after which all that is needed for this resolution is paid for. -/
structure Tariff (servers retries : Nat) where
  value : Event → Int
  query : Nat
  nested : Nat → Nat
  exchange : ∀ addr bytes reply, value (.exchange addr bytes reply) = -query
  saved : ∀ node kind records, value (.saved node kind records) = 0
  contact : ∀ zones ns node kind, value (.contact zones ns node kind) = 0
  start : ∀ zones nf node kind, (((strLen node.s + 1) * (servers * (retries * query + nested (zones.length + 1))) : Nat) : Int) ≤
    nested zones.length + value (.start zones nf node kind)

namespace Steps

variable {servers retries : Nat} (T : Tariff servers retries)

theorem search_pays (node : Name) (kind : RecordType) : Pays T.value (fun _ => True) 0 (searchRecordsInCache node kind) := by
  refine ⟨Int.le_refl 0, fun t => ⟨Int.le_refl 0, fun r => ?_⟩⟩
  cases r with
  | none => exact Pays.pure (Int.le_refl 0) trivial
  | some e => exact Pays.skip

theorem save_pays (rs : List Record) : Pays T.value (fun _ => True) 0 (saveRecordsInCache rs) := by
  cases rs with
  | nil => exact Pays.panic (Int.le_refl 0)
  | cons r0 rest =>
    unfold saveRecordsInCache
    dsimp only
    split
    · exact Pays.panic (Int.le_refl 0)
    · refine ⟨Int.le_refl 0, ?_⟩
      rw [T.saved, Int.add_zero]
      exact ⟨Int.le_refl 0, Int.le_refl 0, fun _ _ => trivial⟩

theorem sendUdpPacket_pays (ns : NextNs) (bytes : List UInt8) : Pays T.value (fun _ => True) T.query (sendUdpPacket ns bytes) := by
  unfold sendUdpPacket
  refine Pays.free (Int.natCast_nonneg _) Pays.skip fun as _ => ?_
  cases as.head? with
  | none => exact Pays.panic (Int.natCast_nonneg _)
  | some addr =>
    refine ⟨Int.natCast_nonneg _, fun reply => ?_⟩
    rw [T.exchange]
    cases reply with
    | none => exact Pays.throw (by omega)
    | some raw => exact Pays.done (by omega) fun _ _ => trivial

theorem sendQuery_pays (ns : NextNs) (node : Name) (kind : RecordType) : Pays T.value (fun _ => True) T.query (sendQuery p ns node kind) := by
  unfold sendQuery
  refine Pays.free (Q := fun _ => True) (Int.natCast_nonneg _) ⟨Int.le_refl 0, fun i => Pays.skip⟩ fun id _ => ?_
  refine Pays.free (Int.natCast_nonneg _) Pays.skip fun bytes _ => ?_
  exact (sendUdpPacket_pays T ns bytes).bind₀ fun reply _ => Pays.skip

theorem sendRetries_pays (ns : NextNs) (node : Name) (kind : RecordType) : ∀ (n : Nat) (e : Option LookupErr),
    Pays T.value (fun _ => True) ((n * T.query : Nat) : Int) (sendQueryWithRetries p ns node kind n e)
  | 0, some e => Pays.throw (Int.natCast_nonneg _)
  | 0, none => Pays.panic (Int.natCast_nonneg _)
  | n + 1, e => by
    unfold sendQueryWithRetries
    have e1 : (((n + 1) * T.query : Nat) : Int) = (T.query : Int) + ((n * T.query : Nat) : Int) := by
      rw [Nat.succ_mul, Nat.add_comm]; exact Int.natCast_add _ _
    rw [e1]
    refine (Pays.attempt (sendQuery_pays T ns node kind)).bind (Int.natCast_nonneg _) fun x _ => ?_
    cases x with
    | inr resp => exact Pays.pure (Int.natCast_nonneg _) trivial
    | inl e' => exact sendRetries_pays ns node kind n _

/-- The zones of a referral are textual suffixes of the name, and longer than the zone of the server. -/
def LeadsDown (node zone : Name) : NsResponse → Prop
  | .delegation nss => ∀ ns ∈ nss, strLen ns.zone.s ≤ strLen node.s ∧ strLen zone.s < strLen ns.zone.s
  | _ => True

theorem interpret_down {resp : Message} {node : Name} {kind : RecordType} {zone : Name} {r : NsResponse}
    (h : interpret resp node kind zone = .ok r) : LeadsDown node zone r := by
  unfold interpret at h
  cases hc : resp.header.respCode with
  | NoError =>
    rw [hc] at h
    simp only at h
    by_cases hl : (extractRecords resp.answers kind node).1.length > 0
    · rw [if_pos hl] at h; cases h; trivial
    · rw [if_neg hl] at h
      cases he : extractRecord (extractRecords resp.answers kind node).2 .CNAME node with
      | mk o l =>
      rw [he] at h
      cases o with
      | some cname =>
        simp only at h
        obtain ⟨t, ht, h⟩ := Out.of_bind_ok h
        obtain ⟨nss, -, h⟩ := Out.of_bind_ok h
        cases h
        trivial
      | none =>
        simp only at h
        obtain ⟨nss, h1, h⟩ := Out.of_bind_ok h
        by_cases h0 : nss.length > 0
        · rw [if_pos h0] at h
          cases h
          unfold extractNextNssForSubzone at h1
          intro ns hns
          obtain ⟨a1, -⟩ := pairWithAddrs_mem (P := fun _ => True) (fun _ _ => trivial) h1 ns hns
          have hm := (List.mem_filter.1 a1).2
          rw [Bool.and_eq_true, Bool.and_eq_true] at hm
          refine ⟨endsWith_le hm.2.1, ?_⟩
          have := hm.2.2
          unfold isSubzone at this
          simp at this
          exact this
        · rw [if_neg h0] at h; cases h
  | NxDomain =>
    rw [hc] at h
    simp only at h
    by_cases haa : resp.header.authAnswer = true
    · rw [if_pos haa] at h; cases h; trivial
    · rw [if_neg haa] at h; cases h
  | FormErr => rw [hc] at h; cases h
  | ServFail => rw [hc] at h; cases h
  | NotImp => rw [hc] at h; cases h
  | Refused => rw [hc] at h; cases h

theorem performRequest_pays (ns : NextNs) (node : Name) (kind : RecordType) (n : Nat) :
    Pays T.value (LeadsDown node ns.zone) ((n * T.query : Nat) : Int) (performRequest p ns node kind n) := by
  unfold performRequest
  exact (sendRetries_pays T ns node kind n none).bind₀ fun resp _ => Pays.done (Int.le_refl 0) fun r h => interpret_down h

theorem saveAddrs_pays : ∀ nss : List NextNs, Pays T.value (fun _ => True) 0 (saveAddrs nss)
  | [] => Pays.pure (Int.le_refl 0) trivial
  | ns :: nss => by
    unfold saveAddrs
    show Pays T.value _ 0 (if ns.aRecords.length > 0 then (saveRecordsInCache ns.aRecords >>= fun _ => saveAddrs nss) else saveAddrs nss)
    by_cases h0 : ns.aRecords.length > 0
    · rw [if_pos h0]
      exact (save_pays T _).bind₀ fun _ _ => saveAddrs_pays nss
    · rw [if_neg h0]
      exact saveAddrs_pays nss

theorem saveNss_pays (nss : List NextNs) : Pays T.value (fun _ => True) 0 (saveNssInCache nss) := by
  unfold saveNssInCache
  exact (saveAddrs_pays T nss).bind₀ fun _ _ => save_pays T _

theorem findNsRecords_pays : ∀ ds : List Str, Pays T.value (fun _ => True) 0 (findNsRecords ds)
  | [] => Pays.pure (Int.le_refl 0) trivial
  | d :: ds => by
    unfold findNsRecords
    refine Pays.skip.bind₀ fun n _ => ?_
    refine (search_pays T n .NS).bind₀ fun rs _ => ?_
    by_cases h0 : rs.length > 0
    · simp only [if_pos h0]; exact Pays.pure (Int.le_refl 0) trivial
    · simp only [if_neg h0]; exact findNsRecords_pays ds

theorem findAddrs_pays : ∀ rs : List Record, Pays T.value (fun _ => True) 0 (findAddrs rs)
  | [] => Pays.pure (Int.le_refl 0) trivial
  | r :: rs => by
    unfold findAddrs
    refine Pays.skip.bind₀ fun n _ => ?_
    refine (search_pays T n .A).bind₀ fun as _ => ?_
    exact (findAddrs_pays rs).bind₀ fun _ _ => Pays.pure (Int.le_refl 0) trivial

theorem startingServers_pays (lk : Lookup) (nss : List NextNs) : Pays T.value (fun _ => True) 0 (startingServers lk nss) := by
  unfold startingServers
  by_cases h0 : nss.isEmpty
  · rw [if_pos h0]
    unfold searchNssInCache
    exact Pays.bind₀ (Q := fun _ => True) ((findNsRecords_pays T _).bind₀ fun rs _ => findAddrs_pays T rs) fun _ _ => Pays.pure (Int.le_refl 0) trivial
  · rw [if_neg h0]
    exact Pays.pure (Int.le_refl 0) trivial

/-- Sub-lookups: they do not follow aliases, and their first resolution costs `nested`. -/
def SubsPay (sub : Lookup → Task Response) : Prop :=
  ∀ lk : Lookup, lk.conf.noFollowCname = true → lk.conf.maxNsQueried = servers → lk.conf.maxUdpRetries = retries →
    Pays T.value (fun _ => True) (T.nested lk.previousZones.length) (sub lk)

variable {T}

theorem resolveAddrs_pays {sub : Lookup → Task Response} (hsub : SubsPay T sub) {lk : Lookup} (hs : lk.conf.maxNsQueried = servers)
    (hr : lk.conf.maxUdpRetries = retries) (ns : NextNs) :
    Pays T.value (fun ns' => ns'.zone = ns.zone) (T.nested (lk.previousZones.length + 1)) (resolveAddrs sub lk ns) := by
  have h0 : (0 : Int) ≤ T.nested (lk.previousZones.length + 1) := Int.natCast_nonneg _
  unfold resolveAddrs
  refine Pays.free h0 Pays.skip fun as _ => ?_
  by_cases he : as.isEmpty
  · rw [if_pos he]
    refine Pays.free h0 Pays.skip fun n _ => ?_
    refine Pays.bind₀ (Pays.attempt (Q := fun _ => True) ?_) fun x _ => ?_
    · unfold resolveNsSubquery
      refine Pays.free h0 Pays.skip fun _ _ => ?_
      refine Pays.bind₀ (Q := fun _ => True) ?_ fun _ _ => Pays.pure (Int.le_refl 0) trivial
      have := hsub { node := n, kind := .A, previousZones := lk.previousZones ++ [ns.zone], previousCnames := [],
                     conf := { lk.conf with noFollowCname := true } } rfl hs hr
      rw [List.length_append] at this
      exact this
    · cases x with
      | inl e => exact Pays.throw (Int.le_refl 0)
      | inr rs => exact Pays.pure (Int.le_refl 0) rfl
  · rw [if_neg he]
    exact Pays.pure h0 rfl

/-- What one server costs. -/
def serverCost (T : Tariff servers retries) (d : Nat) : Nat := retries * T.query + T.nested (d + 1)

theorem tryServers_pays {sub : Lookup → Task Response} (hsub : SubsPay T sub) {lk : Lookup} (hs : lk.conf.maxNsQueried = servers)
    (hr : lk.conf.maxUdpRetries = retries) {least : Nat} :
    ∀ (nss : List NextNs) (e : Option LookupErr), (∀ ns ∈ nss, least ≤ strLen ns.zone.s) →
      Pays T.value (fun r => ∀ nss', r = .delegation nss' → ∀ ns ∈ nss', least + 1 ≤ strLen ns.zone.s ∧ strLen ns.zone.s ≤ strLen lk.node.s)
        ((nss.length * serverCost T lk.previousZones.length : Nat) : Int) (tryServers p sub lk nss e)
  | [], some e, _ => Pays.throw (Int.natCast_nonneg _)
  | [], none, _ => Pays.panic (Int.natCast_nonneg _)
  | ns :: nss, e, hl => by
    unfold tryServers
    have e1 : (((ns :: nss).length * serverCost T lk.previousZones.length : Nat) : Int) =
        (serverCost T lk.previousZones.length : Int) + ((nss.length * serverCost T lk.previousZones.length : Nat) : Int) := by
      rw [List.length_cons, Nat.succ_mul, Nat.add_comm]; exact Int.natCast_add _ _
    rw [e1]
    refine (Pays.attempt (Q := fun r => ∀ nss', r = .delegation nss' → ∀ x ∈ nss', least + 1 ≤ strLen x.zone.s ∧ strLen x.zone.s ≤ strLen lk.node.s)
      ?_).bind (Int.natCast_nonneg _) fun x hx => ?_
    · unfold tryServer serverCost
      rw [Nat.add_comm (retries * T.query), Int.natCast_add]
      refine (resolveAddrs_pays hsub hs hr ns).bind (Int.natCast_nonneg _) fun ns' hz => ?_
      refine Pays.free (Q := fun _ => True) (Int.natCast_nonneg _) ⟨Int.le_refl 0, ?_⟩ fun _ _ => ?_
      · rw [T.contact, Int.add_zero]
        exact ⟨Int.le_refl 0, fun _ _ => trivial⟩
      · rw [hr]
        refine (performRequest_pays T ns' lk.node lk.kind retries).mono (Int.le_refl _) ?_
        rintro r hr nss' rfl x hx
        have h1 := hr x hx
        rw [hz] at h1
        have h2 := hl ns List.mem_cons_self
        exact ⟨by omega, h1.1⟩
    · cases x with
      | inr r => exact Pays.pure (Int.natCast_nonneg _) (hx r rfl)
      | inl e' => exact tryServers_pays hsub hs hr nss _ fun n hn => hl n (List.mem_cons_of_mem _ hn)

theorem query_pays {sub : Lookup → Task Response} (hsub : SubsPay T sub) {lk : Lookup} (hs : lk.conf.maxNsQueried = servers)
    (hr : lk.conf.maxUdpRetries = retries) :
    ∀ (fuel least : Nat) (nss : List NextNs), (∀ ns ∈ nss, least ≤ strLen ns.zone.s) →
      Pays T.value (fun _ => True) (((max 1 (strLen lk.node.s + 1 - least)) * (servers * serverCost T lk.previousZones.length) : Nat) : Int)
        (queryIteratively p sub lk fuel nss)
  | 0, _, _, _ => Pays.done (Int.natCast_nonneg _) fun _ _ => trivial
  | fuel + 1, least, nss, hl => by
    unfold queryIteratively
    by_cases h0 : nss.length = 0
    · rw [if_pos h0]; exact Pays.panic (Int.natCast_nonneg _)
    rw [if_neg h0]
    generalize hcost : serverCost T lk.previousZones.length = cost
    have hlen : ((sortNameservers nss).take lk.conf.maxNsQueried).length ≤ servers := by
      rw [List.length_take, hs]; exact Nat.min_le_left _ _
    have htry := tryServers_pays (p := p) hsub hs hr (least := least) ((sortNameservers nss).take lk.conf.maxNsQueried) none
      fun n hn => hl n (mem_sortNameservers.1 (List.mem_of_mem_take hn))
    rw [hcost] at htry
    have htry' := htry.more (b' := ((servers * cost : Nat) : Int)) (by exact_mod_cast Nat.mul_le_mul_right _ hlen)
    generalize hrest : (max 1 (strLen lk.node.s + 1 - least) - 1) * (servers * cost) = rest
    have etot : ((max 1 (strLen lk.node.s + 1 - least) * (servers * cost) : Nat) : Int) = ((servers * cost : Nat) : Int) + (rest : Int) := by
      rw [← Int.natCast_add, ← hrest]
      congr 1
      have h1 : max 1 (strLen lk.node.s + 1 - least) = 1 + (max 1 (strLen lk.node.s + 1 - least) - 1) := by omega
      rw [h1, Nat.add_mul, Nat.one_mul, Nat.add_sub_cancel_left]
    rw [etot]
    refine htry'.bind (Int.natCast_nonneg _) fun r hr' => ?_
    cases r with
    | delegation nextNss =>
      refine Pays.free (Int.natCast_nonneg _) (saveNss_pays T nextNss) fun _ _ => ?_
      cases hn : nextNss with
      | nil =>
        cases fuel with
        | zero => exact Pays.done (Int.natCast_nonneg _) fun _ _ => trivial
        | succ fuel =>
          unfold queryIteratively
          rw [if_pos (show ([] : List NextNs).length = 0 from rfl)]
          exact Pays.panic (Int.natCast_nonneg _)
      | cons n0 ns0 =>
        rw [← hn]
        have hall := hr' nextNss rfl
        have := hall n0 (by rw [hn]; exact List.mem_cons_self)
        have ih := query_pays hsub hs hr fuel (least + 1) nextNss fun n hn => (hall n hn).1
        rw [hcost] at ih
        refine ih.more ?_
        have : max 1 (strLen lk.node.s + 1 - (least + 1)) = max 1 (strLen lk.node.s + 1 - least) - 1 := by omega
        rw [this, hrest]
    | answer a b => exact Pays.pure (Int.natCast_nonneg _) trivial
    | «alias» a b => exact Pays.pure (Int.natCast_nonneg _) trivial
    | noDomain a => exact Pays.pure (Int.natCast_nonneg _) trivial

theorem handleCname_pays (lk : Lookup) (cname : Record) :
    Pays T.value (fun lk' => lk.conf.noFollowCname = false ∧ lk'.conf = lk.conf ∧ lk'.previousZones = lk.previousZones) 0 (handleCname lk cname) := by
  unfold handleCname
  refine Pays.skip.bind₀ fun t _ => ?_
  refine Pays.skip.bind₀ fun _ _ => ?_
  by_cases h0 : lk.conf.noFollowCname
  · rw [if_pos h0]; exact Pays.throw (Int.le_refl 0)
  · rw [if_neg h0]
    refine (save_pays T _).bind₀ fun _ _ => Pays.pure (Int.le_refl 0) ⟨by simpa using h0, rfl, rfl⟩

theorem performLoop_pays {sub : Lookup → Task Response} (hsub : SubsPay T sub) (fuel : Nat) :
    ∀ (rounds : Nat) (lk : Lookup) (nss : List NextNs), lk.conf.maxNsQueried = servers → lk.conf.maxUdpRetries = retries →
      Pays T.value (fun _ => True) (((if lk.conf.noFollowCname then min 1 rounds else rounds) * T.nested lk.previousZones.length : Nat) : Int)
        (performLoop p sub fuel rounds lk nss)
  | 0, _, _, _, _ => Pays.throw (Int.natCast_nonneg _)
  | rounds + 1, lk, nss, hs, hr => by
    unfold performLoop
    generalize hd : lk.previousZones.length = d
    -- what remains for the rounds after this one
    generalize hrest : (if lk.conf.noFollowCname then 0 else rounds) * T.nested d = rest
    have etot : (((if lk.conf.noFollowCname then min 1 (rounds + 1) else rounds + 1) * T.nested d : Nat) : Int) = (T.nested d : Int) + (rest : Int) := by
      rw [← Int.natCast_add, ← hrest]
      congr 1
      split
      · rw [show min 1 (rounds + 1) = 1 by omega]; omega
      · rw [Nat.succ_mul, Nat.add_comm]
    rw [etot]
    have again : ∀ (cname : Record) (nss : List NextNs),
        Pays T.value (fun _ => True) (rest : Int) (handleCname lk cname >>= fun lk' => performLoop p sub fuel rounds lk' nss) := by
      intro cname nss
      refine Pays.free (Int.natCast_nonneg _) (handleCname_pays lk cname) ?_
      rintro lk' ⟨h1, h2, h3⟩
      have ih := performLoop_pays hsub fuel rounds lk' nss (by rw [h2]; exact hs) (by rw [h2]; exact hr)
      refine ih.more ?_
      rw [h2, h3, hd, ← hrest, h1]
      exact Int.le_refl _
    have hstart := T.start lk.previousZones lk.conf.noFollowCname lk.node lk.kind
    rw [hd] at hstart
    generalize hcost : (strLen lk.node.s + 1) * (servers * (retries * T.query + T.nested (d + 1))) = cost at hstart
    refine ⟨by omega, ?_⟩
    refine Pays.more (b := (cost : Int) + (rest : Int)) ?_ (by omega)
    show Pays T.value _ _ (searchRecordsInCache lk.node lk.kind >>= _)
    have hc0 : (0 : Int) ≤ (cost : Int) + (rest : Int) := by omega
    refine Pays.free hc0 (search_pays T lk.node lk.kind) fun cached _ => ?_
    by_cases h0 : cached.length > 0
    · simp only [if_pos h0]
      exact Pays.pure hc0 trivial
    · simp only [if_neg h0]
      refine Pays.free hc0 (search_pays T lk.node .CNAME) fun cnames _ => ?_
      cases cnames with
      | cons cname more => exact (again cname []).more (by omega)
      | nil =>
        simp only
        refine Pays.free hc0 (startingServers_pays T lk nss) fun nss' _ => ?_
        have hq := query_pays (p := p) hsub hs hr fuel 0 nss' fun _ _ => Nat.zero_le _
        have e2 : max 1 (strLen lk.node.s + 1 - 0) * (servers * serverCost T lk.previousZones.length) = cost := by
          rw [hd, ← hcost]
          unfold serverCost
          congr 1
        rw [e2] at hq
        refine hq.bind (Int.natCast_nonneg _) fun r _ => ?_
        cases r with
        | answer answers additionals =>
          simp only
          exact Pays.free (Int.natCast_nonneg _) (save_pays T _) fun _ _ => Pays.pure (Int.natCast_nonneg _) trivial
        | «alias» cname nextNss => exact again cname nextNss
        | noDomain soa => exact Pays.pure (Int.natCast_nonneg _) trivial
        | delegation nss'' => exact Pays.panic (Int.natCast_nonneg _)

theorem perform_pays : ∀ (fuel : Nat) (lk : Lookup), lk.conf.maxNsQueried = servers → lk.conf.maxUdpRetries = retries →
    Pays T.value (fun _ => True)
      (((if lk.conf.noFollowCname then min 1 lk.conf.maxCnameRedir else lk.conf.maxCnameRedir) * T.nested lk.previousZones.length : Nat) : Int) (perform p fuel lk)
  | 0, _, _, _ => Pays.done (Int.natCast_nonneg _) fun _ _ => trivial
  | fuel + 1, lk, hs, hr => by
    unfold perform
    refine performLoop_pays ?_ fuel _ lk [] hs hr
    intro lk' hn hs' hr'
    have := perform_pays fuel lk' hs' hr'
    rw [hn, if_pos rfl] at this
    refine this.more ?_
    have : min 1 lk'.conf.maxCnameRedir * T.nested lk'.previousZones.length ≤ 1 * T.nested lk'.previousZones.length :=
      Nat.mul_le_mul_right _ (Nat.min_le_left _ _)
    omega

theorem lookup_pays (conf : Params) (fuel : Nat) (node : Name) (kind : RecordType) (T : Tariff conf.maxNsQueried conf.maxUdpRetries) :
    Pays T.value (fun _ => True) ((conf.maxCnameRedir * T.nested 0 : Nat) : Int) (lookup p conf fuel node kind) := by
  unfold lookup
  refine (perform_pays (p := p) (T := T) fuel { node := node, kind := kind, previousZones := [], previousCnames := [], conf := conf } rfl rfl).more ?_
  refine Int.ofNat_le.2 (Nat.mul_le_mul_right _ ?_)
  split
  · exact Nat.min_le_right _ _
  · exact Nat.le_refl _

end Steps

end Ariadne.Resolver
