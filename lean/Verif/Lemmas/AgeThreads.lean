import Verif.Lemmas.Age
import Verif.Lemmas.Threads

/-! # The age of records, with several threads -/

namespace Ariadne.Resolver

open Spec

/-- What is known of the records that are in the cache at one time or another: those that say the same as `r` may be kept until `e`. When the lookup began. -/
structure Lifetimes where
  till : Record → Nat → Prop
  start : Nat
  closed : ∀ {r r' : Record} {e e' : Nat}, till r e → content r' = content r → e' ≤ e → till r' e'

variable (p : Profile) (B : Lifetimes)

/-- The record has been received, perhaps with a greater TTL. -/
def Overheard (log : List Event) (x : Record) : Prop := ∃ r ∈ receivedBy p log, content r = content x ∧ x.ttl.toNat ≤ r.ttl.toNat

/-- The record may be given out. -/
def Timely (log : List Event) (x : Record) : Prop :=
  Overheard p log x ∨ B.till x (if x.recordType = .CNAME then 0 else B.start + x.ttl.toNat * NANOS)

/-- Whatever the thread finds in the cache, as long as it may be there, and whatever it receives: what it saves may be in the cache,
and its result satisfies `Q`. -/
def Careful {α : Type} (Q : List Event → α → Prop) : List Event → Task α → Prop
  | log, .done o => ∀ a, o = .ok a → Q log a
  | log, .emit e k => Careful Q (log ++ [e]) k
  | log, .now k => ∀ t, B.start ≤ t → Careful Q log (k t)
  | log, .randomId k => ∀ i, Careful Q log (k i)
  | log, .send addr bytes k => ∀ reply, Careful Q (log ++ [.exchange addr bytes reply]) (k reply)
  | log, .get key k => ∀ r, (∀ exp rs, r = some (exp, rs) → ∀ x ∈ rs, x.recordType = key.2 ∧ B.till x (if key.2 = .CNAME then 0 else exp)) →
      Careful Q log (k r)
  | log, .set key ttl records k => (∀ x ∈ records, x.recordType = key.2 ∧
      ((∃ r ∈ receivedBy p log, content r = content x ∧ ttl.toNat ≤ r.ttl.toNat) ∨ (key.2 = .CNAME ∧ B.till x 0))) ∧ Careful Q log k

variable {p B} {α β : Type}

theorem told_later {log log' : List Event} {x : Record} (h : Overheard p log x) (hl : log <+: log') : Overheard p log' x := by
  obtain ⟨r, hr, h⟩ := h
  obtain ⟨s, rfl⟩ := hl
  exact ⟨r, by rw [receivedBy_append]; exact List.mem_append_left _ hr, h⟩

theorem timely_later {log log' : List Event} {x : Record} (h : Timely p B log x) (hl : log <+: log') : Timely p B log' x := by
  rcases h with h | h
  · exact .inl (told_later h hl)
  · exact .inr h

namespace Careful

theorem mono {Q Q' : List Event → α → Prop} {t : Task α} : ∀ {log : List Event}, Careful p B Q log t →
    (∀ log' a, log <+: log' → Q log' a → Q' log' a) → Careful p B Q' log t := by
  induction t with
  | done o => exact fun h hq a ha => hq _ a (List.prefix_refl _) (h a ha)
  | emit e k ih => exact fun h hq => ih (log := _) h fun log' a hl => hq log' a ((List.prefix_append _ _).trans hl)
  | now k ih => exact fun h hq t ht => ih t (h t ht) hq
  | randomId k ih => exact fun h hq i => ih i (h i) hq
  | send addr bytes k ih => exact fun h hq r => ih r (h r) fun log' a hl => hq log' a ((List.prefix_append _ _).trans hl)
  | get key k ih => exact fun h hq r hr => ih r (h r hr) hq
  | set key ttl records k ih => exact fun h hq => ⟨h.1, ih h.2 hq⟩

theorem bind {Q : List Event → α → Prop} {Q' : List Event → β → Prop} {f : α → Task β} {t : Task α} : ∀ {log : List Event},
    Careful p B Q log t → (∀ a log', log <+: log' → Q log' a → Careful p B Q' log' (f a)) → Careful p B Q' log (t >>= f) := by
  induction t with
  | done o =>
    intro log h hf
    cases o with
    | ok a => exact hf a log (List.prefix_refl _) (h a rfl)
    | err e => intro a ha; cases ha
    | panic e => intro a ha; cases ha
    | diverge => intro a ha; cases ha
  | emit e k ih => exact fun h hf => ih (log := _) h fun a log' hl => hf a log' ((List.prefix_append _ _).trans hl)
  | now k ih => exact fun h hf t ht => ih t (h t ht) hf
  | randomId k ih => exact fun h hf i => ih i (h i) hf
  | send addr bytes k ih => exact fun h hf r => ih r (h r) fun a log' hl => hf a log' ((List.prefix_append _ _).trans hl)
  | get key k ih => exact fun h hf r hr => ih r (h r hr) hf
  | set key ttl records k ih => exact fun h hf => ⟨h.1, ih h.2 hf⟩

theorem attempt {Q : List Event → α → Prop} {t : Task α} : ∀ {log : List Event}, Careful p B Q log t →
    Careful p B (fun log' x => ∀ a, x = .inr a → Q log' a) log t.attempt := by
  induction t with
  | done o =>
    intro log h
    cases o with
    | ok a => intro x hx; cases hx; rintro a' h'; cases h'; exact h a rfl
    | err e => intro x hx; cases hx; rintro a' h'; cases h'
    | panic e => intro a ha; cases ha
    | diverge => intro a ha; cases ha
  | emit e k ih => exact fun h => ih (log := _) h
  | now k ih => exact fun h t ht => ih t (h t ht)
  | randomId k ih => exact fun h i => ih i (h i)
  | send addr bytes k ih => exact fun h r => ih r (h r)
  | get key k ih => exact fun h r hr => ih r (h r hr)
  | set key ttl records k ih => exact fun h => ⟨h.1, ih h.2⟩

theorem pure {Q : List Event → α → Prop} {log : List Event} {a : α} (h : Q log a) : Careful p B Q log (Pure.pure a : Task α) := by
  intro a' ha; cases ha; exact h

theorem done {Q : List Event → α → Prop} {log : List Event} {o : Out LookupErr α} (h : ∀ a, o = .ok a → Q log a) :
    Careful p B Q log (.done o : Task α) := h

theorem skip {log : List Event} {o : Out LookupErr α} : Careful p B (fun _ _ => True) log (.done o : Task α) := fun _ _ => trivial

theorem throw {Q : List Event → α → Prop} {log : List Event} {e : LookupErr} : Careful p B Q log (.done (.err e) : Task α) :=
  fun a h => by cases h

theorem panic {Q : List Event → α → Prop} {log : List Event} {e : Panic} : Careful p B Q log (.done (.panic e) : Task α) :=
  fun a h => by cases h

theorem emit {log : List Event} {e : Event} : Careful p B (fun _ _ => True) log (.emit e (.done (.ok ())) : Task Unit) :=
  fun _ _ => trivial

end Careful

namespace Steps

/-! ## The cache -/

theorem search_careful (node : Name) (kind : RecordType) (log : List Event) :
    Careful p B (fun _ rs => ∀ x ∈ rs, x.recordType = kind ∧ B.till x (if x.recordType = .CNAME then 0 else B.start + x.ttl.toNat * NANOS)) log
      (searchRecordsInCache node kind) := by
  intro before hb r hr
  cases r with
  | none => exact Careful.pure (fun x hx => by cases hx)
  | some e =>
    obtain ⟨exp, recs⟩ := e
    have hset := hr exp recs rfl
    intro rs hrs
    unfold serveCached at hrs
    cases recs with
    | nil => cases hrs; simp
    | cons r0 rest =>
      simp only at hrs
      split at hrs
      · cases hrs
      split at hrs
      · cases hrs
      rename_i hexp
      split at hrs
      · cases hrs
      rename_i h32
      cases hrs
      intro x hx
      obtain ⟨r', hr', rfl⟩ := List.mem_map.1 hx
      obtain ⟨h1, h2⟩ := hset r' hr'
      have hto : (UInt32.ofNat ((exp - before) / NANOS)).toNat = (exp - before) / NANOS :=
        UInt32.toNat_ofNat_of_lt' (by unfold UInt32.size; omega)
      have hdiv := Nat.div_mul_le_self (exp - before) NANOS
      refine ⟨h1, B.closed h2 rfl ?_⟩
      show (if r'.recordType = .CNAME then 0 else B.start + (UInt32.ofNat ((exp - before) / NANOS)).toNat * NANOS) ≤ if kind = .CNAME then 0 else exp
      rw [show r'.recordType = kind from h1, hto]
      split
      · exact Nat.le_refl _
      · omega

theorem save_careful {rs : List Record} {kind : RecordType} {log : List Event}
    (h : ∀ x ∈ rs, x.recordType = kind ∧ (Overheard p log x ∨ (kind = .CNAME ∧ B.till x 0))) :
    Careful p B (fun _ _ => True) log (saveRecordsInCache rs) := by
  cases rs with
  | nil => exact Careful.panic
  | cons r0 rest =>
    unfold saveRecordsInCache
    dsimp only
    split
    · exact Careful.panic
    · have ht0 := (h r0 (by simp)).1
      subst ht0
      refine ⟨fun x hx => ?_, fun _ _ => trivial⟩
      obtain ⟨r', hr', rfl⟩ := List.mem_map.1 hx
      obtain ⟨e1, e2⟩ := h r' hr'
      have hmt : (minTtl r0.ttl rest).toNat ≤ r'.ttl.toNat := by
        rcases List.mem_cons.1 hr' with rfl | hr
        · exact (minTtl_le _ _).1
        · exact (minTtl_le _ _).2 r' hr
      refine ⟨e1, ?_⟩
      rcases e2 with e2 | ⟨hk, e2⟩
      · obtain ⟨r, hr, g1, g2⟩ := told_later e2 (List.prefix_append _ [Event.saved r0.node r0.recordType _])
        exact .inl ⟨r, hr, g1, hmt.trans g2⟩
      · exact .inr ⟨hk, B.closed e2 rfl (Nat.le_refl _)⟩

/-! ## Exchanges -/

/-- All the records of the message have been received. -/
def OverheardAll (p : Profile) (log : List Event) (m : Message) : Prop := ∀ r ∈ m.answers ++ m.authorities ++ m.additionals, Overheard p log r

theorem sendUdpPacket_careful {ns : NextNs} {bytes : List UInt8} {log : List Event} :
    Careful p B (fun log' reply => ∀ m, Message.decodeFromBytes p reply = .ok m → OverheardAll p log' m) log (sendUdpPacket ns bytes) := by
  unfold sendUdpPacket
  refine Careful.skip.bind fun as log' _ _ => ?_
  cases as.head? with
  | none => exact Careful.panic
  | some addr =>
    intro reply
    cases reply with
    | none => exact Careful.throw
    | some raw =>
      intro a ha
      cases ha
      intro m hm r hr
      exact ⟨r, receivedBy_last hm hr, rfl, Nat.le_refl _⟩

theorem sendQuery_careful {ns : NextNs} {node : Name} {kind : RecordType} {log : List Event} :
    Careful p B (OverheardAll p) log (sendQuery p ns node kind) := by
  unfold sendQuery
  refine Careful.bind (Q := fun _ _ => True) (fun i => Careful.skip) fun id _ _ _ => ?_
  refine Careful.skip.bind fun bytes _ _ _ => ?_
  refine sendUdpPacket_careful.bind fun reply _ _ hr => ?_
  refine Careful.done fun m hm => ?_
  unfold acceptResponse at hm
  cases hd : Message.decodeFromBytes p reply with
  | ok resp =>
    rw [hd] at hm
    simp only at hm
    by_cases hid : resp.header.id ≠ id
    · rw [if_pos hid] at hm; cases hm
    · rw [if_neg hid] at hm
      cases hm
      exact hr _ hd
  | err e => rw [hd] at hm; cases hm
  | panic k => rw [hd] at hm; cases hm
  | diverge => rw [hd] at hm; cases hm

theorem sendRetries_careful {ns : NextNs} {node : Name} {kind : RecordType} :
    ∀ (n : Nat) (e : Option LookupErr) (log : List Event), Careful p B (OverheardAll p) log (sendQueryWithRetries p ns node kind n e)
  | 0, some e, _ => Careful.throw
  | 0, none, _ => Careful.panic
  | n + 1, e, _ => by
    unfold sendQueryWithRetries
    refine (Careful.attempt sendQuery_careful).bind fun x _ _ hx => ?_
    cases x with
    | inr resp => exact Careful.pure (hx _ rfl)
    | inl e' => exact sendRetries_careful n _ _

/-- What is known of an interpreted response. -/
def OverheardMeaning (p : Profile) (kind : RecordType) (log : List Event) : NsResponse → Prop
  | .noDomain soa => ∀ r ∈ soa, Overheard p log r
  | .answer answers additionals => (∀ r ∈ answers, r.recordType = kind ∧ Overheard p log r) ∧ ∀ r ∈ additionals, Overheard p log r
  | .alias cname _ => cname.recordType = .CNAME ∧ Overheard p log cname
  | .delegation nss => ∀ ns ∈ nss, Overheard p log ns.nsRecord ∧ ns.nsRecord.recordType = .NS ∧
      ∀ r ∈ ns.aRecords, r.recordType = .A ∧ Overheard p log r

theorem interpret_told {resp : Message} {node : Name} {kind : RecordType} {zone : Name} {r : NsResponse} {log : List Event}
    (hr : OverheardAll p log resp) (h : interpret resp node kind zone = .ok r) : OverheardMeaning p kind log r := by
  have hans : ∀ r ∈ resp.answers, Overheard p log r := fun r hr' => hr r (by simp [hr'])
  have haut : ∀ r ∈ resp.authorities, Overheard p log r := fun r hr' => hr r (by simp [hr'])
  have hadd : ∀ r ∈ resp.additionals, Overheard p log r := fun r hr' => hr r (by simp [hr'])
  unfold interpret at h
  cases hc : resp.header.respCode with
  | NoError =>
    rw [hc] at h
    simp only at h
    by_cases hl : (extractRecords resp.answers kind node).1.length > 0
    · rw [if_pos hl] at h
      cases h
      exact ⟨fun x hx => ⟨(mem_extracted hx).2.2, hans x (mem_extracted hx).1⟩, hadd⟩
    · rw [if_neg hl] at h
      cases he : extractRecord (extractRecords resp.answers kind node).2 .CNAME node with
      | mk o l =>
      rw [he] at h
      cases o with
      | some cname =>
        simp only at h
        obtain ⟨t, ht, h⟩ := Out.of_bind_ok h
        obtain ⟨nss, -, h⟩ := Out.of_bind_ok h
        cases h
        have hs := extractRecord_spec (r := cname) (congrArg Prod.fst he)
        exact ⟨cnameData_type ht, hans _ (mem_left hs.1)⟩
      | none =>
        simp only at h
        obtain ⟨nss, h1, h⟩ := Out.of_bind_ok h
        by_cases h0 : nss.length > 0
        · rw [if_pos h0] at h
          cases h
          unfold extractNextNssForSubzone at h1
          intro ns hns
          obtain ⟨a1, a2⟩ := pairWithAddrs_mem hadd h1 ns hns
          have hm := List.mem_filter.1 a1
          have hk := hm.2
          rw [Bool.and_eq_true, beq_iff_eq] at hk
          exact ⟨haut _ hm.1, hk.1, a2⟩
        · rw [if_neg h0] at h; cases h
  | NxDomain =>
    rw [hc] at h
    simp only at h
    by_cases haa : resp.header.authAnswer = true
    · rw [if_pos haa] at h
      cases h
      exact fun r hr' => haut _ (extractRecord_spec hr').1
    · rw [if_neg haa] at h; cases h
  | FormErr => rw [hc] at h; cases h
  | ServFail => rw [hc] at h; cases h
  | NotImp => rw [hc] at h; cases h
  | Refused => rw [hc] at h; cases h

theorem performRequest_careful {ns : NextNs} {node : Name} {kind : RecordType} {n : Nat} {log : List Event} :
    Careful p B (OverheardMeaning p kind) log (performRequest p ns node kind n) := by
  unfold performRequest
  refine (sendRetries_careful n none log).bind fun resp _ _ hr => ?_
  exact Careful.done fun r h => interpret_told hr h

/-! ## Lookups -/

theorem saveAddrs_careful : ∀ {nss : List NextNs} {log : List Event},
    (∀ ns ∈ nss, ∀ r ∈ ns.aRecords, r.recordType = .A ∧ Overheard p log r) → Careful p B (fun _ _ => True) log (saveAddrs nss)
  | [], _, _ => Careful.pure trivial
  | ns :: nss, log, h => by
    unfold saveAddrs
    have ih : ∀ log', log <+: log' → Careful p B (fun _ _ => True) log' (saveAddrs nss) := fun log' hl =>
      saveAddrs_careful (nss := nss) fun x hx r hr => ⟨(h x (List.mem_cons_of_mem _ hx) r hr).1, told_later (h x (List.mem_cons_of_mem _ hx) r hr).2 hl⟩
    show Careful p B _ log (if ns.aRecords.length > 0 then (saveRecordsInCache ns.aRecords >>= fun _ => saveAddrs nss) else saveAddrs nss)
    by_cases h0 : ns.aRecords.length > 0
    · rw [if_pos h0]
      refine (save_careful (kind := .A) fun r hr => ?_).bind fun _ log' hl _ => ih log' hl
      exact ⟨(h ns List.mem_cons_self r hr).1, .inl (h ns List.mem_cons_self r hr).2⟩
    · rw [if_neg h0]
      exact ih log (List.prefix_refl _)

theorem saveNss_careful {kind : RecordType} {nss : List NextNs} {log : List Event}
    (h : OverheardMeaning p kind log (.delegation nss)) : Careful p B (fun _ _ => True) log (saveNssInCache nss) := by
  unfold saveNssInCache
  refine (saveAddrs_careful fun ns hns => (h ns hns).2.2).bind fun _ log' hl _ => ?_
  refine save_careful (kind := .NS) fun r hr => ?_
  obtain ⟨ns, hns, rfl⟩ := List.mem_map.1 hr
  exact ⟨(h ns hns).2.1, .inl (told_later (h ns hns).1 hl)⟩

theorem findNsRecords_careful : ∀ (ds : List Str) (log : List Event), Careful p B (fun _ _ => True) log (findNsRecords ds)
  | [], _ => Careful.pure trivial
  | d :: ds, log => by
    unfold findNsRecords
    refine Careful.skip.bind fun n log' _ _ => ?_
    refine (search_careful n .NS log').bind fun rs log'' _ _ => ?_
    by_cases h0 : rs.length > 0
    · simp only [if_pos h0]; exact Careful.pure trivial
    · simp only [if_neg h0]; exact findNsRecords_careful ds log''

theorem findAddrs_careful : ∀ (rs : List Record) (log : List Event), Careful p B (fun _ _ => True) log (findAddrs rs)
  | [], _ => Careful.pure trivial
  | r :: rs, log => by
    unfold findAddrs
    refine Careful.skip.bind fun n log' _ _ => ?_
    refine (search_careful n .A log').bind fun as log'' _ _ => ?_
    exact (findAddrs_careful rs log'').bind fun _ _ _ _ => Careful.pure trivial

theorem startingServers_careful (lk : Lookup) (nss : List NextNs) (log : List Event) :
    Careful p B (fun _ _ => True) log (startingServers lk nss) := by
  unfold startingServers
  by_cases h0 : nss.isEmpty
  · rw [if_pos h0]
    unfold searchNssInCache
    exact Careful.bind (Q := fun _ _ => True) ((findNsRecords_careful _ log).bind fun rs log' _ _ => findAddrs_careful rs log')
      fun _ _ _ _ => Careful.pure trivial
  · rw [if_neg h0]
    exact Careful.pure trivial

/-- The sub-lookups, too, are careful. -/
def SubsCareful (p : Profile) (B : Lifetimes) (sub : Lookup → Task Response) : Prop :=
  ∀ lk : Lookup, lk.previousCnames = [] → ∀ log, Careful p B (fun _ _ => True) log (sub lk)

theorem resolveAddrs_careful {sub : Lookup → Task Response} (hsub : SubsCareful p B sub) (lk : Lookup) (ns : NextNs) (log : List Event) :
    Careful p B (fun _ _ => True) log (resolveAddrs sub lk ns) := by
  unfold resolveAddrs
  refine Careful.skip.bind fun as log1 _ _ => ?_
  by_cases h0 : as.isEmpty
  · rw [if_pos h0]
    refine Careful.skip.bind fun n log2 _ _ => ?_
    refine (Careful.attempt (Q := fun _ _ => True) ?_).bind fun x _ _ _ => ?_
    · unfold resolveNsSubquery
      refine Careful.skip.bind fun _ log3 _ _ => ?_
      exact (hsub _ rfl log3).bind fun _ _ _ _ => Careful.pure trivial
    · cases x with
      | inl e => exact Careful.throw
      | inr rs => exact Careful.pure trivial
  · rw [if_neg h0]
    exact Careful.pure trivial

theorem tryServers_careful {sub : Lookup → Task Response} (hsub : SubsCareful p B sub) (lk : Lookup) :
    ∀ (nss : List NextNs) (e : Option LookupErr) (log : List Event), Careful p B (OverheardMeaning p lk.kind) log (tryServers p sub lk nss e)
  | [], some e, _ => Careful.throw
  | [], none, _ => Careful.panic
  | ns :: nss, e, log => by
    unfold tryServers
    refine (Careful.attempt (Q := OverheardMeaning p lk.kind) ?_).bind fun x log' _ hx => ?_
    · unfold tryServer
      refine (resolveAddrs_careful hsub lk ns log).bind fun ns' _ _ _ => ?_
      exact Careful.emit.bind fun _ _ _ _ => performRequest_careful
    · cases x with
      | inr r => exact Careful.pure (hx _ rfl)
      | inl e' => exact tryServers_careful hsub lk nss _ log'

theorem query_careful {sub : Lookup → Task Response} (hsub : SubsCareful p B sub) (lk : Lookup) :
    ∀ (fuel : Nat) (nss : List NextNs) (log : List Event), Careful p B (OverheardMeaning p lk.kind) log (queryIteratively p sub lk fuel nss)
  | 0, _, _ => Careful.done fun _ h => by cases h
  | fuel + 1, nss, log => by
    unfold queryIteratively
    by_cases h0 : nss.length = 0
    · rw [if_pos h0]; exact Careful.panic
    · rw [if_neg h0]
      refine (tryServers_careful hsub lk _ none log).bind fun r log' _ hr => ?_
      cases r with
      | delegation nextNss =>
        refine (saveNss_careful hr).bind fun _ log'' _ _ => ?_
        exact query_careful hsub lk fuel nextNss log''
      | answer a b => exact Careful.pure hr
      | «alias» a b => exact Careful.pure hr
      | noDomain a => exact Careful.pure hr

theorem handleCname_careful {lk : Lookup} {cname : Record} {log : List Event} (hl : Timely p B log cname) :
    Careful p B (fun _ lk' => ∃ t, lk' = { lk with node := t, previousCnames := lk.previousCnames ++ [cname] }) log (handleCname lk cname) := by
  unfold handleCname
  refine Careful.bind (Q := fun log' _ => log' = log ∧ cname.recordType = .CNAME) ?_ fun t log' _ hk => ?_
  · exact Careful.done fun a h => ⟨rfl, cnameData_type h⟩
  obtain ⟨rfl, hk⟩ := hk
  refine Careful.bind (Q := fun log'' _ => log'' = log') (Careful.done fun a h => rfl) fun _ log'' _ hw => ?_
  subst hw
  by_cases h0 : lk.conf.noFollowCname
  · rw [if_pos h0]; exact Careful.throw
  · rw [if_neg h0]
    refine Careful.bind (Q := fun _ _ => True) ?_ fun _ _ _ _ => Careful.pure ⟨t, rfl⟩
    refine save_careful (kind := .CNAME) fun r hr => ?_
    rw [List.mem_singleton.1 hr]
    refine ⟨hk, ?_⟩
    rcases hl with h | h
    · exact .inl h
    · rw [if_pos hk] at h; exact .inr ⟨rfl, h⟩

/-- All records may be given out. -/
def TimelyAll (p : Profile) (B : Lifetimes) (log : List Event) (r : Response) : Prop :=
  ∀ x ∈ r.answers ++ r.authorities ++ r.additionals, Timely p B log x

theorem performLoop_careful {sub : Lookup → Task Response} (hsub : SubsCareful p B sub) (fuel : Nat) :
    ∀ (rounds : Nat) (lk : Lookup) (nss : List NextNs) (log : List Event), (∀ x ∈ lk.previousCnames, Timely p B log x) →
      Careful p B (TimelyAll p B) log (performLoop p sub fuel rounds lk nss)
  | 0, _, _, _, _ => Careful.throw
  | rounds + 1, lk, nss, log, hp => by
    unfold performLoop
    have again : ∀ (cname : Record) (nss : List NextNs) (log' : List Event), log <+: log' → Timely p B log' cname →
        Careful p B (TimelyAll p B) log' (handleCname lk cname >>= fun lk' => performLoop p sub fuel rounds lk' nss) := by
      intro cname nss log' hl hf
      refine (handleCname_careful hf).bind ?_
      rintro _ log'' hl' ⟨t, rfl⟩
      refine performLoop_careful hsub fuel rounds _ nss log'' fun x hx => ?_
      rcases List.mem_append.1 hx with h | h
      · exact timely_later (hp x h) (hl.trans hl')
      · rw [List.mem_singleton.1 h]; exact timely_later hf hl'
    refine Careful.emit.bind fun _ log1 l1 _ => ?_
    refine (search_careful lk.node lk.kind log1).bind fun cached log2 l2 hc => ?_
    by_cases h0 : cached.length > 0
    · simp only [if_pos h0]
      refine Careful.pure ?_
      intro x hx
      simp only [List.append_nil, List.mem_append] at hx
      rcases hx with h | h
      · exact timely_later (hp x h) (l1.trans l2)
      · exact .inr (hc x h).2
    · simp only [if_neg h0]
      refine (search_careful lk.node .CNAME log2).bind fun cnames log3 l3 hcn => ?_
      have l03 := (l1.trans l2).trans l3
      cases cnames with
      | cons cname rest => exact again cname [] log3 l03 (.inr (hcn cname (by simp)).2)
      | nil =>
        simp only
        refine (startingServers_careful lk nss log3).bind fun nss' log4 l4 _ => ?_
        refine (query_careful hsub lk fuel nss' log4).bind fun r log5 l5 hr => ?_
        have l05 := (l03.trans l4).trans l5
        cases r with
        | answer answers additionals =>
          simp only
          refine (save_careful (fun r hr' => ⟨(hr.1 r hr').1, .inl (hr.1 r hr').2⟩)).bind fun _ log6 l6 _ => ?_
          refine Careful.pure ?_
          intro x hx
          simp only [List.append_nil, List.mem_append] at hx
          rcases hx with (h | h) | h
          · exact timely_later (hp x h) (l05.trans l6)
          · exact .inl (told_later (hr.1 x h).2 l6)
          · exact .inl (told_later (hr.2 x h) l6)
        | «alias» cname nextNss => exact again cname nextNss log5 l05 (.inl hr.2)
        | noDomain soa =>
          simp only
          refine Careful.pure ?_
          intro x hx
          simp only [List.append_nil, List.mem_append] at hx
          rcases hx with h | h
          · exact timely_later (hp x h) l05
          · exact .inl (hr x (by simpa using h))
        | delegation nss'' => exact Careful.panic

theorem perform_careful : ∀ (fuel : Nat) (lk : Lookup) (log : List Event), (∀ x ∈ lk.previousCnames, Timely p B log x) →
    Careful p B (TimelyAll p B) log (perform p fuel lk)
  | 0, _, _, _ => Careful.done fun _ h => by cases h
  | fuel + 1, lk, log, hp => by
    unfold perform
    exact performLoop_careful (fun lk' h log' => (perform_careful fuel lk' log' (by rw [h]; simp)).mono fun _ _ _ _ => trivial) fuel _ lk [] log hp

end Steps

end Ariadne.Resolver
