import Verif.Lemmas.AgeThreads
import Verif.Lemmas.Logs
import Verif.Lemmas.Trace
import Mathlib.Logic.Relation

/-! # Whom the resolver asks, and what -/

namespace Ariadne.Resolver

open Spec

/-- The question of the client, and what is known of the records that are in the cache at one time or another. -/
structure Knowledge where
  question : Name × RecordType
  known : Record → Prop
  closed : ∀ {r r' : Record}, known r → content r' = content r → known r'

variable (p : Profile) (B : Knowledge)

/-- The record has been received by this thread, or found in the cache. -/
def Learnt (log : List Event) (x : Record) : Prop := (∃ r ∈ receivedBy p log, content r = content x) ∨ B.known x

/-- The record may be in the cache under this key. -/
def Fitting (key : Name × RecordType) (x : Record) : Prop := x.recordType = key.2 ∧ (key.2 ≠ .NS → x.node = key.1)

/-- The second name has been learnt to be an alias of the first. -/
def AliasOf (log : List Event) (a b : Name) : Prop := ∃ x, Learnt p B log x ∧ x.node = a ∧ x.data = .CNAME b

/-- The name and type may be asked for. -/
def Permitted (log : List Event) (name : Name) (kind : RecordType) : Prop :=
  (kind = B.question.2 ∧ Relation.ReflTransGen (AliasOf p B log) B.question.1 name) ∨
    (kind = .A ∧ ∃ x, Learnt p B log x ∧ x.data = .NS name)

/-- The address may be sent to. -/
def AddressOk (log : List Event) (addr : Ip4) : Prop :=
  (∃ s ∈ rootServers, s.2 = addr) ∨ ∃ t x y, Learnt p B log x ∧ x.data = .NS t ∧ Learnt p B log y ∧ y.node = t ∧ y.data = .A addr

/-- The query may be sent. -/
def QueryOk (log : List Event) (addr : Ip4) (bytes : List UInt8) : Prop :=
  AddressOk p B log addr ∧ ∃ id name kind, Permitted p B log name kind ∧ QueryFor id name kind bytes

/-- Whatever the thread finds in the cache, as long as it may be there, and whatever it receives: what it saves may be in the cache, what it sends may be
sent, and its result satisfies `Q`. -/
def Asking {α : Type} (Q : List Event → α → Prop) : List Event → Task α → Prop
  | log, .done o => ∀ a, o = .ok a → Q log a
  | log, .emit e k => Asking Q (log ++ [e]) k
  | log, .now k => ∀ t, Asking Q log (k t)
  | log, .randomId k => ∀ i, Asking Q log (k i)
  | log, .send addr bytes k => QueryOk p B log addr bytes ∧ ∀ reply, Asking Q (log ++ [.exchange addr bytes reply]) (k reply)
  | log, .get key k => ∀ r, (∀ exp rs, r = some (exp, rs) → ∀ x ∈ rs, Fitting key x ∧ B.known x) → Asking Q log (k r)
  | log, .set key _ records k => (∀ x ∈ records, Fitting key x ∧ Learnt p B log x) ∧ Asking Q log k

variable {p B} {α β : Type}

theorem learnt_later {log log' : List Event} {x : Record} (h : Learnt p B log x) (hl : log <+: log') : Learnt p B log' x := by
  rcases h with ⟨r, hr, h⟩ | h
  · obtain ⟨s, rfl⟩ := hl
    exact .inl ⟨r, by rw [receivedBy_append]; exact List.mem_append_left _ hr, h⟩
  · exact .inr h

theorem learnt_same {log : List Event} {x y : Record} (h : Learnt p B log x) (hc : content y = content x) : Learnt p B log y := by
  rcases h with ⟨r, hr, h⟩ | h
  · exact .inl ⟨r, hr, h.trans hc.symm⟩
  · exact .inr (B.closed h hc)

theorem aliases_later {log log' : List Event} {a b : Name} (h : Relation.ReflTransGen (AliasOf p B log) a b) (hl : log <+: log') :
    Relation.ReflTransGen (AliasOf p B log') a b := by
  refine Relation.ReflTransGen.mono (fun a b => ?_) _ _ h
  rintro ⟨x, h1, h2⟩
  exact ⟨x, learnt_later h1 hl, h2⟩

theorem permitted_later {log log' : List Event} {name : Name} {kind : RecordType} (h : Permitted p B log name kind) (hl : log <+: log') :
    Permitted p B log' name kind := by
  rcases h with ⟨h, h1⟩ | ⟨h, x, h1, h2⟩
  · exact .inl ⟨h, aliases_later h1 hl⟩
  · exact .inr ⟨h, x, learnt_later h1 hl, h2⟩

namespace Asking

theorem mono {Q Q' : List Event → α → Prop} {t : Task α} : ∀ {log : List Event}, Asking p B Q log t →
    (∀ log' a, log <+: log' → Q log' a → Q' log' a) → Asking p B Q' log t := by
  induction t with
  | done o => exact fun h hq a ha => hq _ a (List.prefix_refl _) (h a ha)
  | emit e k ih => exact fun h hq => ih (log := _) h fun log' a hl => hq log' a ((List.prefix_append _ _).trans hl)
  | now k ih => exact fun h hq t => ih t (h t) hq
  | randomId k ih => exact fun h hq i => ih i (h i) hq
  | send addr bytes k ih => exact fun h hq => ⟨h.1, fun r => ih r (h.2 r) fun log' a hl => hq log' a ((List.prefix_append _ _).trans hl)⟩
  | get key k ih => exact fun h hq r hr => ih r (h r hr) hq
  | set key ttl records k ih => exact fun h hq => ⟨h.1, ih h.2 hq⟩

theorem bind {Q : List Event → α → Prop} {Q' : List Event → β → Prop} {f : α → Task β} {t : Task α} : ∀ {log : List Event},
    Asking p B Q log t → (∀ a log', log <+: log' → Q log' a → Asking p B Q' log' (f a)) → Asking p B Q' log (t >>= f) := by
  induction t with
  | done o =>
    intro log h hf
    cases o with
    | ok a => exact hf a log (List.prefix_refl _) (h a rfl)
    | err e => intro a ha; cases ha
    | panic e => intro a ha; cases ha
    | diverge => intro a ha; cases ha
  | emit e k ih => exact fun h hf => ih (log := _) h fun a log' hl => hf a log' ((List.prefix_append _ _).trans hl)
  | now k ih => exact fun h hf t => ih t (h t) hf
  | randomId k ih => exact fun h hf i => ih i (h i) hf
  | send addr bytes k ih => exact fun h hf => ⟨h.1, fun r => ih r (h.2 r) fun a log' hl => hf a log' ((List.prefix_append _ _).trans hl)⟩
  | get key k ih => exact fun h hf r hr => ih r (h r hr) hf
  | set key ttl records k ih => exact fun h hf => ⟨h.1, ih h.2 hf⟩

theorem attempt {Q : List Event → α → Prop} {t : Task α} : ∀ {log : List Event}, Asking p B Q log t →
    Asking p B (fun log' x => ∀ a, x = .inr a → Q log' a) log t.attempt := by
  induction t with
  | done o =>
    intro log h
    cases o with
    | ok a => intro x hx; cases hx; rintro a' h'; cases h'; exact h a rfl
    | err e => intro x hx; cases hx; rintro a' h'; cases h'
    | panic e => intro a ha; cases ha
    | diverge => intro a ha; cases ha
  | emit e k ih => exact fun h => ih (log := _) h
  | now k ih => exact fun h t => ih t (h t)
  | randomId k ih => exact fun h i => ih i (h i)
  | send addr bytes k ih => exact fun h => ⟨h.1, fun r => ih r (h.2 r)⟩
  | get key k ih => exact fun h r hr => ih r (h r hr)
  | set key ttl records k ih => exact fun h => ⟨h.1, ih h.2⟩

theorem pure {Q : List Event → α → Prop} {log : List Event} {a : α} (h : Q log a) : Asking p B Q log (Pure.pure a : Task α) := by
  intro a' ha; cases ha; exact h

theorem done {Q : List Event → α → Prop} {log : List Event} {o : Out LookupErr α} (h : ∀ a, o = .ok a → Q log a) :
    Asking p B Q log (.done o : Task α) := h

/-- A result that does not depend on the world. -/
theorem lift {Q : List Event → α → Prop} {log : List Event} {o : Out LookupErr α} :
    Asking p B (fun log' a => log' = log ∧ o = .ok a) log (.done o : Task α) := fun _ h => ⟨rfl, h⟩

theorem throw {Q : List Event → α → Prop} {log : List Event} {e : LookupErr} : Asking p B Q log (.done (.err e) : Task α) :=
  fun a h => by cases h

theorem panic {Q : List Event → α → Prop} {log : List Event} {e : Panic} : Asking p B Q log (.done (.panic e) : Task α) :=
  fun a h => by cases h

theorem emit {log : List Event} {e : Event} : Asking p B (fun _ _ => True) log (.emit e (.done (.ok ())) : Task Unit) :=
  fun _ _ => trivial

end Asking

namespace Steps

/-! ## The cache -/

theorem search_asks (node : Name) (kind : RecordType) (log : List Event) :
    Asking p B (fun _ rs => ∀ x ∈ rs, Fitting (node, kind) x ∧ B.known x) log (searchRecordsInCache node kind) := by
  intro before r hr
  cases r with
  | none => exact Asking.pure (fun x hx => by cases hx)
  | some e =>
    obtain ⟨exp, recs⟩ := e
    have hset := hr exp recs rfl
    intro rs hrs
    unfold serveCached at hrs
    cases recs with
    | nil => cases hrs; simp
    | cons r0 rest =>
      simp only at hrs
      split at hrs
      · cases hrs
      split at hrs
      · cases hrs
      split at hrs
      · cases hrs
      cases hrs
      intro x hx
      obtain ⟨r', hr', rfl⟩ := List.mem_map.1 hx
      obtain ⟨h1, h2⟩ := hset r' hr'
      exact ⟨h1, B.closed h2 rfl⟩

theorem save_asks {rs : List Record} {kind : RecordType} {log : List Event} {node : Name}
    (h : ∀ x ∈ rs, Fitting (node, kind) x ∧ Learnt p B log x) : Asking p B (fun _ _ => True) log (saveRecordsInCache rs) := by
  cases rs with
  | nil => exact Asking.panic
  | cons r0 rest =>
    unfold saveRecordsInCache
    dsimp only
    split
    · exact Asking.panic
    · obtain ⟨⟨ht0, hn0⟩, -⟩ := h r0 (by simp)
      refine ⟨fun x hx => ?_, fun _ _ => trivial⟩
      obtain ⟨r', hr', rfl⟩ := List.mem_map.1 hx
      obtain ⟨⟨e1, e2⟩, e3⟩ := h r' hr'
      dsimp only at e1 e2 ht0 hn0
      refine ⟨⟨(show r'.recordType = r0.recordType from e1.trans ht0.symm), fun hk => ?_⟩, learnt_later (learnt_same e3 rfl) (List.prefix_append _ _)⟩
      have hk' : kind ≠ .NS := by rw [← ht0]; exact hk
      exact (e2 hk').trans (hn0 hk').symm

/-! ## Servers -/

/-- The server was named by a record, its addresses are those of its name; or it is a root server. -/
def LearntNs (p : Profile) (B : Knowledge) (log : List Event) (ns : NextNs) : Prop :=
  ns ∈ rootZoneNameservers ∨
    ∃ t, ns.nsRecord.data = .NS t ∧ Learnt p B log ns.nsRecord ∧ ∀ r ∈ ns.aRecords, r.recordType = .A ∧ r.node = t ∧ Learnt p B log r

theorem learntNs_later {log log' : List Event} {ns : NextNs} (h : LearntNs p B log ns) (hl : log <+: log') : LearntNs p B log' ns := by
  rcases h with h | ⟨t, h1, h2, h3⟩
  · exact .inl h
  · exact .inr ⟨t, h1, learnt_later h2 hl, fun r hr => ⟨(h3 r hr).1, (h3 r hr).2.1, learnt_later (h3 r hr).2.2 hl⟩⟩

theorem root_addrs {ns : NextNs} (h : ns ∈ rootZoneNameservers) : ∃ s ∈ rootServers, (ns.addrs : Out LookupErr (List Ip4)) = .ok [s.2] := by
  obtain ⟨s, hs, rfl⟩ := List.mem_map.1 h
  exact ⟨s, hs, rfl⟩

/-- All the records of the message have been learnt. -/
def LearntAll (p : Profile) (B : Knowledge) (log : List Event) (m : Message) : Prop :=
  ∀ r ∈ m.answers ++ m.authorities ++ m.additionals, Learnt p B log r

theorem sendUdpPacket_asks {ns : NextNs} {bytes : List UInt8} {id : UInt16} {name : Name} {kind : RecordType} {log : List Event}
    (hns : LearntNs p B log ns) (hp : Permitted p B log name kind) (hq : QueryFor id name kind bytes) :
    Asking p B (fun log' reply => ∀ m, Message.decodeFromBytes p reply = .ok m → LearntAll p B log' m) log (sendUdpPacket ns bytes) := by
  unfold sendUdpPacket
  refine (Asking.lift (Q := fun _ _ => True)).bind fun as log' _ h => ?_
  obtain ⟨rfl, has⟩ := h
  cases hh : as.head? with
  | none => exact Asking.panic
  | some addr =>
    obtain ⟨tl, rfl⟩ := List.head?_eq_some_iff.1 hh
    refine ⟨⟨?_, id, name, kind, hp, hq⟩, fun reply => ?_⟩
    · rcases hns with hroot | ⟨t, h1, h2, h3⟩
      · obtain ⟨s, hs, e⟩ := root_addrs hroot
        rw [e] at has
        injection has with has
        exact .inl ⟨s, hs, (List.cons.inj has).1⟩
      · obtain ⟨r, hr, hd⟩ := addrsOf_head has
        have hm := List.mem_of_mem_head? hr
        exact .inr ⟨t, ns.nsRecord, r, h2, h1, (h3 r hm).2.2, (h3 r hm).2.1, hd⟩
    · cases reply with
      | none => exact Asking.throw
      | some raw =>
        intro a ha
        cases ha
        intro m hm r hr
        exact .inl ⟨r, receivedBy_last hm hr, rfl⟩

theorem sendQuery_asks {ns : NextNs} {node : Name} {kind : RecordType} {log : List Event}
    (hns : LearntNs p B log ns) (hp : Permitted p B log node kind) : Asking p B (LearntAll p B) log (sendQuery p ns node kind) := by
  unfold sendQuery
  refine Asking.bind (Q := fun log' _ => log' = log) (fun i a h => rfl) fun id log' _ hl => ?_
  subst hl
  refine (Asking.lift (Q := fun _ _ => True)).bind fun bytes log' _ h => ?_
  obtain ⟨rfl, hb⟩ := h
  have hq : QueryFor id node kind bytes := by
    unfold encodeUnwrap at hb
    show (buildDnsRequest id node kind).encodeToBytes = .ok bytes
    revert hb
    cases (buildDnsRequest id node kind).encodeToBytes with
    | ok b => intro hb; injection hb with hb; rw [hb]
    | err e => intro hb; cases hb
    | panic k => intro hb; cases hb
    | diverge => intro hb; cases hb
  refine (sendUdpPacket_asks hns hp hq).bind fun reply _ _ hr => ?_
  refine Asking.done fun m hm => ?_
  unfold acceptResponse at hm
  cases hd : Message.decodeFromBytes p reply with
  | ok resp =>
    rw [hd] at hm
    simp only at hm
    by_cases hid : resp.header.id ≠ id
    · rw [if_pos hid] at hm; cases hm
    · rw [if_neg hid] at hm
      cases hm
      exact hr _ hd
  | err e => rw [hd] at hm; cases hm
  | panic k => rw [hd] at hm; cases hm
  | diverge => rw [hd] at hm; cases hm

theorem sendRetries_asks {ns : NextNs} {node : Name} {kind : RecordType} :
    ∀ (n : Nat) (e : Option LookupErr) (log : List Event), LearntNs p B log ns → Permitted p B log node kind →
      Asking p B (LearntAll p B) log (sendQueryWithRetries p ns node kind n e)
  | 0, some e, _, _, _ => Asking.throw
  | 0, none, _, _, _ => Asking.panic
  | n + 1, e, _, hns, hp => by
    unfold sendQueryWithRetries
    refine (Asking.attempt (sendQuery_asks hns hp)).bind fun x _ hl hx => ?_
    cases x with
    | inr resp => exact Asking.pure (hx _ rfl)
    | inl e' => exact sendRetries_asks n _ _ (learntNs_later hns hl) (permitted_later hp hl)

/-- What is known of an interpreted response. -/
def LearntMeaning (p : Profile) (B : Knowledge) (node : Name) (kind : RecordType) (log : List Event) : NsResponse → Prop
  | .noDomain _ => True
  | .answer answers _ => ∀ r ∈ answers, r.node = node ∧ r.recordType = kind ∧ Learnt p B log r
  | .alias cname nss => (cname.recordType = .CNAME ∧ cname.node = node ∧ Learnt p B log cname) ∧ ∀ ns ∈ nss, LearntNs p B log ns
  | .delegation nss => ∀ ns ∈ nss, ns.nsRecord.recordType = .NS ∧ Learnt p B log ns.nsRecord ∧ LearntNs p B log ns ∧
      ∃ t, ∀ r ∈ ns.aRecords, r.recordType = .A ∧ r.node = t ∧ Learnt p B log r

theorem pairWithAddrs_named {P : Record → Prop} {keep : NextNs → Out LookupErr Bool} : ∀ {rs ad : List Record} {nss : List NextNs},
    (∀ r ∈ ad, P r) → pairWithAddrs keep rs ad = .ok nss → ∀ ns ∈ nss, ns.nsRecord ∈ rs ∧
      ∃ t, ns.nsRecord.data = .NS t ∧ ∀ r ∈ ns.aRecords, r.recordType = .A ∧ r.node = t ∧ P r
  | [], ad, nss, _, h => by unfold pairWithAddrs at h; cases h; simp
  | r :: rs, ad, nss, hf, h => by
    unfold pairWithAddrs at h
    obtain ⟨t, ht, h⟩ := Out.of_bind_ok h
    simp only at h
    obtain ⟨b, hb, h⟩ := Out.of_bind_ok h
    obtain ⟨rest, hrest, h⟩ := Out.of_bind_ok h
    have ih := pairWithAddrs_named (P := P) (keep := keep) (rs := rs) (fun x hx => hf x (mem_left hx)) hrest
    have old : ∀ ns ∈ rest, ns.nsRecord ∈ r :: rs ∧ ∃ t, ns.nsRecord.data = .NS t ∧ ∀ r ∈ ns.aRecords, r.recordType = .A ∧ r.node = t ∧ P r :=
      fun ns hns => ⟨List.mem_cons_of_mem _ (ih ns hns).1, (ih ns hns).2⟩
    cases b with
    | false => cases h; exact old
    | true =>
      cases h
      intro ns hns
      rcases List.mem_cons.1 hns with rfl | hns
      · exact ⟨List.mem_cons_self, t, nsData_inv ht, fun x hx => ⟨(mem_extracted hx).2.2, (mem_extracted hx).2.1, hf x (mem_extracted hx).1⟩⟩
      · exact old ns hns

theorem interpret_learnt {resp : Message} {node : Name} {kind : RecordType} {zone : Name} {r : NsResponse} {log : List Event}
    (hr : LearntAll p B log resp) (h : interpret resp node kind zone = .ok r) : LearntMeaning p B node kind log r := by
  have hans : ∀ r ∈ resp.answers, Learnt p B log r := fun r hr' => hr r (by simp [hr'])
  have haut : ∀ r ∈ resp.authorities, Learnt p B log r := fun r hr' => hr r (by simp [hr'])
  have hadd : ∀ r ∈ resp.additionals, Learnt p B log r := fun r hr' => hr r (by simp [hr'])
  unfold interpret at h
  cases hc : resp.header.respCode with
  | NoError =>
    rw [hc] at h
    simp only at h
    by_cases hl : (extractRecords resp.answers kind node).1.length > 0
    · rw [if_pos hl] at h
      cases h
      exact fun x hx => ⟨(mem_extracted hx).2.1, (mem_extracted hx).2.2, hans x (mem_extracted hx).1⟩
    · rw [if_neg hl] at h
      cases he : extractRecord (extractRecords resp.answers kind node).2 .CNAME node with
      | mk o l =>
      rw [he] at h
      cases o with
      | some cname =>
        simp only at h
        obtain ⟨t, ht, h⟩ := Out.of_bind_ok h
        obtain ⟨nss, hnss, h⟩ := Out.of_bind_ok h
        cases h
        have hs := extractRecord_spec (r := cname) (congrArg Prod.fst he)
        refine ⟨⟨cnameData_type ht, hs.2.1, hans _ (mem_left hs.1)⟩, fun ns hns => ?_⟩
        unfold extractNextNssForCname at hnss
        obtain ⟨a1, t', a2, a3⟩ := pairWithAddrs_named hadd hnss ns hns
        exact .inr ⟨t', a2, haut _ (List.mem_filter.1 a1).1, a3⟩
      | none =>
        simp only at h
        obtain ⟨nss, h1, h⟩ := Out.of_bind_ok h
        by_cases h0 : nss.length > 0
        · rw [if_pos h0] at h
          cases h
          unfold extractNextNssForSubzone at h1
          intro ns hns
          obtain ⟨a1, t, a2, a3⟩ := pairWithAddrs_named hadd h1 ns hns
          have hm := List.mem_filter.1 a1
          have hk := hm.2
          rw [Bool.and_eq_true, beq_iff_eq] at hk
          exact ⟨hk.1, haut _ hm.1, .inr ⟨t, a2, haut _ hm.1, a3⟩, t, a3⟩
        · rw [if_neg h0] at h; cases h
  | NxDomain =>
    rw [hc] at h
    simp only at h
    by_cases haa : resp.header.authAnswer = true
    · rw [if_pos haa] at h
      cases h
      exact trivial
    · rw [if_neg haa] at h; cases h
  | FormErr => rw [hc] at h; cases h
  | ServFail => rw [hc] at h; cases h
  | NotImp => rw [hc] at h; cases h
  | Refused => rw [hc] at h; cases h

theorem performRequest_asks {ns : NextNs} {node : Name} {kind : RecordType} {n : Nat} {log : List Event} (hns : LearntNs p B log ns)
    (hp : Permitted p B log node kind) : Asking p B (LearntMeaning p B node kind) log (performRequest p ns node kind n) := by
  unfold performRequest
  refine (sendRetries_asks n none log hns hp).bind fun resp _ _ hr => ?_
  exact Asking.done fun r h => interpret_learnt hr h

/-! ## Lookups -/

theorem saveAddrs_asks : ∀ {nss : List NextNs} {log : List Event},
    (∀ ns ∈ nss, ∃ t, ∀ r ∈ ns.aRecords, r.recordType = .A ∧ r.node = t ∧ Learnt p B log r) → Asking p B (fun _ _ => True) log (saveAddrs nss)
  | [], _, _ => Asking.pure trivial
  | ns :: nss, log, h => by
    unfold saveAddrs
    have ih : ∀ log', log <+: log' → Asking p B (fun _ _ => True) log' (saveAddrs nss) := fun log' hl =>
      saveAddrs_asks (nss := nss) fun x hx => by
        obtain ⟨t, ht⟩ := h x (List.mem_cons_of_mem _ hx)
        exact ⟨t, fun r hr => ⟨(ht r hr).1, (ht r hr).2.1, learnt_later (ht r hr).2.2 hl⟩⟩
    show Asking p B _ log (if ns.aRecords.length > 0 then (saveRecordsInCache ns.aRecords >>= fun _ => saveAddrs nss) else saveAddrs nss)
    by_cases h0 : ns.aRecords.length > 0
    · rw [if_pos h0]
      obtain ⟨t, ht⟩ := h ns List.mem_cons_self
      refine (save_asks (kind := .A) (node := t) fun r hr => ?_).bind fun _ log' hl _ => ih log' hl
      exact ⟨⟨(ht r hr).1, fun _ => (ht r hr).2.1⟩, (ht r hr).2.2⟩
    · rw [if_neg h0]
      exact ih log (List.prefix_refl _)

theorem saveNss_asks {node : Name} {kind : RecordType} {nss : List NextNs} {log : List Event}
    (h : LearntMeaning p B node kind log (.delegation nss)) : Asking p B (fun _ _ => True) log (saveNssInCache nss) := by
  unfold saveNssInCache
  refine (saveAddrs_asks fun ns hns => (h ns hns).2.2.2).bind fun _ log' hl _ => ?_
  refine save_asks (kind := .NS) (node := node) fun r hr => ?_
  obtain ⟨ns, hns, rfl⟩ := List.mem_map.1 hr
  exact ⟨⟨(h ns hns).1, fun hk => absurd rfl hk⟩, learnt_later (h ns hns).2.1 hl⟩

theorem findNsRecords_asks : ∀ (ds : List Str) (log : List Event), Asking p B (fun _ rs => ∀ r ∈ rs, B.known r) log (findNsRecords ds)
  | [], _ => Asking.pure (fun _ h => by cases h)
  | d :: ds, log => by
    unfold findNsRecords
    refine (Asking.lift (Q := fun _ _ => True)).bind fun n log' _ _ => ?_
    refine (search_asks n .NS log').bind fun rs log'' _ hrs => ?_
    by_cases h0 : rs.length > 0
    · simp only [if_pos h0]; exact Asking.pure fun r hr => (hrs r hr).2
    · simp only [if_neg h0]; exact findNsRecords_asks ds log''

theorem findAddrs_asks : ∀ (rs : List Record) (log : List Event), (∀ r ∈ rs, B.known r) →
    Asking p B (fun log' nss => ∀ ns ∈ nss, LearntNs p B log' ns) log (findAddrs rs)
  | [], _, _ => Asking.pure (fun _ h => by cases h)
  | r :: rs, log, h => by
    unfold findAddrs
    refine (Asking.lift (Q := fun _ _ => True)).bind fun n log' _ hn => ?_
    refine (search_asks n .A log').bind fun as log'' _ has => ?_
    refine (findAddrs_asks rs log'' fun x hx => h x (List.mem_cons_of_mem _ hx)).bind fun rest log3 _ hrest => ?_
    refine Asking.pure fun ns hns => ?_
    rcases List.mem_cons.1 hns with rfl | hns
    · exact .inr ⟨n, nsData_inv hn.2, .inr (h r List.mem_cons_self), fun x hx => ⟨(has x hx).1.1, (has x hx).1.2 (fun e => by cases e), .inr (has x hx).2⟩⟩
    · exact hrest ns hns

theorem startingServers_asks (lk : Lookup) (nss : List NextNs) (log : List Event) (h : ∀ ns ∈ nss, LearntNs p B log ns) :
    Asking p B (fun log' nss' => ∀ ns ∈ nss', LearntNs p B log' ns) log (startingServers lk nss) := by
  unfold startingServers
  by_cases h0 : nss.isEmpty
  · rw [if_pos h0]
    unfold searchNssInCache
    refine Asking.bind ((findNsRecords_asks _ log).bind fun rs log' _ hrs => findAddrs_asks rs log' hrs) fun cached log' _ hc => ?_
    refine Asking.pure ?_
    split
    · exact fun ns hns => .inl hns
    · exact hc
  · rw [if_neg h0]
    exact Asking.pure h

/-- What is known of a lookup in progress. -/
def Proper (p : Profile) (B : Knowledge) (log : List Event) (lk : Lookup) : Prop :=
  Permitted p B log lk.node lk.kind ∧ (lk.conf.noFollowCname = false → lk.kind = B.question.2 ∧ Relation.ReflTransGen (AliasOf p B log) B.question.1 lk.node) ∧ ∀ x ∈ lk.previousCnames, Learnt p B log x

theorem proper_later {log log' : List Event} {lk : Lookup} (h : Proper p B log lk) (hl : log <+: log') : Proper p B log' lk :=
  ⟨permitted_later h.1 hl, fun hf => ⟨(h.2.1 hf).1, aliases_later (h.2.1 hf).2 hl⟩, fun x hx => learnt_later (h.2.2 x hx) hl⟩

/-- The answers of a response have been learnt. -/
def LearntAnswers (p : Profile) (B : Knowledge) (log : List Event) (r : Response) : Prop := ∀ x ∈ r.answers, Learnt p B log x

/-- The sub-lookups, too, ask only what they may. -/
def SubsAsk (p : Profile) (B : Knowledge) (sub : Lookup → Task Response) : Prop :=
  ∀ (lk : Lookup) (log : List Event), Proper p B log lk → Asking p B (LearntAnswers p B) log (sub lk)

theorem resolveAddrs_asks {sub : Lookup → Task Response} (hsub : SubsAsk p B sub) (lk : Lookup) (ns : NextNs) (log : List Event)
    (hns : LearntNs p B log ns) : Asking p B (LearntNs p B) log (resolveAddrs sub lk ns) := by
  unfold resolveAddrs
  refine (Asking.lift (Q := fun _ _ => True)).bind fun as log1 _ has => ?_
  obtain ⟨rfl, has⟩ := has
  by_cases h0 : as.isEmpty
  · rw [if_pos h0]
    rcases hns with hroot | ⟨t, h1, h2, h3⟩
    · obtain ⟨s, -, e⟩ := root_addrs hroot
      rw [e] at has
      injection has with has
      subst has
      cases h0
    refine (Asking.lift (Q := fun _ _ => True)).bind fun n log2 _ hn => ?_
    obtain ⟨rfl, hn⟩ := hn
    have ht : n = t := by
      have := nsData_inv hn
      rw [h1] at this
      injection this with this
      exact this.symm
    subst ht
    refine (Asking.attempt (Q := fun log' rs => ∀ x ∈ rs, x.recordType = .A ∧ x.node = n ∧ Learnt p B log' x) ?_).bind fun x log3 hl hx => ?_
    · unfold resolveNsSubquery
      refine (Asking.lift (Q := fun _ _ => True)).bind fun _ log3 _ h => ?_
      obtain ⟨rfl, -⟩ := h
      refine (hsub _ log3 ⟨.inr ⟨rfl, ns.nsRecord, h2, h1⟩, (fun h => by cases h), (fun x hx => by cases hx)⟩).bind fun r log4 _ hr => ?_
      exact Asking.pure fun x hx => ⟨(mem_extracted hx).2.2, (mem_extracted hx).2.1, hr x (mem_extracted hx).1⟩
    · cases x with
      | inl e => exact Asking.throw
      | inr rs => exact Asking.pure (.inr ⟨n, h1, learnt_later h2 hl, hx rs rfl⟩)
  · rw [if_neg h0]
    exact Asking.pure hns

theorem tryServers_asks {sub : Lookup → Task Response} (hsub : SubsAsk p B sub) (lk : Lookup) :
    ∀ (nss : List NextNs) (e : Option LookupErr) (log : List Event), (∀ ns ∈ nss, LearntNs p B log ns) → Permitted p B log lk.node lk.kind →
      Asking p B (LearntMeaning p B lk.node lk.kind) log (tryServers p sub lk nss e)
  | [], some e, _, _, _ => Asking.throw
  | [], none, _, _, _ => Asking.panic
  | ns :: nss, e, log, hn, hp => by
    unfold tryServers
    refine (Asking.attempt (Q := LearntMeaning p B lk.node lk.kind) ?_).bind fun x log' hl hx => ?_
    · unfold tryServer
      refine (resolveAddrs_asks hsub lk ns log (hn ns List.mem_cons_self)).bind fun ns' log1 l1 hns' => ?_
      exact Asking.emit.bind fun _ log2 l2 _ => performRequest_asks (learntNs_later hns' l2) (permitted_later hp (l1.trans l2))
    · cases x with
      | inr r => exact Asking.pure (hx _ rfl)
      | inl e' => exact tryServers_asks hsub lk nss _ log' (fun x h => learntNs_later (hn x (List.mem_cons_of_mem _ h)) hl) (permitted_later hp hl)

theorem query_asks {sub : Lookup → Task Response} (hsub : SubsAsk p B sub) (lk : Lookup) :
    ∀ (fuel : Nat) (nss : List NextNs) (log : List Event), (∀ ns ∈ nss, LearntNs p B log ns) → Permitted p B log lk.node lk.kind →
      Asking p B (LearntMeaning p B lk.node lk.kind) log (queryIteratively p sub lk fuel nss)
  | 0, _, _, _, _ => Asking.done fun _ h => by cases h
  | fuel + 1, nss, log, hn, hp => by
    unfold queryIteratively
    by_cases h0 : nss.length = 0
    · rw [if_pos h0]; exact Asking.panic
    · rw [if_neg h0]
      refine (tryServers_asks hsub lk _ none log (fun ns hns => hn ns (mem_sortNameservers.1 (List.mem_of_mem_take hns))) hp).bind fun r log' hl hr => ?_
      cases r with
      | delegation nextNss =>
        refine (saveNss_asks hr).bind fun _ log'' hl' _ => ?_
        exact query_asks hsub lk fuel nextNss log'' (fun ns hns => learntNs_later (hr ns hns).2.2.1 hl') (permitted_later hp (hl.trans hl'))
      | answer a b => exact Asking.pure hr
      | «alias» a b => exact Asking.pure hr
      | noDomain a => exact Asking.pure hr

theorem handleCname_asks {lk : Lookup} {cname : Record} {log : List Event} (hk : cname.recordType = .CNAME) (hno : cname.node = lk.node) (hc : Learnt p B log cname)
    (hlk : Proper p B log lk) : Asking p B (Proper p B) log (handleCname lk cname) := by
  unfold handleCname
  refine (Asking.lift (Q := fun _ _ => True)).bind fun t log' _ h => ?_
  obtain ⟨rfl, ht⟩ := h
  refine (Asking.lift (Q := fun _ _ => True)).bind fun _ log'' _ h => ?_
  obtain ⟨rfl, -⟩ := h
  by_cases h0 : lk.conf.noFollowCname
  · rw [if_pos h0]; exact Asking.throw
  · rw [if_neg h0]
    refine (save_asks (kind := .CNAME) (node := cname.node) fun r hr => ?_).bind fun _ log3 hl _ => Asking.pure ?_
    · rw [List.mem_singleton.1 hr]
      exact ⟨⟨hk, fun _ => rfl⟩, hc⟩
    · have hd : cname.data = .CNAME t := by
        unfold Record.cnameData at ht
        split at ht
        · cases ht; assumption
        · cases ht
      obtain ⟨k1, k2⟩ := hlk.2.1 (by simpa using h0)
      have chain := (aliases_later k2 hl).tail ⟨cname, learnt_later hc hl, hno, hd⟩
      refine ⟨.inl ⟨k1, chain⟩, fun _ => ⟨k1, chain⟩, fun x hx => ?_⟩
      rcases List.mem_append.1 hx with h | h
      · exact learnt_later (hlk.2.2 x h) hl
      · rw [List.mem_singleton.1 h]; exact learnt_later hc hl

theorem performLoop_asks {sub : Lookup → Task Response} (hsub : SubsAsk p B sub) (fuel : Nat) :
    ∀ (rounds : Nat) (lk : Lookup) (nss : List NextNs) (log : List Event), (∀ ns ∈ nss, LearntNs p B log ns) → Proper p B log lk →
      Asking p B (LearntAnswers p B) log (performLoop p sub fuel rounds lk nss)
  | 0, _, _, _, _, _ => Asking.throw
  | rounds + 1, lk, nss, log, hn, hp => by
    unfold performLoop
    have again : ∀ (cname : Record) (nss : List NextNs) (log' : List Event), log <+: log' → cname.recordType = .CNAME → cname.node = lk.node → Learnt p B log' cname →
        (∀ ns ∈ nss, LearntNs p B log' ns) →
        Asking p B (LearntAnswers p B) log' (handleCname lk cname >>= fun lk' => performLoop p sub fuel rounds lk' nss) := by
      intro cname nss log' hl hk hno hf hnss
      refine (handleCname_asks hk hno hf (proper_later hp hl)).bind fun lk' log'' hl' hlk' => ?_
      exact performLoop_asks hsub fuel rounds lk' nss log'' (fun ns hns => learntNs_later (hnss ns hns) hl') hlk'
    refine Asking.emit.bind fun _ log1 l1 _ => ?_
    refine (search_asks lk.node lk.kind log1).bind fun cached log2 l2 hc => ?_
    by_cases h0 : cached.length > 0
    · simp only [if_pos h0]
      refine Asking.pure ?_
      intro x hx
      rcases List.mem_append.1 hx with h | h
      · exact learnt_later (hp.2.2 x h) (l1.trans l2)
      · exact .inr (hc x h).2
    · simp only [if_neg h0]
      refine (search_asks lk.node .CNAME log2).bind fun cnames log3 l3 hcn => ?_
      have l03 := (l1.trans l2).trans l3
      cases cnames with
      | cons cname rest =>
        exact again cname [] log3 l03 (hcn cname (by simp)).1.1 ((hcn cname (by simp)).1.2 (fun e => by cases e)) (.inr (hcn cname (by simp)).2) (fun _ h => by cases h)
      | nil =>
        simp only
        refine (startingServers_asks lk nss log3 fun ns hns => learntNs_later (hn ns hns) l03).bind fun nss' log4 l4 hn' => ?_
        refine (query_asks hsub lk fuel nss' log4 hn' (permitted_later hp.1 (l03.trans l4))).bind fun r log5 l5 hr => ?_
        have l05 := (l03.trans l4).trans l5
        cases r with
        | answer answers additionals =>
          simp only
          refine (save_asks (node := lk.node) (kind := lk.kind) (fun r hr' => ⟨⟨(hr r hr').2.1, fun _ => (hr r hr').1⟩, (hr r hr').2.2⟩)).bind fun _ log6 l6 _ => ?_
          refine Asking.pure ?_
          intro x hx
          rcases List.mem_append.1 hx with h | h
          · exact learnt_later (hp.2.2 x h) (l05.trans l6)
          · exact learnt_later (hr x h).2.2 l6
        | «alias» cname nextNss => exact again cname nextNss log5 l05 hr.1.1 hr.1.2.1 hr.1.2.2 hr.2
        | noDomain soa =>
          simp only
          exact Asking.pure fun x hx => learnt_later (hp.2.2 x hx) l05
        | delegation nss'' => exact Asking.panic

theorem perform_asks : ∀ (fuel : Nat) (lk : Lookup) (log : List Event), Proper p B log lk → Asking p B (LearntAnswers p B) log (perform p fuel lk)
  | 0, _, _, _ => Asking.done fun _ h => by cases h
  | fuel + 1, lk, log, hp => by
    unfold perform
    exact performLoop_asks (fun lk' log' h => perform_asks fuel lk' log' h) fuel _ lk [] log (fun _ h => by cases h) hp

end Steps

end Ariadne.Resolver
