import Verif.Spec.Delegation
import Verif.Lemmas.Perform
import Verif.Lemmas.Truth
import Verif.Lemmas.Within

/-! # Lookups in zones some of whose servers work -/

namespace Ariadne.Resolver

open Spec

/-- The computation succeeds, and its result satisfies `Q`. -/
def Does {α : Type} (m : M α) (Q : α → Prop) : Prop := ∀ w, ∃ a w', m w = (.ok a, w') ∧ Q a

/-- The computation returns an error. -/
def Fails {α : Type} (m : M α) : Prop := ∀ w, ∃ e w', m w = (.err e, w')

variable {env : Env} {p : Profile} {α β : Type} {node : Name} {kind : RecordType}

theorem bind_at {m : M α} {f : α → M β} {w w' : World} {a : α} (h : m w = (.ok a, w')) : (m >>= f) w = f a w' := by
  have hb : (m >>= f) w = match m w with
    | (.ok a, w') => f a w'
    | (.err e, w') => (.err e, w')
    | (.panic k, w') => (.panic k, w')
    | (.diverge, w') => (.diverge, w') := rfl
  rw [hb, h]

theorem bind_err_at {m : M α} {f : α → M β} {w w' : World} {e : LookupErr} (h : m w = (.err e, w')) : (m >>= f) w = (.err e, w') := by
  have hb : (m >>= f) w = match m w with
    | (.ok a, w') => f a w'
    | (.err e, w') => (.err e, w')
    | (.panic k, w') => (.panic k, w')
    | (.diverge, w') => (.diverge, w') := rfl
  rw [hb, h]

theorem attempt_ok_at {m : M α} {w w' : World} {a : α} (h : m w = (.ok a, w')) : M.attempt m w = (.ok (.inr a), w') := by
  have hb : M.attempt m w = match m w with
    | (.ok a, w') => (.ok (.inr a), w')
    | (.err e, w') => (.ok (.inl e), w')
    | (.panic k, w') => (.panic k, w')
    | (.diverge, w') => (.diverge, w') := rfl
  rw [hb, h]

theorem attempt_err_at {m : M α} {w w' : World} {e : LookupErr} (h : m w = (.err e, w')) : M.attempt m w = (.ok (.inl e), w') := by
  have hb : M.attempt m w = match m w with
    | (.ok a, w') => (.ok (.inr a), w')
    | (.err e, w') => (.ok (.inl e), w')
    | (.panic k, w') => (.panic k, w')
    | (.diverge, w') => (.diverge, w') := rfl
  rw [hb, h]

theorem Does.bind {m : M α} {f : α → M β} {Q : α → Prop} {Q' : β → Prop} (h : Does m Q) (hf : ∀ a, Q a → Does (f a) Q') :
    Does (m >>= f) Q' := by
  intro w
  obtain ⟨a, w', e, hq⟩ := h w
  rw [bind_at e]
  exact hf a hq w'

theorem Does.then_fails {m : M α} {f : α → M β} {Q : α → Prop} (h : Does m Q) (hf : ∀ a, Q a → Fails (f a)) :
    Fails (m >>= f) := by
  intro w
  obtain ⟨a, w', e, hq⟩ := h w
  rw [bind_at e]
  exact hf a hq w'

theorem Fails.bind {m : M α} {f : α → M β} (h : Fails m) : Fails (m >>= f) := by
  intro w
  obtain ⟨e, w', he⟩ := h w
  exact ⟨e, w', bind_err_at he⟩

theorem Does.mono {m : M α} {Q Q' : α → Prop} (h : Does m Q) (hq : ∀ a, Q a → Q' a) : Does m Q' := by
  intro w
  obtain ⟨a, w', e, h'⟩ := h w
  exact ⟨a, w', e, hq a h'⟩

theorem Does.pure {Q : α → Prop} {a : α} (h : Q a) : Does (Pure.pure a : M α) Q := fun w => ⟨a, w, rfl, h⟩

theorem Does.lift {Q : α → Prop} {o : Out LookupErr α} {a : α} (h : o = .ok a) (hq : Q a) : Does (M.lift o) Q :=
  fun w => ⟨a, w, by rw [h]; rfl, hq⟩

theorem Does.attempt {m : M α} {Q : α → Prop} (h : Does m Q) : Does (M.attempt m) (fun x => ∃ a, x = .inr a ∧ Q a) := by
  intro w
  obtain ⟨a, w', e, h'⟩ := h w
  exact ⟨_, w', attempt_ok_at e, a, rfl, h'⟩

theorem Fails.attempt {m : M α} (h : Fails m) : Does (M.attempt m) (fun x => ∃ e, x = .inl e) := by
  intro w
  obtain ⟨e, w', he⟩ := h w
  exact ⟨_, w', attempt_err_at he, e, rfl⟩

theorem Does.emit {e : Event} : Does (M.emit e) (fun _ => True) := fun _ => ⟨_, _, rfl, trivial⟩

theorem Does.randomId : Does (randomId env) (fun _ => True) := fun _ => ⟨_, _, rfl, trivial⟩

/-! ## Requests -/

/-- The server has addresses, and each is such that … -/
def AtAll (S : Ip4 → Prop) (ns : NextNs) : Prop := ns.aRecords ≠ [] ∧ ∀ r ∈ ns.aRecords, ∃ a, r.data = .A a ∧ S a

theorem AtAll.addrs {S : Ip4 → Prop} {ns : NextNs} (h : AtAll S ns) (ε : Type) :
    ∃ a as, (ns.addrs : Out ε (List Ip4)) = .ok (a :: as) ∧ S a := by
  obtain ⟨hne, hall⟩ := h
  unfold NextNs.addrs
  cases hr : ns.aRecords with
  | nil => exact absurd hr hne
  | cons r rs =>
    rw [hr] at hall
    obtain ⟨a, ha, hS⟩ := hall r (by simp)
    obtain ⟨as, e, -⟩ := addrsOf_ok (ε := ε) (rs := rs) fun x hx => by
      obtain ⟨a', ha', -⟩ := hall x (by simp [hx])
      unfold Record.recordType
      rw [ha']
      rfl
    refine ⟨a, as, ?_, hS⟩
    unfold addrsOf Record.aData
    rw [ha, e]
    rfl

/-- The query fails, or nothing can be made of the response. -/
def Spoilt (node : Name) (kind : RecordType) (m : M Message) : Prop :=
  ∀ w, (∃ e w', m w = (.err e, w')) ∨ ∃ r w', m w = (.ok r, w') ∧ ∀ zone, ∃ e, interpret r node kind zone = .err e

theorem interpret_useless {id : UInt16} {m : Message} (h : OfNoUse id m) (hid : m.header.id = id) (zone : Name) :
    ∃ e, interpret m node kind zone = .err e := by
  rcases h with h | ⟨h1, h2⟩ | ⟨h1, h2⟩ | ⟨h1, h2, h3⟩
  · exact absurd hid h
  · unfold interpret
    cases hc : m.header.respCode with
    | NoError => exact absurd hc h1
    | NxDomain => exact absurd hc h2
    | FormErr => exact ⟨_, rfl⟩
    | ServFail => exact ⟨_, rfl⟩
    | NotImp => exact ⟨_, rfl⟩
    | Refused => exact ⟨_, rfl⟩
  · unfold interpret
    rw [h1]
    simp only
    rw [if_neg (by rw [h2]; exact Bool.false_ne_true)]
    exact ⟨_, rfl⟩
  · have e : extractNextNssForSubzone m node zone = .ok [] := by
      unfold extractNextNssForSubzone
      have : (m.authorities.filter fun r => r.recordType == .NS && (isAuthoritativeOver r.node node && isSubzone r.node zone)) = [] := by
        rw [List.filter_eq_nil_iff]
        intro r hr hx
        have hm : r ∈ nsRecords m.authorities := by
          unfold nsRecords
          rw [List.mem_filter]
          rw [Bool.and_eq_true, beq_iff_eq] at hx
          exact ⟨hr, by simpa using hx.1⟩
        rw [h3] at hm
        cases hm
      rw [this]
      rfl
    unfold interpret
    rw [h1, h2]
    refine ⟨.unexpectedEmptyResp, ?_⟩
    show (extractNextNssForSubzone m node zone >>= fun nextNss => if nextNss.length > 0 then Out.ok (NsResponse.delegation nextNss) else _) = _
    rw [e]
    rfl

theorem sendUdp_some {ns : NextNs} {q reply : List UInt8} {a : Ip4} {as : List Ip4} {w : World}
    (e : (ns.addrs : Out LookupErr (List Ip4)) = .ok (a :: as)) (hn : env.net w.log a q = some reply) :
    sendUdpPacket env ns q w = (.ok (reply.take 512), { w with log := w.log ++ [.exchange a q (some reply)] }) := by
  unfold sendUdpPacket
  have e3 : (M.lift ns.addrs : M (List Ip4)) w = (.ok (a :: as), w) := by rw [e]; rfl
  rw [bind_at e3]
  simp only [List.head?_cons, hn]
  rfl

theorem sendUdp_none {ns : NextNs} {q : List UInt8} {a : Ip4} {as : List Ip4} {w : World}
    (e : (ns.addrs : Out LookupErr (List Ip4)) = .ok (a :: as)) (hn : env.net w.log a q = none) :
    sendUdpPacket env ns q w = (.err .io, { w with log := w.log ++ [.exchange a q none] }) := by
  unfold sendUdpPacket
  have e3 : (M.lift ns.addrs : M (List Ip4)) w = (.ok (a :: as), w) := by rw [e]; rfl
  rw [bind_at e3]
  simp only [List.head?_cons, hn]

theorem sendQuery_down {ns : NextNs} (h : AtAll (Useless env p node kind) ns) (hk : kind.isSupportedForQuestion = true) :
    Spoilt node kind (sendQuery env p ns node kind) := by
  obtain ⟨a, as, e, hS⟩ := h.addrs LookupErr
  intro w
  obtain ⟨id, w1, e1, -⟩ := Does.randomId (env := env) w
  obtain ⟨q, e2, hq⟩ := request_encodes id (node := node) hk
  unfold sendQuery
  rw [bind_at e1, bind_at (w := w1) (w' := w1) (a := q) (by rw [e2]; rfl)]
  cases hn : env.net w1.log a q with
  | none => exact .inl ⟨_, _, bind_err_at (sendUdp_none e hn)⟩
  | some reply =>
    rw [bind_at (sendUdp_some e hn)]
    rcases hS w1.log id q reply hq hn with ⟨er, hd⟩ | ⟨m, hd, hm⟩
    · left
      refine ⟨.malformedResp, { w1 with log := w1.log ++ [.exchange a q (some reply)] }, ?_⟩
      unfold acceptResponse
      rw [hd]
      rfl
    · by_cases hid : m.header.id ≠ id
      · left
        refine ⟨.malformedResp, { w1 with log := w1.log ++ [.exchange a q (some reply)] }, ?_⟩
        unfold acceptResponse
        rw [hd]
        simp only
        rw [if_pos hid]
        rfl
      · right
        refine ⟨m, { w1 with log := w1.log ++ [.exchange a q (some reply)] }, ?_, fun zone => interpret_useless hm (not_not.1 hid) zone⟩
        unfold acceptResponse
        rw [hd]
        simp only
        rw [if_neg hid]
        rfl

theorem sendRetries_down {ns : NextNs} (h : AtAll (Useless env p node kind) ns) (hk : kind.isSupportedForQuestion = true) :
    ∀ (n : Nat) (e : Option LookupErr), (n = 0 → e ≠ none) → Spoilt node kind (sendQueryWithRetries env p ns node kind n e)
  | 0, some e, _, w => .inl ⟨e, w, rfl⟩
  | 0, none, h, _ => absurd rfl (h rfl)
  | n + 1, e, _, w => by
    unfold sendQueryWithRetries
    rcases sendQuery_down h hk w with ⟨e', w', he⟩ | ⟨r, w', hr, hc⟩
    · rw [bind_at (attempt_err_at he)]
      exact sendRetries_down h hk n (some e') (by simp) w'
    · rw [bind_at (attempt_ok_at hr)]
      exact .inr ⟨r, w', rfl, hc⟩

theorem performRequest_down {ns : NextNs} (h : AtAll (Useless env p node kind) ns) (hk : kind.isSupportedForQuestion = true)
    {n : Nat} (hn : n ≠ 0) : Fails (performRequest env p ns node kind n) := by
  intro w
  unfold performRequest
  rcases sendRetries_down h hk n none (fun h => absurd h hn) w with ⟨e, w', he⟩ | ⟨r, w', hr, h1⟩
  · exact ⟨e, w', bind_err_at he⟩
  · rw [bind_at hr]
    obtain ⟨e, he⟩ := h1 ns.zone
    exact ⟨e, w', by rw [he]; rfl⟩

theorem _root_.Ariadne.Spec.Answers.responds {P : Message → Prop} {addr : Ip4} (h : Answers env p node kind P addr) {t : Nat} (ht : t ≠ 0) :
    Responds env p node kind t P addr := by
  intro hist
  obtain ⟨t, rfl⟩ := Nat.exists_eq_succ_of_ne_zero ht
  exact fun id q hq => .inl (h hist id q hq)

theorem respondsWithin_mono {P P' : Message → Prop} {addr : Ip4} (hP : ∀ m, P m → P' m) : ∀ {t : Nat} {hist : List Event},
    RespondsWithin env p node kind P addr t hist → RespondsWithin env p node kind P' addr t hist
  | 0, _, h => h
  | _ + 1, _, h => fun id q hq => by
    rcases h id q hq with ⟨reply, m, e1, e2, e3, e4⟩ | ⟨h1, h2⟩
    · exact .inl ⟨reply, m, e1, e2, e3, hP m e4⟩
    · exact .inr ⟨h1, respondsWithin_mono hP h2⟩

theorem _root_.Ariadne.Spec.Responds.mono {P P' : Message → Prop} {addr : Ip4} (hP : ∀ m, P m → P' m) {t : Nat} (h : Responds env p node kind t P addr) :
    Responds env p node kind t P' addr := fun hist => respondsWithin_mono hP (h hist)

theorem sendRetries_up {ns : NextNs} {P : Message → Prop} {a : Ip4} {as : List Ip4}
    (e : (ns.addrs : Out LookupErr (List Ip4)) = .ok (a :: as)) (hk : kind.isSupportedForQuestion = true) :
    ∀ {t : Nat} {er : Option LookupErr} {w : World}, RespondsWithin env p node kind P a t w.log →
      ∃ m w', sendQueryWithRetries env p ns node kind t er w = (.ok m, w') ∧ P m
  | 0, _, _, h => h.elim
  | t + 1, er, w, h => by
    obtain ⟨q, e2, hq⟩ := request_encodes (env.ids w.ticks) (node := node) hk
    have e1 : randomId env w = (.ok (env.ids w.ticks), { w with ticks := w.ticks + 1 }) := rfl
    have hsend : ∀ x, sendUdpPacket env ns q { w with ticks := w.ticks + 1 } = x →
        sendQuery env p ns node kind w = match x with
          | (.ok reply, w') => (acceptResponse p (env.ids w.ticks) reply, w')
          | (.err e, w') => (.err e, w')
          | (.panic k, w') => (.panic k, w')
          | (.diverge, w') => (.diverge, w') := by
      intro x hx
      unfold sendQuery
      rw [bind_at e1, bind_at (w := { w with ticks := w.ticks + 1 }) (w' := { w with ticks := w.ticks + 1 }) (a := q) (by rw [e2]; rfl)]
      obtain ⟨o, w'⟩ := x
      cases o with
      | ok r => rw [bind_at hx]; rfl
      | err r => exact bind_err_at hx
      | panic k =>
        show M.bind _ _ _ = _
        unfold M.bind
        rw [hx]
      | diverge =>
        show M.bind _ _ _ = _
        unfold M.bind
        rw [hx]
    unfold sendQueryWithRetries
    rcases h (env.ids w.ticks) q hq with ⟨reply, m, h1, h2, h3, h4⟩ | ⟨h1, h2⟩
    · have hx := hsend _ (sendUdp_some e h1)
      have hacc : acceptResponse p (env.ids w.ticks) (reply.take 512) = .ok m := by
        unfold acceptResponse
        rw [h2]
        simp only
        rw [if_neg (by simpa using h3)]
      simp only [hacc] at hx
      rw [bind_at (attempt_ok_at hx)]
      exact ⟨m, _, rfl, h4⟩
    · have : ∃ er w', sendQuery env p ns node kind w = (.err er, w') ∧ w'.log = w.log ++ [.exchange a q (env.net w.log a q)] := by
        cases hn : env.net w.log a q with
        | none =>
          have hx := hsend _ (sendUdp_none e hn)
          exact ⟨_, _, hx, rfl⟩
        | some reply =>
          have hx := hsend _ (sendUdp_some e hn)
          have hacc : acceptResponse p (env.ids w.ticks) (reply.take 512) = .err .malformedResp := by
            unfold acceptResponse
            rcases h1 reply hn with ⟨er, hd⟩ | ⟨m, hd, hid⟩
            · rw [hd]
            · rw [hd]
              simp only
              rw [if_pos hid]
          simp only [hacc] at hx
          exact ⟨_, _, hx, rfl⟩
      obtain ⟨er', w', hx, hlog⟩ := this
      rw [bind_at (attempt_err_at hx)]
      refine sendRetries_up e hk ?_
      rw [hlog]
      exact h2

theorem performRequest_up {ns : NextNs} {P : Message → Prop} {Q : NsResponse → Prop} {n : Nat} (h : AtAll (Responds env p node kind n P) ns)
    (hk : kind.isSupportedForQuestion = true)
    (hi : ∀ m, P m → ∃ r, interpret m node kind ns.zone = .ok r ∧ Q r) :
    Does (performRequest env p ns node kind n) Q := by
  obtain ⟨a, as, e, hS⟩ := h.addrs LookupErr
  unfold performRequest
  refine Does.bind (Q := P) (fun w => sendRetries_up e hk (hS w.log)) fun m hm => ?_
  obtain ⟨r, h1, h2⟩ := hi m hm
  exact Does.lift h1 h2

/-! ## Servers -/

theorem resolveAddrs_at {S : Ip4 → Prop} {ns : NextNs} (h : AtAll S ns) (sub : Lookup → M Response) (lk : Lookup) :
    Does (resolveAddrs sub lk ns) (fun x => x = ns) := by
  obtain ⟨a, as, e, -⟩ := h.addrs LookupErr
  unfold resolveAddrs
  refine (Does.lift (Q := fun x => x = a :: as) e rfl).bind ?_
  rintro _ rfl
  exact Does.pure rfl

theorem tryServers_does {sub : Lookup → M Response} {lk : Lookup} (hk : lk.kind.isSupportedForQuestion = true)
    (hn : lk.conf.maxUdpRetries ≠ 0) {P : Message → Prop} {Q : NsResponse → Prop} {zone : Name}
    (hi : ∀ m, P m → ∃ r, interpret m lk.node lk.kind zone = .ok r ∧ Q r) : ∀ {nss : List NextNs} {e : Option LookupErr},
    (∀ ns ∈ nss, ns.zone = zone) →
    (∀ ns ∈ nss, AtAll (Responds env p lk.node lk.kind lk.conf.maxUdpRetries P) ns ∨ AtAll (Useless env p lk.node lk.kind) ns) →
    (∃ ns ∈ nss, AtAll (Responds env p lk.node lk.kind lk.conf.maxUdpRetries P) ns) → Does (tryServers env p sub lk nss e) Q
  | [], e, _, _, h => by obtain ⟨_, h, _⟩ := h; cases h
  | ns :: nss, e, hz, hall, hex => by
    unfold tryServers
    have up : AtAll (Responds env p lk.node lk.kind lk.conf.maxUdpRetries P) ns → Does (tryServer env p sub lk ns) Q := by
      intro h
      unfold tryServer
      refine (resolveAddrs_at h sub lk).bind ?_
      rintro _ rfl
      refine Does.emit.bind fun _ _ => performRequest_up h hk ?_
      rw [hz _ (by simp)]
      exact hi
    by_cases hup : AtAll (Responds env p lk.node lk.kind lk.conf.maxUdpRetries P) ns
    · refine (up hup).attempt.bind ?_
      rintro _ ⟨r, rfl, hr⟩
      exact Does.pure hr
    · have hdown := (hall ns (by simp)).resolve_left hup
      have : Fails (tryServer env p sub lk ns) := by
        unfold tryServer
        refine (resolveAddrs_at hdown sub lk).then_fails ?_
        rintro _ rfl
        exact Does.emit.then_fails fun _ _ => performRequest_down hdown hk hn
      refine this.attempt.bind ?_
      rintro _ ⟨e', rfl⟩
      refine tryServers_does hk hn hi (fun x hx => hz x (by simp [hx])) (fun x hx => hall x (by simp [hx])) ?_
      obtain ⟨x, hx, hu⟩ := hex
      rcases List.mem_cons.1 hx with rfl | hx
      · exact absurd hu hup
      · exact ⟨x, hx, hu⟩

/-- The addresses of a server. -/
def theAddrs (ns : NextNs) : List Ip4 := ns.aRecords.filterMap fun r => match r.data with
  | .A a => some a
  | _ => none

/-- The servers are those given by their addresses. -/
def Are (nss : List NextNs) (S : List (List Ip4)) : Prop :=
  List.Forall₂ (fun ns s => (∀ r ∈ ns.aRecords, r.recordType = .A) ∧ (theAddrs ns).Perm s) nss S

theorem are_mem {nss : List NextNs} {S : List (List Ip4)} (h : Are nss S) {ns : NextNs} (hn : ns ∈ nss) :
    ∃ s ∈ S, (∀ r ∈ ns.aRecords, r.recordType = .A) ∧ (theAddrs ns).Perm s := by
  induction h with
  | nil => cases hn
  | cons h1 h2 ih =>
    rcases List.mem_cons.1 hn with rfl | hn
    · exact ⟨_, List.mem_cons_self, h1⟩
    · obtain ⟨s, hs, h⟩ := ih hn
      exact ⟨s, List.mem_cons_of_mem _ hs, h⟩

theorem are_mem' {nss : List NextNs} {S : List (List Ip4)} (h : Are nss S) {s : List Ip4} (hn : s ∈ S) :
    ∃ ns ∈ nss, (theAddrs ns).Perm s := by
  induction h with
  | nil => cases hn
  | cons h1 h2 ih =>
    rcases List.mem_cons.1 hn with rfl | hn
    · exact ⟨_, List.mem_cons_self, h1.2⟩
    · obtain ⟨s, hs, h⟩ := ih hn
      exact ⟨s, List.mem_cons_of_mem _ hs, h⟩

theorem are_count {nss : List NextNs} {S : List (List Ip4)} (h : Are nss S) (f : Ip4 → Bool) :
    (nss.countP fun ns => (theAddrs ns).all f) = S.countP fun s => s.all f := by
  induction h with
  | nil => rfl
  | cons h1 h2 ih => rw [List.countP_cons, List.countP_cons, ih, h1.2.all_eq]

theorem theAddrs_mem {ns : NextNs} {r : Record} {a : Ip4} (hr : r ∈ ns.aRecords) (ha : r.data = .A a) : a ∈ theAddrs ns := by
  unfold theAddrs
  rw [List.mem_filterMap]
  exact ⟨r, hr, by rw [ha]⟩

theorem atAll_of {S : Ip4 → Prop} {ns : NextNs} (hA : ∀ r ∈ ns.aRecords, r.recordType = .A) (h0 : theAddrs ns ≠ [])
    (h : ∀ a ∈ theAddrs ns, S a) : AtAll S ns := by
  refine ⟨?_, fun r hr => ?_⟩
  · intro hn
    apply h0
    unfold theAddrs
    rw [hn]
    rfl
  · obtain ⟨a, ha⟩ := aData_of (hA r hr)
    exact ⟨a, ha, h a (theAddrs_mem hr ha)⟩

/-- Among the servers asked there is one that is up. -/
theorem some_up {t n : Nat} {nss : List NextNs} {P : Message → Prop} {S : List (List Ip4)} (hare : Are nss S)
    (hs : Served env p node kind t n P S) :
    (∀ ns ∈ (sortNameservers nss).take n, AtAll (Responds env p node kind t P) ns ∨ AtAll (Useless env p node kind) ns) ∧
    ∃ ns ∈ (sortNameservers nss).take n, AtAll (Responds env p node kind t P) ns := by
  obtain ⟨isUp, h1, h2, h3, h4⟩ := hs
  have key : ∀ ns ∈ nss, (AtAll (Responds env p node kind t P) ns ∧ ∀ a ∈ theAddrs ns, isUp a = true) ∨
      (AtAll (Useless env p node kind) ns ∧ (theAddrs ns).all (fun a => !isUp a) = true) := by
    intro ns hns
    obtain ⟨s, hs, hA, hp⟩ := are_mem hare hns
    obtain ⟨h0, hc⟩ := h1 s hs
    have h0' : theAddrs ns ≠ [] := fun h => h0 (by rw [h] at hp; exact hp.symm.eq_nil)
    rcases hc with hc | hc
    · left
      exact ⟨atAll_of hA h0' fun a ha => (h2 s hs a (hp.mem_iff.1 ha)).1 (hc a (hp.mem_iff.1 ha)), fun a ha => hc a (hp.mem_iff.1 ha)⟩
    · right
      refine ⟨atAll_of hA h0' fun a ha => (h2 s hs a (hp.mem_iff.1 ha)).2 (hc a (hp.mem_iff.1 ha)), ?_⟩
      rw [List.all_eq_true]
      intro a ha
      rw [hc a (hp.mem_iff.1 ha)]
      rfl
  have hmem : ∀ ns ∈ (sortNameservers nss).take n, ns ∈ nss := fun ns h => mem_sortNameservers.1 (List.mem_of_mem_take h)
  refine ⟨fun ns hns => ?_, ?_⟩
  · rcases key ns (hmem ns hns) with h | h
    · exact .inl h.1
    · exact .inr h.1
  · by_contra hno
    have hdown : ∀ ns ∈ (sortNameservers nss).take n, (theAddrs ns).all (fun a => !isUp a) = true := by
      intro ns hns
      rcases key ns (hmem ns hns) with h | h
      · exact absurd ⟨ns, hns, h.1⟩ hno
      · exact h.2
    have hcount : ((sortNameservers nss).take n).countP (fun ns => (theAddrs ns).all fun a => !isUp a) = ((sortNameservers nss).take n).length :=
      List.countP_eq_length.2 hdown
    have hle : ((sortNameservers nss).take n).countP (fun ns => (theAddrs ns).all fun a => !isUp a) ≤
        (sortNameservers nss).countP (fun ns => (theAddrs ns).all fun a => !isUp a) :=
      (List.take_sublist _ _).countP_le
    rw [(sortNameservers_perm nss).countP_eq, are_count hare] at hle
    rw [hcount, List.length_take] at hle
    have hlen : (sortNameservers nss).length < n := by omega
    rw [List.take_of_length_le (by omega)] at hdown
    obtain ⟨s, hs, hup⟩ := h3
    obtain ⟨ns, hns, hp⟩ := are_mem' hare hs
    have hall := hdown ns (mem_sortNameservers.2 hns)
    obtain ⟨h0, -⟩ := h1 s hs
    obtain ⟨a, ha⟩ := List.exists_mem_of_ne_nil _ h0
    rw [List.all_eq_true] at hall
    have := hall a (hp.mem_iff.2 ha)
    rw [hup a ha] at this
    cases this

end Ariadne.Resolver
