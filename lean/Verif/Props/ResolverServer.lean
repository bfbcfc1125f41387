import Verif.Props.Lookup
import Verif.Props.Nameserver

/-! # C67, C68: the resolver as a server -/

namespace Ariadne.Props

open Spec Resolver

theorem validate_iff (m : Message) : Resolver.validate m = true ↔ WellPosed m := by
  unfold Resolver.validate WellPosed Header.isRequest
  simp only [Bool.and_eq_true, beq_iff_eq, Bool.not_eq_true', and_assoc]

theorem attempt_pure {α β : Type} (m : M α) (f : LookupErr ⊕ α → β) (w : World) :
    (M.attempt m >>= fun x => (pure (f x) : M β)) w = match m w with
      | (.ok a, w') => (.ok (f (.inr a)), w')
      | (.err e, w') => (.ok (f (.inl e)), w')
      | (.panic k, w') => (.panic k, w')
      | (.diverge, w') => (.diverge, w') := by
  show M.bind (M.attempt m) (fun x => (pure (f x) : M β)) w = _
  unfold M.bind M.attempt
  rcases m w with ⟨o, w1⟩
  cases o <;> rfl

theorem _root_.Ariadne.Resolver.M.bind_eq {α β : Type} {m : M α} {f : α → M β} {w w' : World} {a : α} (h : m w = (.ok a, w')) :
    (m >>= f) w = f a w' := by
  show M.bind m f w = _
  unfold M.bind
  rw [h]

theorem _root_.Ariadne.Resolver.M.bind_panic {α β : Type} {m : M α} {f : α → M β} {w w' : World} {k : Panic} (h : m w = (.panic k, w')) :
    (m >>= f) w = (.panic k, w') := by
  show M.bind m f w = _
  unfold M.bind
  rw [h]

theorem _root_.Ariadne.Resolver.M.bind_diverge {α β : Type} {m : M α} {f : α → M β} {w w' : World} (h : m w = (.diverge, w')) :
    (m >>= f) w = (.diverge, w') := by
  show M.bind m f w = _
  unfold M.bind
  rw [h]

/-! ## C67 -/

/-- C67, part. Every message gets a reply that mirrors the header and repeats the questions; the section counts are those of the
records (modulo 65536); a message that is not a request with one question gets FORMERR; otherwise the lookup of the first
question has returned, and the reply is NOERROR with the records it found, NXDOMAIN if it found that the name does not
exist, SERVFAIL if it failed; replies with an error code have no records. Missing: exact counts for 65536 or more records in a section (`C67_violated`). -/
theorem C67_reply_partial (env : Env) (p : Profile) (conf : Params) (fuel : Nat) (req m : Message) (w w' : World)
    (h : handle env p conf fuel (.fullMessage req) w = (.ok (some m), w')) :
    Mirrors req.header m ∧ m.questions = req.questions ∧ m.header.questionsCount = req.header.questionsCount ∧
    m.header.answersCount = UInt16.ofNat m.answers.length ∧ m.header.authoritiesCount = UInt16.ofNat m.authorities.length ∧
    m.header.additionalsCount = UInt16.ofNat m.additionals.length ∧
    (¬ WellPosed req → m.header.respCode = .FormErr ∧ NoRecords m ∧ w' = w) ∧
    (WellPosed req → ∃ q qs, req.questions = q :: qs ∧ w' = (lookup env p conf fuel q.node q.recordType w).2 ∧
      ((∃ r, (lookup env p conf fuel q.node q.recordType w).1 = .ok r ∧ r.noRecords = false ∧ m.header.respCode = .NoError ∧
          m.answers = r.answers ∧ m.authorities = r.authorities ∧ m.additionals = r.additionals) ∨
       (∃ r, (lookup env p conf fuel q.node q.recordType w).1 = .ok r ∧ r.noRecords = true ∧ m.header.respCode = .NxDomain ∧
          NoRecords m) ∨
       (∃ e, (lookup env p conf fuel q.node q.recordType w).1 = .err e ∧ m.header.respCode = .ServFail ∧ NoRecords m))) := by
  unfold handle at h
  simp only at h
  by_cases hv : Resolver.validate req = true
  · have hw := (validate_iff req).1 hv
    rw [hv] at h
    simp only [Bool.not_true, Bool.false_eq_true, if_false] at h
    cases hq : req.questions with
    | nil => rw [hq] at h; cases h
    | cons q qs =>
      rw [hq] at h
      simp only at h
      have hb := attempt_pure (lookup env p conf fuel q.node q.recordType) (fun x => some (resultReply req x)) w
      have h := hb.symm.trans h
      rw [← hq]
      rcases hl : lookup env p conf fuel q.node q.recordType w with ⟨o, w1⟩
      rw [hl] at h
      cases o with
      | ok r =>
        simp only [Prod.mk.injEq, Out.ok.injEq, Option.some.injEq] at h
        obtain ⟨rfl, rfl⟩ := h
        have hr : resultReply req (.inr r) = if r.noRecords = true then errReply req .NxDomain else _ := rfl
        by_cases hn : r.noRecords = true
        · rw [if_pos hn] at hr
          rw [hr]
          exact ⟨⟨rfl, rfl, rfl, rfl, rfl, rfl, rfl⟩, rfl, rfl, rfl, rfl, rfl, fun h => absurd hw h, fun _ => ⟨q, qs, hq, by rw [hl],
            .inr (.inl ⟨r, by rw [hl], hn, rfl, rfl, rfl, rfl⟩)⟩⟩
        · rw [if_neg hn] at hr
          rw [hr]
          exact ⟨⟨rfl, rfl, rfl, rfl, rfl, rfl, rfl⟩, rfl, rfl, rfl, rfl, rfl, fun h => absurd hw h, fun _ => ⟨q, qs, hq, by rw [hl],
            .inl ⟨r, by rw [hl], by simpa using hn, rfl, rfl, rfl, rfl⟩⟩⟩
      | err e =>
        simp only [Prod.mk.injEq, Out.ok.injEq, Option.some.injEq] at h
        obtain ⟨rfl, rfl⟩ := h
        exact ⟨⟨rfl, rfl, rfl, rfl, rfl, rfl, rfl⟩, rfl, rfl, rfl, rfl, rfl, fun h => absurd hw h, fun _ => ⟨q, qs, hq, by rw [hl],
            .inr (.inr ⟨e, by rw [hl], rfl, rfl, rfl, rfl⟩)⟩⟩
      | panic k => cases h
      | diverge => cases h
  · have hw : ¬ WellPosed req := fun h => hv ((validate_iff req).2 h)
    rw [Bool.not_eq_true] at hv
    rw [hv] at h
    simp only [Bool.not_false, if_true] at h
    cases h
    exact ⟨⟨rfl, rfl, rfl, rfl, rfl, rfl, rfl⟩, rfl, rfl, rfl, rfl, rfl, fun _ => ⟨rfl, ⟨rfl, rfl, rfl⟩, rfl⟩, fun h => absurd h hw⟩

/-- The message of a query for the addresses of `a.com.`. -/
def askA : Message := ⟨⟨9, false, .STD, false, false, true, false, 0, .NoError, 1, 0, 0, 0⟩, [⟨⟨"a.com.".toList⟩, .A, .IN⟩], [], [], []⟩

/-- What is in a reply. -/
def replyOf : Out LookupErr (Option Message) → Option (UInt16 × RespCode × Nat)
  | .ok (some m) => some (m.header.id, m.header.respCode, m.answers.length)
  | _ => none

/-- The aliases of `chainEnv` (C59), the name that does not exist of C66, and servers that do not answer. -/
example : replyOf (handle chainEnv .debug ⟨1, 1, 3, false⟩ 5 (.fullMessage askA) ⟨.empty, 0, []⟩).1 = some (9, .NoError, 3) ∧
    replyOf (handle (scripted fun _ => response .NxDomain true [] [] []) .debug ⟨1, 1, 3, false⟩ 5 (.fullMessage askA)
      ⟨.empty, 0, []⟩).1 = some (9, .NxDomain, 0) ∧
    replyOf (handle (scripted fun _ => none) .debug ⟨1, 1, 3, false⟩ 5 (.fullMessage askA) ⟨.empty, 0, []⟩).1 =
      some (9, .ServFail, 0) ∧
    replyOf (handle (scripted fun _ => none) .debug ⟨1, 1, 3, false⟩ 5 (.fullMessage { askA with questions := [] , header := { askA.header with questionsCount := 0 } })
      ⟨.empty, 0, []⟩).1 = some (9, .FormErr, 0) := by decide +kernel

/-! ## C68 -/

/-- The full statement of C68, for UDP: with enough fuel. -/
def C68_statement : Prop :=
  ∀ (env : Env) (p : Profile) (conf : Params) (w : World) (datagram : List UInt8) (req : Message), Up env conf w →
    Net.udpRead p datagram = .ok (.fullMessage req) → req.header.queryResp = false →
    ∃ N out, ∀ fuel n, N ≤ fuel → out.length ≤ n →
      (serveUdp env p conf fuel datagram [some n] w).1 = .ok ([out], true)

theorem infallible_bind {α β : Type} (o : Out Empty α) (f : α → M β) (w : World) : (infallible o >>= f) w = match o with
    | .ok a => f a w
    | .panic k => (.panic k, w)
    | .diverge => (.diverge, w) := by
  show M.bind (infallible o) f w = _
  unfold M.bind infallible M.lift Out.mapErr
  cases o with
  | err e => exact e.elim
  | _ => rfl

theorem infallible_ok {α β : Type} {o : Out Empty α} {a : α} (h : o = .ok a) (f : α → M β) (w : World) : (infallible o >>= f) w = f a w := by
  rw [infallible_bind, h]

/-- C68 does not hold: an AAAA query (its question is skipped, the count stays) makes the resolver index past the end of the
questions. -/
theorem C68_violated : ¬ C68_statement ∧ ∀ (env : Env) (p : Profile) (conf : Params) (fuel : Nat) (sends : List (Option Nat)) (w : World),
    serveUdp env p conf fuel aaaaQuery sends w = (.panic .index, w) := by
  have key : ∀ (env : Env) (p : Profile) (conf : Params) (fuel : Nat) (sends : List (Option Nat)) (w : World),
      serveUdp env p conf fuel aaaaQuery sends w = (.panic .index, w) := by
    intro env p conf fuel sends w
    have h1 : Net.udpRead p aaaaQuery = .ok (.fullMessage
        ⟨Header.mk 7 false .STD false false true false 0 .NoError 1 0 0 0, [], [], [], []⟩) := by
      cases p <;> decide +kernel
    unfold serveUdp
    rw [infallible_bind, h1]
    rfl
  refine ⟨fun h => ?_, key⟩
  obtain ⟨N, out, ho⟩ := h (scripted fun _ => none) .release ⟨1, 1, 1, false⟩ ⟨.empty, 0, []⟩ aaaaQuery
    ⟨Header.mk 7 false .STD false false true false 0 .NoError 1 0 0 0, [], [], [], []⟩
    ⟨scripted_friendly _, (by intro k e r hf; cases hf), rfl, by decide, by decide⟩ (by decide +kernel) rfl
  have := ho N _ (le_refl _) (le_refl _)
  rw [key] at this
  cases this

/-- Nor are requests answered whose header could be decoded, but not the rest: each makes the resolver panic. -/
theorem C68_header_only (env : Env) (p : Profile) (conf : Params) (fuel : Nat) (datagram : List UInt8) (h : Header) (e : MessageErr)
    (sends : List (Option Nat)) (w : World) (hr : Net.udpRead p datagram = .ok (.headerOnly h e)) :
    ∃ k, serveUdp env p conf fuel datagram sends w = (.panic k, w) := by
  have hd : h.opCode ≠ .STD ∨ h.questionsCount ≠ 0 ∨ h.answersCount ≠ 0 ∨ h.authoritiesCount ≠ 0 ∨
      h.additionalsCount ≠ 0 := by
    have := (C30_classification.1 p datagram _).1 hr
    cases this with
    | header h1 h2 => exact Message.decode_err_header h1 h2
  obtain ⟨-, k, hk⟩ := Message.empty_panics (m := Resolver.decodeErrReply h e) rfl rfl rfl rfl hd
  refine ⟨k, ?_⟩
  unfold serveUdp
  rw [infallible_bind, hr]
  have hx : Net.udpReply (Resolver.decodeErrReply h e) sends = .panic k := by simp only [Net.udpReply, hk]
  show infallible (Net.udpReply (Resolver.decodeErrReply h e) sends) w = _
  rw [hx]
  rfl

/-- The reply the resolver hands to the encoder for such a request: it has the id of the request and no records, and code NOTIMP if the
cause is an unsupported kind of query, class or type, FORMERR otherwise. Missing: sending it (`C68_header_only`). -/
theorem C68_error_partial (env : Env) (p : Profile) (conf : Params) (fuel : Nat) (h : Header) (e : MessageErr) (w : World) :
    ∃ m, handle env p conf fuel (.headerOnly h e) w = (.ok (some m), w) ∧ m.header.id = h.id ∧ m.header.queryResp = true ∧ NoRecords m ∧
      (m.header.respCode = .NotImp ∨ m.header.respCode = .FormErr) ∧
      (m.header.respCode = .NotImp ↔ ∃ cause, Spec.FailedFor cause e ∧ Spec.Unimplemented cause) := by
  refine ⟨_, rfl, rfl, rfl, ⟨rfl, rfl, rfl⟩, ?_, ?_⟩
  · simp only [decodeErrReply, respHeader]
    split <;> simp
  · rw [failed_for e]
    simp only [decodeErrReply, respHeader]
    generalize e.innerErr = x
    constructor
    · intro h
      split at h
      · exact .opCode _
      · exact .cls _
      · exact .type _
      · cases h
    · intro h
      cases h <;> rfl

/-- A query for class CH: the question is the first, and the class is the cause. -/
example : ∃ cause, Spec.FailedFor cause (.questionErr 0 (.unsupportedClass .CH)) ∧ Spec.Unimplemented cause :=
  ⟨_, .question 0, .cls .CH⟩

/-- The reply to a decoded message can be encoded if all its questions were understood. -/
theorem resolver_reply_encodes {env : Env} {p : Profile} {conf : Params} {fuel : Nat} {w w' : World} {bytes : List UInt8}
    {req m : Message} (hu : Up env conf w) (hd : Message.decodeFromBytes p bytes = .ok req)
    (hq : req.questions.length = req.header.questionsCount.toNat)
    (h : handle env p conf fuel (.fullMessage req) w = (.ok (some m), w')) :
    (∃ x, m.encodeToBytes = .ok x) ∧ ∃ x, m.encodeToBytesTrunc = .ok x := by
  obtain ⟨e1, e2, e3, e4, e5, e6, e7, e8⟩ := C67_reply_partial env p conf fuel req m w w' h
  obtain ⟨hdec, hnames⟩ := decoded_message hd
  refine Message.encodes (by rw [e1.2.2.2.2.2.1]; exact hdec.opCode) (by rw [e3, e2]; exact hq.ge) (by rw [e4]; exact ofNat_le _)
    (by rw [e5]; exact ofNat_le _) (by rw [e6]; exact ofNat_le _) (fun q hm => ?_) fun r hm => ?_
  · rw [e2] at hm
    exact writes_query ⟨(hdec.qs q hm).2, (hdec.qs q hm).1⟩
  · have none : NoRecords m → False := fun ⟨a, b, c⟩ => by rw [a, b, c] at hm; cases hm
    by_cases hw : WellPosed req
    · obtain ⟨q, qs, hqs, -, ⟨r', hl, -, -, a, b, c⟩ | ⟨-, -, -, -, x⟩ | ⟨-, -, -, x⟩⟩ := e8 hw
      · have hqm : q ∈ req.questions := by rw [hqs]; exact List.mem_cons_self ..
        have hready : Spec.Ready env conf q.node q.recordType w :=
          ⟨hu.friendly, hu.cache, hu.log, hnames.qs q hqm, (hdec.qs q hqm).2, hu.nsq, hu.retries⟩
        obtain ⟨o, w1, new, e, -, -, -, hres⟩ := lookup_tri (p := p) hready fuel
        rw [e] at hl
        simp only at hl
        subst hl
        obtain ⟨_, _, _, -, -, -, -, -, hwf, -⟩ := hres
        have := hwf r (by rw [← a, ← b, ← c]; exact hm)
        exact writes_short this.2.2.1 this.2.2.2
      · exact (none x).elim
      · exact (none x).elim
    · exact (none (e7 hw).2.1).elim

/-- The handler answers, unless the lookup of the first question panics or hangs. -/
theorem handle_outcome (env : Env) (p : Profile) (conf : Params) (fuel : Nat) (req : Message) (w : World)
    (hq : req.questions.length = req.header.questionsCount.toNat) :
    (∃ m w', handle env p conf fuel (.fullMessage req) w = (.ok (some m), w')) ∨
    ∃ q ∈ req.questions, (handle env p conf fuel (.fullMessage req) w).2 = (lookup env p conf fuel q.node q.recordType w).2 ∧
      ((∃ k, (lookup env p conf fuel q.node q.recordType w).1 = .panic k ∧ (handle env p conf fuel (.fullMessage req) w).1 = .panic k) ∨
        (lookup env p conf fuel q.node q.recordType w).1 = .diverge ∧ (handle env p conf fuel (.fullMessage req) w).1 = .diverge) := by
  by_cases hv : Resolver.validate req = true
  · have hw := (validate_iff req).1 hv
    cases hqs : req.questions with
    | nil =>
      rw [hqs, hw.2.1] at hq
      cases hq
    | cons q qs =>
      have hb := attempt_pure (lookup env p conf fuel q.node q.recordType) (fun x => some (resultReply req x)) w
      have hh : handle env p conf fuel (.fullMessage req) = (M.attempt (lookup env p conf fuel q.node q.recordType) >>= fun x =>
          pure (some (resultReply req x))) := by
        unfold handle
        simp only [hv, hqs, Bool.not_true, Bool.false_eq_true, if_false]
      rw [hh]
      rcases hl : lookup env p conf fuel q.node q.recordType w with ⟨o, w1⟩
      rw [hl] at hb
      cases o with
      | ok r => exact .inl ⟨_, _, hb⟩
      | err e => exact .inl ⟨_, _, hb⟩
      | panic k => exact .inr ⟨q, List.mem_cons_self .., by rw [hb, hl], .inl ⟨k, by rw [hl], by rw [hb]⟩⟩
      | diverge => exact .inr ⟨q, List.mem_cons_self .., by rw [hb, hl], .inr ⟨by rw [hl], by rw [hb]⟩⟩
  · refine .inl ⟨Resolver.errReply req .FormErr, w, ?_⟩
    unfold handle
    rw [Bool.not_eq_true] at hv
    simp only [hv, Bool.not_false, if_true]
    rfl

/-- The handler replies to a decoded message whose questions were all understood, unless the lookup came across one of three
hazards. -/
theorem handle_replies {env : Env} {p : Profile} {conf : Params} {fuel : Nat} {w : World} {req : Message} (hf : validCount + 258 ≤ fuel)
    (hu : Up env conf w) (hq : req.questions.length = req.header.questionsCount.toNat) {bytes : List UInt8}
    (hd : Message.decodeFromBytes p bytes = .ok req) :
    (∃ m w', handle env p conf fuel (.fullMessage req) w = (.ok (some m), w')) ∨
    ((∃ k, (handle env p conf fuel (.fullMessage req) w).1 = .panic k) ∨ (handle env p conf fuel (.fullMessage req) w).1 = .diverge) ∧
      (PoisonedBy p (handle env p conf fuel (.fullMessage req) w).2.log ∨ AddrDenied p (handle env p conf fuel (.fullMessage req) w).2.log ∨
        HungBy p (handle env p conf fuel (.fullMessage req) w).2.log) := by
  obtain ⟨hdec, hnames⟩ := decoded_message hd
  rcases handle_outcome env p conf fuel req w hq with h | ⟨q, hqm, e, h⟩
  · exact .inl h
  · have hready : Spec.Ready env conf q.node q.recordType w :=
      ⟨hu.friendly, hu.cache, hu.log, hnames.qs q hqm, (hdec.qs q hqm).2, hu.nsq, hu.retries⟩
    obtain ⟨o, w1, new, e', -, -, -, hres⟩ := lookup_tri (p := p) hready fuel
    rw [e, e']
    rw [e'] at h
    rcases h with ⟨k, h1, h2⟩ | ⟨h1, h2⟩
    · simp only at h1
      subst h1
      refine .inr ⟨.inl ⟨k, h2⟩, ?_⟩
      rcases hres with h | h
      · exact .inl h
      · exact .inr (.inl h)
    · simp only at h1
      subst h1
      refine .inr ⟨.inr h2, ?_⟩
      rcases hres with h | h
      · omega
      · exact .inr (.inr h)

/-- C68, part: a message whose questions are all of types the library knows gets exactly one reply, over UDP and TCP, unless
during the lookup a datagram was received on which the decoder panics (C22) or hangs (C60), or a server answered a query for
an address with NXDOMAIN (C64). Missing: these cases, and questions of unknown types (`C68_violated`). -/
theorem C68_replies_partial : ∃ N, ∀ (env : Env) (p : Profile) (conf : Params) (fuel : Nat) (w : World) (req : Message),
    N ≤ fuel → Up env conf w → req.questions.length = req.header.questionsCount.toNat →
    (∀ datagram, Net.udpRead p datagram = .ok (.fullMessage req) →
      (∃ out, ∀ n, out.length ≤ n → (serveUdp env p conf fuel datagram [some n] w).1 = .ok ([out], true)) ∨
      ∃ log, (∀ sends, (serveUdp env p conf fuel datagram sends w).2.log = log) ∧ (PoisonedBy p log ∨ AddrDenied p log ∨ HungBy p log)) ∧
    (∀ stream rest, Net.tcpRead p stream = .ok (.fullMessage req, rest) →
      (∃ out, ∀ room, out.length ≤ room → (serveTcp env p conf fuel stream room w).1 = .ok (out, true)) ∨
      ∃ log, (∀ room, (serveTcp env p conf fuel stream room w).2.log = log) ∧ (PoisonedBy p log ∨ AddrDenied p log ∨ HungBy p log)) := by
  refine ⟨validCount + 258, fun env p conf fuel w req hf hu hq => ?_⟩
  have excuse := fun bytes (hd : Message.decodeFromBytes p bytes = .ok req) => handle_replies (env := env) (conf := conf) (w := w) hf hu hq hd
  constructor
  · intro datagram h
    have hd : Message.decodeFromBytes p (datagram.take 512) = .ok req := by
      have := (C30_classification.1 p datagram _).1 h
      cases this with
      | full h => exact h
    have hs : ∀ sends, serveUdp env p conf fuel datagram sends w = (handle env p conf fuel (.fullMessage req) >>= fun reply =>
        match reply with
        | none => pure ([], true)
        | some m => infallible (Net.udpReply m sends)) w := by
      intro sends
      exact infallible_ok h _ w
    rcases excuse _ hd with ⟨m, w', hm⟩ | ⟨hbad, hlog⟩
    · obtain ⟨-, x, h2⟩ := resolver_reply_encodes hu hd hq hm
      refine .inl ⟨x, fun n hn => ?_⟩
      rw [hs, M.bind_eq hm]
      show (infallible (Net.udpReply m [some n]) w').1 = _
      have hlen := (C25_udp_size m x h2).1
      have : Net.udpReply m [some n] = .ok ([x], true) := by
        simp only [Net.udpReply, h2]
        unfold Net.sendLoop
        rw [if_pos (by omega)]
        simp only [Nat.zero_add, List.nil_append, List.drop_zero]
        unfold Net.sendLoop
        rw [if_neg (by omega)]
      rw [this]
      rfl
    · refine .inr ⟨_, fun sends => ?_, hlog⟩
      rw [hs]
      rcases hh : handle env p conf fuel (.fullMessage req) w with ⟨o, w'⟩
      rw [hh] at hbad
      rcases hbad with ⟨k, hk⟩ | hk
      · simp only at hk
        subst hk
        rw [M.bind_panic hh]
      · simp only at hk
        subst hk
        rw [M.bind_diverge hh]
  · intro stream rest h
    have hd : ∃ body, Message.decodeFromBytes p body = .ok req := by
      rcases C29_tcp_framing_partial.2.2.1 p stream _ rest h with e | ⟨body, -, -, hc⟩
      · cases e
      · cases hc with
        | full h => exact ⟨body, h⟩
    obtain ⟨body, hd⟩ := hd
    have hs : ∀ room, serveTcp env p conf fuel stream room w = (handle env p conf fuel (.fullMessage req) >>= fun reply =>
        match reply with
        | none => pure ([], true)
        | some m => infallible (Net.tcpReply m room)) w := by
      intro sends
      exact infallible_ok h _ w
    rcases excuse _ hd with ⟨m, w', hm⟩ | ⟨hbad, hlog⟩
    · obtain ⟨⟨x, h2⟩, -⟩ := resolver_reply_encodes hu hd hq hm
      refine .inl ⟨[((UInt16.ofNat x.length) >>> 8).toUInt8, (UInt16.ofNat x.length).toUInt8] ++ x, fun room hroom => ?_⟩
      rw [hs, M.bind_eq hm]
      show (infallible (Net.tcpReply m room) w').1 = _
      have w : ∀ (n : Nat) (l : List UInt8), l.length ≤ n → Net.writeAll n l = (l, true) := by
        intro n l hn
        unfold Net.writeAll
        rw [List.take_of_length_le hn, decide_eq_true hn]
      simp only [List.length_append, List.length_cons, List.length_nil] at hroom
      have : Net.tcpReply m room = .ok ([((UInt16.ofNat x.length) >>> 8).toUInt8, (UInt16.ofNat x.length).toUInt8] ++ x, true) := by
        simp only [Net.tcpReply, h2]
        rw [w room _ (by simp; omega), w _ x (by omega)]
        simp
      rw [this]
      rfl
    · refine .inr ⟨_, fun sends => ?_, hlog⟩
      rw [hs]
      rcases hh : handle env p conf fuel (.fullMessage req) w with ⟨o, w'⟩
      rw [hh] at hbad
      rcases hbad with ⟨k, hk⟩ | hk
      · simp only at hk
        subst hk
        rw [M.bind_panic hh]
      · simp only at hk
        subst hk
        rw [M.bind_diverge hh]

/-- The datagrams sent. -/
def sentOf : Out LookupErr (List (List UInt8) × Bool) → Option (List (List UInt8))
  | .ok (l, true) => some l
  | _ => none

/-- The query `sampleQuery` (of C19), answered from the network: the hypotheses hold, and one datagram is sent. -/
example : (∃ req, Net.udpRead .release sampleQuery = .ok (.fullMessage req) ∧ req.questions.length = req.header.questionsCount.toNat) ∧
    Up chainEnv ⟨1, 1, 3, false⟩ ⟨.empty, 0, []⟩ ∧
    ((sentOf (serveUdp chainEnv .release ⟨1, 1, 3, false⟩ 5 sampleQuery [some 512] ⟨.empty, 0, []⟩).1).map List.length = some 1) := by
  refine ⟨?_, ⟨scripted_friendly _, (by intro k e r hf; cases hf), rfl, by decide, by decide⟩, by decide +kernel⟩
  obtain ⟨r, h1, h2⟩ := ok_of (x := Net.udpRead .release sampleQuery) (fun r => match r with
    | .fullMessage req => req.questions.length = req.header.questionsCount.toNat
    | _ => false) (by decide +kernel)
  cases r with
  | fullMessage req => exact ⟨req, h1, by simpa using h2⟩
  | _ => cases h2

end Ariadne.Props
