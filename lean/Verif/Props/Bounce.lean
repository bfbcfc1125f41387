import Verif.Spec.Bounce
import Verif.Props.Serving
import Verif.Props.Told

/-!
# C112: replies are not answered
-/

namespace Ariadne.Props

open Spec Resolver

/-- The full statement of C112: neither the name server nor the resolver sends anything when a reply comes. -/
def C112_statement : Prop :=
  (∀ (p : Profile) (zones : ManagedZone) (job : Job) (result : List (List UInt8) × Bool), ReplyComes p job →
    NameserverSends p zones result job → NothingSent result) ∧
  (∀ (env : Env) (p : Profile) (conf : Params) (fuel : Nat) (job : Job) (w w' : World) (result : List (List UInt8) × Bool), ReplyComes p job →
    serve env p conf fuel job w = (.ok result, w') → NothingSent result)

/-- An error message for the question, from the name server. -/
def errorFor (id : UInt16) (node : Name) (kind : RecordType) (code : RespCode) : Message :=
  Nameserver.errReply (queryMessage id node kind) code

theorem errorFor_plain {node : Name} {kind : RecordType} (id : UInt16) (code : RespCode) (he : Encodable node) (hk : kind.isSupportedForQuestion = true) :
    PlainMessage (errorFor id node kind code) :=
  ⟨rfl, Nat.zero_lt_succ _, rfl, rfl, rfl, rfl, by intro q hq; simp [errorFor, Nameserver.errReply, queryMessage] at hq; subst hq; exact ⟨he, hk, rfl⟩,
    by simp [errorFor, Nameserver.errReply]⟩

/-- It takes one datagram, and arrives. -/
theorem errorFor_travels (p : Profile) {node : Name} {kind : RecordType} (id : UInt16) (code : RespCode) (he : Encodable node)
    (hk : kind.isSupportedForQuestion = true) :
    ∃ x, (errorFor id node kind code).encodeToBytesTrunc = .ok x ∧ 12 ≤ x.length ∧ ∀ p, Net.udpRead p x = .ok (.fullMessage (errorFor id node kind code)) := by
  obtain ⟨x, h1, -, -⟩ := C21_plain_message p _ (errorFor_plain id code he hk)
  have hlen : 12 ≤ x.length ∧ x.length ≤ 512 := by
    have e := encode_of_encodings (m := errorFor id node kind code) rfl ⟨rfl, rfl, rfl, rfl⟩
      (.cons (question_writes (q := ⟨node, kind, .IN⟩) ⟨hk, rfl⟩) .nil) .nil .nil .nil
    rw [h1] at e
    rw [Out.ok.inj e]
    have := he.1
    simp [headerBytes_length, toBytes_length he, be16]
    omega
  refine ⟨x, C26_no_truncation _ ⟨rfl, rfl, rfl, rfl⟩ x h1 hlen.2, hlen.1, fun p' => ?_⟩
  obtain ⟨y, h3, -, h4⟩ := C21_plain_message p' _ (errorFor_plain id code he hk)
  obtain rfl : x = y := Out.ok.inj (h1.symm.trans h3)
  rw [C30_classification.1, List.take_of_length_le hlen.2]
  exact .full (by simpa using h4 [])

/-- The reply to an error message is a FORMERR message for the same question. -/
theorem error_answered (p : Profile) (zones : ManagedZone) {node : Name} {kind : RecordType} {id : UInt16} {code : RespCode} {x y : List UInt8}
    (hx : Net.udpRead p x = .ok (.fullMessage (errorFor id node kind code)))
    (hy : (errorFor id node kind .FormErr).encodeToBytesTrunc = .ok y) (hl : 12 ≤ y.length) : AnswersWith p zones x y := by
  unfold AnswersWith Nameserver.serveUdp
  rw [hx, Out.bind_ok]
  have e : Nameserver.handle p zones (.fullMessage (errorFor id node kind code)) = .ok (some (errorFor id node kind .FormErr)) := rfl
  rw [e, Out.bind_ok]
  exact udpReply_once hy hl (Nat.le_refl _)

/-- C112 does not hold: an error message, for any encodable name, that one name server gets with the address of another as its source is answered, and the answer too, and so
on, without end, whatever the two servers' zones. -/
theorem C112_violated : ¬ C112_statement ∧
    ∀ (p p' : Profile) (zones zones' : ManagedZone) (id : UInt16) (node : Name) (kind : RecordType) (code : RespCode) (x : List UInt8),
      Encodable node → kind.isSupportedForQuestion = true → (errorFor id node kind code).encodeToBytes = .ok x → Endless p p' zones zones' x := by
  have key : ∀ (p p' : Profile) (zones zones' : ManagedZone) (id : UInt16) (node : Name) (kind : RecordType) (code : RespCode) (x : List UInt8),
      Encodable node → kind.isSupportedForQuestion = true → (errorFor id node kind code).encodeToBytes = .ok x → Endless p p' zones zones' x := by
    intro p p' zones zones' id node kind code x he hk hx
    obtain ⟨x', h1, h2, h3⟩ := errorFor_travels p id code he hk
    obtain ⟨y, g1, g2, g3⟩ := errorFor_travels p id .FormErr he hk
    have e : x' = x := by
      have e1 : x.length ≤ 512 := by
        have e := encode_of_encodings (m := errorFor id node kind code) rfl ⟨rfl, rfl, rfl, rfl⟩
          (.cons (question_writes (q := ⟨node, kind, .IN⟩) ⟨hk, rfl⟩) .nil) .nil .nil .nil
        rw [hx] at e
        rw [Out.ok.inj e]
        have := he.1
        simp [headerBytes_length, toBytes_length he, be16]
        omega
      exact Out.ok.inj (h1.symm.trans (C26_no_truncation _ ⟨rfl, rfl, rfl, rfl⟩ x hx e1))
    subst e
    refine ⟨fun k => if k = 0 then x' else y, rfl, fun k => ?_⟩
    dsimp only
    rw [if_neg (show ¬ 2 * k + 1 = 0 by omega), if_neg (show ¬ 2 * k + 2 = 0 by omega)]
    refine ⟨?_, error_answered p' zones' (g3 p') g1 g2⟩
    by_cases hk : 2 * k = 0
    · rw [if_pos hk]; exact error_answered p zones (h3 p) g1 g2
    · rw [if_neg hk]; exact error_answered p zones (g3 p) g1 g2
  refine ⟨fun h => ?_, key⟩
  obtain ⟨y, g1, g2, g3⟩ := errorFor_travels .release (kind := .A) 6 .FormErr nB_encodable rfl
  have ha := error_answered .release ⟨⟨[], nB⟩, []⟩ (g3 .release) g1 g2
  have := h.1 .release ⟨⟨[], nB⟩, []⟩ (.udp y [some y.length]) ([y], true) ⟨_, g3 .release, rfl⟩ ha y (List.mem_singleton_self _)
  rw [this] at g2
  exact absurd g2 (by decide)

/-- **C112, partially.** All a reply can cause: the name server, and the resolver, send a FORMERR message with its id and questions and without records; the resolver
sends no query and leaves its cache as it is. Missing: they send something (`C112_violated`). -/
theorem C112_only_formerr_partial :
    (∀ (p : Profile) (zones : ManagedZone) (job : Job) (result : List (List UInt8) × Bool) (req : Message), Delivers p req job → req.header.queryResp = true →
      NameserverSends p zones result job →
      ∃ m, IsSendingOf m result job ∧ m.header.id = req.header.id ∧ m.header.respCode = .FormErr ∧ m.questions = req.questions ∧ NoRecords m) ∧
    (∀ (env : Env) (p : Profile) (conf : Params) (fuel : Nat) (job : Job) (w w' : World) (result : List (List UInt8) × Bool) (req : Message),
      Delivers p req job → req.header.queryResp = true → serve env p conf fuel job w = (.ok result, w') →
      w' = w ∧ ∃ m, IsSendingOf m result job ∧ m.header.id = req.header.id ∧ m.header.respCode = .FormErr ∧ m.questions = req.questions ∧ NoRecords m) := by
  constructor
  · intro p zones job result req hd hq hs
    have hv : Nameserver.validate req = none := by
      unfold Nameserver.validate Header.isRequest
      rw [hq]; rfl
    have hh : Nameserver.handle p zones (.fullMessage req) = .ok (some (Nameserver.errReply req .FormErr)) := by
      unfold Nameserver.handle
      simp only [hv]
    refine ⟨Nameserver.errReply req .FormErr, ?_, rfl, rfl, rfl, rfl, rfl, rfl⟩
    cases job with
    | udp datagram sends =>
      have hd : Net.udpRead p datagram = .ok (.fullMessage req) := hd
      have hs : Nameserver.serveUdp p zones datagram sends = .ok result := hs
      unfold Nameserver.serveUdp at hs
      rw [hd, Out.bind_ok, hh, Out.bind_ok] at hs
      exact hs
    | tcp stream room =>
      obtain ⟨rest, hd⟩ := hd
      obtain ⟨out, hs, e⟩ := hs
      unfold Nameserver.serveTcp at hs
      rw [hd, Out.bind_ok] at hs
      dsimp only at hs
      rw [hh, Out.bind_ok] at hs
      exact ⟨out, hs, e⟩
  · intro env p conf fuel job w w' result req hd hq hs
    have hv : Resolver.validate req = false := by
      unfold Resolver.validate Header.isRequest
      rw [hq]; rfl
    have hh : Resolver.handle env p conf fuel (.fullMessage req) w = (.ok (some (Resolver.errReply req .FormErr)), w) := by
      unfold Resolver.handle
      simp only [hv]
      rfl
    cases job with
    | udp datagram sends =>
      have hd : Net.udpRead p datagram = .ok (.fullMessage req) := hd
      have hs : Resolver.serveUdp env p conf fuel datagram sends w = (.ok result, w') := hs
      unfold Resolver.serveUdp at hs
      rw [infallible_ok hd, M.bind_eq hh] at hs
      obtain ⟨e1, e2⟩ := infallible_inv hs
      exact ⟨e2, _, e1, rfl, rfl, rfl, rfl, rfl, rfl⟩
    | tcp stream room =>
      obtain ⟨rest, hd⟩ := hd
      obtain ⟨x, w1, e1, e2⟩ := mBind_ok_inv hs
      obtain ⟨e3, e4⟩ := Prod.mk.inj e2
      unfold Resolver.serveTcp at e1
      rw [infallible_ok hd] at e1
      dsimp only at e1
      rw [M.bind_eq hh] at e1
      obtain ⟨e5, e6⟩ := infallible_inv e1
      have e3 : ([x.1], x.2) = result := Out.ok.inj e3
      rw [← e3]
      exact ⟨e4.symm.trans e6, _, ⟨x.1, e5, rfl⟩, rfl, rfl, rfl, rfl, rfl, rfl⟩

/-- A refusal for b.com. is a reply. -/
example : ∃ x, ReplyComes .release (.udp x [some 512]) := by
  obtain ⟨x, -, -, h⟩ := errorFor_travels .release (kind := .A) 6 .Refused nB_encodable rfl
  exact ⟨x, _, h .release, rfl⟩

end Ariadne.Props
