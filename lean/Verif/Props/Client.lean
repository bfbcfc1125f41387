import Verif.Props.WellRun
import Verif.Props.Framing
import Verif.Props.Together
import Verif.Spec.Client

/-! # C89: the clients of the resolver -/

namespace Ariadne.Props

open Spec Resolver BitsBuf NameSpace

/-- The resolver is up, in a name space that is in order, for a period of time. -/
structure Serving (N : NameSpace) (env : Env) (p : Profile) (conf : Params) (start stop : Nat) (w : World) : Prop where
  order : InOrder N env p conf start stop w.ticks
  coherent : N.Coherent start stop w.cache
  fresh : Fresh (env.clock w.ticks) w.cache
  plain : OnlyPlain env p w
  received : OnlyReceived env p w

theorem bounding_plain {env : Env} {p : Profile} {w : World} (h : OnlyPlain env p w) : Bounding Plain env p := by
  refine ⟨fun r t hr => hr, ?_, h.others⟩
  intro hist addr query raw m hn hd
  have hl : (raw.take 512).length ≤ 512 := by rw [List.length_take]; omega
  have := size_records hd
  exact ⟨by omega, h.net _ _ _ _ _ hn hd⟩

theorem content_of_bare {l l' : List Record} (h : l.map bare = l'.map bare) : l.map content = l'.map content := by
  have key : ∀ l : List Record, l.map content = (l.map bare).map content := fun l => by
    rw [List.map_map]
    rfl
  rw [key l, key l', h]

theorem content_of_same {l l' : List Record} (h : Same l l') : (l.map content).Perm (l'.map content) := by
  have key : ∀ l : List Record, l.map content = (l.map bare).map content := fun l => by
    rw [List.map_map]
    rfl
  rw [key l, key l']
  exact List.Perm.map _ h

theorem content_received (l : List Record) : (l.map Props.received).map content = l.map content := by
  rw [List.map_map]
  rfl

/-- What the handler replies. -/
theorem handle_informs {N : NameSpace} {env : Env} {p : Profile} {conf : Params} {start stop : Nat} {w : World} {req : Message} {node : Name}
    {kind : RecordType} {cnames : List Record} {fate : Fate} {fuel : Nat} (hs : Serving N env p conf start stop w) (hq : Poses req node kind)
    (ha : N.asked node kind) (hfares : N.Fares kind node cnames fate) (hn : cnames.length < conf.maxCnameRedir)
    (hc : conf.maxCnameRedir ≤ 65490) (hfuel : 256 + N.depth < fuel) :
    ∃ m w', handle env p conf fuel (.fullMessage req) w = (.ok (some m), w') ∧ Serving N env p conf start stop w' ∧
      Mirrors req.header m ∧ m.questions = req.questions ∧ CountsMatch m ∧
      (∀ r ∈ m.answers ++ m.authorities ++ m.additionals, Plain r) ∧ Informs m.header.respCode m.answers cnames fate := by
  obtain ⟨hw, hqs⟩ := hq
  obtain ⟨r, w', hl, hr, ho', hc', hf'⟩ := C88_partial N env p conf start stop w node kind cnames fate fuel hs.order hs.coherent hs.fresh ha hfares
    hn hfuel
  have hlen : req.questions.length = req.header.questionsCount.toNat := by rw [hqs, hw.2.1]; rfl
  have k1 := perform_small (bounding_plain hs.plain) fuel
    { node := node, kind := kind, previousZones := [], previousCnames := [], conf := conf } (by simp) w hs.plain.cache
  have k2 := perform_small (bounding hs.received) fuel
    { node := node, kind := kind, previousZones := [], previousCnames := [], conf := conf } (by simp) w hs.received.cache
  have hl' : perform env p fuel { node := node, kind := kind, previousZones := [], previousCnames := [], conf := conf } w = (.ok r, w') := hl
  rw [hl'] at k1 k2
  have hserve : Serving N env p conf start stop w' := ⟨ho', hc', hf', ⟨hs.plain.net, k1.1, hs.plain.others⟩, ⟨k2.1, hs.received.others⟩⟩
  have hpl := (k1.2 r rfl).1
  rcases handle_outcome env p conf fuel req w hlen with ⟨m, w1, hm⟩ | ⟨q, hqm, -, h⟩
  · obtain ⟨e1, e2, e3, -, -, -, -, e8⟩ := C67_reply_partial env p conf fuel req m w w1 hm
    obtain ⟨c1, c2, c3, -⟩ := C67_counts_partial hs.received hc hm
    obtain ⟨q, qs, g1, g2, g3⟩ := e8 hw
    rw [hqs] at g1
    injection g1 with g1 _
    subst g1
    rw [hl] at g2 g3
    simp only at g2 g3
    subst g2
    refine ⟨m, _, hm, hserve, e1, e2, ⟨by rw [e3, e2, hlen], c1, c2, c3⟩, ?_⟩
    rcases g3 with ⟨r', h1, h2, h3, h4, h5, h6⟩ | ⟨r', h1, h2, h3, h4, h5, h6⟩ | ⟨e, h1, -⟩
    · injection h1 with h1
      subst h1
      refine ⟨by rw [h4, h5, h6]; exact hpl, ?_⟩
      cases fate with
      | found l =>
        obtain ⟨-, cs, rs, a1, a2, a3⟩ := hr
        exact ⟨h3, cs, rs, by rw [h4, a1], content_of_bare a2, content_of_same a3⟩
      | absent => rw [hr.1] at h2; cases h2
      | «alias» c => exact hr
    · injection h1 with h1
      subst h1
      refine ⟨by rw [h4, h5, h6]; simp, ?_⟩
      cases fate with
      | found l => rw [hr.1] at h2; cases h2
      | absent => exact ⟨h3, h4⟩
      | «alias» c => exact hr
    · cases h1
  · rw [hqs, List.mem_singleton] at hqm
    subst hqm
    rw [hl] at h
    rcases h with ⟨k, h, -⟩ | ⟨h, -⟩
    · cases h
    · cases h

theorem received_same (m : Message) : Message.SameItems m (receivedMessage m) :=
  ⟨rfl, fun _ _ => rfl, fun j _ => by
    show (m.answers[j]?).map Record.encode = ((m.answers.map Props.received)[j]?).map Record.encode
    rw [List.getElem?_map, Option.map_map]
    rfl, fun j _ => by
    show (m.authorities[j]?).map Record.encode = ((m.authorities.map Props.received)[j]?).map Record.encode
    rw [List.getElem?_map, Option.map_map]
    rfl, fun j _ => by
    show (m.additionals[j]?).map Record.encode = ((m.additionals.map Props.received)[j]?).map Record.encode
    rw [List.getElem?_map, Option.map_map]
    rfl⟩

theorem received_counts {m : Message} (h : CountsMatch m) : CountsMatch (receivedMessage m) := by
  obtain ⟨h1, h2, h3, h4⟩ := h
  exact ⟨h1, by simpa [receivedMessage] using h2, by simpa [receivedMessage] using h3, by simpa [receivedMessage] using h4⟩

theorem received_message_plain {m : Message} (hop : m.header.opCode = .STD) (hz : m.header.z = 0) (hc : CountsMatch m)
    (hq : ∀ q ∈ m.questions, PlainQuestion q) (hr : ∀ r ∈ m.answers ++ m.authorities ++ m.additionals, Plain r) :
    PlainMessage (receivedMessage m) := by
  obtain ⟨h1, h2, h3, h4⟩ := received_counts hc
  refine ⟨hop, by rw [show (receivedMessage m).header.z = 0 from hz]; decide, h1, h2, h3, h4, hq, fun r hm => ?_⟩
  simp only [receivedMessage, ← List.map_append] at hm
  obtain ⟨r0, hr0, rfl⟩ := List.mem_map.1 hm
  exact received_plain (hr r0 hr0)

theorem informs_received {code : RespCode} {answers cnames : List Record} {fate : Fate} (h : Informs code answers cnames fate) :
    Informs code (answers.map Props.received) cnames fate := by
  cases fate with
  | found l =>
    obtain ⟨h1, cs, rs, rfl, h3, h4⟩ := h
    exact ⟨h1, cs.map Props.received, rs.map Props.received, by simp, by rw [content_received, h3], by rw [content_received]; exact h4⟩
  | absent => exact ⟨h.1, by rw [h.2]; rfl⟩
  | «alias» c => exact h

/-- The question, and the reply, on the wire. -/
theorem question_fits {m : Message} {q : Question} (hop : m.header.opCode = .STD) (hc : CountsMatch m) (hq : m.questions = [q]) (hp : PlainQuestion q)
    {out : List UInt8} (h : (cut m 1).encodeToBytes = .ok out) : out.length ≤ 512 := by
  have hnil : ∀ l : List Record, Encodings Record.encode (l.take 0) [] := fun l => by
    rw [List.take_zero]; exact .nil
  have e1 := encode_of_encodings (m := cut m 1) hop (cut_counts hc 1)
    (q := [q.node.toBytes ++ (be16 q.recordType.toNum.toNat ++ be16 q.cls.toNum.toNat)]) (an := []) (au := []) (ad := []) ?_ ?_ ?_ ?_
  · rw [h] at e1
    have hc := toBytes_length hp.1
    have hb := hp.1.1
    cases e1
    simp [headerBytes_length, be16]
    omega
  · show Encodings Question.encode (m.questions.take 1) _
    rw [hq]
    exact .cons (question_writes hp.2) .nil
  · show Encodings Record.encode (m.answers.take (1 - m.questions.length)) []
    rw [hq]
    exact hnil _
  · show Encodings Record.encode (m.authorities.take (1 - m.questions.length - m.answers.length)) []
    rw [hq, show 1 - [q].length - m.answers.length = 0 by simp]
    exact hnil _
  · show Encodings Record.encode (m.additionals.take (1 - m.questions.length - m.answers.length - m.authorities.length)) []
    rw [hq, show 1 - [q].length - m.answers.length - m.authorities.length = 0 by simp]
    exact hnil _

/-- C89, UDP: in a name space that is in order (C88) and has plain records only, a client that asks a question gets one datagram
of at most 512 octets, which it decodes to a response to the request that tells what became of the question, completely or, if
TC is set, as far as it fits; and the resolver goes on like this. -/
theorem C89_udp {N : NameSpace} {env : Env} {p : Profile} {conf : Params} {start stop : Nat} {w : World} {datagram : List UInt8} {req : Message}
    {node : Name} {kind : RecordType} {cnames : List Record} {fate : Fate} {fuel : Nat} (p' : Profile) (hs : Serving N env p conf start stop w)
    (hrd : Net.udpRead p datagram = .ok (.fullMessage req)) (hq : Poses req node kind) (he : Encodable node)
    (ha : N.asked node kind) (hfares : N.Fares kind node cnames fate) (hn : cnames.length < conf.maxCnameRedir)
    (hc : conf.maxCnameRedir ≤ 65490) (hfuel : 256 + N.depth < fuel) :
    ∃ out w' m all, (∀ n, out.length ≤ n → serveUdp env p conf fuel datagram [some n] w = (.ok ([out], true), w')) ∧ out.length ≤ 512 ∧
      Message.decodeFromBytes p' out = .ok m ∧ RespondsTo req m ∧ Informs m.header.respCode all cnames fate ∧
      m.answers <+: all ∧ (m.answers = all ∨ m.header.truncated = true) ∧ Serving N env p conf start stop w' := by
  obtain ⟨m, w', hm, hs', e1, e2, hcm, hpl, hinf⟩ := handle_informs hs hq ha hfares hn hc hfuel
  have hd : Message.decodeFromBytes p (datagram.take 512) = .ok req := by
    have := (C30_classification.1 p datagram _).1 hrd
    cases this with
    | full h => exact h
  obtain ⟨hdec, -⟩ := decoded_message hd
  have hop : m.header.opCode = .STD := by rw [e1.2.2.2.2.2.1]; exact hdec.opCode
  have hqp : PlainQuestion ⟨node, kind, .IN⟩ := ⟨he, (hdec.qs _ (by rw [hq.2]; simp)).2, rfl⟩
  have hm1 : PlainMessage (receivedMessage m) := received_message_plain hop e1.2.2.2.2.1 hcm (fun q hx => by
    rw [e2, hq.2, List.mem_singleton] at hx
    subst hx
    exact hqp) hpl
  have hcm1 := received_counts hcm
  obtain ⟨out, k, hout, hsize, hk, hdecode, hk2⟩ := trunc_decodes p' (m1 := receivedMessage m) hop hm1.2.1 hcm1
    (fun q hx => by
      obtain ⟨x, w1, w2⟩ := writes_question (hm1.2.2.2.2.2.2.1 q hx)
      exact ⟨x, w2, decodes_question p' (hm1.2.2.2.2.2.2.1 q hx) w1⟩)
    (fun r hx => by
      simp only [receivedMessage, ← List.map_append] at hx
      obtain ⟨r0, hr0, rfl⟩ := List.mem_map.1 hx
      exact received_roundTrips p' (hpl r0 hr0))
  have hq1 : (receivedMessage m).questions = [⟨node, kind, .IN⟩] := by
    show m.questions = _
    rw [e2, hq.2]
  have hk0 : 1 ≤ k := by
    apply Classical.byContradiction
    intro hlt
    have : k = 0 := by omega
    subst this
    obtain ⟨out', h3, h4⟩ := hk2 (by unfold total; rw [hq1]; simp only [List.length_singleton]; omega)
    have := question_fits (m := receivedMessage m) hop hcm1 hq1 hqp h3
    omega
  rw [← (received_same m).trunc] at hout
  refine ⟨out, w', _, (receivedMessage m).answers, fun n hn => ?_, hsize.2, hdecode, ⟨e1.1, e1.2.1, e1.2.2.2.2.2.1, ?_⟩, informs_received hinf, ?_, ?_, hs'⟩
  · have : serveUdp env p conf fuel datagram [some n] w = (handle env p conf fuel (.fullMessage req) >>= fun reply =>
        match reply with
        | none => pure ([], true)
        | some m => infallible (Net.udpReply m [some n])) w := infallible_ok hrd _ w
    rw [this, M.bind_eq hm]
    show infallible (Net.udpReply m [some n]) w' = _
    rw [udpReply_once hout hsize.1 hn]
    rfl
  · show (receivedMessage m).questions.take k = _
    rw [hq1, hq.2, List.take_of_length_le (by simpa using hk0)]
  · exact List.take_prefix _ _
  · by_cases hlt : k < total (receivedMessage m)
    · right
      show (if k < total (receivedMessage m) then true else (receivedMessage m).header.truncated) = true
      rw [if_pos hlt]
    · left
      show (receivedMessage m).answers.take (k - (receivedMessage m).questions.length) = _
      refine List.take_of_length_le ?_
      unfold total at hlt hk
      omega

/-- C89, TCP: the same over TCP, where the response is complete, if the limit on redirections is at most 52. -/
theorem C89_tcp {N : NameSpace} {env : Env} {p : Profile} {conf : Params} {start stop : Nat} {w : World} {stream rest : List UInt8} {req : Message}
    {node : Name} {kind : RecordType} {cnames : List Record} {fate : Fate} {fuel : Nat} (p' : Profile) (hs : Serving N env p conf start stop w)
    (hrd : Net.tcpRead p stream = .ok (.fullMessage req, rest)) (hq : Poses req node kind) (he : Encodable node)
    (ha : N.asked node kind) (hfares : N.Fares kind node cnames fate) (hn : cnames.length < conf.maxCnameRedir)
    (hc : conf.maxCnameRedir ≤ 52) (hfuel : 256 + N.depth < fuel) :
    ∃ body w' m, body.length < 65536 ∧
      (∀ room, 2 + body.length ≤ room → serveTcp env p conf fuel stream room w = (.ok (be16 body.length ++ body, true), w')) ∧
      Message.decodeFromBytes p' body = .ok m ∧ RespondsTo req m ∧ Informs m.header.respCode m.answers cnames fate ∧
      Serving N env p conf start stop w' := by
  obtain ⟨m, w', hm, hs', e1, e2, hcm, hpl, hinf⟩ := handle_informs hs hq ha hfares hn (by omega) hfuel
  obtain ⟨body, hd⟩ : ∃ body, Message.decodeFromBytes p body = .ok req := by
    rcases C29_tcp_framing_partial.2.2.1 p stream _ rest hrd with e | ⟨body, -, -, hc⟩
    · cases e
    · cases hc with
      | full h => exact ⟨body, h⟩
  obtain ⟨hdec, -⟩ := decoded_message hd
  have hop : m.header.opCode = .STD := by rw [e1.2.2.2.2.2.1]; exact hdec.opCode
  have hqp : PlainQuestion ⟨node, kind, .IN⟩ := ⟨he, (hdec.qs _ (by rw [hq.2]; simp)).2, rfl⟩
  have hm1 : PlainMessage (receivedMessage m) := received_message_plain hop e1.2.2.2.2.1 hcm (fun q hx => by
    rw [e2, hq.2, List.mem_singleton] at hx
    subst hx
    exact hqp) hpl
  obtain ⟨x, x1, -, x2⟩ := C21_plain_message p' _ hm1
  rw [← (received_same m).encode] at x1
  have hlen : x.length < 65536 := reply_size hs.received hc hd (by rw [hq.2]; simp) hm x1
  refine ⟨x, w', receivedMessage m, hlen, fun room hroom => ?_, by simpa using x2 [], ⟨e1.1, e1.2.1, e1.2.2.2.2.2.1, e2⟩, informs_received hinf, hs'⟩
  have : serveTcp env p conf fuel stream room w = (handle env p conf fuel (.fullMessage req) >>= fun reply =>
      match reply with
      | none => pure ([], true)
      | some m => infallible (Net.tcpReply m room)) w := infallible_ok hrd _ w
  rw [this, M.bind_eq hm]
  show infallible (Net.tcpReply m room) w' = _
  rw [(C29_tcp_framing_partial.1 m x x1 hlen).1 room hroom]
  rfl

/-- Serving one datagram after the other: what is sent. -/
def replies (env : Env) (p : Profile) (conf : Params) (fuel : Nat) : List (List UInt8) → World → List (Out LookupErr (List (List UInt8) × Bool))
  | [], _ => []
  | d :: ds, w => (serveUdp env p conf fuel d [some 512] w).1 :: replies env p conf fuel ds (serveUdp env p conf fuel d [some 512] w).2

/-- The datagram is a request the name space has an answer to, by following fewer than so many aliases. -/
def Answerable (N : NameSpace) (p : Profile) (n : Nat) (datagram : List UInt8) : Prop :=
  ∃ req node kind, Net.udpRead p datagram = .ok (.fullMessage req) ∧ Poses req node kind ∧ Encodable node ∧ Resolvable N n (node, kind)

/-- One datagram has been sent. It decodes to a response to the request that tells what became of the question, or, TC being
set, as much of that as fits. -/
def Answered (N : NameSpace) (p p' : Profile) (datagram : List UInt8) (o : Out LookupErr (List (List UInt8) × Bool)) : Prop :=
  ∃ req node kind cnames fate out m all, Net.udpRead p datagram = .ok (.fullMessage req) ∧ Poses req node kind ∧ N.Fares kind node cnames fate ∧
    o = .ok ([out], true) ∧ out.length ≤ 512 ∧ Message.decodeFromBytes p' out = .ok m ∧ RespondsTo req m ∧
    Informs m.header.respCode all cnames fate ∧ m.answers <+: all ∧ (m.answers = all ∨ m.header.truncated = true)

/-- C89, any number of clients: all are answered. -/
theorem C89_session {N : NameSpace} {env : Env} {p : Profile} {conf : Params} {start stop fuel : Nat} (p' : Profile) (hc : conf.maxCnameRedir ≤ 65490)
    (hfuel : 256 + N.depth < fuel) : ∀ (datagrams : List (List UInt8)) (w : World), Serving N env p conf start stop w →
    (∀ d ∈ datagrams, Answerable N p conf.maxCnameRedir d) → List.Forall₂ (Answered N p p') datagrams (replies env p conf fuel datagrams w)
  | [], _, _, _ => .nil
  | d :: ds, w, hs, hd => by
    obtain ⟨req, node, kind, h1, h2, h3, h4, cs, f, h5, h6⟩ := hd d (List.mem_cons_self ..)
    obtain ⟨out, w', m, all, g1, g2, g3, g4, g5, g6, g7, g8⟩ := C89_udp p' hs h1 h2 h3 h4 h5 h6 hc hfuel
    unfold replies
    rw [g1 512 g2]
    exact .cons ⟨req, node, kind, cs, f, out, m, all, h1, h2, h5, rfl, g2, g3, g4, g5, g6, g7⟩
      (C89_session p' hc hfuel ds w' g8 fun d hx => hd d (List.mem_cons_of_mem _ hx))

/-! The name space of C88 has plain records only. -/

/-- The messages of the example. -/
theorem orderReply_cases {addr : Ip4} {n : Name} {m : Message} (h : orderReply addr n = some m) :
    PlainMessage m ∧ encodedLength (withId m 0) ≤ 512 := by
  have hf : PlainMessage mFail := ⟨rfl, by decide, rfl, rfl, rfl, rfl, by simp [mFail, orderMessage], by simp [mFail, orderMessage]⟩
  unfold orderReply at h
  split at h
  · cases h
  split at h
  · cases h; exact ⟨hf, by decide +kernel⟩
  split at h
  · split at h
    · cases h; exact ⟨mA_plain, by decide +kernel⟩
    split at h
    · cases h; exact ⟨mB_plain, by decide +kernel⟩
    cases h; exact ⟨mC_plain, by decide +kernel⟩
  split at h
  · cases h; exact ⟨mN_plain, by decide +kernel⟩
  split at h
  · cases h; exact ⟨mNet_plain, by decide +kernel⟩
  cases h; exact ⟨mCom_plain, by decide +kernel⟩

theorem order_serving (p : Profile) (ticks : Nat) : Serving orderSpace orderEnv p ⟨2, 3, 2, false⟩ 0 span ⟨.empty, ticks, []⟩ where
  order := order_inOrder p ticks
  coherent := empty_coherent ..
  fresh := fun _ _ _ h => nomatch h
  plain := by
    refine ⟨?_, (fun _ _ _ h => nomatch h), fun _ _ h => h⟩
    intro hist addr query raw m hn hd
    have hn : orderNet addr query = some raw := hn
    unfold orderNet at hn
    split at hn
    · split at hn
      · rename_i q hq
        cases hr : orderReply addr q.node with
        | none => rw [hr] at hn; cases hn
        | some reply =>
          rename_i mq _ _
          rw [hr] at hn
          obtain ⟨h1, h2⟩ := orderReply_cases hr
          obtain ⟨b, e1, e2⟩ := send_of h1 h2 p (d := some raw) (id := mq.header.id) (by
            rw [← hn]; dsimp only; generalize Message.encodeToBytes _ = o; cases o <;> rfl)
          cases e1
          rw [hd] at e2
          cases e2
          exact fun r hm => (h1.2.2.2.2.2.2.2 r hm).1
      · cases hn
    · cases hn
  received := ⟨(fun _ _ _ h => nomatch h), fun _ _ h => h⟩

/-- A query for the address of a name. -/
def addressQuery (id : UInt16) (n : Name) : List UInt8 := match (queryMessage id n .A).encodeToBytes with
  | .ok x => x
  | _ => []

theorem addressQuery_read (p : Profile) (id : UInt16) {n : Name} (h : Encodable n) :
    Net.udpRead p (addressQuery id n) = .ok (.fullMessage (queryMessage id n .A)) := by
  obtain ⟨x, h1, -, h2⟩ := C21_plain_message p _ (query_plain (kind := .A) id h rfl)
  have hlen : x.length ≤ 512 := by
    have e := encode_of_encodings (m := queryMessage id n .A) rfl ⟨rfl, rfl, rfl, rfl⟩
      (.cons (question_writes (q := ⟨n, .A, .IN⟩) ⟨rfl, rfl⟩) .nil) .nil .nil .nil
    rw [h1] at e
    rw [Out.ok.inj e]
    have := h.1
    simp [headerBytes_length, toBytes_length h, be16]
    omega
  unfold addressQuery
  rw [h1, C30_classification.1]
  dsimp only
  rw [List.take_of_length_le hlen]
  exact .full (by simpa using h2 [])

theorem order_answered (p p' : Profile) (qs : List (UInt16 × Name)) (h : ∀ q ∈ qs, Encodable q.2 ∧ Resolvable orderSpace 2 (q.2, .A)) :
    List.Forall₂ (Answered orderSpace p p') (qs.map fun q => addressQuery q.1 q.2)
      (replies orderEnv p ⟨2, 3, 2, false⟩ 300 (qs.map fun q => addressQuery q.1 q.2) ⟨.empty, 0, []⟩) := by
  refine C89_session p' (by decide) (by decide) _ _ (order_serving p 0) ?_
  intro d hd
  obtain ⟨q, hq, rfl⟩ := List.mem_map.1 hd
  obtain ⟨he, hr⟩ := h q hq
  exact ⟨_, q.2, .A, addressQuery_read p q.1 he, ⟨⟨rfl, rfl, rfl, rfl⟩, rfl⟩, he, hr⟩

/-- The clients that ask for b.com. (an alias), a.com., c.com. (which does not exist), n.net. and again b.com. are answered. -/
example (p p' : Profile) : List.Forall₂ (Answered orderSpace p p')
    ([(6, nB), (7, nA), (8, nC), (9, nN), (10, nB)].map fun q : UInt16 × Name => addressQuery q.1 q.2)
    (replies orderEnv p ⟨2, 3, 2, false⟩ 300 ([(6, nB), (7, nA), (8, nC), (9, nN), (10, nB)].map fun q : UInt16 × Name => addressQuery q.1 q.2)
      ⟨.empty, 0, []⟩) := by
  have hB : Encodable nB ∧ Resolvable orderSpace 2 (nB, .A) :=
    ⟨nB_encodable, ⟨rfl, .inr (.inl rfl)⟩, _, _, .follow (order_fateB _) rfl (.last (order_fateA _) (by simp)), by decide⟩
  have hA : Encodable nA ∧ Resolvable orderSpace 2 (nA, .A) := ⟨nA_encodable, ⟨rfl, .inl rfl⟩, _, _, .last (order_fateA _) (by simp), by decide⟩
  have hC : Encodable nC ∧ Resolvable orderSpace 2 (nC, .A) :=
    ⟨nC_encodable, ⟨rfl, .inr (.inr (.inl rfl))⟩, _, _, .last (order_fateC _) (by simp), by decide⟩
  have hN : Encodable nN ∧ Resolvable orderSpace 2 (nN, .A) :=
    ⟨nN_encodable, ⟨rfl, .inr (.inr (.inr rfl))⟩, _, _, .last (order_fateN _) (by simp), by decide⟩
  refine order_answered p p' _ ?_
  intro q hq
  simp only [List.mem_cons, List.not_mem_nil, or_false] at hq
  rcases hq with h | h | h | h | h
  · rw [h]; exact hB
  · rw [h]; exact hA
  · rw [h]; exact hC
  · rw [h]; exact hN
  · rw [h]; exact hB

end Ariadne.Props
