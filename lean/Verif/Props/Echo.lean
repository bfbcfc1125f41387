import Verif.Spec.Echo
import Verif.Props.Tc

/-!
# C125: replies repeat the questions, octet by octet
-/

namespace Ariadne.Props

open Spec BitsBuf

/-- The name server: the reply over TCP repeats the octets `x` of the questions, and so does the datagram for the same request over UDP. -/
def NameserverEchoes (request x : List UInt8) : Prop :=
  ∀ {p : Profile} {zones : ManagedZone} {rest full : List UInt8} {room : Nat}, request.length ≤ 512 →
    Nameserver.serveTcp p zones (be16 request.length ++ (request ++ rest)) room = .ok (be16 (full.length % 65536) ++ full, true) →
    Repeats x full ∧ ∃ datagram, (∀ n, datagram.length ≤ n → Nameserver.serveUdp p zones request [some n] = .ok ([datagram], true)) ∧
      Repeats x datagram

/-- The resolver, likewise. -/
def ResolverEchoes (request x : List UInt8) : Prop :=
  ∀ {env : Resolver.Env} {p : Profile} {conf : Resolver.Params} {fuel : Nat} {rest full : List UInt8} {room : Nat} {w w' : Resolver.World},
    request.length ≤ 512 →
    Resolver.serveTcp env p conf fuel (be16 request.length ++ (request ++ rest)) room w =
      (.ok (be16 (full.length % 65536) ++ full, true), w') →
    Repeats x full ∧ ∃ datagram, (∀ n, datagram.length ≤ n → Resolver.serveUdp env p conf fuel request [some n] w = (.ok ([datagram], true), w')) ∧
      Repeats x datagram

/-- The full statement of C125. -/
def C125_statement : Prop :=
  ∀ request qs x, CarriesQuestions request qs x → (∀ q ∈ qs, Askable q) → NameserverEchoes request x ∧ ResolverEchoes request x

/-! ## Reading -/

theorem decodes_questions (p : Profile) : ∀ {qs : List Question} {xs : List (List UInt8)}, List.Forall₂ QuestionWire qs xs →
    (∀ q ∈ qs, PlainQuestion q) → ∀ i, Decodes (Message.decodeItems (Question.decode p) .question qs.length i) xs.flatten qs
  | _, _, .nil, _, _ => Decodes.pure []
  | q :: qs, x :: xs, .cons h t, hp, i => by
    intro pre post
    have e1 := decodes_question p (hp q List.mem_cons_self) h pre (xs.flatten ++ post)
    have e2 := decodes_questions p t (fun q hq => hp q (List.mem_cons_of_mem _ hq)) (i + 1) (pre ++ x) post
    simp only [List.append_assoc, List.length_append, List.flatten_cons, List.length_cons] at e1 e2 ⊢
    unfold Message.decodeItems
    simp only [e1]
    rw [BufM.bind_ok e2, Nat.add_assoc]
    rfl

/-- What is decoded from a message with these questions. -/
theorem carried_questions {p : Profile} {bytes x : List UInt8} {qs : List Question} {m : Message} (hc : CarriesQuestions bytes qs x)
    (hp : ∀ q ∈ qs, PlainQuestion q) (h : Message.decodeFromBytes p bytes = .ok m) :
    m.questions = qs ∧ m.header.questionsCount.toNat = qs.length := by
  obtain ⟨hd, header, xs, rest, h1, h2, h3, rfl, rfl⟩ := hc
  unfold Message.decodeFromBytes at h
  obtain ⟨b, h⟩ : ∃ b, Message.decode p (fromRawBytes (header ++ (xs.flatten ++ rest))) = (.ok m, b) := ⟨_, Prod.ext h rfl⟩
  have e1 := (decodes_header h1).mapErr (f := MessageErr.headerErr) [] (xs.flatten ++ rest)
  have e2 := decodes_questions p h3 hp 0 header rest
  rw [← h2] at e2
  simp only [List.nil_append, List.append_assoc, List.length_nil, Nat.zero_add] at e1 e2
  rw [rd_zero] at h
  unfold Message.decode at h
  rw [BufM.bind_ok e1] at h
  obtain ⟨u, b2, g1, h⟩ := bufBind_ok_inv h
  have g2 : b2 = rd (header ++ (xs.flatten ++ rest)) header.length := by
    rw [BufM.lift_apply] at g1
    exact (Prod.mk.inj g1).2.symm
  subst g2
  rw [BufM.bind_ok e2] at h
  obtain ⟨an, b4, -, h⟩ := bufBind_ok_inv h
  obtain ⟨au, b5, -, h⟩ := bufBind_ok_inv h
  obtain ⟨ad, b6, -, h⟩ := bufBind_ok_inv h
  rw [← Out.ok.inj (Prod.mk.inj h).1]
  exact ⟨rfl, h2⟩

/-! ## Writing -/

theorem wire_unique {q : Question} {x : List UInt8} (hq : PlainQuestion q) (h : QuestionWire q x) : Writes (Question.encode q) x := by
  obtain ⟨owner, ⟨L, h1, -, rfl⟩, rfl⟩ := h
  obtain ⟨L', h2, -, h3⟩ := (encodable_wire hq.1).2
  rw [nameOf_unique h1 h2, ← h3]
  exact question_writes hq.2

theorem echo_encodings : ∀ {qs : List Question} {xs : List (List UInt8)}, List.Forall₂ QuestionWire qs xs → (∀ q ∈ qs, PlainQuestion q) →
    Encodings Question.encode qs xs
  | _, _, .nil, _ => .nil
  | q :: _, _ :: _, .cons h t, hp =>
    .cons (wire_unique (hp q List.mem_cons_self) h) (echo_encodings t fun q hq => hp q (List.mem_cons_of_mem _ hq))

theorem echo_encoded {m : Message} {full short : List UInt8} {xs : List (List UInt8)} (h : m.encodeToBytes = .ok full)
    (hs : m.encodeToBytesTrunc = .ok short) (hn : m.header.questionsCount.toNat = m.questions.length)
    (hq : Encodings Question.encode m.questions xs) (hl : xs.flatten.length ≤ 500) :
    Repeats xs.flatten full ∧ Repeats xs.flatten short := by
  have hc := announced_counts h
  rw [← Ariadne.announced_encode] at h
  rw [← Ariadne.announced_trunc] at hs
  have hqa : (Ariadne.announced m).questions = m.questions := List.take_of_length_le (Nat.le_of_eq hn.symm)
  rw [← hqa] at hq
  clear hqa hn
  generalize Ariadne.announced m = m at *
  obtain ⟨hop, h1, h2⟩ := allWrite_of_encode hc h
  obtain ⟨k, hk, hcut, hmax⟩ : ∃ k ≤ total m, (cut m k).encodeToBytes = .ok short ∧
        (k < total m → ∃ out', (cut m (k + 1)).encodeToBytes = .ok out' ∧ 512 < out'.length) := by
    cases trunc_some hc hs with
    | ok h => exact h.2.2
  obtain ⟨an, han⟩ := encodings_of_all (xs := m.answers) fun r hr => h2 r (by simp [hr])
  obtain ⟨au, hau⟩ := encodings_of_all (xs := m.authorities) fun r hr => h2 r (by simp [hr])
  obtain ⟨ad, had⟩ := encodings_of_all (xs := m.additionals) fun r hr => h2 r (by simp [hr])
  have e1 := encode_of_encodings hop hc hq han hau had
  have e2 : ∀ j, _ := fun j => encode_of_encodings (m := cut m j) hop (cut_counts hc j) (encodings_take hq j) (encodings_take han _)
    (encodings_take hau _) (encodings_take had _)
  rw [h] at e1
  have hlen := hq.length_eq
  have hkq : m.questions.length ≤ k := by
    apply Classical.byContradiction
    intro hlt
    have ht : m.questions.length ≤ total m := by unfold total; omega
    obtain ⟨out', g1, g2⟩ := hmax (by omega)
    have e3 := e2 (k + 1)
    rw [g1] at e3
    have z1 : k + 1 - m.questions.length = 0 := by omega
    have z2 : k + 1 - m.questions.length - m.answers.length = 0 := by omega
    have z3 : k + 1 - m.questions.length - m.answers.length - m.authorities.length = 0 := by omega
    rw [Out.ok.inj e3] at g2
    simp only [z1, Nat.zero_sub, List.take_zero, List.flatten_nil, List.append_nil, List.length_append, headerBytes_length] at g2
    have : (xs.take (k + 1)).flatten.length ≤ xs.flatten.length := by
      conv_rhs => rw [← List.take_append_drop (k + 1) xs, List.flatten_append, List.length_append]
      omega
    omega
  have e3 := e2 k
  rw [hcut, List.take_of_length_le (l := xs) (by omega)] at e3
  unfold Repeats
  rw [Out.ok.inj e1, Out.ok.inj e3, List.drop_left' (headerBytes_length _), List.drop_left' (headerBytes_length _)]
  exact ⟨List.prefix_append _ _, List.prefix_append _ _⟩

/-- Both ways of sending one reply. -/
theorem reply_echo {m : Message} {room : Nat} {full : List UInt8} {qs : List Question} {xs : List (List UInt8)}
    (h : Net.tcpReply m room = .ok (be16 (full.length % 65536) ++ full, true)) (hm : m.questions = qs)
    (hn : m.header.questionsCount.toNat = qs.length) (hq : List.Forall₂ QuestionWire qs xs) (hp : ∀ q ∈ qs, PlainQuestion q)
    (hl : xs.flatten.length ≤ 500) :
    Repeats xs.flatten full ∧ ∃ datagram, (∀ n, datagram.length ≤ n → Net.udpReply m [some n] = .ok ([datagram], true)) ∧
      Repeats xs.flatten datagram := by
  obtain ⟨full', h1, h2⟩ := tcpReply_full h
  cases frame_inj h2
  obtain ⟨short, h3, h4⟩ := shortened h1
  subst hm
  obtain ⟨h5, h6⟩ := echo_encoded h1 h3 hn (echo_encodings hq hp) hl
  exact ⟨h5, short, fun n hn => udpReply_once h3 h4.size.1 hn, h6⟩

/-! ## Servers -/

/-- The questions of the request, and how many. -/
def Echo (req m : Message) : Prop :=
  m.questions = req.questions ∧ (m.header.questionsCount = req.header.questionsCount ∨ m.header.questionsCount = 1)

open Nameserver in
theorem query_echo {p : Profile} {req m : Message} {q : Question} {zones : ManagedZone} (h : query p req q zones = .ok m) : Echo req m := by
  unfold query at h
  split at h
  · rw [← Out.ok.inj h]; exact ⟨rfl, .inl rfl⟩
  · split at h
    · unfold referral at h
      obtain ⟨s, h1, h⟩ := outBind_inv h
      cases s with
      | none => cases h
      | some a =>
        dsimp only at h
        split at h
        · cases h
        · obtain ⟨g, h2, h⟩ := outBind_inv h
          rw [← Out.ok.inj h]; exact ⟨rfl, by first | exact .inl rfl | exact .inr rfl⟩
    · unfold authZone at h
      obtain ⟨s, h1, h⟩ := outBind_inv h
      dsimp only at h
      split at h
      · obtain ⟨c, h2, h⟩ := outBind_inv h
        cases c with
        | some c => rw [← Out.ok.inj h]; exact ⟨rfl, by first | exact .inl rfl | exact .inr rfl⟩
        | none =>
          obtain ⟨soa, h3, h⟩ := outBind_inv h
          match soa with
          | none => cases h
          | some [] => cases h
          | some (soa :: _) =>
            dsimp only at h
            unfold nxReply at h
            split at h
            · cases h
            · rw [← Out.ok.inj h]; exact ⟨rfl, .inl rfl⟩
      · rw [← Out.ok.inj h]; exact ⟨rfl, by first | exact .inl rfl | exact .inr rfl⟩

/-- The reply to the request `m`, or to what was only a header. -/
theorem nameserver_echo {p : Profile} {zones : ManagedZone} {req m : Message} {qs : List Question}
    (hq : req.questions = qs) (hn : req.header.questionsCount.toNat = qs.length)
    (h : Nameserver.handle p zones (.fullMessage req) = .ok (some m)) :
    m.questions = qs ∧ m.header.questionsCount.toNat = qs.length := by
  subst hq
  unfold Nameserver.handle at h
  dsimp only at h
  cases hv : Nameserver.validate req with
  | none => rw [hv] at h; rw [← Option.some.inj (Out.ok.inj h)]; exact ⟨rfl, hn⟩
  | some q =>
    rw [hv] at h
    obtain ⟨m', h1, h2⟩ := outBind_inv h
    rw [← Option.some.inj (Out.ok.inj h2)]
    obtain ⟨e1, e2⟩ := query_echo h1
    refine ⟨e1, ?_⟩
    have hl : req.questions.length = 1 := by
      unfold Nameserver.validate at hv
      split at hv
      · cases hv
      split at hv
      · cases hv
      split at hv
      · cases hv
      split at hv
      · next heq => rw [heq]; rfl
      · cases hv
    cases e2 with
    | inl e => rw [e, hn]
    | inr e => rw [e, hl]; rfl

/-- What is read has these questions, or only announces them. -/
def CarriedIn (qs : List Question) : ReadResult → Prop
  | .fullMessage req => req.questions = qs ∧ req.header.questionsCount.toNat = qs.length
  | .headerOnly hd _ => hd.questionsCount.toNat = qs.length
  | _ => True

/-- What was read from a message with these questions. -/
theorem read_carried {p : Profile} {bytes x : List UInt8} {qs : List Question} {read : ReadResult} (hb : bytes.length ≤ 512)
    (hc : CarriesQuestions bytes qs x) (hp : ∀ q ∈ qs, PlainQuestion q) (h : Net.udpRead p bytes = .ok read) :
    CarriedIn qs read := by
  have hr := (C30_classification.1 p bytes _).1 h
  rw [List.take_of_length_le hb] at hr
  cases hr with
  | full hm => exact carried_questions hc hp hm
  | header _ hh =>
    obtain ⟨h0, header, xs, rest, h1, h2, h3, rfl, rfl⟩ := hc
    have e1 := decodes_header h1 [] (xs.flatten ++ rest)
    simp only [List.nil_append, List.length_nil, Nat.zero_add] at e1
    unfold Header.decodeFromBytes at hh
    rw [rd_zero, e1] at hh
    unfold CarriedIn
    rw [← Out.ok.inj hh]
    exact h2
  | none => trivial

/-- The reply to what was only a header says nothing, or is not sent. -/
theorem header_echo {m : Message} {room : Nat} {full : List UInt8} {qs : List Question} {xs : List (List UInt8)}
    (h : Net.tcpReply m room = .ok (be16 (full.length % 65536) ++ full, true)) (hm : m.questions = [])
    (hn : m.header.questionsCount.toNat = qs.length) (hq : List.Forall₂ QuestionWire qs xs) :
    Repeats xs.flatten full ∧ ∃ datagram, (∀ n, datagram.length ≤ n → Net.udpReply m [some n] = .ok ([datagram], true)) ∧
      Repeats xs.flatten datagram := by
  obtain ⟨full', h1, -⟩ := tcpReply_full h
  have h3 := encode_questions h1
  rw [hm, hn] at h3
  cases hq with
  | nil => exact reply_echo h hm hn .nil (by simp) (by simp)
  | cons a b => simp at h3

/-- C125, for all questions but those for the root. -/
theorem C125_echo_partial (request : List UInt8) (qs : List Question) (x : List UInt8) (hc : CarriesQuestions request qs x)
    (hp : ∀ q ∈ qs, PlainQuestion q) : NameserverEchoes request x ∧ ResolverEchoes request x := by
  obtain ⟨h0, header, xs, more, g1, g2, g3, g4, g5⟩ := id hc
  have hlen : request.length ≤ 512 → xs.flatten.length ≤ 500 := by
    intro hb
    rw [g5, g4, List.length_append, List.length_append, g1.1] at hb
    omega
  constructor
  · intro p zones rest full room hb hs
    unfold Nameserver.serveTcp at hs
    rw [C30_classification.2.2.1 p request rest hb] at hs
    cases hr : Net.udpRead p request with
    | ok read =>
      rw [hr, Out.bind_ok, Out.bind_ok] at hs
      simp only at hs
      obtain ⟨mo, hm, hs2⟩ := outBind_inv hs
      clear hs
      cases mo with
      | none => exact (not_nil (Prod.mk.inj (Out.ok.inj hs2)).1).elim
      | some m =>
        have hk : Repeats xs.flatten full ∧ ∃ datagram, (∀ n, datagram.length ≤ n → Net.udpReply m [some n] = .ok ([datagram], true)) ∧
            Repeats xs.flatten datagram := by
          have hrc := read_carried hb hc hp hr
          cases read with
          | fullMessage req =>
            obtain ⟨e1, e2⟩ := nameserver_echo hrc.1 hrc.2 hm
            exact reply_echo hs2 e1 e2 g3 hp (hlen hb)
          | headerOnly hd e =>
            rw [← Option.some.inj (Out.ok.inj hm)] at hs2 ⊢
            exact header_echo hs2 rfl hrc g3
          | parseErr a b => exact nomatch Out.ok.inj hm
          | ioErr => exact nomatch Out.ok.inj hm
        rw [g4]
        obtain ⟨k1, datagram, k2, k3⟩ := hk
        refine ⟨k1, datagram, fun n hn => ?_, k3⟩
        unfold Nameserver.serveUdp
        rw [hr, Out.bind_ok, hm, Out.bind_ok]
        exact k2 n hn
    | err e => exact nomatch e
    | panic k => rw [hr] at hs; cases hs
    | diverge => rw [hr] at hs; cases hs
  · intro env p conf fuel rest full room w w' hb hs
    unfold Resolver.serveTcp at hs
    rw [C30_classification.2.2.1 p request rest hb] at hs
    cases hr : Net.udpRead p request with
    | ok read =>
      rw [hr, Out.bind_ok, infallible_ok (a := (read, rest)) rfl] at hs
      simp only at hs
      rcases hm : Resolver.handle env p conf fuel read w with ⟨o, w1⟩
      cases o with
      | ok mo =>
        rw [Resolver.M.bind_eq hm] at hs
        cases mo with
        | none => exact (not_nil (Prod.mk.inj (Out.ok.inj (Prod.mk.inj hs).1)).1).elim
        | some m =>
          simp only at hs
          obtain ⟨h1, rfl⟩ := infallible_of hs
          have hk : Repeats xs.flatten full ∧ ∃ datagram, (∀ n, datagram.length ≤ n → Net.udpReply m [some n] = .ok ([datagram], true)) ∧
              Repeats xs.flatten datagram := by
            have hrc := read_carried hb hc hp hr
            cases read with
            | fullMessage req =>
              obtain ⟨-, e1, e2, -⟩ := C67_reply_partial env p conf fuel req m w w' hm
              exact reply_echo h1 (e1.trans hrc.1) (by rw [e2]; exact hrc.2) g3 hp (hlen hb)
            | headerOnly hd e =>
              have e1 := Option.some.inj (Out.ok.inj (Prod.mk.inj hm).1)
              rw [← e1] at h1 ⊢
              exact header_echo h1 rfl hrc g3
            | parseErr a b => exact nomatch Out.ok.inj (Prod.mk.inj hm).1
            | ioErr => exact nomatch Out.ok.inj (Prod.mk.inj hm).1
          rw [g4]
          obtain ⟨k1, datagram, k2, k3⟩ := hk
          refine ⟨k1, datagram, fun n hn => ?_, k3⟩
          unfold Resolver.serveUdp
          rw [hr, infallible_ok (a := read) rfl]
          simp only [Resolver.M.bind_eq hm, k2 n hn]
          rfl
      | err e => simp only [bind, Resolver.M.bind, hm] at hs; exact nomatch (Prod.mk.inj hs).1
      | panic k => simp only [bind, Resolver.M.bind, hm] at hs; exact nomatch (Prod.mk.inj hs).1
      | diverge => simp only [bind, Resolver.M.bind, hm] at hs; exact nomatch (Prod.mk.inj hs).1
    | err e => exact nomatch e
    | panic k => rw [hr] at hs; exact nomatch (Prod.mk.inj hs).1
    | diverge => rw [hr] at hs; exact nomatch (Prod.mk.inj hs).1

/-! ## The root -/

/-- The header of both requests. -/
def askHeader : Header := Header.mk 7 false .STD false false true false 0 .NoError 1 0 0 0

/-- A request for the addresses of the root. -/
def rootDatagram : List UInt8 := [0, 7, 1, 0, 0, 1, 0, 0, 0, 0, 0, 0, 0, 0, 1, 0, 1]

/-- The reply: there is one zero octet too many. -/
def rootReply : List UInt8 := [0, 7, 133, 5, 0, 1, 0, 0, 0, 0, 0, 0, 0, 0, 0, 1, 0, 1]

theorem C125_violated : ¬ C125_statement := by
  intro h
  have hc : CarriesQuestions rootDatagram [⟨⟨['.']⟩, .A, .IN⟩] [0, 0, 1, 0, 1] :=
    ⟨askHeader, headerBytes askHeader, [[0, 0, 1, 0, 1]], [], isHeader_headerBytes (by decide), rfl,
      .cons ⟨[0], ⟨[], nameOf_of (s := ['.']) (labels := []) (by decide) (by decide), by decide, rfl⟩, rfl⟩ .nil, rfl, by decide⟩
  have hs : Nameserver.serveTcp .debug ⟨Zone.new ⟨"f.".toList⟩, []⟩ (be16 rootDatagram.length ++ (rootDatagram ++ [])) 100 =
      .ok (be16 (rootReply.length % 65536) ++ rootReply, true) := by decide +kernel
  exact absurd ((h _ _ _ hc (fun q hq => by cases List.mem_singleton.1 hq; exact ⟨by decide, rfl, rfl⟩)).1 (by decide) hs).1 (by unfold Repeats; decide)

/-- The sample of `C103`: the reply of 822 octets repeats the question for ns.e., and so does the shortened one. -/
example : ∃ full datagram, full.length = 822 ∧ Repeats [2, 110, 115, 1, 101, 0, 0, 1, 0, 1] full ∧
    Repeats [2, 110, 115, 1, 101, 0, 0, 1, 0, 1] datagram ∧
    Nameserver.serveUdp .debug manyAddrs askDatagram [some datagram.length] = .ok ([datagram], true) := by
  obtain ⟨full, h1, h2⟩ := manyReply_encodes
  have hr : Net.tcpRead .debug (be16 askDatagram.length ++ (askDatagram ++ [])) = .ok (.fullMessage (ask "ns.e." .A), []) := by
    decide +kernel
  have hm : Nameserver.handle .debug manyAddrs (.fullMessage (ask "ns.e." .A)) = .ok (some manyReply) := by decide +kernel
  have hs := serveTcp_whole (room := 1000) hr hm h1 (by omega)
  have hn := nameOf_of (s := "ns.e.".toList) (labels := ["ns".toList, "e".toList]) (by decide) (by decide)
  have hc : CarriesQuestions askDatagram [⟨⟨"ns.e.".toList⟩, .A, .IN⟩] [2, 110, 115, 1, 101, 0, 0, 1, 0, 1] :=
    ⟨askHeader, headerBytes askHeader, [[2, 110, 115, 1, 101, 0, 0, 1, 0, 1]], [], isHeader_headerBytes (by decide), rfl,
      .cons ⟨[2, 110, 115, 1, 101, 0], ⟨["ns".toList, "e".toList], hn, by decide, by decide⟩, by decide⟩ .nil, rfl, by decide⟩
  have hp : ∀ q ∈ [(⟨⟨"ns.e.".toList⟩, .A, .IN⟩ : Question)], PlainQuestion q := by
    intro q hq
    cases List.mem_singleton.1 hq
    exact ⟨⟨by decide, _, hn, by decide, by decide⟩, rfl, rfl⟩
  obtain ⟨k, d, e1, e2⟩ := (C125_echo_partial askDatagram _ _ hc hp).1 (by decide) hs
  have hu := e1 _ (Nat.le_refl _)
  exact ⟨full, d, h2, k, e2, hu⟩

end Ariadne.Props
