import Verif.Props.Nameserver

/-!
# C52: end to end
-/

namespace Ariadne.Props

open Spec ZoneParser Nameserver

/-! ## C52 -/

/-- A record as it is decoded from its encoding: `data_len`, which the loader leaves 0, is the RDLENGTH. -/
def received (r : Record) : Record := { r with dataLen := UInt16.ofNat (rdLength r.data) }

theorem received_roundTrips (p : Profile) {r : Record} (h : Plain r) :
    RoundTrips Record.encode (Record.decode p) (received r) := by
  obtain ⟨rdata, x, h1, h2, h3⟩ := writes_record h
  refine ⟨x, h3, ?_⟩
  unfold received
  rw [← h2]
  exact decodes_record p h h1

theorem udpReply_once {m : Message} {out : List UInt8} (h : m.encodeToBytesTrunc = .ok out) (h0 : 12 ≤ out.length) {n : Nat}
    (hn : out.length ≤ n) : Net.udpReply m [some n] = .ok ([out], true) := by
  simp only [Net.udpReply, h]
  unfold Net.sendLoop
  rw [if_pos (by omega)]
  simp only [Nat.zero_add, List.nil_append, List.drop_zero]
  unfold Net.sendLoop
  rw [if_neg (by omega)]

/-- What a client decodes from a truncated message. -/
theorem trunc_decodes (p' : Profile) {m1 : Message} (hop : m1.header.opCode = .STD) (hz : m1.header.z.toNat < 8)
    (hcm : CountsMatch m1) (hqs : ∀ q' ∈ m1.questions, RoundTrips Question.encode (Question.decode p') q')
    (hrs : ∀ r ∈ m1.answers ++ m1.authorities ++ m1.additionals, RoundTrips Record.encode (Record.decode p') r) :
    ∃ out k, m1.encodeToBytesTrunc = .ok out ∧ (12 ≤ out.length ∧ out.length ≤ 512) ∧ k ≤ total m1 ∧
      Message.decodeFromBytes p' out = .ok (cut m1 k) ∧
      (k < total m1 → ∃ out', (cut m1 (k + 1)).encodeToBytes = .ok out' ∧ 512 < out'.length) := by
  obtain ⟨full, hfull, -⟩ := C21_message_roundtrip p' m1 hop hz hcm hqs hrs
  obtain ⟨out, hout⟩ := (C26_truncation m1 hcm).2 full hfull
  obtain ⟨k, hk, hk1, hk2⟩ := (C26_truncation m1 hcm).1 out hout
  refine ⟨out, k, hout, C25_udp_size m1 out hout, hk, ?_, hk2⟩
  obtain ⟨x, x1, x2⟩ := C21_message_roundtrip p' (cut m1 k) hop hz (cut_counts hcm k)
    (fun q' h => hqs q' (List.mem_of_mem_take h)) (fun r h => by
      refine hrs r ?_
      simp only [cut, List.mem_append] at h ⊢
      rcases h with (h | h) | h
      · exact .inl (.inl (List.mem_of_mem_take h))
      · exact .inl (.inr (List.mem_of_mem_take h))
      · exact .inr (List.mem_of_mem_take h))
  rw [hk1] at x1
  cases x1
  simpa using x2 []

theorem cut_received {m : Message} {set : List Record} {n : Nat} (h : m.answers = set.map received) :
    Message.encodeToBytes { cut m n with answers := set.take (n - m.questions.length) } = (cut m n).encodeToBytes := by
  have hs : Message.SameItems { cut m n with answers := set.take (n - m.questions.length) } (cut m n) := by
    constructor
    case header => rfl
    case questions => intro _ _; rfl
    case answers =>
      intro j _
      simp only [cut]
      rw [h, ← List.map_take, List.getElem?_map, Option.map_map]
      rfl
    case authorities => intro _ _; rfl
    case additionals => intro _ _; rfl
  exact hs.encode

/-- C52: a query datagram for a record set of the authoritative zone that is in no sub zone: the reply is one datagram of at
most 512 octets, a client decodes it to a NOERROR response with the same id and question, and its answers are the first
`k` of the set: all of them or, if TC is set, as many as fit. -/
theorem C52_end_to_end (p p' : Profile) (conf : Params) (zones : ManagedZone) (datagram : List UInt8) (req : Message)
    (q : Question) (o : HashOrder) (hl : Loaded conf zones) (hrd : Net.udpRead p datagram = .ok (.fullMessage req))
    (hq : Asks req q) (hs : ∀ c ∈ conf.subZones, ¬ Within q.node c.zone)
    (hne : setAt o zones.authZone q.node q.recordType ≠ [])
    (hlen : (setAt o zones.authZone q.node q.recordType).length < 65536)
    (hpl : ∀ r ∈ setAt o zones.authZone q.node q.recordType, Plain r) :
    ∃ out m k, (∀ n, out.length ≤ n → serveUdp p zones datagram [some n] = .ok ([out], true)) ∧ out.length ≤ 512 ∧
      Message.decodeFromBytes p' out = .ok m ∧ m.header.id = req.header.id ∧ m.header.queryResp = true ∧
      m.header.respCode = .NoError ∧ m.header.authAnswer = true ∧ m.questions = [q] ∧
      m.answers = ((setAt o zones.authZone q.node q.recordType).take k).map received ∧ m.authorities = [] ∧
      m.additionals = [] ∧
      (m.answers.length = (setAt o zones.authZone q.node q.recordType).length ∨ m.header.truncated = true) ∧
      (m.header.truncated = true → req.header.truncated = true ∨ ∃ (full : Message) (x : List UInt8), full.encodeToBytes = .ok x ∧ 512 < x.length ∧
        full.questions = [q] ∧ full.answers = (setAt o zones.authZone q.node q.recordType).take (k + 1)) := by
  generalize hset : setAt o zones.authZone q.node q.recordType = set at *
  have hd : Message.decodeFromBytes p (datagram.take 512) = .ok req := by
    have := (C30_classification.1 p datagram _).1 hrd
    cases this with
    | full h => exact h
  obtain ⟨hdec, -⟩ := decoded_message hd
  -- the reply
  have hrdy := hl.ready
  obtain ⟨m0, h1, h2⟩ := replies_kind hrdy p hq
  have hf := find_none hrdy hq.valid hs
  have hnode : ∀ r ∈ set, r.node = q.node := by
    intro r hr
    rw [← hset] at hr
    simpa using (List.mem_filter.1 hr).2
  have hm0 : m0 = answerReply req set := by
    have hz : q.node.isInZone conf.zone = true := by
      obtain ⟨log, soa, g1, -, -, -, g5⟩ := hrdy.auth
      obtain ⟨r, hr⟩ := List.exists_mem_of_ne_nil _ hne
      rw [← hset, setAt_eq g1] at hr
      rw [← (recordsAt_spec hr).1]
      exact owner_inZone (g5 r (List.mem_filter.1 hr).1).1
    cases h2 with
    | refused h => rw [h] at hz; cases hz
    | referral _ h _ _ _ _ => rw [hf] at h; cases h
    | found _ _ h _ => rw [← hset, setAt_eq h]
    | cname _ _ h e _ => rw [← hset, setAt_eq h] at hne; exact absurd e hne
    | nx _ _ h e _ _ _ _ _ => rw [← hset, setAt_eq h] at hne; exact absurd e hne
  subst hm0
  -- its twin with lengths
  let m1 : Message := { answerReply req set with answers := set.map received }
  have hsame : Message.SameItems (answerReply req set) m1 :=
    ⟨rfl, fun _ _ => rfl, fun j _ => by
      show (set[j]?).map Record.encode = ((set.map received)[j]?).map Record.encode
      rw [List.getElem?_map, Option.map_map]
      rfl, fun _ _ => rfl, fun _ _ => rfl⟩
  have hcm : CountsMatch m1 := by
    refine ⟨?_, ?_, rfl, rfl⟩
    · show 1 = req.questions.length
      rw [hq.one]; rfl
    · show (UInt16.ofNat set.length).toNat = (set.map received).length
      rw [List.length_map, u16_of_len hlen]
  have hqp : PlainQuestion q := by
    obtain ⟨r, hr⟩ := List.exists_mem_of_ne_nil _ hne
    refine ⟨by rw [← hnode r hr]; exact (hpl r hr).1, ?_, ?_⟩
    · exact (hdec.qs q (by rw [hq.one]; simp)).2
    · exact (hdec.qs q (by rw [hq.one]; simp)).1
  have hqs : ∀ q' ∈ m1.questions, RoundTrips Question.encode (Question.decode p') q' := by
    intro q' hm
    have hm : q' ∈ req.questions := hm
    rw [hq.one, List.mem_singleton] at hm
    subst hm
    obtain ⟨x, w1, w2⟩ := writes_question hqp
    exact ⟨x, w2, decodes_question p' hqp w1⟩
  have hrs : ∀ r ∈ m1.answers ++ m1.authorities ++ m1.additionals, RoundTrips Record.encode (Record.decode p') r := by
    intro r hm
    have hm : r ∈ set.map received ++ [] ++ [] := hm
    rw [List.append_nil, List.append_nil] at hm
    obtain ⟨r0, hr0, rfl⟩ := List.mem_map.1 hm
    exact received_roundTrips p' (hpl r0 hr0)
  have hop : m1.header.opCode = .STD := hq.op
  obtain ⟨out, k, hout, hsize, hk, hdecode, hk2⟩ :=
    trunc_decodes p' hop (by show (0 : UInt8).toNat < 8; decide) hcm hqs hrs
  have htot : total m1 = 1 + set.length := by
    show req.questions.length + (set.map received).length + 0 + 0 = _
    rw [hq.one, List.length_map]; rfl
  have hnil : ∀ n, Encodings Record.encode (([] : List Record).take n) [] := fun n => by
    rw [List.take_nil]; exact .nil
  -- the question fits
  have hk0 : 1 ≤ k := by
    apply Classical.byContradiction
    intro hlt
    have : k = 0 := by omega
    subst this
    obtain ⟨out', h3, h4⟩ := hk2 (by omega)
    have e1 := encode_of_encodings (m := cut m1 1) hop (cut_counts hcm 1)
      (q := [q.node.toBytes ++ (be16 q.recordType.toNum.toNat ++ be16 q.cls.toNum.toNat)]) (an := []) (au := []) (ad := []) ?_ ?_
      (hnil _) (hnil _)
    · rw [h3] at e1
      have hc := toBytes_length hqp.1
      have hb := hqp.1.1
      cases e1
      simp [headerBytes_length, be16] at h4
      omega
    · show Encodings Question.encode (req.questions.take 1) _
      rw [hq.one]
      refine .cons ?_ .nil
      exact .assert hqp.2.1 (.assert (by rw [hqp.2.2]; rfl) (.bind (writes_bytes _) (.bind (writes_u16 _) (writes_u16 _))))
    · show Encodings Record.encode ((set.map received).take (1 - req.questions.length)) []
      rw [hq.one]
      exact .nil
  have hql : m1.questions = [q] := hq.one
  have hans : (cut m1 k).answers = (set.take (k - 1)).map received := by
    show (set.map received).take (k - req.questions.length) = _
    rw [hq.one, List.map_take]; rfl
  refine ⟨out, cut m1 k, k - 1, fun n hn => ?_, hsize.2, hdecode, rfl, rfl, rfl, rfl, ?_, hans, ?_, ?_, ?_, ?_⟩
  · unfold serveUdp
    unfold Replies at h1
    rw [hrd, Out.bind_ok, h1, Out.bind_ok]
    have hout' : (answerReply req set).encodeToBytesTrunc = .ok out := by rw [hsame.trunc]; exact hout
    exact udpReply_once hout' hsize.1 hn
  · show m1.questions.take k = [q]
    rw [hql, List.take_of_length_le (by simpa using hk0)]
  · show (([] : List Record).take _) = []
    simp
  · show (([] : List Record).take _) = []
    simp
  · by_cases hkt : k < total m1
    · right
      show (if k < total m1 then true else _) = true
      rw [if_pos hkt]
    · left
      rw [hans, List.length_map, List.length_take]
      omega
  · intro htc
    by_cases hkt : k < total m1
    · right
      obtain ⟨out', h3, h4⟩ := hk2 hkt
      refine ⟨{ cut m1 (k + 1) with answers := set.take (k + 1 - m1.questions.length) }, out', ?_, h4, ?_, ?_⟩
      · rw [cut_received rfl]; exact h3
      · show req.questions.take (k + 1) = [q]
        rw [hq.one, List.take_of_length_le (by simp)]
      · have hl : m1.questions.length = 1 := by rw [hql]; rfl
        have : k + 1 - m1.questions.length = k - 1 + 1 := by omega
        show set.take (k + 1 - m1.questions.length) = set.take (k - 1 + 1)
        rw [this]
    · left
      have htc : (if k < total m1 then true else req.header.truncated) = true := htc
      rw [if_neg hkt] at htc
      exact htc

/-- A query for the A records of "ns.e.". -/
def askDatagram : List UInt8 := [0, 7, 1, 0, 0, 1, 0, 0, 0, 0, 0, 0, 2, 110, 115, 1, 101, 0, 0, 1, 0, 1]

theorem nsE_encodable : Encodable ⟨"ns.e.".toList⟩ :=
  encodable_of ["ns".toList, "e".toList] (by decide) (by decide) (by decide) (by decide) (by decide)

/-- The sample zone and this datagram meet all hypotheses. -/
example : ∃ zones, Loaded sampleConf zones ∧
    Net.udpRead .debug askDatagram = .ok (.fullMessage (ask "ns.e." .A)) ∧
    Asks (ask "ns.e." .A) ⟨⟨"ns.e.".toList⟩, .A, .IN⟩ ∧
    (∀ c ∈ sampleConf.subZones, ¬ Within ⟨"ns.e.".toList⟩ c.zone) ∧
    setAt forwards zones.authZone ⟨"ns.e.".toList⟩ .A = [⟨⟨"ns.e.".toList⟩, .IN, 100, 0, .A ⟨10, 0, 0, 1⟩⟩] ∧
    Plain ⟨⟨"ns.e.".toList⟩, .IN, 100, 0, .A ⟨10, 0, 0, 1⟩⟩ := by
  obtain ⟨zones, h1, h2⟩ := ok_of (x := parseZoneFiles .debug sampleFiles forwards 20 sampleConf) (fun zones =>
    setAt forwards zones.authZone ⟨"ns.e.".toList⟩ .A == [⟨⟨"ns.e.".toList⟩, .IN, 100, 0, .A ⟨10, 0, 0, 1⟩⟩])
    (by decide +kernel)
  have v : ValidName "ns.e.".toList := validName_of (by decide +kernel)
  refine ⟨zones, ⟨sample_valid, _, _, _, _, h1⟩, by decide +kernel, asks_ask (by decide +kernel),
    sample_outside v (by decide +kernel), by simpa using h2, nsE_encodable, rfl, trivial⟩

end Ariadne.Props
