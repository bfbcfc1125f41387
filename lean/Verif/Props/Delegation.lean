import Verif.Lemmas.Steps
import Verif.Props.Wire

/-! # C83: zones some of whose servers work -/

namespace Ariadne.Props

open Spec Resolver BitsBuf

/-! ## C83 -/

/-- The addresses of the root servers. -/
def rootAddrs : List (List Ip4) := rootServers.map fun s => [s.2]

/-- What other threads do leaves the cache without anything about the name. -/
def OthersKeepOff (env : Env) (node : Name) (kind : RecordType) : Prop :=
  ∀ i c, NothingAbout node kind c → NothingAbout node kind (env.others i c)

/-- What is common to the three cases of C83: how far the referrals lead decides what the lookup returns. -/
theorem follow_referrals (env : Env) (p : Profile) (conf : Params) (node : Name) (kind : RecordType) (w : World) (depth fuel : Nat)
    {last : List (List Ip4) → Prop} {A : List Record → Prop} {D E : Prop}
    (hv : ValidName node.s) (hk : kind.isSupportedForQuestion = true) (hr : conf.maxUdpRetries ≠ 0) (hc : conf.maxCnameRedir ≠ 0)
    (hnone : NothingAbout node kind w.cache) (hoth : OthersKeepOff env node kind)
    (hl : LeadsTo env p node kind conf.maxUdpRetries conf.maxNsQueried last depth ⟨['.']⟩ rootAddrs)
    (hf : depth + 1 < fuel) (hA : ∀ a, A a → a ≠ [] ∧ ∀ r ∈ a, r.recordType = kind)
    (hi : ∀ sub fuel zone nss S, Are nss S → (∀ ns ∈ nss, ns.zone = zone) → last S →
      Ends (queryIteratively env p sub ⟨node, kind, [], [], conf⟩ (fuel + 1) nss) fun o =>
        (∃ a ad, o = .ok (.answer a ad) ∧ A a) ∨ (D ∧ ∃ soa, o = .ok (.noDomain soa)) ∨ (E ∧ ∃ e, o = .err e)) :
    (∃ r, (lookup env p conf fuel node kind w).1 = .ok r ∧ r.noRecords = false ∧ A r.answers) ∨
    (D ∧ ∃ r, (lookup env p conf fuel node kind w).1 = .ok r ∧ r.noRecords = true ∧ r.answers = []) ∨
    (E ∧ ∃ e, (lookup env p conf fuel node kind w).1 = .err e) := by
  obtain ⟨f, rfl⟩ : ∃ f, fuel = f + 1 := ⟨fuel - 1, by omega⟩
  obtain ⟨rounds, hrounds⟩ : ∃ n, conf.maxCnameRedir = n + 1 := ⟨conf.maxCnameRedir - 1, by omega⟩
  have hq := queryIteratively_ends (sub := perform env p f) (lk := ⟨node, kind, [], [], conf⟩) hk hr (hi (perform env p f)) (fuel := f)
    (by omega) are_root root_zone hl
  obtain ⟨o, w', e, h⟩ := performLoop_cold (rounds := rounds) (lk := ⟨node, kind, [], [], conf⟩) hv hoth hnone hA hq
  have e' : lookup env p conf (f + 1) node kind w = (o, w') := by
    unfold lookup perform
    simp only [hrounds]
    exact e
  rw [e']
  rcases h with ⟨r, rfl, h1, a, h2, h3⟩ | ⟨hD, r, rfl, h1, h2⟩ | h
  · refine .inl ⟨r, rfl, h1, ?_⟩
    rw [h2]
    exact h3
  · exact .inr (.inl ⟨hD, r, rfl, h1, h2⟩)
  · exact .inr (.inr h)

/-- C83, an answer: if nothing about the name is in the cache, and referrals lead from the root servers to servers of the
answer, of which at each stage some work and fewer than the configured number are down, the lookup returns the records. -/
theorem C83_answer_is_found (env : Env) (p : Profile) (conf : Params) (node : Name) (kind : RecordType) (w : World) (depth fuel : Nat)
    (records : List Record) (hv : ValidName node.s) (hk : kind.isSupportedForQuestion = true) (hr : conf.maxUdpRetries ≠ 0)
    (hc : conf.maxCnameRedir ≠ 0) (hnone : NothingAbout node kind w.cache) (hoth : OthersKeepOff env node kind) (hrec : records ≠ [])
    (hl : LeadsTo env p node kind conf.maxUdpRetries conf.maxNsQueried (Served env p node kind conf.maxUdpRetries conf.maxNsQueried (IsAnswer node kind records)) depth ⟨['.']⟩ rootAddrs)
    (hf : depth + 1 < fuel) :
    ∃ r, (lookup env p conf fuel node kind w).1 = .ok r ∧ r.noRecords = false ∧ r.answers.Perm records := by
  rcases follow_referrals env p conf node kind w depth fuel (A := fun a => a.Perm records ∧ ∀ r ∈ a, r.recordType = kind) (D := False)
    (E := False) hv hk hr hc hnone hoth hl hf
    (fun a ha => ⟨fun h => hrec (by rw [h] at ha; exact ha.1.symm.eq_nil), ha.2⟩)
    (fun sub fuel zone nss S hare hz hs => by
      intro w
      obtain ⟨o, w', e, r, rfl, a, ad, rfl, ha⟩ := last_served (sub := sub) (lk := ⟨node, kind, [], [], conf⟩) (fuel := fuel) hk hr
        (Q := fun r => ∃ a ad, r = .answer a ad ∧ a.Perm records ∧ ∀ r ∈ a, r.recordType = kind)
        (fun m zone hm => by
          obtain ⟨a, ad, e1, e2⟩ := interpret_answer (zone := zone) hm hrec
          exact ⟨_, e1, fun _ => by simp, a, ad, rfl, e2⟩) hare hz hs w
      exact ⟨_, w', e, .inl ⟨a, ad, rfl, ha⟩⟩) with ⟨r, h1, h2, h3⟩ | ⟨h, -⟩ | ⟨h, -⟩
  · exact ⟨r, h1, h2, h3.1⟩
  · exact h.elim
  · exact h.elim

/-- C83, a denial: the same if the last servers say with authority that the name does not exist. -/
theorem C83_denial_is_found (env : Env) (p : Profile) (conf : Params) (node : Name) (kind : RecordType) (w : World) (depth fuel : Nat)
    (hv : ValidName node.s) (hk : kind.isSupportedForQuestion = true) (hr : conf.maxUdpRetries ≠ 0)
    (hc : conf.maxCnameRedir ≠ 0) (hnone : NothingAbout node kind w.cache) (hoth : OthersKeepOff env node kind)
    (hl : LeadsTo env p node kind conf.maxUdpRetries conf.maxNsQueried (Served env p node kind conf.maxUdpRetries conf.maxNsQueried IsDenial) depth ⟨['.']⟩ rootAddrs)
    (hf : depth + 1 < fuel) :
    ∃ r, (lookup env p conf fuel node kind w).1 = .ok r ∧ r.noRecords = true ∧ r.answers = [] := by
  rcases follow_referrals env p conf node kind w depth fuel (A := fun _ => False) (D := True) (E := False) hv hk hr hc hnone hoth hl hf
    (fun a ha => ha.elim)
    (fun sub fuel zone nss S hare hz hs => by
      intro w
      obtain ⟨o, w', e, r, rfl, soa, rfl⟩ := last_served (sub := sub) (lk := ⟨node, kind, [], [], conf⟩) (fuel := fuel) hk hr
        (Q := fun r => ∃ soa, r = .noDomain soa)
        (fun m zone hm => by
          obtain ⟨soa, e1⟩ := interpret_denial (node := node) (kind := kind) (zone := zone) hm
          exact ⟨_, e1, fun _ => by simp, soa, rfl⟩) hare hz hs w
      exact ⟨_, w', e, .inr (.inl ⟨trivial, soa, rfl⟩)⟩) with ⟨_, _, _, h⟩ | ⟨-, h⟩ | ⟨h, -⟩
  · exact h.elim
  · exact h
  · exact h.elim

/-- C83, failure: if the referrals lead to a zone all of whose servers are down, the lookup returns an error; it neither
panics nor goes on forever. -/
theorem C83_failure_is_reported (env : Env) (p : Profile) (conf : Params) (node : Name) (kind : RecordType) (w : World) (depth fuel : Nat)
    (hv : ValidName node.s) (hk : kind.isSupportedForQuestion = true) (hr : conf.maxUdpRetries ≠ 0) (hm : conf.maxNsQueried ≠ 0)
    (hc : conf.maxCnameRedir ≠ 0) (hnone : NothingAbout node kind w.cache) (hoth : OthersKeepOff env node kind)
    (hl : LeadsTo env p node kind conf.maxUdpRetries conf.maxNsQueried (AllDown env p node kind) depth ⟨['.']⟩ rootAddrs) (hf : depth + 1 < fuel) :
    ∃ e, (lookup env p conf fuel node kind w).1 = .err e := by
  rcases follow_referrals env p conf node kind w depth fuel (A := fun _ => False) (D := False) (E := True) hv hk hr hc hnone hoth hl hf
    (fun a ha => ha.elim)
    (fun sub fuel zone nss S hare _ hs => by
      intro w
      obtain ⟨o, w', e, x, rfl⟩ := last_down (sub := sub) (lk := ⟨node, kind, [], [], conf⟩) (fuel := fuel) hk hr hm hare hs w
      exact ⟨_, w', e, .inr (.inr ⟨trivial, x, rfl⟩)⟩) with ⟨_, _, _, h⟩ | ⟨h, -⟩ | ⟨-, h⟩
  · exact h.elim
  · exact h.elim
  · exact h

/-! A world with three stages of failures: one root server does not answer; of the two servers of com. the first reports a
failure, the second answers. -/

/-- The id in a query. -/
def queryId (q : List UInt8) : UInt16 := UInt16.ofNat ((q.getD 0 0).toNat * 256 + (q.getD 1 0).toNat)

/-- The referral to the servers of com. -/
def comReferral (id : UInt16) : Message :=
  ⟨⟨id, true, .STD, false, false, false, false, 0, .NoError, 0, 0, 2, 2⟩, [], [],
    [⟨⟨"com.".toList⟩, .IN, 9, 7, .NS ⟨"x.com.".toList⟩⟩, ⟨⟨"com.".toList⟩, .IN, 9, 7, .NS ⟨"y.com.".toList⟩⟩],
    [⟨⟨"y.com.".toList⟩, .IN, 9, 4, .A ⟨2, 2, 2, 2⟩⟩, ⟨⟨"x.com.".toList⟩, .IN, 9, 4, .A ⟨1, 1, 1, 1⟩⟩]⟩

/-- The answer. -/
def comAnswer (id : UInt16) : Message :=
  ⟨⟨id, true, .STD, true, false, false, false, 0, .NoError, 0, 1, 0, 0⟩, [], [⟨⟨"a.com.".toList⟩, .IN, 9, 4, .A ⟨5, 6, 7, 8⟩⟩], [], []⟩

/-- A failure. -/
def comFailure (id : UInt16) : Message :=
  ⟨⟨id, true, .STD, false, false, false, false, 0, .ServFail, 0, 0, 0, 0⟩, [], [], [], []⟩

/-- The servers. -/
def comNet (addr : Ip4) (q : List UInt8) : Option (List UInt8) :=
  let send (m : Message) := match m.encodeToBytes with
    | .ok b => some b
    | _ => none
  if addr = ⟨198, 41, 0, 4⟩ then none
  else if addr = ⟨1, 1, 1, 1⟩ then send (comFailure (queryId q))
  else if addr = ⟨2, 2, 2, 2⟩ then send (comAnswer (queryId q))
  else send (comReferral (queryId q))

/-- The world. -/
def comEnv : Env where
  clock n := n
  mono _ _ h := h
  others _ c := c
  ids n := UInt16.ofNat n
  net _ addr q := comNet addr q

/-- The message with another id. -/
def withId (m : Message) (id : UInt16) : Message := { m with header := { m.header with id := id } }

theorem plain_split {m : Message} (h : PlainMessage m) : ∃ y, ∀ id, (withId m id).encodeToBytes = .ok (headerBytes (withId m id).header ++ y) := by
  obtain ⟨h1, h2, h3, h4, h5, h6, h7, h8⟩ := h
  have hq : ∀ q ∈ m.questions, ∃ x, True ∧ Writes (Question.encode q) x := fun q hq => by
    obtain ⟨x, a, b⟩ := writes_question (h7 q hq)
    exact ⟨x, trivial, b⟩
  have hr : ∀ r ∈ m.answers ++ m.authorities ++ m.additionals, ∃ x, True ∧ Writes (Record.encode r) x := fun r hr => by
    obtain ⟨rdata, x, a, b, c⟩ := writes_record (h8 r hr).1
    exact ⟨x, trivial, c⟩
  obtain ⟨q, -, q2⟩ := writes_section (K := fun _ _ => True) (U := fun _ => True) .question hq m.header.questionsCount.toNat 0 (by omega)
  obtain ⟨an, -, an2⟩ := writes_section (K := fun _ _ => True) (U := fun _ => True) .answer (xs := m.answers)
    (fun r h => hr r (by simp [h])) m.header.answersCount.toNat 0 (by omega)
  obtain ⟨au, -, au2⟩ := writes_section (K := fun _ _ => True) (U := fun _ => True) .authority (xs := m.authorities)
    (fun r h => hr r (by simp [h])) m.header.authoritiesCount.toNat 0 (by omega)
  obtain ⟨ad, -, ad2⟩ := writes_section (K := fun _ _ => True) (U := fun _ => True) .additional (xs := m.additionals)
    (fun r h => hr r (by simp [h])) m.header.additionalsCount.toNat 0 (by omega)
  refine ⟨q ++ (an ++ (au ++ ad)), fun id => ?_⟩
  have hh : (withId m id).header.opCode = .STD := h1
  unfold Message.encodeToBytes
  have q3 : Writes (Message.encodeItems Question.encode .question (withId m id).questions (withId m id).header.questionsCount.toNat 0) q := q2
  have an3 : Writes (Message.encodeItems Record.encode .answer (withId m id).answers (withId m id).header.answersCount.toNat 0) an := an2
  have au3 : Writes (Message.encodeItems Record.encode .authority (withId m id).authorities (withId m id).header.authoritiesCount.toNat 0) au := au2
  have ad3 : Writes (Message.encodeItems Record.encode .additional (withId m id).additionals (withId m id).header.additionalsCount.toNat 0) ad := ad2
  rw [app_nil, BufM.bind_ok ((writes_header hh).mapErr (f := MessageErr.headerErr) []), BufM.bind_ok (q3 _), BufM.bind_ok (an3 _),
    BufM.bind_ok (au3 _), BufM.bind_ok (ad3 _)]
  simp [Message.takeVec, intoVec, app]

/-- The length of an encoding, if it is one. -/
def encodedLength (m : Message) : Nat := match m.encodeToBytes with
  | .ok b => b.length
  | _ => 1000

theorem plain_sends {m : Message} (h : PlainMessage m) (hl : encodedLength (withId m 0) ≤ 512) (p : Profile) (id : UInt16) :
    ∃ b, (withId m id).encodeToBytes = .ok b ∧ Message.decodeFromBytes p (b.take 512) = .ok (withId m id) := by
  obtain ⟨y, hy⟩ := plain_split h
  have hp : PlainMessage (withId m id) := h
  obtain ⟨x, h1, -, h2⟩ := C21_plain_message p _ hp
  have e : x = headerBytes (withId m id).header ++ y := Out.ok.inj (h1.symm.trans (hy id))
  have h0 : encodedLength (withId m 0) = (headerBytes (withId m 0).header ++ y).length := by
    unfold encodedLength
    rw [hy 0]
  have hlen : x.length ≤ 512 := by
    rw [e]
    rw [h0] at hl
    simpa [headerBytes, be16] using hl
  refine ⟨x, h1, ?_⟩
  rw [List.take_of_length_le hlen]
  simpa using h2 []

theorem be16_id (id : UInt16) (l : List UInt8) : queryId (be16 id.toNat ++ l) = id := by
  have h : id.toNat < 65536 := id.toNat_lt
  apply UInt16.toNat.inj
  simp only [queryId, be16, List.cons_append, List.getD_cons_zero, List.getD_cons_succ, UInt8.toNat_ofNat', UInt16.toNat_ofNat']
  omega

theorem queryId_of {id : UInt16} {node : Name} {kind : RecordType} {q : List UInt8} (h : QueryFor id node kind q)
    (hk : kind.isSupportedForQuestion = true) (hv : Encodable node) : queryId q = id := by
  obtain ⟨y, hy⟩ := plain_split (m := ⟨⟨id, false, .STD, false, false, false, false, 0, .NoError, 1, 0, 0, 0⟩, [⟨node, kind, .IN⟩], [], [], []⟩)
    ⟨rfl, Nat.zero_lt_succ _, rfl, rfl, rfl, rfl, by intro q hq; simp at hq; subst hq; exact ⟨hv, hk, rfl⟩, by simp⟩
  have e := Out.ok.inj (h.symm.trans (hy id))
  rw [e]
  unfold headerBytes
  simp only [List.append_assoc]
  exact be16_id id _

theorem com_encodable : Encodable ⟨"com.".toList⟩ := encodable_of ["com".toList] (by decide) (by decide) (by decide) (by decide) (by decide)
theorem acom_encodable : Encodable ⟨"a.com.".toList⟩ :=
  encodable_of ["a".toList, "com".toList] (by decide) (by decide) (by decide) (by decide) (by decide)
theorem xcom_encodable : Encodable ⟨"x.com.".toList⟩ :=
  encodable_of ["x".toList, "com".toList] (by decide) (by decide) (by decide) (by decide) (by decide)
theorem ycom_encodable : Encodable ⟨"y.com.".toList⟩ :=
  encodable_of ["y".toList, "com".toList] (by decide) (by decide) (by decide) (by decide) (by decide)

theorem comFailure_plain : PlainMessage (comFailure 0) :=
  ⟨rfl, by decide, rfl, rfl, rfl, rfl, by simp [comFailure], by simp [comFailure]⟩

theorem comAnswer_plain : PlainMessage (comAnswer 0) := by
  refine ⟨rfl, by decide, rfl, rfl, rfl, rfl, by simp [comAnswer], ?_⟩
  intro r hr
  simp only [comAnswer, List.append_nil, List.mem_singleton] at hr
  subst hr
  exact ⟨⟨acom_encodable, rfl, trivial⟩, rfl⟩

theorem comReferral_plain : PlainMessage (comReferral 0) := by
  refine ⟨rfl, by decide, rfl, rfl, rfl, rfl, by simp [comReferral], ?_⟩
  intro r hr
  simp only [comReferral, List.nil_append, List.cons_append, List.mem_cons, List.not_mem_nil, or_false] at hr
  rcases hr with rfl | rfl | rfl | rfl
  · exact ⟨⟨com_encodable, rfl, xcom_encodable⟩, rfl⟩
  · exact ⟨⟨com_encodable, rfl, ycom_encodable⟩, rfl⟩
  · exact ⟨⟨ycom_encodable, rfl, trivial⟩, rfl⟩
  · exact ⟨⟨xcom_encodable, rfl, trivial⟩, rfl⟩

/-- Sent, if it can be encoded. -/
theorem send_of {m : Message} (h : PlainMessage m) (hl : encodedLength (withId m 0) ≤ 512) (p : Profile) {id : UInt16} {d : Option (List UInt8)}
    (hd : d = match (withId m id).encodeToBytes with | .ok b => some b | _ => none) :
    ∃ b, d = some b ∧ Message.decodeFromBytes p (b.take 512) = .ok (withId m id) := by
  obtain ⟨b, e1, e2⟩ := plain_sends h hl p id
  exact ⟨b, by rw [hd, e1], e2⟩

theorem plain_answers {env : Env} {p : Profile} {m : Message} {addr : Ip4} {P : Message → Prop} (h : PlainMessage m) (hl : encodedLength (withId m 0) ≤ 512)
    (hnet : ∀ hist q, env.net hist addr q = match (withId m (queryId q)).encodeToBytes with | .ok b => some b | _ => none)
    (hP : ∀ id, P (withId m id)) : Answers env p ⟨"a.com.".toList⟩ .A P addr := by
  intro hist id q hq
  have hid : queryId q = id := queryId_of hq rfl acom_encodable
  obtain ⟨b, e1, e2⟩ := send_of h hl p (hnet hist q)
  rw [hid] at e2
  exact ⟨b, _, e1, e2, rfl, hP id⟩

theorem com_useless {p : Profile} {m : Message} {addr : Ip4} (h : PlainMessage m) (hl : encodedLength (withId m 0) ≤ 512)
    (hnet : ∀ q, comNet addr q = match (withId m (queryId q)).encodeToBytes with | .ok b => some b | _ => none)
    (hP : m.header.respCode = .ServFail) : Useless comEnv p ⟨"a.com.".toList⟩ .A addr := by
  intro hist id q reply hq hn
  obtain ⟨b, e1, e2⟩ := send_of h hl p (hnet q)
  have e : comNet addr q = some reply := hn
  rw [e1] at e
  cases e
  refine .inr ⟨_, e2, .inr (.inl ?_)⟩
  show m.header.respCode ≠ _ ∧ m.header.respCode ≠ _
  rw [hP]
  exact ⟨by simp, by simp⟩

/-- Which servers are up. -/
def comUp (a : Ip4) : Bool := a ≠ ⟨198, 41, 0, 4⟩ && a ≠ ⟨1, 1, 1, 1⟩

theorem com_records : ((comAnswer 0).answers.filter fun r => r.node = ⟨"a.com.".toList⟩ ∧ r.recordType = .A) =
    [⟨⟨"a.com.".toList⟩, .IN, 9, 4, .A ⟨5, 6, 7, 8⟩⟩] := by decide +kernel

theorem com_glue : glueOf (comReferral 0) = [[⟨1, 1, 1, 1⟩], [⟨2, 2, 2, 2⟩]] := by decide +kernel

theorem com_isReferral : IsReferral (comReferral 0) ⟨"com.".toList⟩ :=
  ⟨rfl, rfl, by decide +kernel, by decide +kernel, by decide +kernel, by rw [com_glue]; decide⟩

theorem com_last (p : Profile) : Served comEnv p ⟨"a.com.".toList⟩ .A 3 2
    (IsAnswer ⟨"a.com.".toList⟩ .A [⟨⟨"a.com.".toList⟩, .IN, 9, 4, .A ⟨5, 6, 7, 8⟩⟩]) [[⟨1, 1, 1, 1⟩], [⟨2, 2, 2, 2⟩]] := by
  refine ⟨comUp, by decide, ?_, ⟨[⟨2, 2, 2, 2⟩], by simp, by decide⟩, by decide⟩
  have h1 : Useless comEnv p ⟨"a.com.".toList⟩ .A ⟨1, 1, 1, 1⟩ :=
    com_useless comFailure_plain (by decide +kernel) (fun q => by unfold comNet; rw [if_neg (by decide), if_pos rfl]; rfl) rfl
  have h2 : Answers comEnv p ⟨"a.com.".toList⟩ .A (IsAnswer ⟨"a.com.".toList⟩ .A [⟨⟨"a.com.".toList⟩, .IN, 9, 4, .A ⟨5, 6, 7, 8⟩⟩]) ⟨2, 2, 2, 2⟩ :=
    plain_answers comAnswer_plain (by decide +kernel)
      (fun _ q => by show comNet ⟨2, 2, 2, 2⟩ q = _; unfold comNet; rw [if_neg (by decide), if_neg (by decide), if_pos rfl]; rfl)
      (fun id => ⟨rfl, List.Perm.of_eq com_records⟩)
  intro s hs a ha
  simp only [List.mem_cons, List.not_mem_nil, or_false] at hs
  rcases hs with rfl | rfl
  · rw [List.mem_singleton] at ha
    subst ha
    exact ⟨fun h => absurd h (by decide), fun _ => h1⟩
  · rw [List.mem_singleton] at ha
    subst ha
    exact ⟨fun _ => h2.responds (by decide), fun h => absurd h (by decide)⟩

theorem nameOf_of {s : Str} {labels : List Str} (h2 : s = render labels)
    (h5 : labels.all (fun l => decide (Name.validateLabel l = .ok ())) = true) : NameOf s labels := by
  rw [List.all_eq_true] at h5
  exact ⟨fun l hl => (validateLabel_iff l).1 (of_decide_eq_true (h5 l hl)), h2⟩

theorem com_leads (p : Profile) : LeadsTo comEnv p ⟨"a.com.".toList⟩ .A 3 2
    (Served comEnv p ⟨"a.com.".toList⟩ .A 3 2 (IsAnswer ⟨"a.com.".toList⟩ .A [⟨⟨"a.com.".toList⟩, .IN, 9, 4, .A ⟨5, 6, 7, 8⟩⟩])) 1 ⟨['.']⟩ rootAddrs := by
  have hcom : NameOf "com.".toList ["com".toList] := nameOf_of (by decide) (by decide)
  refine ⟨comUp, by decide, ?_, ⟨[⟨199, 9, 14, 201⟩], by decide, by decide⟩, by decide⟩
  have h1 : Useless comEnv p ⟨"a.com.".toList⟩ .A ⟨198, 41, 0, 4⟩ := by
    intro hist id q reply _ hn
    have e : comNet ⟨198, 41, 0, 4⟩ q = some reply := hn
    unfold comNet at e
    rw [if_pos rfl] at e
    cases e
  have hm : ∀ id, ∃ next, IsReferral (withId (comReferral 0) id) next ∧ Under ⟨"a.com.".toList⟩ next ∧ Below next ⟨['.']⟩ ∧
      LeadsTo comEnv p ⟨"a.com.".toList⟩ .A 3 2
        (Served comEnv p ⟨"a.com.".toList⟩ .A 3 2 (IsAnswer ⟨"a.com.".toList⟩ .A [⟨⟨"a.com.".toList⟩, .IN, 9, 4, .A ⟨5, 6, 7, 8⟩⟩])) 0 next
        (glueOf (withId (comReferral 0) id)) := fun id => by
    refine ⟨⟨"com.".toList⟩, ⟨com_isReferral.1, com_isReferral.2, com_isReferral.3, com_isReferral.4, com_isReferral.5, com_isReferral.6⟩,
      ⟨["a".toList], ["com".toList], ?_, hcom⟩, ⟨["com".toList], [], by simp, hcom, by simp, rfl⟩, ?_⟩
    · exact nameOf_of (by decide) (by decide)
    · have e : glueOf (withId (comReferral 0) id) = [[⟨1, 1, 1, 1⟩], [⟨2, 2, 2, 2⟩]] := com_glue
      rw [e]
      exact com_last p
  intro s hs a ha
  refine ⟨fun hu => ?_, fun hd => ?_⟩
  · unfold comUp at hu
    refine (plain_answers comReferral_plain (by decide +kernel) (fun _ q => ?_) hm).responds (by decide)
    show comNet _ q = _
    unfold comNet
    rw [if_neg (by simp at hu; exact hu.1), if_neg (by simp at hu; exact hu.2), if_neg ?_]
    · rfl
    · intro h
      subst h
      have : ∀ s ∈ rootAddrs, (⟨2, 2, 2, 2⟩ : Ip4) ∉ s := by decide
      exact this s hs ha
  · have : ∀ s ∈ rootAddrs, ∀ a ∈ s, comUp a = false → a = ⟨198, 41, 0, 4⟩ := by decide
    rw [this s hs a ha hd]
    exact h1

/-- The lookup succeeds in that world. -/
example (p : Profile) : ∃ r, (lookup comEnv p ⟨2, 3, 2, false⟩ 3 ⟨"a.com.".toList⟩ .A ⟨.empty, 0, []⟩).1 = .ok r ∧ r.noRecords = false ∧
    r.answers.Perm [⟨⟨"a.com.".toList⟩, .IN, 9, 4, .A ⟨5, 6, 7, 8⟩⟩] :=
  C83_answer_is_found comEnv p ⟨2, 3, 2, false⟩ ⟨"a.com.".toList⟩ .A ⟨.empty, 0, []⟩ 1 3 _ ⟨by decide, _, acom_encodable.2.choose_spec.1⟩ rfl
    (by decide) (by decide) ⟨rfl, rfl, fun _ _ => rfl⟩ (fun _ _ h => h) (by simp) (com_leads p) (by decide)

/-- Nobody answers. -/
def silentEnv : Env where
  clock n := n
  mono _ _ h := h
  others _ c := c
  ids n := UInt16.ofNat n
  net _ _ _ := none

/-- The lookup fails if nobody answers. -/
example (p : Profile) : ∃ e, (lookup silentEnv p ⟨2, 3, 2, false⟩ 3 ⟨"a.com.".toList⟩ .A ⟨.empty, 0, []⟩).1 = .err e :=
  C83_failure_is_reported silentEnv p ⟨2, 3, 2, false⟩ ⟨"a.com.".toList⟩ .A ⟨.empty, 0, []⟩ 0 3 ⟨by decide, _, acom_encodable.2.choose_spec.1⟩ rfl
    (by decide) (by decide) (by decide) ⟨rfl, rfl, fun _ _ => rfl⟩ (fun _ _ h => h)
    ⟨by decide, fun s hs => ⟨by revert s; decide, fun a _ => fun hist id q reply _ h => (by cases h)⟩⟩ (by decide)

/-- A denial. -/
def comDenial (id : UInt16) : Message :=
  ⟨⟨id, true, .STD, true, false, false, false, 0, .NxDomain, 0, 0, 0, 0⟩, [], [], [], []⟩

/-- The root servers deny the name. -/
def denyEnv : Env where
  clock n := n
  mono _ _ h := h
  others _ c := c
  ids n := UInt16.ofNat n
  net _ _ q := match (withId (comDenial 0) (queryId q)).encodeToBytes with
    | .ok b => some b
    | _ => none

/-- The lookup returns the denial. -/
example (p : Profile) : ∃ r, (lookup denyEnv p ⟨2, 3, 2, false⟩ 3 ⟨"a.com.".toList⟩ .A ⟨.empty, 0, []⟩).1 = .ok r ∧ r.noRecords = true ∧
    r.answers = [] :=
  C83_denial_is_found denyEnv p ⟨2, 3, 2, false⟩ ⟨"a.com.".toList⟩ .A ⟨.empty, 0, []⟩ 0 3 ⟨by decide, _, acom_encodable.2.choose_spec.1⟩ rfl
    (by decide) (by decide) ⟨rfl, rfl, fun _ _ => rfl⟩ (fun _ _ h => h)
    ⟨fun _ => true, by decide, fun s hs a _ => ⟨fun _ => (plain_answers (m := comDenial 0)
      ⟨rfl, by decide, rfl, rfl, rfl, rfl, by simp [comDenial], by simp [comDenial]⟩ (by decide +kernel) (fun _ _ => rfl) (fun id => ⟨rfl, rfl⟩)).responds (by decide),
      fun h => (by cases h)⟩, ⟨[⟨198, 41, 0, 4⟩], by decide, by decide⟩, by decide⟩ (by decide)

/-- The first query of two is lost. -/
def lossyEnv : Env where
  clock n := n
  mono _ _ h := h
  others _ c := c
  ids n := UInt16.ofNat n
  net hist addr q := match hist.getLast? with
    | some (.exchange addr' _ none) => if addr' = addr then denyEnv.net hist addr q else none
    | _ => none

theorem lossy_responds (p : Profile) (addr : Ip4) : Responds lossyEnv p ⟨"a.com.".toList⟩ .A 2 IsDenial addr := by
  intro hist id q hq
  have key : ∀ (hist : List Event) (q' : List UInt8) (id : UInt16) (q : List UInt8), QueryFor id ⟨"a.com.".toList⟩ .A q →
      hist.getLast? = some (.exchange addr q' none) →
      ∃ reply m, lossyEnv.net hist addr q = some reply ∧ Message.decodeFromBytes p (reply.take 512) = .ok m ∧ m.header.id = id ∧ IsDenial m := by
    intro hist q' id q hq hl
    have h : Answers denyEnv p ⟨"a.com.".toList⟩ .A IsDenial addr := plain_answers (m := comDenial 0)
      ⟨rfl, by decide, rfl, rfl, rfl, rfl, by simp [comDenial], by simp [comDenial]⟩ (by decide +kernel) (fun _ _ => rfl) (fun id => ⟨rfl, rfl⟩)
    obtain ⟨reply, m, e1, e2⟩ := h hist id q hq
    refine ⟨reply, m, ?_, e2⟩
    show (match hist.getLast? with
      | some (.exchange addr' _ none) => if addr' = addr then denyEnv.net hist addr q else none
      | _ => none) = _
    rw [hl]
    simp only [if_true]
    exact e1
  by_cases h : ∃ q', hist.getLast? = some (.exchange addr q' none)
  · obtain ⟨q', h⟩ := h
    exact .inl (key hist q' id q hq h)
  · have e : lossyEnv.net hist addr q = none := by
      show (match hist.getLast? with
        | some (.exchange addr' _ none) => if addr' = addr then denyEnv.net hist addr q else none
        | _ => none) = none
      split
      · rename_i a' q' hl
        refine if_neg fun ha => h ⟨q', ?_⟩
        rw [hl, ha]
      · rfl
    right
    rw [e]
    refine ⟨fun _ h => (by cases h), ?_⟩
    intro id' q'' hq''
    exact Or.inl (key _ q id' q'' hq'' List.getLast?_concat)

/-- The lookup returns the denial although every first query is lost. -/
example (p : Profile) : ∃ r, (lookup lossyEnv p ⟨2, 2, 2, false⟩ 3 ⟨"a.com.".toList⟩ .A ⟨.empty, 0, []⟩).1 = .ok r ∧ r.noRecords = true ∧
    r.answers = [] :=
  C83_denial_is_found lossyEnv p ⟨2, 2, 2, false⟩ ⟨"a.com.".toList⟩ .A ⟨.empty, 0, []⟩ 0 3 ⟨by decide, _, acom_encodable.2.choose_spec.1⟩ rfl
    (by decide) (by decide) ⟨rfl, rfl, fun _ _ => rfl⟩ (fun _ _ h => h)
    ⟨fun _ => true, by decide, fun s hs a _ => ⟨fun _ => lossy_responds p a, fun h => (by cases h)⟩, ⟨[⟨198, 41, 0, 4⟩], by decide, by decide⟩, by decide⟩
    (by decide)

end Ariadne.Props
