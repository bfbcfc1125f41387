import Verif.Props.WellRun
import Verif.Props.Framing

/-! # C67: a chain of 65535 aliases -/

namespace Ariadne.Props

open Spec Resolver BitsBuf NameSpace

/-- C67: every message gets a reply that mirrors the header, repeats the questions, and has as many records as its header says;
the code and the records are those of the result of the lookup. -/
def C67_statement : Prop :=
  ∀ (env : Env) (p : Profile) (conf : Params) (fuel : Nat) (req m : Message) (w w' : World), OnlyReceived env p w →
    handle env p conf fuel (.fullMessage req) w = (.ok (some m), w') →
    Mirrors req.header m ∧ m.questions = req.questions ∧ m.header.questionsCount = req.header.questionsCount ∧
    m.header.answersCount.toNat = m.answers.length ∧ m.header.authoritiesCount.toNat = m.authorities.length ∧
    m.header.additionalsCount.toNat = m.additionals.length ∧
    (¬ WellPosed req → m.header.respCode = .FormErr ∧ NoRecords m) ∧
    (WellPosed req → ∃ q qs, req.questions = q :: qs ∧
      ((∃ r, (lookup env p conf fuel q.node q.recordType w).1 = .ok r ∧ r.noRecords = false ∧ m.header.respCode = .NoError ∧
          m.answers = r.answers ∧ m.authorities = r.authorities ∧ m.additionals = r.additionals) ∨
       (∃ r, (lookup env p conf fuel q.node q.recordType w).1 = .ok r ∧ r.noRecords = true ∧ m.header.respCode = .NxDomain ∧
          NoRecords m) ∨
       (∃ e, (lookup env p conf fuel q.node q.recordType w).1 = .err e ∧ m.header.respCode = .ServFail ∧ NoRecords m)))

/-- Sixteen letters. -/
def hexLetter (k : Nat) : Char := Char.ofNat (97 + k % 16)

/-- 65536 names. -/
def serial (i : Nat) : Name := ⟨[hexLetter (i / 4096), hexLetter (i / 256), hexLetter (i / 16), hexLetter i, '.']⟩

/-- The number of such a name. -/
def serialOf (n : Name) : Nat :=
  match n.s with
  | [a, b, c, d, _] => (a.toNat - 97) * 4096 + (b.toNat - 97) * 256 + (c.toNat - 97) * 16 + (d.toNat - 97)
  | _ => 0

theorem hexLetter_toNat (k : Nat) : (hexLetter k).toNat = 97 + k % 16 := by
  have : ∀ j < 16, (Char.ofNat (97 + j)).toNat = 97 + j := by decide
  exact this _ (Nat.mod_lt _ (by omega))

theorem serialOf_serial {i : Nat} (h : i < 65536) : serialOf (serial i) = i := by
  show ((hexLetter _).toNat - 97) * 4096 + ((hexLetter _).toNat - 97) * 256 + ((hexLetter _).toNat - 97) * 16 + ((hexLetter _).toNat - 97) = i
  simp only [hexLetter_toNat]
  omega

theorem hexLetter_valid (k : Nat) : LetDig (hexLetter k) := by
  have : ∀ j < 16, LetDig (Char.ofNat (97 + j)) := by unfold LetDig; decide
  exact this _ (Nat.mod_lt _ (by omega))

theorem serial_nameOf (i : Nat) : NameOf (serial i).s [[hexLetter (i / 4096), hexLetter (i / 256), hexLetter (i / 16), hexLetter i]] := by
  refine ⟨fun l hl => ?_, rfl⟩
  rw [List.mem_singleton] at hl
  subst hl
  refine ⟨fun c hc => ?_, _, _, rfl, rfl, hexLetter_valid _, hexLetter_valid _⟩
  simp only [List.mem_cons, List.not_mem_nil, or_false] at hc
  rcases hc with rfl | rfl | rfl | rfl <;> exact .inl (hexLetter_valid _)

theorem serial_encodable (i : Nat) : Encodable (serial i) :=
  ⟨by show 5 ≤ 255; decide, _, serial_nameOf i, by simp, by simp⟩

theorem serial_valid (i : Nat) : ValidName (serial i).s := ⟨by show 5 ≤ 255; decide, _, serial_nameOf i⟩

/-- The alias of the next name. -/
def link (i : Nat) : Record := ⟨serial i, .IN, 9, 6, .CNAME (serial (i + 1))⟩

/-- What the servers say: all names but the last are aliases of the next; the last one has an address. -/
def chainMessage (last i : Nat) : Message :=
  orderMessage true .NoError [if i < last then link i else addrRecord (serial i) ⟨1, 2, 3, 4⟩] [] []

/-- The servers. -/
def chainNet (last : Nat) (q : List UInt8) : Option (List UInt8) :=
  match Message.decodeFromBytes .release q with
  | .ok m => match m.questions with
    | [question] => match (withId (chainMessage last (serialOf question.node)) m.header.id).encodeToBytes with
      | .ok b => some b
      | _ => none
    | _ => none
  | _ => none

/-- The world. -/
def linksEnv (last : Nat) : Env where
  clock _ := 0
  mono _ _ _ := Nat.le_refl 0
  others _ c := c
  ids _ := 7
  net _ _ q := chainNet last q

/-- The name space: no zone but the root. -/
def chainSpace (last : Nat) : NameSpace where
  nameservers _ := []
  hosts _ := []
  asked n k := k = .A ∧ ∃ i, i ≤ last ∧ n = serial i
  fate n _ := if serialOf n < last then .alias (link (serialOf n)) else .found [addrRecord (serial (serialOf n)) ⟨1, 2, 3, 4⟩]
  rank _ := 0
  depth := 1

theorem chain_net {last : Nat} {id : UInt16} {n : Name} {k : RecordType} {q : List UInt8} (h : QueryFor id n k q)
    (hk : k.isSupportedForQuestion = true) (hv : Encodable n) :
    chainNet last q = match (withId (chainMessage last (serialOf n)) id).encodeToBytes with
      | .ok b => some b
      | _ => none := by
  obtain ⟨x, h1, -, h2⟩ := C21_plain_message .release
    ⟨⟨id, false, .STD, false, false, false, false, 0, .NoError, 1, 0, 0, 0⟩, [⟨n, k, .IN⟩], [], [], []⟩
    ⟨rfl, Nat.zero_lt_succ _, rfl, rfl, rfl, rfl, by intro q hq; simp at hq; subst hq; exact ⟨hv, hk, rfl⟩, by simp⟩
  have e : q = x := Out.ok.inj (h.symm.trans h1)
  have h3 := h2 []
  rw [List.append_nil] at h3
  unfold chainNet
  rw [e, h3]

/-- The record in that message. -/
def chainRecord (last i : Nat) : Record := if i < last then link i else addrRecord (serial i) ⟨1, 2, 3, 4⟩

theorem chainRecord_plain (last i : Nat) : Plain (chainRecord last i) ∧ (chainRecord last i).dataLen.toNat = rdLength (chainRecord last i).data := by
  unfold chainRecord
  split
  · exact ⟨⟨serial_encodable _, rfl, serial_encodable _⟩, rfl⟩
  · exact addrRecord_plain (serial_encodable _) _

theorem chain_plain (last i : Nat) : PlainMessage (chainMessage last i) := order_plain (by simp) (by simp) (by simp) fun r hr => by
  simp only [List.append_nil, List.mem_singleton] at hr
  subst hr
  exact chainRecord_plain last i

theorem toBytes_serial (i : Nat) : (serial i).toBytes.length = 6 := toBytes_length (serial_encodable i)

theorem chainRecord_size (last i : Nat) {x : List UInt8} (h : Writes (Record.encode (chainRecord last i)) x) : x.length ≤ 22 := by
  unfold chainRecord at h
  split at h
  · obtain ⟨y, h1, rfl⟩ := record_writes h
    have h2 : y = _ := Writes.unique h1 (.bind (writes_u16 _) (writes_bytes (serial (i + 1)).toBytes))
    rw [h2]
    have h3 : (link i).node.toBytes.length = 6 := toBytes_serial i
    simp only [List.length_append, be16_length, be32_length, h3, toBytes_serial]
    decide
  · obtain ⟨y, h1, rfl⟩ := record_writes h
    have h2 : y = _ := Writes.unique h1 (.bind (writes_u16 4) (writes_bytes [1, 2, 3, 4]))
    rw [h2]
    have h3 : (addrRecord (serial i) ⟨1, 2, 3, 4⟩).node.toBytes.length = 6 := toBytes_serial i
    simp only [List.length_append, be16_length, be32_length, h3, List.length_cons, List.length_nil]
    decide

theorem chain_length (last i : Nat) : encodedLength (withId (chainMessage last i) 0) ≤ 512 := by
  obtain ⟨rdata, x, -, -, hx⟩ := writes_record (chainRecord_plain last i).1
  have hp := chain_plain last i
  have := encode_of_encodings (m := withId (chainMessage last i) 0) rfl ⟨rfl, rfl, rfl, rfl⟩ (q := []) .nil (an := [x]) (.cons hx .nil) (au := []) .nil
    (ad := []) .nil
  unfold encodedLength
  rw [this]
  have := chainRecord_size last i hx
  simp only [List.length_append, headerBytes_length, List.flatten_nil, List.length_nil, List.flatten_cons, List.append_nil]
  omega

theorem chain_tells {last i : Nat} (hi : i ≤ last) (hl : last < 65536) (d : Nat) : (chainSpace last).Tells d (serial i) .A (chainMessage last i) := by
  unfold NameSpace.Tells
  have e : (chainSpace last).fate (serial i) .A = if i < last then .alias (link i) else .found [addrRecord (serial i) ⟨1, 2, 3, 4⟩] := by
    show (if serialOf (serial i) < last then _ else _) = _
    rw [serialOf_serial (by omega)]
  rw [e]
  have ha : (chainMessage last i).answers = [chainRecord last i] := rfl
  by_cases h : i < last
  · have hr : chainRecord last i = link i := if_pos h
    rw [if_pos h]
    dsimp only
    rw [ha, hr]
    refine ⟨rfl, ?_, ⟨link i, ?_, rfl⟩, fun t _ => .inl fun r hr => nomatch hr⟩
    · unfold recordsOf
      rw [List.filter_cons_of_neg (by simp; intro _ hc; cases hc)]
      rfl
    · unfold recordsOf
      rw [List.filter_cons_of_pos (by simp; exact ⟨rfl, rfl⟩)]
      rfl
  · have hr : chainRecord last i = addrRecord (serial i) ⟨1, 2, 3, 4⟩ := if_neg h
    rw [if_neg h]
    dsimp only
    rw [ha, hr]
    refine ⟨rfl, ?_, fun z _ hz => nomatch hz⟩
    unfold recordsOf
    rw [List.filter_cons_of_pos (by simp; exact ⟨rfl, rfl⟩)]
    exact List.Perm.refl _

theorem chain_run (p : Profile) {last : Nat} (hl : last < 65536) (d : Nat) : (chainSpace last).WellRun (linksEnv last) p 1 1 d := by
  refine ⟨?_, ?_, ?_, ?_, (fun h => nomatch h), (fun h => nomatch h), (fun h => absurd rfl h), ?_, (fun _ h => absurd rfl h)⟩
  · rintro m k ⟨rfl, i, hi, rfl⟩
    exact ⟨serial_valid i, rfl, by decide, by decide⟩
  · rintro m k l ⟨rfl, i, hi, rfl⟩ h
    have h : (if serialOf (serial i) < last then _ else _) = Fate.found l := h
    rw [serialOf_serial (by omega)] at h
    split at h
    · cases h
    · cases h
      simp [addrRecord]
      rfl
  · rintro m k c ⟨rfl, i, hi, rfl⟩ h
    have h : (if serialOf (serial i) < last then _ else _) = Fate.alias c := h
    rw [serialOf_serial (by omega)] at h
    split at h
    · cases h
      exact ⟨rfl, _, rfl, rfl, i + 1, by omega, rfl⟩
    · cases h
  · rintro m k k' c - - h
    exact h
  · rintro m k ⟨rfl, i, hi, rfl⟩
    refine ⟨fun _ => true, by decide, fun s hs a ha => ⟨fun _ => ?_, fun h => nomatch h⟩, ⟨[⟨199, 9, 14, 201⟩], by decide, by decide⟩, by decide⟩
    refine Answers.responds ?_ (by decide)
    intro hist id q hq
    obtain ⟨b, e1, e2⟩ := send_of (chain_plain last i) (chain_length last i) p (d := chainNet last q) (id := id) (by
      rw [chain_net hq rfl (serial_encodable i), serialOf_serial (by omega)]; generalize Message.encodeToBytes _ = o; cases o <;> rfl)
    exact ⟨b, _, e1, e2, rfl, helps_withId (.inr (chain_tells hi hl d)) id⟩

theorem chain_fares {last : Nat} (hl : last < 65536) : ∀ (k i : Nat), i + k = last →
    ∃ cs l, (chainSpace last).Fares .A (serial i) cs (.found l) ∧ cs.length = k ∧ l.length = 1
  | 0, i, h => by
    refine ⟨[], [addrRecord (serial i) ⟨1, 2, 3, 4⟩], .last ?_ (fun _ h => nomatch h), rfl, rfl⟩
    show (if serialOf (serial i) < last then _ else _) = _
    rw [serialOf_serial (by omega), if_neg (by omega)]
  | k + 1, i, h => by
    obtain ⟨cs, l, h1, h2, h3⟩ := chain_fares hl k (i + 1) (by omega)
    refine ⟨link i :: cs, l, .follow (t := serial (i + 1)) ?_ rfl h1, by rw [List.length_cons, h2], h3⟩
    show (if serialOf (serial i) < last then _ else _) = _
    rw [serialOf_serial (by omega), if_pos (by omega)]

/-- The resolver follows that many aliases, if it is configured to. -/
theorem chain_found (p : Profile) {last : Nat} (hl : last < 65536) {conf : Params} (hc : conf = ⟨1, 1, last + 1, false⟩) :
    ∃ r w', lookup (linksEnv last) p conf 300 (serial 0) .A ⟨.empty, 0, []⟩ = (.ok r, w') ∧ r.noRecords = false ∧
      r.answers.length = last + 1 := by
  obtain ⟨cs, l, h1, h2, h3⟩ := chain_fares hl last 0 (by omega)
  have hin : InOrder (chainSpace last) (linksEnv last) p conf 0 0 0 := by
    subst hc
    exact ⟨fun _ _ => ⟨Nat.le_refl _, Nat.le_refl _⟩, chain_run p hl _, ⟨fun _ _ h => h, fun _ _ _ _ _ _ h => h, fun _ _ h => h, fun _ _ h => h⟩,
      rfl, Nat.one_ne_zero⟩
  obtain ⟨r, w', e, hr, -⟩ := C88_partial (chainSpace last) (linksEnv last) p conf 0 0 ⟨.empty, 0, []⟩ (serial 0) .A cs (.found l) 300 hin
    (empty_coherent ..) (fun _ _ _ h => nomatch h) ⟨rfl, 0, Nat.zero_le _, rfl⟩ h1 (by subst hc; rw [h2]; exact Nat.lt_succ_self _)
    (by show 256 + 1 < 300; decide)
  obtain ⟨a, cs', rs, b, c, d⟩ := hr
  refine ⟨r, w', e, a, ?_⟩
  have e1 := congrArg List.length c
  have e2 := d.length_eq
  rw [List.length_map, List.length_map] at e1 e2
  rw [b, List.length_append]
  omega

/-- The request. -/
def chainRequest : Message := ⟨⟨5, false, .STD, false, false, true, false, 0, .NoError, 1, 0, 0, 0⟩, [⟨serial 0, .A, .IN⟩], [], [], []⟩

theorem handle_ok {env : Env} {p : Profile} {conf : Params} {fuel : Nat} {req : Message} {q : Question} {qs : List Question} {w w' : World}
    {r : Response} (hv : Resolver.validate req = true) (hq : req.questions = q :: qs)
    (h : lookup env p conf fuel q.node q.recordType w = (.ok r, w')) :
    handle env p conf fuel (.fullMessage req) w = (.ok (some (resultReply req (.inr r))), w') := by
  unfold handle
  simp only
  rw [hv, hq]
  simp only [Bool.not_true, Bool.false_eq_true, if_false]
  have hb := attempt_pure (lookup env p conf fuel q.node q.recordType) (fun x => some (resultReply req x)) w
  rw [h] at hb
  exact hb

theorem chain_wraps (p : Profile) {last : Nat} (hl : last = 65535) : ∃ m w', handle (linksEnv last) p ⟨1, 1, last + 1, false⟩ 300
    (.fullMessage chainRequest) ⟨.empty, 0, []⟩ = (.ok (some m), w') ∧ m.answers.length = 65536 ∧ m.header.answersCount = 0 := by
  obtain ⟨r, w', e, hn, ha⟩ := chain_found p (last := last) (by omega) rfl
  obtain ⟨m, hm⟩ : ∃ m, handle (linksEnv last) p ⟨1, 1, last + 1, false⟩ 300 (.fullMessage chainRequest) ⟨.empty, 0, []⟩ = (.ok (some m), w') :=
    ⟨_, handle_ok (q := ⟨serial 0, .A, .IN⟩) (qs := []) (by decide) rfl e⟩
  obtain ⟨-, -, -, e4, -, -, -, e8⟩ := C67_reply_partial _ _ _ _ _ _ _ _ hm
  obtain ⟨q, qs, hq, -, h⟩ := e8 (by refine ⟨?_, ?_, ?_⟩ <;> decide)
  have hq' : q = ⟨serial 0, .A, .IN⟩ := by
    have hq2 : [(⟨serial 0, .A, .IN⟩ : Question)] = q :: qs := hq
    exact (List.cons.inj hq2).1.symm
  subst hq'
  rw [e] at h
  have h5 : m.answers.length = last + 1 := by
    rcases h with ⟨r', h1, -, -, h2, -⟩ | ⟨r', h1, h2, -⟩ | ⟨e', h1, -⟩
    · rw [h2, ← Out.ok.inj h1, ha]
    · rw [← Out.ok.inj h1, hn] at h2
      cases h2
    · cases h1
  have h6 : m.answers.length = 65536 := by omega
  refine ⟨m, w', hm, h6, ?_⟩
  rw [e4, h6]
  rfl

theorem received_empty (p : Profile) : ReceivedCache p .empty := fun _ _ _ h => nomatch h

/-- C67 does not hold: if the limit on redirections allows it (any number is accepted), a chain of 65535 aliases is followed,
and the header of the reply announces 0 answers. -/
theorem C67_violated : ¬ C67_statement := by
  intro h
  obtain ⟨last, hl⟩ : ∃ n, n = 65535 := ⟨_, rfl⟩
  obtain ⟨m, w', hm, h1, h2⟩ := chain_wraps .release hl
  have h3 := (h _ _ _ _ _ m _ w' ⟨received_empty _, (fun _ _ h => h)⟩ hm).2.2.2.1
  rw [h1, h2] at h3
  exact absurd h3 (by decide)

end Ariadne.Props
