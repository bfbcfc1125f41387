import Verif.Spec.UdpTcp
import Verif.Lemmas.Trunc

/-! # Full and truncated encodings of one message -/

namespace Ariadne

open Spec BitsBuf

theorem encodeItems_take {α : Type} (e : α → BufM ParsingErr Unit) (sec : Section) (xs : List α) (k : Nat) :
    ∀ n i, i + n ≤ k → Message.encodeItems e sec (xs.take k) n i = Message.encodeItems e sec xs n i
  | 0, _, _ => rfl
  | n + 1, i, h => by
    have e1 : (xs.take k)[i]? = xs[i]? := List.getElem?_take_of_lt (by omega)
    simp only [Message.encodeItems, e1, encodeItems_take e sec xs k n (i + 1) (by omega)]

theorem encodeItemsTrunc_take {α : Type} (e : α → BufM ParsingErr Unit) (sec : Section) (xs : List α) (k : Nat) :
    ∀ n i h, i + n ≤ k → Message.encodeItemsTrunc e sec (xs.take k) n i h = Message.encodeItemsTrunc e sec xs n i h
  | 0, _, _, _ => rfl
  | n + 1, i, hd, h => by
    have e1 : (xs.take k)[i]? = xs[i]? := List.getElem?_take_of_lt (by omega)
    simp only [Message.encodeItemsTrunc, e1, encodeItemsTrunc_take e sec xs k n (i + 1) _ (by omega)]

theorem encodeItems_length {α : Type} (e : α → BufM ParsingErr Unit) (sec : Section) (xs : List α) :
    ∀ n i b b', Message.encodeItems e sec xs n i b = (.ok (), b') → n = 0 ∨ i + n ≤ xs.length
  | 0, _, _, _, _ => .inl rfl
  | n + 1, i, b, b', h => by
    cases hx : xs[i]? with
    | none => simp only [Message.encodeItems, hx] at h; cases h
    | some x =>
      obtain ⟨hi, -⟩ := List.getElem?_eq_some_iff.1 hx
      simp only [Message.encodeItems, hx] at h
      rw [BufM.bind_apply] at h
      revert h
      generalize BufM.mapErr (sec.err i) (e x) b = y
      obtain ⟨o, b1⟩ := y
      cases o with
      | ok _ =>
        intro h
        rcases encodeItems_length e sec xs n (i + 1) b1 b' h with h0 | h0
        · exact .inr (by omega)
        · exact .inr (by omega)
      | err _ => intro h; cases h
      | panic _ => intro h; cases h
      | diverge => intro h; cases h

/-- The message of the items that the counts announce. -/
def announced (m : Message) : Message :=
  { m with
    questions := m.questions.take m.header.questionsCount.toNat
    answers := m.answers.take m.header.answersCount.toNat
    authorities := m.authorities.take m.header.authoritiesCount.toNat
    additionals := m.additionals.take m.header.additionalsCount.toNat }

theorem announced_encode (m : Message) : (announced m).encodeToBytes = m.encodeToBytes := by
  unfold Message.encodeToBytes announced
  simp only
  rw [encodeItems_take _ _ _ _ _ _ (by omega), encodeItems_take _ _ _ _ _ _ (by omega), encodeItems_take _ _ _ _ _ _ (by omega),
    encodeItems_take _ _ _ _ _ _ (by omega)]

theorem announced_trunc (m : Message) : (announced m).encodeToBytesTrunc = m.encodeToBytesTrunc := by
  unfold Message.encodeToBytesTrunc announced
  have key : ∀ {α : Type} (e : α → BufM ParsingErr Unit) (sec : Section) (xs : List α) (n : Nat) (h : Header),
      Message.encodeItemsTrunc e sec (xs.take n) n 0 h = Message.encodeItemsTrunc e sec xs n 0 h :=
    fun e sec xs n h => encodeItemsTrunc_take e sec xs n n 0 h (by omega)
  simp only [key]

theorem bufBind_ok_inv {α β ε : Type} {x : BufM ε α} {f : α → BufM ε β} {b b' : BitsBuf} {v : β}
    (h : (x >>= f) b = (.ok v, b')) : ∃ a b1, x b = (.ok a, b1) ∧ f a b1 = (.ok v, b') := by
  rw [BufM.bind_apply] at h
  revert h
  generalize x b = y
  obtain ⟨o, b1⟩ := y
  cases o with
  | ok a => intro h; exact ⟨a, b1, rfl, h⟩
  | err _ => intro h; cases h
  | panic _ => intro h; cases h
  | diverge => intro h; cases h

theorem fst_ok {α β : Type} {y : α × β} {v : α} (h : y.1 = v) : ∃ b, y = (v, b) := ⟨y.2, Prod.ext h rfl⟩

theorem announced_counts {m : Message} {x : List UInt8} (h : m.encodeToBytes = .ok x) : CountsMatch (announced m) := by
  unfold Message.encodeToBytes at h
  obtain ⟨b', h⟩ := fst_ok h
  obtain ⟨_, b1, -, h⟩ := bufBind_ok_inv h
  obtain ⟨_, b2, h1, h⟩ := bufBind_ok_inv h
  obtain ⟨_, b3, h2, h⟩ := bufBind_ok_inv h
  obtain ⟨_, b4, h3, h⟩ := bufBind_ok_inv h
  obtain ⟨_, b5, h4, -⟩ := bufBind_ok_inv h
  have l1 := encodeItems_length _ _ _ _ _ _ _ h1
  have l2 := encodeItems_length _ _ _ _ _ _ _ h2
  have l3 := encodeItems_length _ _ _ _ _ _ _ h3
  have l4 := encodeItems_length _ _ _ _ _ _ _ h4
  refine ⟨?_, ?_, ?_, ?_⟩ <;> simp only [announced, List.length_take] <;> omega

theorem flatten_take_prefix (ws : List (List UInt8)) (k : Nat) : (ws.take k).flatten <+: ws.flatten := by
  conv => rhs; rw [← List.take_append_drop k ws, List.flatten_append]
  exact List.prefix_append _ _

/-- A prefix of lists put together: nothing of the later ones unless all of the earlier. -/
theorem chain_prefix {a : Type} {x x' y y' : List a} (h : x' <+: x) (h1 : x' = x ∨ y' = []) (h2 : y' <+: y) :
    x' ++ y' <+: x ++ y := by
  rcases h1 with rfl | rfl
  · exact (List.prefix_append_right_inj _).2 h2
  · rw [List.append_nil]
    exact h.trans (List.prefix_append _ _)

theorem flatten_take_all {ws : List (List UInt8)} {k n : Nat} (hn : n = ws.length) (h : n ≤ k) : (ws.take k).flatten = ws.flatten := by
  rw [List.take_of_length_le (by omega)]

theorem flatten_take_none {ws : List (List UInt8)} {k : Nat} (h : k = 0) : (ws.take k).flatten = [] := by
  rw [h]; rfl

theorem body_prefix {q an au ad : List (List UInt8)} {k n1 n2 n3 : Nat} (e1 : n1 = q.length) (e2 : n2 = an.length)
    (e3 : n3 = au.length) :
    (q.take k).flatten ++ ((an.take (k - n1)).flatten ++ ((au.take (k - n1 - n2)).flatten ++ (ad.take (k - n1 - n2 - n3)).flatten)) <+:
      q.flatten ++ (an.flatten ++ (au.flatten ++ ad.flatten)) := by
  refine chain_prefix (flatten_take_prefix _ _) ?_ (chain_prefix (flatten_take_prefix _ _) ?_
    (chain_prefix (flatten_take_prefix _ _) ?_ (flatten_take_prefix _ _)))
  · by_cases h : n1 ≤ k
    · exact .inl (flatten_take_all e1 h)
    · right
      rw [flatten_take_none (by omega), flatten_take_none (by omega), flatten_take_none (by omega)]; rfl
  · by_cases h : n2 ≤ k - n1
    · exact .inl (flatten_take_all e2 h)
    · right
      rw [flatten_take_none (by omega), flatten_take_none (by omega)]; rfl
  · by_cases h : n3 ≤ k - n1 - n2
    · exact .inl (flatten_take_all e3 h)
    · right
      rw [flatten_take_none (by omega)]

theorem append_getD_left {x y : List UInt8} {i : Nat} (h : i < x.length) : (x ++ y).getD i 0 = x.getD i 0 := by
  rw [List.getD_eq_getElem?_getD, List.getD_eq_getElem?_getD, List.getElem?_append_left h]

theorem bitAt_left {x y : List UInt8} {i : Nat} (h : i < 8 * x.length) : bitAt (x ++ y) i = bitAt x i := by
  unfold bitAt
  rw [append_getD_left (by omega)]

theorem fieldAt_left {x y : List UInt8} {r n v : Nat} (h : r + n ≤ 8 * x.length) (hf : FieldAt (x ++ y) r n v) : FieldAt x r n v :=
  ⟨hf.1, fun j hj => by rw [hf.2 j hj, bitAt_left (by omega)]⟩

/-- The second flag octet and the first, but for TC, do not depend on anything else. -/
theorem header_bits {h h' : Header} (e : h' = { h with
      truncated := h'.truncated, questionsCount := h'.questionsCount, answersCount := h'.answersCount,
      authoritiesCount := h'.authoritiesCount, additionalsCount := h'.additionalsCount }) :
    ∀ i, i < 32 → i ≠ 22 → bitAt (headerBytes h') i = bitAt (headerBytes h) i := by
  intro i hi hn
  rw [e]
  have hq : i / 8 = 0 ∨ i / 8 = 1 ∨ i / 8 = 2 ∨ i / 8 = 3 := by omega
  unfold bitAt
  rcases hq with hq | hq | hq | hq
  · rw [hq]; rfl
  · rw [hq]; rfl
  · have h1 := flag_lt h.queryResp
    have h2 := flag_lt h.authAnswer
    have h4 := flag_lt h.recursionDesired
    have h6 := opCode_lt h.opCode
    have hb : ∀ t : Bool, (headerBytes { h with
      truncated := t, questionsCount := h'.questionsCount, answersCount := h'.answersCount,
      authoritiesCount := h'.authoritiesCount, additionalsCount := h'.additionalsCount }).getD (i / 8) 0 =
        UInt8.ofNat (flag h.queryResp * 128 + h.opCode.toNum.toNat * 8 + flag h.authAnswer * 4 + flag t * 2 + flag h.recursionDesired) := by
      intro t; rw [hq]; rfl
    have hb2 : (headerBytes h).getD (i / 8) 0 =
        UInt8.ofNat (flag h.queryResp * 128 + h.opCode.toNum.toNat * 8 + flag h.authAnswer * 4 + flag h.truncated * 2 + flag h.recursionDesired) := by
      rw [hq]; rfl
    rw [hb, hb2]
    generalize hA : flag h.queryResp * 16 + h.opCode.toNum.toNat = A
    have hA2 : A < 32 := by omega
    rw [show ∀ t, flag h.queryResp * 128 + h.opCode.toNum.toNat * 8 + flag h.authAnswer * 4 + flag t * 2 + flag h.recursionDesired =
      A * 8 + flag h.authAnswer * 4 + flag t * 2 + flag h.recursionDesired from fun t => by omega,
      show flag h.queryResp * 128 + h.opCode.toNum.toNat * 8 + flag h.authAnswer * 4 + flag h.truncated * 2 + flag h.recursionDesired =
      A * 8 + flag h.authAnswer * 4 + flag h.truncated * 2 + flag h.recursionDesired from by omega]
    have hr : i % 8 = 0 ∨ i % 8 = 1 ∨ i % 8 = 2 ∨ i % 8 = 3 ∨ i % 8 = 4 ∨ i % 8 = 5 ∨ i % 8 = 7 := by omega
    have ht : ∀ (t u : Bool), ∀ (B C : Nat), B < 2 → C < 2 → ∀ A, A < 32 → ∀ j, j ≠ 1 →
        (UInt8.ofNat (A * 8 + B * 4 + flag t * 2 + C)).toNat.testBit j = (UInt8.ofNat (A * 8 + B * 4 + flag u * 2 + C)).toNat.testBit j := by
      intro t u B C hB hC A hA j hj
      have ht := flag_lt t
      have hu := flag_lt u
      rw [UInt8.toNat_ofNat', UInt8.toNat_ofNat', Nat.mod_eq_of_lt (by omega), Nat.mod_eq_of_lt (by omega)]
      rw [Nat.testBit_eq_decide_div_mod_eq, Nat.testBit_eq_decide_div_mod_eq]
      rcases j with _ | _ | j
      · simp only [Nat.pow_zero, Nat.div_one]
        rw [show (A * 8 + B * 4 + flag t * 2 + C) % 2 = (A * 8 + B * 4 + flag u * 2 + C) % 2 by omega]
      · exact absurd rfl hj
      · rw [show j + 2 = 2 + j by omega, Nat.pow_add, ← Nat.div_div_eq_div_mul, ← Nat.div_div_eq_div_mul,
          show (A * 8 + B * 4 + flag t * 2 + C) / 2 ^ 2 = (A * 8 + B * 4 + flag u * 2 + C) / 2 ^ 2 by omega]
    exact ht _ _ _ _ h2 h4 A hA2 _ (by omega)
  · rw [hq]; rfl

theorem header_tc {h : Header} (ht : h.truncated = true) : bitAt (headerBytes h) 22 = true := by
  have h1 := flag_lt h.queryResp
  have h2 := flag_lt h.authAnswer
  have h4 := flag_lt h.recursionDesired
  have h6 := opCode_lt h.opCode
  have e : bitAt (headerBytes h) 22 = (UInt8.ofNat (flag h.queryResp * 128 + h.opCode.toNum.toNat * 8 + flag h.authAnswer * 4 +
    flag h.truncated * 2 + flag h.recursionDesired)).toNat.testBit 1 := rfl
  have hf : flag true = 1 := rfl
  rw [e, ht, hf, UInt8.toNat_ofNat', Nat.mod_eq_of_lt (by omega), Nat.testBit_eq_decide_div_mod_eq]
  apply decide_eq_true
  omega

theorem be16_field {n : Nat} (hn : n < 65536) {pre post : List UInt8} {v : Nat}
    (h : FieldAt (pre ++ (be16 n ++ post)) (8 * pre.length) 16 v) : v = n := by
  have := field_mid (pre := pre) (l := be16 n) (post := post)
  rw [beVal_be16 hn, List.append_assoc] at this
  exact fieldAt_unique h this

theorem header_counts {h : Header} {r v : Nat} (hf : FieldAt (headerBytes h) r 16 v) :
    (r = 32 → v = h.questionsCount.toNat) ∧ (r = 48 → v = h.answersCount.toNat) ∧ (r = 64 → v = h.authoritiesCount.toNat) ∧
    (r = 80 → v = h.additionalsCount.toNat) := by
  refine ⟨?_, ?_, ?_, ?_⟩ <;> intro e <;> subst e
  · exact be16_field h.questionsCount.toNat_lt (pre := (headerBytes h).take 4) (post := (headerBytes h).drop 6) hf
  · exact be16_field h.answersCount.toNat_lt (pre := (headerBytes h).take 6) (post := (headerBytes h).drop 8) hf
  · exact be16_field h.authoritiesCount.toNat_lt (pre := (headerBytes h).take 8) (post := (headerBytes h).drop 10) hf
  · exact be16_field h.additionalsCount.toNat_lt (pre := (headerBytes h).take 10) (post := (headerBytes h).drop 12) hf

theorem cut_all {m : Message} (hc : CountsMatch m) : cut m (total m) = m := by
  obtain ⟨⟨a1, a2, a3, a4, a5, a6, a7, a8, a9, a10, a11, a12, a13⟩, q, an, au, ad⟩ := m
  obtain ⟨c1, c2, c3, c4⟩ := hc
  simp only at c1 c2 c3 c4
  simp only [cut, total, Nat.lt_irrefl, if_false]
  rw [List.take_of_length_le (l := q) (by omega), List.take_of_length_le (l := an) (by omega),
    List.take_of_length_le (l := au) (by omega), List.take_of_length_le (l := ad) (by omega), ← c1, ← c2, ← c3, ← c4]
  simp

/-- The truncated and the full encoding of one message. -/
theorem shortened {m : Message} {full : List UInt8} (h : m.encodeToBytes = .ok full) :
    ∃ short, m.encodeToBytesTrunc = .ok short ∧ Shortened full short := by
  rw [← announced_encode] at h
  rw [← announced_trunc]
  have hc := announced_counts (by rwa [announced_encode] at h)
  generalize announced m = m at *
  obtain ⟨hop, h1, h2⟩ := allWrite_of_encode hc h
  obtain ⟨short, hs⟩ : ∃ short, m.encodeToBytesTrunc = .ok short := by
    obtain ⟨o, ho⟩ : ∃ o, m.encodeToBytesTrunc = o := ⟨_, rfl⟩
    rw [ho]
    cases trunc_some hc ho with
    | ok h => exact ⟨_, rfl⟩
    | err h' => exact absurd ⟨hop, h1, h2⟩ h'
    | panic h' => exact absurd ⟨hop, h1, h2⟩ h'
    | diverge h' => exact absurd ⟨hop, h1, h2⟩ h'
  obtain ⟨k, hk, hcut, hmax⟩ : ∃ k ≤ total m, (cut m k).encodeToBytes = .ok short ∧
        (k < total m → ∃ out', (cut m (k + 1)).encodeToBytes = .ok out' ∧ 512 < out'.length) := by
    cases trunc_some hc hs with
    | ok h => exact h.2.2
  have hsz := trunc_size hs
  obtain ⟨q, hq⟩ := encodings_of_all h1
  obtain ⟨an, han⟩ := encodings_of_all (xs := m.answers) fun r hr => h2 r (by simp [hr])
  obtain ⟨au, hau⟩ := encodings_of_all (xs := m.authorities) fun r hr => h2 r (by simp [hr])
  obtain ⟨ad, had⟩ := encodings_of_all (xs := m.additionals) fun r hr => h2 r (by simp [hr])
  have e1 := encode_of_encodings hop hc hq han hau had
  have e2 := encode_of_encodings (m := cut m k) hop (cut_counts hc k) (encodings_take hq _) (encodings_take han _)
    (encodings_take hau _) (encodings_take had _)
  have h' := h
  have hcut' := hcut
  rw [h] at e1
  rw [hcut] at e2
  have e1 := Out.ok.inj e1
  have e2 := Out.ok.inj e2
  have hbody : short.drop 12 <+: full.drop 12 := by
    rw [e1, e2, List.drop_left' (headerBytes_length _), List.drop_left' (headerBytes_length _)]
    exact body_prefix hq.length_eq han.length_eq hau.length_eq
  have hall : k = total m → short = full := by
    intro hk
    rw [hk] at hcut
    rw [cut_all hc, h] at hcut
    exact (Out.ok.inj hcut).symm
  refine ⟨short, hs, hsz, ?_, hbody, ?_, ?_, ?_, m, k, h, hcut', hmax⟩
  · intro hl
    apply hall
    apply Classical.byContradiction
    intro hne
    obtain ⟨out', h3, h4⟩ := hmax (by omega)
    have := encode_cut_length hc h h3
    omega
  · intro i hi hn
    rw [e1, e2, bitAt_left (by rw [headerBytes_length]; omega), bitAt_left (by rw [headerBytes_length]; omega)]
    exact header_bits rfl i hi hn
  · intro hl
    have hlt : k < total m := by
      apply Classical.byContradiction
      intro hne
      have := hall (by omega)
      rw [this] at hsz
      omega
    rw [e2, bitAt_left (by rw [headerBytes_length]; omega)]
    apply header_tc
    simp only [cut, if_pos hlt]
  · intro i a b hi ha hb
    rw [e2] at ha
    rw [e1] at hb
    have ha := header_counts (fieldAt_left (by rw [headerBytes_length]; omega) ha)
    have hb := header_counts (fieldAt_left (by rw [headerBytes_length]; omega) hb)
    obtain ⟨c1, c2, c3, c4⟩ := hc
    obtain ⟨d1, d2, d3, d4⟩ := cut_counts ⟨c1, c2, c3, c4⟩ k
    have t1 : (cut m k).questions.length ≤ m.questions.length := List.length_take_le' ..
    have t2 : (cut m k).answers.length ≤ m.answers.length := List.length_take_le' ..
    have t3 : (cut m k).authorities.length ≤ m.authorities.length := List.length_take_le' ..
    have t4 : (cut m k).additionals.length ≤ m.additionals.length := List.length_take_le' ..
    rcases hi with hi | hi | hi | hi
    · have := ha.1 hi; have := hb.1 hi; omega
    · have := ha.2.1 hi; have := hb.2.1 hi; omega
    · have := ha.2.2.1 hi; have := hb.2.2.1 hi; omega
    · have := ha.2.2.2 hi; have := hb.2.2.2 hi; omega

end Ariadne
