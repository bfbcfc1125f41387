import Verif.Lemmas.ZoneText2

/-! # Names and addresses as the parser reads them -/

namespace Ariadne.ZoneParser

open Spec Tokenizer

theorem toUpper_letter {c d : Char} (hd : 65 ≤ d.toNat) (h : c.toUpper = d) : 65 ≤ c.toNat := by
  unfold Char.toUpper at h
  split at h
  · rename_i hc
    have h1 : (97:UInt32).toNat ≤ c.val.toNat := hc.1
    have h1' : 97 ≤ c.val.toNat := h1
    show 65 ≤ c.val.toNat
    omega
  · rw [h]; exact hd

theorem upper_word {w k : Str} {d : Char} (hd : 65 ≤ d.toNat) (hk : k.length ≠ 0) (h : w.map Char.toUpper = d :: k) : wordToken w = .string w := by
  cases w with
  | nil => cases h
  | cons c w =>
    have hc := toUpper_letter hd (List.cons.inj h).1
    refine wordToken_string ?_ ?_
    · rintro ⟨ds, n, e | e, ⟨hne, hdig, -⟩, -⟩
      · have := (hdig c (by rw [← e]; exact List.mem_cons_self ..)).2
        have : c.toNat ≤ 57 := this
        omega
      · have : c = '+' := (List.cons.inj e).1
        subst this
        revert hc
        decide
    · intro e
      have : w.map Char.toUpper = k := (List.cons.inj h).2
      rw [(List.cons.inj e).2] at this
      subst this
      exact hk rfl
theorem nm_valid {s : Str} (h : ValidName s) : nm (Name.fromString s) = .ok ⟨s⟩ := by
  unfold nm Name.fromString
  rw [(validateName_iff s).2 h]
  rfl

theorem render_last {L : List Str} : (render L).getLast? = some '.' := by
  unfold render
  split
  · rfl
  · rename_i hne
    rcases List.eq_nil_or_concat L with rfl | ⟨M, l, rfl⟩
    · exact absurd rfl hne
    · rw [List.concat_eq_append, List.flatMap_append]
      simp

theorem render_append {K O : List Str} (hK : K ≠ []) (hO : O ≠ []) : render (K ++ O) = render K ++ render O := by
  unfold render
  rw [if_neg hK, if_neg hO, if_neg (by simp [hK]), List.flatMap_append]

theorem nameOf_not_at {w : Str} {L : List Str} (h : NameOf w L) : w ≠ ['@'] := by
  rintro rfl
  have := render_last (L := L)
  rw [← h.2] at this
  exact absurd this (by decide)

/-- The text of a relative name ends with a letter or a digit. -/
theorem relative_last {w : Str} {K : List Str} (hK : K ≠ []) (h : NameOf (w ++ ['.']) K) : w ≠ ['@'] ∧ w.getLast? ≠ some '.' := by
  rcases List.eq_nil_or_concat K with rfl | ⟨M, l, rfl⟩
  · exact absurd rfl hK
  · obtain ⟨hall, he⟩ := h
    rw [List.concat_eq_append] at hall he
    obtain ⟨-, a, z, ha, hz, hla, hlz⟩ := hall l (by simp)
    unfold render at he
    rw [if_neg (by simp), List.flatMap_append] at he
    simp only [List.flatMap_cons, List.flatMap_nil, List.append_nil] at he
    rw [← List.append_assoc] at he
    have hw := List.append_cancel_right he
    have : w.getLast? = some z := by rw [hw, List.getLast?_append, hz]; rfl
    constructor
    · rintro rfl
      simp at this
      subst this
      revert hlz
      unfold LetDig
      decide
    · rw [this]
      intro h
      rw [Option.some.injEq] at h
      subst h
      revert hlz
      unfold LetDig
      decide

/-- Completing a name. -/
theorem name_text {origin : Name} {w : Str} {n : Name} (ho : origin.s ≠ ['.']) (h : NameText true origin w n) :
    wordToken w = .string w ∧ adjustName origin w = .ok n ∧ ValidName n.s := by
  obtain ⟨hn, hl, L, hL, h⟩ := h
  have hv : ValidName n.s := ⟨hl, L, hL⟩
  have hat : w ≠ ['@'] := by
    rcases h with h | ⟨K, O, hK, h, -⟩
    · exact nameOf_not_at h
    · exact (relative_last hK h).1
  refine ⟨wordToken_string (hn rfl) hat, ?_, hv⟩
  unfold adjustName
  rw [if_neg hat]
  simp only
  rcases h with h | ⟨K, O, hK, h, hO, rfl⟩
  · have e : w = n.s := by rw [h.2, hL.2]
    rw [if_pos (by rw [h.2]; exact render_last), e, nm_valid hv]
  · rw [if_neg (relative_last hK h).2]
    have hO0 : O ≠ [] := by rintro rfl; exact ho (nameOf_root hO)
    have e : w ++ ['.'] ++ origin.s = n.s := by rw [h.2, hO.2, hL.2, render_append hK hO0]
    rw [e, nm_valid hv]

theorem digits_ge : ∀ (w : Str) (acc : Nat), acc * 10 ^ w.length ≤ w.foldl (fun a c => 10 * a + (c.toNat - '0'.toNat)) acc
  | [], acc => by simp
  | c :: w, acc => by
    refine Nat.le_trans ?_ (digits_ge w _)
    rw [List.length_cons, Nat.pow_succ, ← Nat.mul_assoc, Nat.mul_right_comm]
    exact Nat.mul_le_mul_right _ (by simp only; omega)

theorem digit_pos {c : Char} (h : '0' ≤ c ∧ c ≤ '9') (h0 : c ≠ '0') : 1 ≤ c.toNat - '0'.toNat := by
  have h1 : '0'.toNat ≤ c.toNat := h.1
  have : '0'.toNat ≠ c.toNat := fun e => h0 (Char.toNat_inj.1 e.symm)
  omega

theorem octet_text {w : Str} {b : UInt8} (h : OctetText w b) : parseOctet w = some b ∧ '.' ∉ w := by
  obtain ⟨hn, hz⟩ := h
  have hd : '.' ∉ w := fun hm => absurd (hn.2.1 _ hm).1 (by decide)
  refine ⟨?_, hd⟩
  have hlen : w.length ≤ 3 := by
    obtain ⟨hne, hall, hv⟩ := hn
    cases w with
    | nil => simp
    | cons c r =>
      by_cases h0 : c = '0'
      · have := hz (by rw [h0]; rfl); omega
      · have h1 := digits_ge r (10 * 0 + (c.toNat - '0'.toNat))
        rw [List.foldl_cons] at hv
        rw [hv] at h1
        have h2 := digit_pos (hall c List.mem_cons_self) h0
        have h3 := b.toNat_lt
        by_contra hgt
        rw [List.length_cons] at hgt
        have h4 : 10 ^ 3 ≤ 10 ^ r.length := Nat.pow_le_pow_right (by omega) (by omega)
        have h5 : 1 * 10 ^ 3 ≤ (10 * 0 + (c.toNat - '0'.toNat)) * 10 ^ r.length := Nat.mul_le_mul (by omega) h4
        omega
  unfold parseOctet
  rw [if_neg, if_neg, numeral_value hn]
  · simp only
    rw [if_pos b.toNat_lt]
    simp
  · rintro ⟨h1, h2⟩
    have := hz h1
    omega
  · have := List.length_pos_iff.2 hn.1
    omega

theorem address_text {w : Str} {ip : Ip4} (h : AddressText w ip) : wordToken w = .string w ∧ parseIpv4 w = some ip := by
  obtain ⟨a, b, c, d, rfl, ha, hb, hc, hd⟩ := h
  obtain ⟨ea, da⟩ := octet_text ha
  obtain ⟨eb, db⟩ := octet_text hb
  obtain ⟨ec, dc⟩ := octet_text hc
  obtain ⟨ed, dd⟩ := octet_text hd
  have hm : '.' ∈ a ++ '.' :: b ++ '.' :: c ++ '.' :: d := by simp
  constructor
  · refine wordToken_string (not_numeric hm (by decide) (by decide)) ?_
    intro e
    rw [e] at hm
    exact absurd hm (by decide)
  · unfold parseIpv4
    rw [show a ++ '.' :: b ++ '.' :: c ++ '.' :: d = a ++ '.' :: (b ++ '.' :: (c ++ '.' :: d)) by simp,
      splitOn_append_sep da, splitOn_append_sep db, splitOn_append_sep dc, splitOn_no_sep dd]
    simp only [List.map_cons, List.map_nil, ea, eb, ec, ed]

theorem spells_solid {o : Bool} {ws : List Spec.Word} {l : Str} {ls left : List Str} (h : Spells o ws l ls left) :
    ∀ w, .plain w ∈ ws → Solid w := by
  induction h with
  | done => intro w h; cases h
  | word hw _ _ _ ih =>
    intro w h
    rcases List.mem_cons.1 h with h | h
    · cases h; exact hw
    · exact ih w h
  | quoted _ _ _ ih =>
    intro w h
    rcases List.mem_cons.1 h with h | h
    · cases h
    · exact ih w h
  | blank _ _ ih => exact ih
  | opening _ ih => exact ih
  | closing _ ih => exact ih
  | comment _ ih => exact ih
  | newline _ ih => exact ih

theorem sits_no_space {left : List Str} {ws : List Spec.Word} {t : Tokenizer} (h : Sits left ws t) :
    ∀ w, .plain w ∈ ws → ' ' ∉ w := by
  obtain ⟨o, l, ls, n, rfl, h⟩ := h
  intro w hw hm
  exact ((spells_solid h w hw).2.1 _ hm).1 (.inl (by decide))

theorem string_text {w : Spec.Word} {s : Str} (h : StringText true w s) (hs : ∀ x, w = .plain x → ' ' ∉ x) :
    (token w = .string s ∨ token w = .qString s) ∧ parseCharString (token w) = .ok s := by
  obtain ⟨ha, rfl | ⟨rfl, hn⟩⟩ := h
  · refine ⟨.inr rfl, ?_⟩
    show (if isValidCharacterString s true = true then _ else _) = _
    rw [if_pos]
    simp only [isValidCharacterString, if_true, List.all_eq_true, decide_eq_true_eq]
    exact ha
  · have e : token (.plain s) = .string s := wordToken_string (hn rfl).1 (hn rfl).2
    refine ⟨.inl e, ?_⟩
    rw [e]
    show (if isValidCharacterString s false = true then _ else _) = _
    rw [if_pos]
    simp only [isValidCharacterString, Bool.false_eq_true, if_false, List.all_eq_true, decide_eq_true_eq, Bool.and_eq_true, bne_iff_ne]
    refine fun c hc => ⟨ha c hc, ?_⟩
    rintro rfl
    exact hs s rfl hc

/-! ## Parsing -/

theorem parseAddress_text {left : List Str} {w : Str} {ip : Ip4} {ws : List Spec.Word} {t : Tokenizer} (h : AddressText w ip)
    (hs : Waits left (.plain w :: ws) t) : ∃ t', parseAddress t = .ok (ip, t') ∧ Sits left ws t' := by
  obtain ⟨t', e, hs'⟩ := hs.next
  obtain ⟨e1, e2⟩ := address_text h
  refine ⟨t', ?_, hs'⟩
  rw [parseAddress, e, show token (.plain w) = .string w from e1]
  simp only [tok, Out.mapErr, Out.bind_ok, e2]

theorem parseRelName_text {left : List Str} {origin n : Name} {w : Str} {ws : List Spec.Word} {t : Tokenizer} (ho : origin.s ≠ ['.'])
    (h : NameText true origin w n) (hs : Waits left (.plain w :: ws) t) :
    ∃ t', parseRelName t origin = .ok (n, t') ∧ Sits left ws t' := by
  obtain ⟨t', e, hs'⟩ := hs.next
  obtain ⟨e1, e2, -⟩ := name_text ho h
  refine ⟨t', ?_, hs'⟩
  rw [parseRelName, e, show token (.plain w) = .string w from e1]
  simp only [tok, Out.mapErr, Out.bind_ok, e2]

theorem target_strict {origin n : Name} {w : Str} (h : TargetText true origin w n) : NameText true origin w n := by
  rcases h with h | h
  · cases h.1
  · exact h

theorem parseNumber_text {left : List Str} {n : UInt32} {w : Str} {ws : List Spec.Word} {t : Tokenizer}
    (h : Numeral w n.toNat) (hs : Waits left (.plain w :: ws) t) :
    ∃ t', parseNumber t = .ok (n, t') ∧ Sits left ws t' := by
  obtain ⟨t', e, hs'⟩ := hs.next
  refine ⟨t', ?_, hs'⟩
  rw [parseNumber, e, show token (.plain w) = .number n from wordToken_numeral h]
  rfl

theorem txtLoop_text {left : List Str} : ∀ (ws : List Spec.Word) (ss : List Str) (fuel : Nat) (t : Tokenizer) (acc : List Str),
    List.Forall₂ (StringText true) ws ss → Sits left ws t →
    (txtLoop fuel t acc = .diverge ∧ fuel ≤ ws.length) ∨ ∃ t', txtLoop fuel t acc = .ok (acc ++ ss, t') ∧ Waits left [] t'
  | _, _, 0, _, _, _, _ => .inl ⟨rfl, Nat.zero_le _⟩
  | _, _, fuel + 1, t, acc, .nil, hs => by
    obtain ⟨tk, t', e, hk, hw⟩ := hs.peek_end
    refine .inr ⟨t', ?_, hw⟩
    rw [txtLoop, e, List.append_nil]
    rcases hk with rfl | rfl <;> rfl
  | w :: ws, s :: ss, fuel + 1, t, acc, .cons h hf, hs => by
    obtain ⟨t', e, hs', e1, e2⟩ := hs.peek
    obtain ⟨hk, hc⟩ := string_text h (fun x hx => sits_no_space hs x (by rw [hx]; simp))
    have step : txtLoop (fuel + 1) t acc = txtLoop fuel t' (acc ++ [s]) := by
      rw [txtLoop, e]
      simp only [tok, Out.mapErr, Out.bind_ok, e2, unwrapTok]
      rcases hk with hk | hk
      all_goals
        rw [hk] at e2 hc ⊢
        simp only [hc, Out.bind_ok]
    rcases txtLoop_text ws ss fuel t' (acc ++ [s]) hf hs' with ⟨h1, h2⟩ | ⟨t2, h1, h2⟩
    · exact .inl ⟨step.trans h1, by simp only [List.length_cons]; omega⟩
    · refine .inr ⟨t2, ?_, h2⟩
      rw [step, h1, List.append_assoc]
      rfl

theorem discard_text {left : List Str} {t : Tokenizer} (fuel : Nat) (hs : Sits left [] t) :
    (discardStrings fuel t = .diverge ∧ fuel = 0) ∨ ∃ t', discardStrings fuel t = .ok t' ∧ Waits left [] t' := by
  cases fuel with
  | zero => exact .inl ⟨rfl, rfl⟩
  | succ fuel =>
    obtain ⟨tk, t', e, hk, hw⟩ := hs.peek_end
    refine .inr ⟨t', ?_, hw⟩
    rw [discardStrings, e]
    rcases hk with rfl | rfl <;> rfl

theorem endOfEntry_text {left : List Str} {t : Tokenizer} (h : Waits left [] t) :
    ∃ t', endOfEntry t = .ok t' ∧ t'.peeked = [] ∧ Opens left t' := by
  obtain ⟨tk, t', e, hk, hp, -, ho⟩ := h.reading
  refine ⟨t', ?_, hp, ho⟩
  rw [endOfEntry, e]
  rcases hk with rfl | rfl <;> rfl

/-- TTL and class. -/
theorem ttlClass_text {left : List Str} {last ttl : UInt32} {ts : List Spec.Word} {k : Str} {ws : List Spec.Word} {t : Tokenizer}
    (h : TtlClass last ts ttl) (hk : wordToken k = .string k) (hc : Class.fromString k = none)
    (hs : Sits left (ts ++ .plain k :: ws) t) :
    ∃ ot oc t', parseTtlClass t = .ok ((ot, oc), t') ∧ ot.getD last = ttl ∧ (oc = none ∨ oc = some .IN) ∧
      (.plain "IN".toList ∈ ts → oc = some .IN) ∧ (.plain "IN".toList ∉ ts → oc = none) ∧ Waits left (.plain k :: ws) t' := by
  have hin : token (.plain "IN".toList) = .string "IN".toList := by decide
  have hci : Class.fromString "IN".toList = some .IN := by decide
  have hk' : token (.plain k) = .string k := hk
  have num : ∀ {w : Str} {n : UInt32}, Numeral w n.toNat → token (.plain w) = .number n := fun h => wordToken_numeral h
  have nin : ∀ {w : Str} {n : UInt32}, Numeral w n.toNat → w ≠ "IN".toList := by
    rintro w n h rfl
    have e := num h
    rw [hin] at e
    cases e
  unfold parseTtlClass
  cases h with
  | neither =>
    obtain ⟨t1, e1, s1, -, -⟩ := Sits.peek hs
    rw [hk'] at e1
    refine ⟨none, none, _, ?_, rfl, .inl rfl, (fun h => by cases h), fun _ => rfl, .word (.plain k) ws t1 rfl (by rw [hk']) s1⟩
    rw [e1]
    simp only [tok, Out.mapErr, Out.bind_ok, hc]
  | @ttl w n hn =>
    obtain ⟨t1, e1, s1, n1, -⟩ := Sits.peek hs
    obtain ⟨t2, e2, s2, -, -⟩ := Sits.peek s1
    rw [num hn] at e1 n1
    rw [hk'] at e2
    refine ⟨some ttl, none, _, ?_, rfl, .inl rfl, fun h => absurd (List.mem_singleton.1 h) (fun h => nin hn (Spec.Word.plain.inj h).symm), fun _ => rfl, .word (.plain k) ws t2 rfl (by rw [hk']) s2⟩
    rw [e1]
    simp only [tok, Out.mapErr, Out.bind_ok, n1, unwrapTok, e2, tryToClass, hc]
  | cls =>
    obtain ⟨t1, e1, s1, n1, -⟩ := Sits.peek hs
    obtain ⟨t2, e2, s2, -, -⟩ := Sits.peek s1
    rw [hin] at e1 n1
    rw [hk'] at e2
    refine ⟨none, some .IN, _, ?_, rfl, .inr rfl, fun _ => rfl, fun h => absurd (List.mem_singleton.2 rfl) h, .word (.plain k) ws t2 rfl (by rw [hk']) s2⟩
    rw [e1]
    simp only [tok, Out.mapErr, Out.bind_ok, hci, n1, unwrapTok, e2, tryToTtl]
  | @ttlClass w n hn =>
    obtain ⟨t1, e1, s1, n1, -⟩ := Sits.peek hs
    obtain ⟨t2, e2, s2, n2, -⟩ := Sits.peek s1
    rw [num hn] at e1 n1
    rw [hin] at e2 n2
    refine ⟨some ttl, some .IN, _, ?_, rfl, .inr rfl, fun _ => rfl, fun h => absurd (List.mem_cons_of_mem _ (List.mem_singleton.2 rfl)) h, .sits s2⟩
    rw [e1]
    simp only [tok, Out.mapErr, Out.bind_ok, n1, unwrapTok, e2, tryToClass, hci, n2]
  | @classTtl w n hn =>
    obtain ⟨t1, e1, s1, n1, -⟩ := Sits.peek hs
    obtain ⟨t2, e2, s2, n2, -⟩ := Sits.peek s1
    rw [hin] at e1 n1
    rw [num hn] at e2 n2
    refine ⟨some ttl, some .IN, _, ?_, rfl, .inr rfl, fun _ => rfl, fun h => absurd List.mem_cons_self h, .sits s2⟩
    rw [e1]
    simp only [tok, Out.mapErr, Out.bind_ok, hci, n1, unwrapTok, e2, tryToTtl, n2]

/-- The type and the data of a record. -/
theorem data_text {left : List Str} {origin : Name} {ds : List Spec.Word} {data : RData} (ho : origin.s ≠ ['.'])
    (h : DataText true origin ds data) :
    ∃ k ws ty, ds = .plain k :: ws ∧ wordToken k = .string k ∧ Class.fromString k = none ∧ RecordType.fromStr k = some ty ∧
      ty.isSupportedForRecords = true ∧
      ∀ (d : RecData) (fuel : Nat) (t : Tokenizer), Sits left ws t →
        (parseAuthData fuel t origin ty d = .diverge ∧ fuel ≤ ws.length) ∨
        ∃ t', parseAuthData fuel t origin ty d = .ok (d.mk' data, t') ∧ Waits left [] t' := by
  cases h with
  | @a w ip h =>
    refine ⟨"A".toList, _, .A, rfl, by decide, by decide, by decide, by decide, fun d fuel t hs => .inr ?_⟩
    obtain ⟨t', e, hs'⟩ := parseAddress_text h (.sits hs)
    refine ⟨t', ?_, .sits hs'⟩
    simp only [parseAuthData, parseA, e, Out.bind_ok]
  | @ns w n h =>
    refine ⟨"NS".toList, _, .NS, rfl, by decide, by decide, by decide, by decide, fun d fuel t hs => .inr ?_⟩
    obtain ⟨t', e, hs'⟩ := parseRelName_text ho (target_strict h) (.sits hs)
    refine ⟨t', ?_, .sits hs'⟩
    simp only [parseAuthData, parseNs, e, Out.bind_ok]
  | @cname w n h =>
    refine ⟨"CNAME".toList, _, .CNAME, rfl, by decide, by decide, by decide, by decide, fun d fuel t hs => .inr ?_⟩
    obtain ⟨t', e, hs'⟩ := hs.reading
    refine ⟨t', ?_, .sits hs'⟩
    rcases h with ⟨rfl, rfl⟩ | h
    · rw [show token (.plain ['@']) = .at by decide] at e
      simp only [parseAuthData, parseCname, e, tok, Out.mapErr, Out.bind_ok]
    · obtain ⟨e1, e2, -⟩ := name_text ho h
      rw [show token (.plain w) = .string w from e1] at e
      simp only [parseAuthData, parseCname, e, tok, Out.mapErr, Out.bind_ok, e2]
  | @ptr w n h hl =>
    refine ⟨"PTR".toList, _, .PTR, rfl, by decide, by decide, by decide, by decide, fun d fuel t hs => .inr ?_⟩
    obtain ⟨t', e, hs'⟩ := hs.reading
    refine ⟨t', ?_, .sits hs'⟩
    obtain ⟨e1, e2, -⟩ := name_text ho (target_strict h)
    rw [show token (.plain w) = .string w from e1] at e
    have hne : w ≠ ['@'] := by rintro rfl; exact absurd (hl rfl) (by decide)
    unfold adjustName at e2
    rw [if_neg hne] at e2
    simp only [if_pos (hl rfl)] at e2
    simp only [parseAuthData, parsePtr, e, tok, Out.mapErr, Out.bind_ok, ensureAbsoluteName, if_pos (hl rfl), e2]
  | @mx w w' p n h h' =>
    refine ⟨"MX".toList, _, .MX, rfl, by decide, by decide, by decide, by decide, fun d fuel t hs => .inr ?_⟩
    have hp : p.toNat < 4294967296 := Nat.lt_trans p.toNat_lt (by decide)
    have e0 : (UInt32.ofNat p.toNat).toNat = p.toNat := by
      rw [UInt32.toNat_ofNat']
      exact Nat.mod_eq_of_lt hp
    obtain ⟨t1, e1, s1⟩ := parseNumber_text (n := UInt32.ofNat p.toNat) (by rw [e0]; exact h) (.sits hs)
    obtain ⟨t2, e2, s2⟩ := parseRelName_text ho (target_strict h') (.sits s1)
    refine ⟨t2, ?_, .sits s2⟩
    have e3 : (UInt32.ofNat p.toNat).toUInt16 = p := by
      apply UInt16.toNat_inj.1
      rw [UInt32.toNat_toUInt16, e0]
      exact Nat.mod_eq_of_lt p.toNat_lt
    simp only [parseAuthData, parseMx, e1, Out.bind_ok, e0, if_pos p.toNat_lt, e2, e3]
  | @hinfo w w' cpu os h h' =>
    refine ⟨"HINFO".toList, _, .HINFO, rfl, by decide, by decide, by decide, by decide, fun d fuel t hs => .inr ?_⟩
    obtain ⟨t1, e1, s1⟩ := hs.reading
    obtain ⟨t2, e2, s2⟩ := s1.reading
    refine ⟨t2, ?_, .sits s2⟩
    have hc := (string_text h (fun x hx => sits_no_space hs x (by rw [hx]; simp))).2
    have hc' := (string_text h' (fun x hx => sits_no_space hs x (by rw [hx]; simp))).2
    simp only [parseAuthData, parseHinfo, e1, e2, tok, Out.mapErr, Out.bind_ok, hc, hc']
  | @txt ws ss hne h =>
    refine ⟨"TXT".toList, _, .TXT, rfl, by decide, by decide, by decide, by decide, fun d fuel t hs => ?_⟩
    rcases txtLoop_text ws ss fuel t [] h hs with ⟨e, hl⟩ | ⟨t', e, hw⟩
    · left
      refine ⟨?_, hl⟩
      simp only [parseAuthData, parseTxt, e]
      rfl
    · refine .inr ⟨t', ?_, hw⟩
      simp only [parseAuthData, parseTxt, e, Out.bind_ok, List.nil_append]
  | @wks w ip pr n h hp =>
    refine ⟨"WKS".toList, _, .WKS, rfl, by decide, by decide, by decide, by decide, fun d fuel t hs => ?_⟩
    obtain ⟨t1, e1, s1⟩ := parseAddress_text h (.sits hs)
    obtain ⟨t2, e2, s2⟩ := s1.reading
    have hpr : token (.plain pr) = .string pr ∧ wksProtocol pr = some n := by
      rcases hp with ⟨hp, rfl⟩ | ⟨hp, rfl⟩
      · exact ⟨upper_word (d := 'T') (k := ['C', 'P']) (by decide) (by decide) hp, by unfold wksProtocol; rw [if_pos hp]⟩
      · refine ⟨upper_word (d := 'U') (k := ['D', 'P']) (by decide) (by decide) hp, ?_⟩
        unfold wksProtocol
        rw [hp]
        rfl
    rw [hpr.1] at e2
    rcases discard_text fuel s2 with ⟨e, hl⟩ | ⟨t', e, hw⟩
    · left
      refine ⟨?_, by rw [hl]; exact Nat.zero_le _⟩
      simp only [parseAuthData, parseWks, e1, e2, tok, Out.mapErr, Out.bind_ok, hpr.2, e]
      rfl
    · refine .inr ⟨t', ?_, hw⟩
      simp only [parseAuthData, parseWks, e1, e2, tok, Out.mapErr, Out.bind_ok, hpr.2, e]

end Ariadne.ZoneParser
