import Verif.Props.Wire
import Verif.Lemmas.Safety

/-!
# C19, C22, C23: TXT records, decoding of arbitrary bytes
-/

namespace Ariadne.Props

open Spec BitsBuf

/-! ## C19 -/

/-- The full statement of C19: what the encoder writes for a TXT record decodes to the same strings. -/
def C19_statement : Prop :=
  ∀ (p : Profile) (r : Record) txts, Encodable r.node → r.cls = .IN → r.data = .TXT txts → txts ≠ [] →
    ∀ x, Writes r.encode x → ∃ len, Decodes (Record.decode p) x { r with dataLen := len }

/-- No TXT record whose first string is not empty is ever decoded correctly, whoever sent it. -/
theorem txt_never_decodes (p : Profile) (r : Record) (t : Str) (ts : List Str) (hn : Encodable r.node) (hc : r.cls = .IN)
    (hd : r.data = .TXT (t :: ts)) (ht : t ≠ []) (rdata x : List UInt8) (hx : RecordWire r rdata x)
    (len : UInt16) : ¬ Decodes (Record.decode p) x { r with dataLen := len } := by
  intro h
  obtain ⟨owner, h1, h2, h3, rfl⟩ := hx
  have e := u16_of_len h3
  have hu : be16 rdata.length = be16 (UInt16.ofNat rdata.length).toNat := by rw [e]
  rw [hd] at h2
  have h2' : rdata = charString t ++ ts.flatMap charString := h2
  have hrt : r.recordType = .TXT := by unfold Record.recordType; rw [hd]; rfl
  rw [hrt, hc, hu] at h
  have hh := h [] []
  have hcls : Record.decodeClass Class.IN.toNum = .ok .IN := rfl
  let pre : List UInt8 := owner ++ (be16 RecordType.TXT.toNum.toNat ++ (be16 Class.IN.toNum.toNat ++ (be32 r.ttl.toNat ++
      be16 (UInt16.ofNat rdata.length).toNat)))
  have step : Decodes (Record.decode p >>= fun v => pure v.data) (pre ++ rdata) (.TXT (t :: ts)) := by
    intro a b
    have := h a b
    simp only [pre, List.append_assoc] at this ⊢
    rw [BufM.bind_ok this, hd]; rfl
  -- run the decoder up to the data
  have hrun : Record.decode p (rd (pre ++ rdata) 0) =
      (do let d ← Record.decodeTxt p (UInt16.ofNat rdata.length)
          pure (Record.mk r.node .IN r.ttl (UInt16.ofNat rdata.length) d)) (rd (pre ++ rdata) pre.length) := by
    have d1 := decodes_name p (encodable_wire hn).1 h1 [] (be16 RecordType.TXT.toNum.toNat ++
      (be16 Class.IN.toNum.toNat ++ (be32 r.ttl.toNat ++ (be16 (UInt16.ofNat rdata.length).toNat ++ rdata))))
    have d2 := decodes_recordType (t := .TXT) rfl owner
      (be16 Class.IN.toNum.toNat ++ (be32 r.ttl.toNat ++ (be16 (UInt16.ofNat rdata.length).toNat ++ rdata)))
    have d3 := (decodes_u16 Class.IN.toNum).check (owner ++ be16 RecordType.TXT.toNum.toNat)
      (be32 r.ttl.toNat ++ (be16 (UInt16.ofNat rdata.length).toNat ++ rdata))
    have d4 := (decodes_u32 r.ttl).check (owner ++ be16 RecordType.TXT.toNum.toNat ++ be16 Class.IN.toNum.toNat)
      (be16 (UInt16.ofNat rdata.length).toNat ++ rdata)
    have d5 := (decodes_u16 (UInt16.ofNat rdata.length)).check (owner ++ be16 RecordType.TXT.toNum.toNat ++
      be16 Class.IN.toNum.toNat ++ be32 r.ttl.toNat) rdata
    simp only [List.append_assoc, List.length_append, List.nil_append, List.length_nil, Nat.zero_add, pre]
      at d1 d2 d3 d4 d5 ⊢
    unfold Record.decode
    rw [BufM.bind_ok d1, BufM.bind_ok d2]
    rw [BufM.bind_ok d3, BufM.bind_ok (a := Class.IN) (b' := _) (by rw [BufM.lift_apply, hcls])]
    rw [show owner.length + (be16 RecordType.TXT.toNum.toNat).length + (be16 Class.IN.toNum.toNat).length =
      owner.length + ((be16 RecordType.TXT.toNum.toNat).length + (be16 Class.IN.toNum.toNat).length) by omega]
    rw [BufM.bind_ok d4]
    rw [show owner.length + ((be16 RecordType.TXT.toNum.toNat).length + (be16 Class.IN.toNum.toNat).length) +
        (be32 r.ttl.toNat).length =
      owner.length + ((be16 RecordType.TXT.toNum.toNat).length + ((be16 Class.IN.toNum.toNat).length +
        (be32 r.ttl.toNat).length)) by omega]
    rw [BufM.bind_ok d5]
    simp only [Nat.add_assoc]
    rfl
  have hfirst := txt_first p (msg := pre ++ rdata) (len := UInt16.ofNat rdata.length) (r := 8 * pre.length)
    (by simp [pre, be16_length]) (by simp)
  obtain ⟨o, r', e1, -, hq, -⟩ := hfirst
  have hs := step [] []
  simp only [List.nil_append, List.append_nil, List.length_nil, Nat.zero_add] at hs
  have hrun' : Record.decode p (rd (pre ++ rdata) 0) =
      (do let d ← Record.decodeTxt p (UInt16.ofNat rdata.length)
          pure (Record.mk r.node .IN r.ttl (UInt16.ofNat rdata.length) d)) (rdBit (pre ++ rdata) (8 * pre.length)) := hrun
  rw [BufM.bind_apply, hrun', BufM.bind_apply, e1] at hs
  cases o with
  | err _ => simp at hs
  | panic _ => simp at hs
  | diverge => simp at hs
  | ok d =>
    obtain ⟨s, rest, rfl, f1, f2⟩ := hq d rfl
    have hs' := (Prod.mk.inj hs).1
    injection hs' with hs'
    injection hs' with hs'
    injection hs' with hs1 hs2
    subst hs1
    clear hs
    have hx0 : 0 < 8 * pre.length := by simp [pre, be16_length]
    rw [h2'] at f1 f2
    have hL : FieldAt (pre ++ (charString s ++ ts.flatMap charString)) (8 * pre.length) 8
        (UInt8.ofNat (strBytes s).length).toNat := by
      have := field_mid (pre := pre) (l := [UInt8.ofNat (strBytes s).length]) (post := strBytes s ++ ts.flatMap charString)
      simpa [beVal, charString] using this
    have hlt : (strBytes s).length < 256 := f1.1
    have hLn : (UInt8.ofNat (strBytes s).length).toNat = (strBytes s).length := by simp; omega
    rw [hLn] at hL
    obtain ⟨hv, -⟩ := field_shift hx0 hL f1
    have hne : strBytes s ≠ [] := by
      intro h0; exact ht (strBytes_injective (by rw [h0]; rfl))
    have hpos := List.length_pos_of_ne_nil hne
    have hLff : (strBytes s).length = 255 := by omega
    have hmem : strBytes s = (strBytes s)[0] :: (strBytes s).drop 1 := by
      rw [List.getElem_cons_drop]; rfl
    have hB : FieldAt (pre ++ (charString s ++ ts.flatMap charString)) (8 * pre.length + 8) 8 ((strBytes s)[0]).toNat := by
      have := field_mid (pre := pre ++ [UInt8.ofNat (strBytes s).length]) (l := [(strBytes s)[0]])
        (post := (strBytes s).drop 1 ++ ts.flatMap charString)
      rw [show pre ++ [UInt8.ofNat (strBytes s).length] ++ [(strBytes s)[0]] ++ ((strBytes s).drop 1 ++ ts.flatMap charString) =
        pre ++ (charString s ++ ts.flatMap charString) by
          simp only [charString, List.append_assoc, List.cons_append, List.nil_append]
          rw [← List.cons_append, ← hmem]] at this
      simpa [beVal, Nat.mul_add] using this
    have hB' := f2 0 hpos
    obtain ⟨hb, hb2⟩ := field_shift (by omega) hB (by simpa using hB')
    have hbit : bitAt (pre ++ (charString s ++ ts.flatMap charString)) (8 * pre.length + 8 - 1) = true := by
      have := hL.2 7 (by omega)
      rw [hLff] at this
      rw [show 8 * pre.length + 8 - 1 = 8 * pre.length + 7 by omega, ← this]; decide
    rw [hbit] at hb2
    have hff : ((strBytes s)[0]).toNat = 255 := by
      rcases hb with h0 | h0
      · rw [h0] at hb2; simp at hb2
      · exact h0
    have hff' : (strBytes s)[0] = 255 := UInt8.toNat_inj.1 hff
    have hin : (255 : UInt8) ∈ strBytes s := by rw [← hff']; exact List.getElem_mem _
    obtain ⟨c, -, hc'⟩ := List.mem_flatMap.1 hin
    exact utf8_ne_ff c hc'


/-- C19, part: the encoder writes exactly the RFC form of every TXT record whose strings have at most 255 octets and
whose data fits RDLENGTH, and a single string that is empty survives. Missing: decoding, which is wrong
(`C19_violated`). -/
theorem C19_txt_encoding_partial (r : Record) (txts : List Str) (hn : Encodable r.node) (hc : r.cls = .IN)
    (hd : r.data = .TXT txts) (hs : ∀ t ∈ txts, (strBytes t).length ≤ 255)
    (hl : (txts.map fun t => (strBytes t).length + 1).sum < 65536) :
    ∃ rdata x, RecordWire r rdata x ∧ Writes r.encode x := by
  have henc : ∀ l : List Str, (∀ t ∈ l, (strBytes t).length ≤ 255) → Record.encodeStrings l = .ok (l.map charString) := by
    intro l
    induction l with
    | nil => intro _; rfl
    | cons t ts ih =>
      intro h
      unfold Record.encodeStrings
      rw [encodeCharacterString_ok (h t (by simp)), Out.bind_ok, ih fun u hu => h u (by simp [hu])]
      rfl
  have hlen : (txts.flatMap charString).length = (txts.map fun t => (strBytes t).length + 1).sum := by
    clear hd hs hl
    induction txts with
    | nil => rfl
    | cons t ts ih => simp [charString, ih]; omega
  refine ⟨txts.flatMap charString, r.node.toBytes ++ (be16 r.recordType.toNum.toNat ++ (be16 r.cls.toNum.toNat ++
    (be32 r.ttl.toNat ++ (be16 (txts.flatMap charString).length ++ txts.flatMap charString)))), ?_, ?_⟩
  · exact ⟨_, (encodable_wire hn).2, by rw [hd]; rfl, by omega, rfl⟩
  · unfold Record.encode
    refine Writes.assert (RData.supported _) (Writes.assert (by rw [hc]; rfl) (Writes.bind (writes_bytes _)
      (Writes.bind (writes_u16 _) (Writes.bind (writes_u16 _) (Writes.bind (writes_u32 _) ?_)))))
    rw [hd]
    unfold Record.encodeData
    refine Writes.lift (henc _ hs) ?_
    have e : (txts.map charString).flatten = txts.flatMap charString := by rw [List.flatMap_def]
    rw [e]
    have e2 : be16 (txts.flatMap charString).length = be16 (UInt16.ofNat (txts.flatMap charString).length).toNat := by
      rw [u16_of_len (by omega)]
    rw [e2]
    refine Writes.bind (writes_u16 _) ?_
    rw [← e]
    exact writes_all _

example : ∃ rdata x, RecordWire ⟨⟨"www.ex.com.".toList⟩, .IN, 1, 0, .TXT ["v=1".toList, "é".toList]⟩ rdata x ∧
    Writes (Record.encode ⟨⟨"www.ex.com.".toList⟩, .IN, 1, 0, .TXT ["v=1".toList, "é".toList]⟩) x :=
  C19_txt_encoding_partial _ ["v=1".toList, "é".toList] ex_encodable rfl rfl (by decide +kernel) (by decide +kernel)

/-- C19 does not hold. Worse: no TXT record with a non-empty first string is ever read back, in either build, whether
this library or any other conforming implementation wrote it. -/
theorem C19_violated : ¬ C19_statement ∧
    ∀ (p : Profile) (r : Record) (t : Str) (ts : List Str), Encodable r.node → r.cls = .IN → r.data = .TXT (t :: ts) →
      t ≠ [] → ∀ rdata x, RecordWire r rdata x → ∀ len, ¬ Decodes (Record.decode p) x { r with dataLen := len } := by
  refine ⟨fun h => ?_, fun p r t ts h1 h2 h3 h4 rdata x h5 len => txt_never_decodes p r t ts h1 h2 h3 h4 rdata x h5 len⟩
  obtain ⟨rdata, x, h1, h2⟩ := C19_txt_encoding_partial ⟨⟨"www.ex.com.".toList⟩, .IN, 1, 0, .TXT ["v".toList]⟩ ["v".toList]
    ex_encodable rfl rfl (by decide +kernel) (by decide +kernel)
  obtain ⟨len, h3⟩ := h .release _ ["v".toList] ex_encodable rfl rfl (by simp) x h2
  exact txt_never_decodes .release _ "v".toList [] ex_encodable rfl rfl (by decide) rdata x h1 len h3

/-! ## C22 -/

/-- The full statement of C22. -/
def C22_statement : Prop := ∀ (p : Profile) (bytes : List UInt8), (Message.decodeFromBytes p bytes).Returns

/-- C22, part: when decoding does not return, the decoder had come to an item whose name runs into a pointer outside the
message, or (records only) whose RDATA is one of: data of 8192 octets or more for a name/HINFO type when overflow is
checked, TXT data of 65280 octets or more when overflow is checked, a WKS bitmap that is cut off or not all zero. So
messages without such items always decode to a message or an error. Missing: messages with such items. -/
theorem C22_decode_returns_partial (p : Profile) (bytes : List UInt8)
    (hsafe : ∀ r, Reached p bytes r → ¬ Harmful p bytes r) : (Message.decodeFromBytes p bytes).Returns := by
  obtain ⟨o, r', e, -, -, hb⟩ := run_message p bytes
  unfold Message.decodeFromBytes
  have e' : Message.decode p (fromRawBytes bytes) = (o, rdBit bytes r') := e
  rw [e']
  by_cases h : o.Returns
  · exact h
  · obtain ⟨r, h1, h2⟩ := hb h
    exact absurd h2 (hsafe r h1)

instance (bs : List UInt8) (r n v : Nat) : Decidable (FieldAt bs r n v) := by unfold FieldAt; infer_instance

theorem Visits.cases_at {addr : Nat → Option Nat} {msg : List UInt8} {r r' n : Nat} (hf : FieldAt msg r 8 n) (hn : n ≤ 63)
    (h : Visits addr msg r r') : r' = r ∨ (1 ≤ n ∧ Visits addr msg (r + 8 + 8 * n) r') := by
  cases h with
  | refl => exact .inl rfl
  | label h hf' h1 h2 h3 h4 =>
    have := fieldAt_unique hf' hf
    subst this
    exact .inr ⟨h1, h4⟩
  | pointer h ho hf' =>
    exfalso
    have := (fieldAt_split (n := 8) (m := 8) hf').1
    have := fieldAt_unique this hf
    omega

/-- A query for `a.` in 19 bytes. -/
def sampleQuery : List UInt8 := [0, 7, 1, 0, 0, 1, 0, 0, 0, 0, 0, 0, 1, 97, 0, 0, 1, 0, 1]

/-- `C22_decode_returns_partial` applies to a real query. -/
theorem sampleQuery_safe (p : Profile) : ∀ r, Reached p sampleQuery r → ¬ Harmful p sampleQuery r := by
  have nostep : ∀ r', ¬ StepsTo (Record.decode p) sampleQuery 96 r' := by
    rintro r' ⟨o, e, ho⟩
    have : Record.decode p (rdBit sampleQuery 96) = (.err .bytesEnd, rdBit sampleQuery 152) := by
      cases p <;> decide +kernel
    rw [this] at e
    cases e
    simp at ho
  have endq : ∀ r', ¬ StepsTo (Question.decode p) sampleQuery 152 r' := by
    rintro r' ⟨o, e, ho⟩
    have : Question.decode p (rdBit sampleQuery 152) = (.err .bytesEnd, rdBit sampleQuery 152) := by
      cases p <;> decide +kernel
    rw [this] at e
    cases e
    simp at ho
  have endr : ∀ r', ¬ StepsTo (Record.decode p) sampleQuery 152 r' := by
    rintro r' ⟨o, e, ho⟩
    have : Record.decode p (rdBit sampleQuery 152) = (.err .bytesEnd, rdBit sampleQuery 152) := by
      cases p <;> decide +kernel
    rw [this] at e
    cases e
    simp at ho
  have pos : ∀ r, Reached p sampleQuery r → r = 96 ∨ r = 152 := by
    intro r h
    induction h with
    | start => exact .inl rfl
    | @question r r' _ hs ih =>
      rcases ih with rfl | rfl
      · obtain ⟨o, e, ho⟩ := hs
        have e2 : (Question.decode p (rdBit sampleQuery 96)).2 = rdBit sampleQuery 152 := by
          cases p <;> decide +kernel
        rw [e] at e2
        exact .inr (congrArg BitsBuf.rPos e2)
      · exact absurd hs (endq _)
    | @record r r' _ hs ih =>
      rcases ih with rfl | rfl
      · exact absurd hs (nostep _)
      · exact absurd hs (endr _)
  have name96 : ¬ BadName p sampleQuery 96 := by
    rintro ⟨r₁, hv, off, h1, h2, h3, -⟩
    rcases Visits.cases_at (n := 1) (by decide +kernel) (by omega) hv with rfl | ⟨-, hv⟩
    · have := fieldAt_unique h3 (show FieldAt sampleQuery 96 16 353 by decide +kernel)
      omega
    · rcases Visits.cases_at (n := 0) (by decide +kernel) (by omega) hv with rfl | ⟨h, -⟩
      · have := fieldAt_unique h3 (show FieldAt sampleQuery (96 + 8 + 8 * 1) 16 0 by decide +kernel)
        omega
      · omega
  intro r hr hh
  rcases pos r hr with rfl | rfl
  · rcases hh with hh | ⟨ls, next, k, t, d, hw, f1, f2, hb⟩
    · exact name96 hh
    · have hnext : next = 120 := by
        cases hw with
        | root h hf =>
          have := fieldAt_unique hf (show FieldAt sampleQuery 96 8 1 by decide +kernel); omega
        | label h hf h1 h2 h3 h4 h5 h6 =>
          have := fieldAt_unique hf (show FieldAt sampleQuery 96 8 1 by decide +kernel)
          subst this
          cases h6 with
          | root h hf => rfl
          | label h hf h1 =>
            have := fieldAt_unique hf (show FieldAt sampleQuery (96 + 8 + 8 * 1) 8 0 by decide +kernel); omega
          | pointer h ho hf =>
            have := fieldAt_unique hf (show FieldAt sampleQuery (96 + 8 + 8 * 1) 16 0 by decide +kernel); omega
        | pointer h ho hf =>
          have := fieldAt_unique hf (show FieldAt sampleQuery 96 16 353 by decide +kernel); omega
      subst hnext
      have := fieldAt_unique f1 (show FieldAt sampleQuery 120 16 1 by decide +kernel)
      cases t <;> first | exact hb | (exact absurd this (by decide))
  · rcases hh with ⟨r₁, hv, off, h1, -⟩ | ⟨ls, next, k, t, d, hw, -⟩
    · have hl : sampleQuery.length = 19 := rfl
      cases hv with
      | refl => omega
      | label h => omega
      | pointer h => omega
    · have := WireName_next hw
      have hl : sampleQuery.length = 19 := rfl
      omega

example (p : Profile) : (Message.decodeFromBytes p sampleQuery).Returns :=
  C22_decode_returns_partial p sampleQuery (sampleQuery_safe p)

/-- C22 does not hold: a compression pointer to offset 16383, or a WKS record cut off after its protocol, panics in both
builds; a WKS record with a port bit panics in the debug build and never returns in the release build. -/
theorem C22_violated : ¬ C22_statement ∧
    (∀ p, Message.decodeFromBytes p
      [0, 7, 1, 0, 0, 1, 0, 0, 0, 0, 0, 0, 0xC0 ||| 0x1F, 0xFF, 0, 1, 0, 1] = .panic .explicit) ∧
    (∀ p, Message.decodeFromBytes p [0, 7, 0x80, 0, 0, 0, 0, 1, 0, 0, 0, 0, 0, 0, 11, 0, 1, 0, 0, 0, 0, 0, 6, 1, 2, 3, 4, 6]
      = .panic .unwrap) ∧
    Message.decodeFromBytes .release
      [0, 7, 0x80, 0, 0, 0, 0, 1, 0, 0, 0, 0, 0, 0, 11, 0, 1, 0, 0, 0, 0, 0, 6, 1, 2, 3, 4, 6, 0x80] = .diverge := by
  refine ⟨fun h => ?_, ?_, ?_, ?_⟩
  · have := h .release [0, 7, 1, 0, 0, 1, 0, 0, 0, 0, 0, 0, 0xC0 ||| 0x1F, 0xFF, 0, 1, 0, 1]
    revert this; decide +kernel
  · intro p; cases p <;> decide +kernel
  · intro p; cases p <;> decide +kernel
  · decide +kernel

/-! ## C23 -/

/-- The full statement of C23: a record decoded from bit `r` to bit `r'` has its owner at `r`, then type, class and TTL
(8 octets), then an RDLENGTH field equal to its `data_len`, and ends that many octets after it. -/
def C23_statement : Prop :=
  ∀ (p : Profile) (msg : List UInt8) (r r' : Nat) (rec : Record), r ≤ 8 * msg.length →
    Record.decode p (rdBit msg r) = (.ok rec, rdBit msg r') →
    ∃ ls next k, WireName (codeAddr p) msg r ls next k ∧ FieldAt msg (next + 64) 16 rec.dataLen.toNat ∧
      r' = next + 80 + 8 * rec.dataLen.toNat

/-- C23, part: holds except for TXT records, WKS records with RDLENGTH below 5 and (release build only) RDLENGTH of 8192
or more for the types other than A and WKS. -/
theorem C23_rdlength_partial (p : Profile) (msg : List UInt8) (r r' : Nat) (rec : Record) (hr : r ≤ 8 * msg.length)
    (h : Record.decode p (rdBit msg r) = (.ok rec, rdBit msg r')) :
    ∃ ls next k, WireName (codeAddr p) msg r ls next k ∧ FieldAt msg (next + 64) 16 rec.dataLen.toNat ∧
      FieldAt msg next 16 rec.recordType.toNum.toNat ∧ next + 80 ≤ r' ∧ r' ≤ 8 * msg.length ∧
      (rec.recordType ≠ .TXT → (rec.recordType = .WKS → 5 ≤ rec.dataLen.toNat) →
        (p = .debug ∨ rec.recordType = .A ∨ rec.recordType = .WKS ∨ rec.dataLen.toNat < 8192) →
        r' = next + 80 + 8 * rec.dataLen.toNat) := by
  obtain ⟨o, r2, e, h1, h2, -⟩ := run_record p hr
  rw [h] at e
  have e1 := (Prod.mk.inj e).1
  have e2 := (Prod.mk.inj e).2
  subst e1
  have e3 : r' = r2 := by
    have := congrArg BitsBuf.rPos e2
    exact this
  subst e3
  obtain ⟨-, ls, next, k, hw, f1, f2, hd⟩ := h2 rec rfl
  exact ⟨ls, next, k, hw, f2, f1, hd.1, h1, hd.2.2⟩

/-- C23 does not hold: an NS record with RDLENGTH 8195 and three octets of data is accepted in release builds, and a WKS
record with RDLENGTH 0 swallows the five octets that follow it. -/
theorem C23_violated : ¬ C23_statement ∧
    Record.decode .release (rdBit [0, 0, 2, 0, 1, 0, 0, 0, 0, 0x20, 3, 1, 97, 0] 0) =
      (.ok ⟨⟨['.']⟩, .IN, 0, 8195, .NS ⟨['a', '.']⟩⟩, rdBit [0, 0, 2, 0, 1, 0, 0, 0, 0, 0x20, 3, 1, 97, 0] 112) ∧
    ∀ p, Record.decode p (rdBit [0, 0, 11, 0, 1, 0, 0, 0, 0, 0, 0, 1, 2, 3, 4, 5] 0) =
      (.ok ⟨⟨['.']⟩, .IN, 0, 0, .WKS ⟨1, 2, 3, 4⟩ 5 []⟩, rdBit [0, 0, 11, 0, 1, 0, 0, 0, 0, 0, 0, 1, 2, 3, 4, 5] 128) := by
  have w : ∀ p, Record.decode p (rdBit [0, 0, 11, 0, 1, 0, 0, 0, 0, 0, 0, 1, 2, 3, 4, 5] 0) =
      (.ok ⟨⟨['.']⟩, .IN, 0, 0, .WKS ⟨1, 2, 3, 4⟩ 5 []⟩, rdBit [0, 0, 11, 0, 1, 0, 0, 0, 0, 0, 0, 1, 2, 3, 4, 5] 128) := by
    intro p; cases p <;> decide +kernel
  refine ⟨fun h => ?_, by decide +kernel, w⟩
  obtain ⟨ls, next, k, h1, h2, h3⟩ := h .debug _ _ _ _ (by decide) (w .debug)
  have hn : next = 48 := by
    have : (0 : UInt16).toNat = 0 := rfl
    simp only [this] at h3
    omega
  cases h1 with
  | root h hf => omega
  | label h hf h1 h2 h3 => 
    have := fieldAt_unique hf (show FieldAt _ 0 8 0 by decide +kernel)
    omega
  | pointer h ho hf => omega

example : ∃ rec r', Record.decode .release (rdBit [0, 0, 1, 0, 1, 0, 0, 0, 9, 0, 4, 1, 2, 3, 4, 77] 0) = 
    (.ok rec, rdBit [0, 0, 1, 0, 1, 0, 0, 0, 9, 0, 4, 1, 2, 3, 4, 77] r') ∧ rec.recordType = .A ∧ r' = 120 := ⟨⟨⟨['.']⟩, .IN, 9, 4, .A ⟨1, 2, 3, 4⟩⟩, 120, by decide +kernel⟩

end Ariadne.Props
