import Verif.Lemmas.Codec

/-! # Codecs of questions and records -/

namespace Ariadne

open Spec BitsBuf

namespace BufM

theorem bind_assoc {ε α β γ : Type} (m : BufM ε α) (f : α → BufM ε β) (g : β → BufM ε γ) :
    (m >>= f) >>= g = m >>= fun x => f x >>= g := by
  funext b
  simp only [bind_apply]
  rcases m b with ⟨o, b'⟩
  cases o <;> rfl

theorem pure_bind {ε α β : Type} (a : α) (f : α → BufM ε β) : (pure a >>= f) = f a := rfl

theorem mapErr_ok {ε ε' α : Type} {f : ε → ε'} {m : BufM ε α} {b b' : BitsBuf} {a : α} (h : m b = (.ok a, b')) :
    mapErr f m b = (.ok a, b') := by
  unfold mapErr; rw [h]; rfl

theorem mapErr_err {ε ε' α : Type} {f : ε → ε'} {m : BufM ε α} {b b' : BitsBuf} {e : ε} (h : m b = (.err e, b')) :
    mapErr f m b = (.err (f e), b') := by
  unfold mapErr; rw [h]; rfl

theorem mapErr_panic {ε ε' α : Type} {f : ε → ε'} {m : BufM ε α} {b b' : BitsBuf} {e : Panic}
    (h : m b = (.panic e, b')) : mapErr f m b = (.panic e, b') := by
  unfold mapErr; rw [h]; rfl

end BufM

/-! ## Decoding codecs -/

theorem Decodes.bind {ε α β : Type} {m : BufM ε α} {f : α → BufM ε β} {x y : List UInt8} {a : α} {c : β}
    (h1 : Decodes m x a) (h2 : Decodes (f a) y c) : Decodes (m >>= f) (x ++ y) c := by
  intro pre post
  have e1 := h1 pre (y ++ post)
  have e2 := h2 (pre ++ x) post
  simp only [List.append_assoc, List.length_append] at e1 e2 ⊢
  rw [BufM.bind_ok e1, e2, Nat.add_assoc]

theorem Decodes.pure {ε α : Type} (a : α) : Decodes (pure a : BufM ε α) [] a := fun _ _ => rfl

theorem Decodes.map {ε α β : Type} {m : BufM ε α} {f : α → β} {x : List UInt8} {a : α} (h : Decodes m x a) :
    Decodes (do let v ← m; Pure.pure (f v) : BufM ε β) x (f a) := by
  have := h.bind (f := fun v => Pure.pure (f v)) (Decodes.pure (f a))
  rwa [List.append_nil] at this

theorem Decodes.lift {ε α : Type} {o : Out ε α} {a : α} (h : o = .ok a) : Decodes (BufM.lift o) [] a := by
  intro pre post; subst h; simp

theorem Decodes.mapErr {ε ε' α : Type} {f : ε → ε'} {m : BufM ε α} {x : List UInt8} {a : α} (h : Decodes m x a) :
    Decodes (BufM.mapErr f m) x a := fun pre post => BufM.mapErr_ok (h pre post)

theorem Decodes.check {α : Type} {m : BufM ParsingErr (Option α)} {x : List UInt8} {a : α}
    (h : Decodes m x (some a)) : Decodes (checkEndP m) x a := fun pre post => checkEndP_some (h pre post)

theorem decodes_bytes {ε : Type} (x : List UInt8) {n : Nat} (h : x.length = n) :
    Decodes (readBytesVec n : BufM ε (Option (List UInt8))) x (some x) := by
  intro pre post
  subst h
  rw [readBytesVec_rd (by simp)]
  simp

theorem decodes_u8 {ε : Type} (v : UInt8) : Decodes (readU8 : BufM ε (Option UInt8)) [v] (some v) := by
  intro pre post
  rw [readU8_rd (by simp)]
  simp

theorem be16_length (n : Nat) : (be16 n).length = 2 := rfl
theorem be32_length (n : Nat) : (be32 n).length = 4 := rfl

theorem beVal_be32 {n : Nat} (h : n < 4294967296) : beVal (be32 n) = n := by
  simp [be32, be16, beVal]; omega

theorem decodes_u16 {ε : Type} (v : UInt16) : Decodes (readU16 : BufM ε (Option UInt16)) (be16 v.toNat) (some v) := by
  intro pre post
  obtain ⟨w, h1, h2⟩ := readU16_bit (ε := ε) (msg := pre ++ be16 v.toNat ++ post) (r := 8 * pre.length)
    (by simp [be16_length]; omega)
  have h3 : FieldAt (pre ++ be16 v.toNat ++ post) (8 * pre.length) 16 (beVal (be16 v.toNat)) := field_mid
  rw [beVal_be16 v.toNat_lt] at h3
  have := UInt16.toNat_inj.1 (fieldAt_unique h2 h3)
  subst this
  exact h1

theorem decodes_u32 {ε : Type} (v : UInt32) : Decodes (readU32 : BufM ε (Option UInt32)) (be32 v.toNat) (some v) := by
  intro pre post
  obtain ⟨w, h1, h2⟩ := readU32_bit (ε := ε) (msg := pre ++ be32 v.toNat ++ post) (r := 8 * pre.length)
    (by simp [be32_length]; omega)
  have h3 : FieldAt (pre ++ be32 v.toNat ++ post) (8 * pre.length) 32 (beVal (be32 v.toNat)) := field_mid
  rw [beVal_be32 v.toNat_lt] at h3
  have := UInt32.toNat_inj.1 (fieldAt_unique h2 h3)
  subst this
  exact h1

theorem decodes_name (p : Profile) {n : Name} {x : List UInt8} (hlen : n.s.length ≤ 255) (h : NameWire n x) :
    Decodes (nameP p) x n := by
  obtain ⟨labels, h1, h2, rfl⟩ := h
  intro pre post
  apply BufM.mapErr_ok
  have hw := wireName_rfcEncode (codeAddr p) post labels (fun l hl => ⟨h1.1 l hl, h2 l hl⟩) pre
  have := Name.fromBytes_complete p (s := n.s) hw (by omega) ⟨hlen, labels, h1⟩ (by rw [h1.2, strBytes_render h1.1])
  exact this

theorem strBytes_len_le {s : Str} (h : (strBytes s).length ≤ 255) :
    (UInt8.ofNat (strBytes s).length).toNat = (strBytes s).length := by
  simp; omega

theorem decodes_charString {s : Str} (h : (strBytes s).length ≤ 255) :
    Decodes decodeCharacterString (charString s) s := by
  unfold decodeCharacterString
  rw [show charString s = [UInt8.ofNat (strBytes s).length] ++ (strBytes s ++ []) by simp [charString]]
  refine (decodes_u8 (ε := ParsingErr) (UInt8.ofNat (strBytes s).length)).check.bind
    ((decodes_bytes (ε := ParsingErr) (strBytes s) (strBytes_len_le h).symm).check.bind ?_)
  rw [if_neg (by omega), fromUtf8_strBytes]; exact Decodes.pure s

theorem readPos_rd {ε : Type} (bs : List UInt8) (i : Nat) :
    (readPos : BufM ε Nat) (rd bs i) = (.ok (8 * i), rd bs i) := rfl

/-! ## Length-checked data -/

/-- `let before = ..; <m>; let after = ..; if after - before != data_len * 8 ..`. -/
def withLen {α : Type} (p : Profile) (len : UInt16) (m : BufM ParsingErr α) : BufM ParsingErr α := do
  let before ← readPos
  let v ← m
  let after ← readPos
  Record.checkLen p len before after v

theorem checkLen_ok {α : Type} (p : Profile) {len : UInt16} {before after : Nat} (v : α) (b : BitsBuf)
    (h : len.toNat < 8192) (e : after - before = 8 * len.toNat) :
    Record.checkLen p len before after v b = (.ok v, b) := by
  unfold Record.checkLen
  have e8 : (8 : UInt16).toNat = 8 := rfl
  have h1 : (mulU16 p len 8 : Out ParsingErr UInt16) = .ok (len * 8) := by
    unfold mulU16; rw [if_pos (by rw [e8]; omega)]
  have h2 : (len * 8).toNat = 8 * len.toNat := by rw [UInt16.toNat_mul, e8]; omega
  rw [BufM.bind_ok (a := len * 8) (b' := b) (by rw [BufM.lift_apply, h1])]
  rw [if_neg (by rw [h2]; omega)]; rfl

theorem Decodes.withLen {α : Type} (p : Profile) {len : UInt16} {m : BufM ParsingErr α} {x : List UInt8} {a : α}
    (h : Decodes m x a) (hl : len.toNat = x.length) (h2 : x.length < 8192) : Decodes (withLen p len m) x a := by
  intro pre post
  unfold Ariadne.withLen
  rw [BufM.bind_ok (readPos_rd _ _), BufM.bind_ok (h pre post), BufM.bind_ok (readPos_rd _ _),
    checkLen_ok p a _ (by omega) (by omega)]

theorem nameData_withLen (p : Profile) (len : UInt16) : Record.decodeNameData p len = withLen p len (nameP p) := rfl

theorem soa_withLen (p : Profile) (len : UInt16) : Record.decodeSoa p len = withLen p len (do
    let mname ← nameP p
    let rname ← nameP p
    let serial ← checkEndP readU32
    let refresh ← checkEndP readU32
    let retry ← checkEndP readU32
    let expire ← checkEndP readU32
    let minimum ← checkEndP readU32
    pure (.SOA mname rname serial refresh retry expire minimum)) := by
  unfold Record.decodeSoa withLen
  simp only [BufM.bind_assoc, BufM.pure_bind]

theorem hinfo_withLen (p : Profile) (len : UInt16) : Record.decodeHinfo p len = withLen p len (do
    let cpu ← decodeCharacterString
    let os ← decodeCharacterString
    pure (.HINFO cpu os)) := by
  unfold Record.decodeHinfo withLen
  simp only [BufM.bind_assoc, BufM.pure_bind]

theorem mx_withLen (p : Profile) (len : UInt16) : Record.decodeMx p len = withLen p len (do
    let preference ← checkEndP readU16
    let exchange ← nameP p
    pure (.MX preference exchange)) := by
  unfold Record.decodeMx withLen
  simp only [BufM.bind_assoc, BufM.pure_bind]

/-! ## Record data -/

theorem nameWire_length {n : Name} {x : List UInt8} (hl : n.s.length ≤ 255) (h : NameWire n x) : x.length ≤ 256 := by
  obtain ⟨labels, ⟨h1, h2⟩, h3, rfl⟩ := h
  rw [h2] at hl
  unfold render at hl
  by_cases hn : labels = []
  · subst hn; decide
  · rw [if_neg hn] at hl
    unfold rfcEncode
    have : ∀ L : List (List Char), (L.flatMap fun l => UInt8.ofNat l.length :: l.map fun c => UInt8.ofNat c.toNat).length =
        (L.flatMap fun l => l ++ ['.']).length := by
      intro L
      induction L with
      | nil => rfl
      | cons a L ih => simp only [List.flatMap_cons, List.length_append, ih]; simp
    rw [List.length_append, this]
    simp only [List.length_singleton]; omega

theorem toBytes_length {n : Name} (h : Encodable n) : n.toBytes.length = n.s.length + 1 := by
  obtain ⟨h1, labels, h2, h3, h4⟩ := h
  rw [toBytes_rfc h2 h3, h2.2]
  unfold rfcEncode render
  rw [if_neg h3]
  have : ∀ L : List (List Char), (L.flatMap fun l => UInt8.ofNat l.length :: l.map fun c => UInt8.ofNat c.toNat).length =
      (L.flatMap fun l => l ++ ['.']).length := by
    intro L
    induction L with
    | nil => rfl
    | cons a L ih => simp only [List.flatMap_cons, List.length_append, ih]; simp
  rw [List.length_append, this]; rfl

theorem encodable_wire {n : Name} (h : Encodable n) : n.s.length ≤ 255 ∧ NameWire n n.toBytes := by
  obtain ⟨h1, labels, h2, h3, h4⟩ := h
  exact ⟨h1, labels, h2, h4, toBytes_rfc h2 h3⟩

theorem decodes_ip4 (ip : Ip4) : Decodes Record.readIp4 [ip.a, ip.b, ip.c, ip.d] (some ip) := by
  unfold Record.readIp4
  rw [show [ip.a, ip.b, ip.c, ip.d] = [ip.a, ip.b, ip.c, ip.d] ++ [] by simp]
  exact (decodes_bytes (ε := ParsingErr) [ip.a, ip.b, ip.c, ip.d] (n := 4) rfl).bind (Decodes.pure (some ip))

theorem u16_of_len {n : Nat} (h : n < 65536) : (UInt16.ofNat n).toNat = n := by simp; omega

theorem decodes_soa_body (p : Profile) {mn rn : Name} {serial refresh retry expire minimum : UInt32} {y z : List UInt8}
    (h1 : mn.s.length ≤ 255) (h2 : rn.s.length ≤ 255) (hy : NameWire mn y) (hz : NameWire rn z) :
    Decodes (do
      let mname ← nameP p
      let rname ← nameP p
      let serial ← checkEndP readU32
      let refresh ← checkEndP readU32
      let retry ← checkEndP readU32
      let expire ← checkEndP readU32
      let minimum ← checkEndP readU32
      pure (RData.SOA mname rname serial refresh retry expire minimum))
    (y ++ (z ++ (be32 serial.toNat ++ (be32 refresh.toNat ++ (be32 retry.toNat ++ (be32 expire.toNat ++
          be32 minimum.toNat)))))) (.SOA mn rn serial refresh retry expire minimum) := by
  refine Decodes.bind (decodes_name p h1 hy) ?_
  refine Decodes.bind (decodes_name p h2 hz) ?_
  refine Decodes.bind (decodes_u32 serial).check ?_
  refine Decodes.bind (decodes_u32 refresh).check ?_
  refine Decodes.bind (decodes_u32 retry).check ?_
  refine Decodes.bind (decodes_u32 expire).check ?_
  exact Decodes.map (decodes_u32 minimum).check

theorem zero_bitmap {bitmap : List UInt8} (hl : bitmap.length < 65536)
    (h : ∀ port : UInt32, port ∈ ([] : List UInt32) ↔ port.toNat < 8 * bitmap.length ∧ bitAt bitmap port.toNat = true) :
    ∀ x ∈ bitmap, x = 0 := by
  have hb : ∀ i, i < 8 * bitmap.length → bitAt bitmap i = false := by
    intro i hi
    have hp : (UInt32.ofNat i).toNat = i := by simp; omega
    have := h (UInt32.ofNat i)
    rw [hp] at this
    by_cases hb : bitAt bitmap i = true
    · exact absurd (this.2 ⟨hi, hb⟩) (by simp)
    · simpa using hb
  intro x hx
  obtain ⟨k, hk, rfl⟩ := List.getElem_of_mem hx
  apply u8_ext
  intro j hj
  have := hb (8 * k + (7 - j)) (by omega)
  rw [bitAt_lt (by omega)] at this
  have e1 : (8 * k + (7 - j)) / 8 = k := by omega
  have e2 : 7 - (8 * k + (7 - j)) % 8 = j := by omega
  simp only [e1, e2] at this
  rw [this]; simp

theorem parseWksPorts_zero (p : Profile) : ∀ {l : List UInt8}, (∀ x ∈ l, x = 0) → Record.parseWksPorts p l = .ok []
  | [], _ => rfl
  | x :: xs, h => by
    unfold Record.parseWksPorts
    rw [if_pos (h x (by simp)), parseWksPorts_zero p fun y hy => h y (by simp [hy])]

theorem decodes_data (p : Profile) {d : RData} (hd : PlainData d) {x : List UInt8} (hx : RDataWire d x) {len : UInt16} (hl : len.toNat = x.length) :
    Decodes (Record.decodeData p d.recordType len) x d := by
  cases d with
  | A ip =>
    have hx : x = [ip.a, ip.b, ip.c, ip.d] := hx
    subst hx
    have : len = 4 := UInt16.toNat_inj.1 hl
    subst this
    exact (show Decodes (Record.decodeA 4) _ ip from (decodes_ip4 ip).check).map (f := RData.A)
  | NS n =>
    have hn := encodable_wire hd
    have := nameWire_length hn.1 hx
    exact ((decodes_name p hn.1 hx).withLen p hl (by omega)).map (f := RData.NS)
  | CNAME n =>
    have hn := encodable_wire hd
    have := nameWire_length hn.1 hx
    exact ((decodes_name p hn.1 hx).withLen p hl (by omega)).map (f := RData.CNAME)
  | PTR n =>
    have hn := encodable_wire hd
    have := nameWire_length hn.1 hx
    exact ((decodes_name p hn.1 hx).withLen p hl (by omega)).map (f := RData.PTR)
  | SOA mn rn serial refresh retry expire minimum =>
    obtain ⟨y, z, hy, hz, rfl⟩ := hx
    have h1 := (encodable_wire hd.1).1
    have h2 := (encodable_wire hd.2).1
    have l1 := nameWire_length h1 hy
    have l2 := nameWire_length h2 hz
    show Decodes (Record.decodeSoa p len) _ _
    rw [soa_withLen]
    refine Decodes.withLen p ?_ hl (by simp only [List.length_append, be32_length]; omega)
    exact decodes_soa_body p h1 h2 hy hz
  | WKS ip proto ports =>
    have hp : ports = [] := hd
    subst hp
    obtain ⟨bitmap, rfl, hb⟩ := hx
    have hz := zero_bitmap (by
      have := len.toNat_lt
      simp at hl; omega) hb
    show Decodes (Record.decodeWks p len) _ _
    unfold Record.decodeWks
    by_cases hl5 : len > 5
    · have h5 : (len - 5).toNat = bitmap.length := by
        have h6 := UInt16.lt_iff_toNat_lt.1 hl5
        have e5 : (5 : UInt16).toNat = 5 := rfl
        simp at hl
        rw [UInt16.toNat_sub_of_le _ _ (by rw [UInt16.le_iff_toNat_le]; omega)]
        omega
      rw [show [ip.a, ip.b, ip.c, ip.d, proto] ++ bitmap = [ip.a, ip.b, ip.c, ip.d] ++ ([proto] ++ (bitmap ++ [] ++ [])) by
        simp]
      refine Decodes.bind (decodes_ip4 ip).check ?_
      refine Decodes.bind (decodes_u8 proto).check ?_
      rw [if_pos hl5, List.append_assoc]
      refine Decodes.bind (decodes_bytes bitmap h5.symm) ?_
      exact Decodes.map (f := fun ports => RData.WKS ip proto ports) (Decodes.lift (parseWksPorts_zero p hz))
    · have : bitmap = [] := by
        cases bitmap with
        | nil => rfl
        | cons a l =>
          exfalso; apply hl5
          rw [gt_iff_lt, UInt16.lt_iff_toNat_lt]
          show 5 < len.toNat
          rw [hl]; simp
      subst this
      rw [show [ip.a, ip.b, ip.c, ip.d, proto] ++ [] = [ip.a, ip.b, ip.c, ip.d] ++ ([proto] ++ []) from rfl]
      refine Decodes.bind (decodes_ip4 ip).check ?_
      refine Decodes.bind (decodes_u8 proto).check ?_
      rw [if_neg hl5]
      exact Decodes.pure _
  | HINFO cpu os =>
    have hx : x = charString cpu ++ charString os := hx
    subst hx
    show Decodes (Record.decodeHinfo p len) _ _
    rw [hinfo_withLen]
    have c1 : (charString cpu).length = (strBytes cpu).length + 1 := rfl
    have c2 : (charString os).length = (strBytes os).length + 1 := rfl
    have d1 := hd.1
    have d2 := hd.2
    refine Decodes.withLen p ?_ hl (by simp only [List.length_append, c1, c2]; omega)
    exact (decodes_charString hd.1).bind ((decodes_charString hd.2).map (f := RData.HINFO cpu))
  | MX pref n =>
    obtain ⟨y, hy, rfl⟩ := hx
    have h1 := (encodable_wire hd).1
    have l1 := nameWire_length h1 hy
    show Decodes (Record.decodeMx p len) _ _
    rw [mx_withLen]
    refine Decodes.withLen p ?_ hl (by simp only [List.length_append, be16_length]; omega)
    exact (decodes_u16 pref).check.bind ((decodes_name p h1 hy).map (f := RData.MX pref))
  | TXT txts => exact hd.elim

theorem RecordType.fromNum_toNum (t : RecordType) : RecordType.fromNum t.toNum = some t := by cases t <;> rfl
theorem Class.fromNum_toNum (t : Class) : Class.fromNum t.toNum = some t := by cases t <;> rfl
theorem RData.supported (d : RData) : d.recordType.isSupportedForRecords = true := by cases d <;> rfl

theorem decodes_recordType {t : RecordType} (h : t.isSupportedForRecords = true) :
    Decodes Record.decodeRecordType (be16 t.toNum.toNat) t := by
  have := (decodes_u16 (ε := ParsingErr) t.toNum).check.bind (y := []) (c := t)
    (f := fun n => match RecordType.fromNum n with
      | some v => if !v.isSupportedForRecords then BufM.throw (.unsupportedType v) else pure v
      | none => do
        let _ ← checkEndP BitsBuf.readU16
        let _ ← checkEndP BitsBuf.readU32
        let dataLen ← checkEndP BitsBuf.readU16
        let _ ← checkEndP (BitsBuf.readBytesVec dataLen.toNat)
        BufM.throw (.unknownType n))
    (by rw [RecordType.fromNum_toNum]; simp only [h]; exact Decodes.pure t)
  rwa [List.append_nil] at this

theorem decodes_questionType {t : RecordType} (h : t.isSupportedForQuestion = true) :
    Decodes Question.decodeRecordType (be16 t.toNum.toNat) t := by
  have := (decodes_u16 (ε := ParsingErr) t.toNum).check.bind (y := []) (c := t)
    (f := fun n => match RecordType.fromNum n with
      | some v => if !v.isSupportedForQuestion then BufM.throw (.unsupportedType v) else pure v
      | none => do
        let _ ← checkEndP BitsBuf.readU16
        BufM.throw (.unknownType n))
    (by rw [RecordType.fromNum_toNum]; simp only [h]; exact Decodes.pure t)
  rwa [List.append_nil] at this

theorem decodes_record (p : Profile) {r : Record} (hr : Plain r) {rdata x : List UInt8} (hx : RecordWire r rdata x) :
    Decodes (Record.decode p) x { r with dataLen := UInt16.ofNat rdata.length } := by
  obtain ⟨owner, h1, h2, h3, rfl⟩ := hx
  obtain ⟨hn, hc, hd⟩ := hr
  have e := u16_of_len h3
  have hu : be16 rdata.length = be16 (UInt16.ofNat rdata.length).toNat := by rw [e]
  rw [hu, hc]
  have hcls : Record.decodeClass Class.IN.toNum = .ok .IN := rfl
  refine Decodes.bind (decodes_name p (encodable_wire hn).1 h1) ?_
  refine Decodes.bind (decodes_recordType r.data.supported) ?_
  refine Decodes.bind (decodes_u16 Class.IN.toNum).check ?_
  refine Decodes.bind (x := []) (Decodes.lift hcls) ?_
  refine Decodes.bind (decodes_u32 _).check ?_
  refine Decodes.bind (decodes_u16 (UInt16.ofNat rdata.length)).check ?_
  have := (decodes_data p hd h2 e).map (f := fun data => Record.mk r.node .IN r.ttl (UInt16.ofNat rdata.length) data)
  exact this

theorem decodes_question (p : Profile) {q : Question} (hq : PlainQuestion q) {x : List UInt8} (hx : QuestionWire q x) :
    Decodes (Question.decode p) x q := by
  obtain ⟨owner, h1, rfl⟩ := hx
  obtain ⟨hn, ht, hc⟩ := hq
  have hcls : Question.decodeClass Class.IN.toNum = .ok .IN := rfl
  obtain ⟨node, t, c⟩ := q
  simp only at hc; subst hc
  rw [← List.append_nil (be16 (Question.mk node t .IN).cls.toNum.toNat)]
  refine Decodes.bind (decodes_name p (encodable_wire hn).1 h1) ?_
  refine Decodes.bind (decodes_questionType ht) ?_
  refine Decodes.bind (decodes_u16 Class.IN.toNum).check ?_
  exact Decodes.map (Decodes.lift hcls)

/-! ## Encoding -/

theorem Writes.bind {ε : Type} {m : BufM ε Unit} {f : Unit → BufM ε Unit} {x y : List UInt8}
    (h1 : Writes m x) (h2 : Writes (f ()) y) : Writes (m >>= f) (x ++ y) := by
  intro bs
  rw [BufM.bind_ok (h1 bs), h2, List.append_assoc]

theorem Writes.lift {ε α : Type} {o : Out ε α} {a : α} {f : α → BufM ε Unit} {y : List UInt8} (h : o = .ok a)
    (h2 : Writes (f a) y) : Writes (BufM.lift o >>= f) y := by
  intro bs
  rw [BufM.bind_ok (a := a) (b' := app bs) (by rw [BufM.lift_apply, h]), h2]

theorem Writes.assert {ε : Type} {c : Bool} {f : Unit → BufM ε Unit} {y : List UInt8} (h : c = true)
    (h2 : Writes (f ()) y) : Writes (BufM.assert c >>= f) y := by
  intro bs
  subst h
  rw [BufM.bind_ok (BufM.assert_true _), h2]

theorem Writes.pure {ε : Type} : Writes (pure () : BufM ε Unit) [] := by intro bs; simp

theorem writes_bytes {ε : Type} (l : List UInt8) : Writes (writeBytes l : BufM ε Unit) l := writeBytes_app l
theorem writes_u8 {ε : Type} (v : UInt8) : Writes (writeU8 v : BufM ε Unit) [v] := fun bs => writeU8_app bs v

theorem writes_u16 {ε : Type} (v : UInt16) : Writes (writeU16 v : BufM ε Unit) (be16 v.toNat) := by
  intro bs
  rw [writeU16_app]
  congr 3
  have := v.toNat_lt
  unfold be16
  congr 1
  · apply UInt8.toNat_inj.1
    simp [UInt16.toNat_shiftRight, Nat.shiftRight_eq_div_pow]

theorem writes_u32 {ε : Type} (v : UInt32) : Writes (writeU32 v : BufM ε Unit) (be32 v.toNat) := by
  intro bs
  rw [writeU32_app]
  congr 3
  have := v.toNat_lt
  unfold be32 be16
  simp only [List.cons_append, List.nil_append]
  congr 1
  · apply UInt8.toNat_inj.1
    simp [UInt32.toNat_shiftRight, Nat.shiftRight_eq_div_pow]; omega
  congr 1
  · apply UInt8.toNat_inj.1
    simp [UInt32.toNat_shiftRight, Nat.shiftRight_eq_div_pow]
  congr 1
  · apply UInt8.toNat_inj.1
    simp [UInt32.toNat_shiftRight, Nat.shiftRight_eq_div_pow]

theorem encodeCharacterString_ok {s : Str} (h : (strBytes s).length ≤ 255) :
    encodeCharacterString s = .ok (charString s) := by
  unfold encodeCharacterString charString strLen
  simp only
  rw [if_neg (by omega)]

theorem writes_data {d : RData} (hd : PlainData d) : ∃ x, RDataWire d x ∧ x.length < 65536 ∧ x.length = rdLength d ∧
    Writes (Record.encodeData d) (be16 x.length ++ x) := by
  have key : ∀ n : Name, Encodable n → Writes (ε := ParsingErr) (do
      writeU16 (UInt16.ofNat n.toBytes.length); writeBytes n.toBytes) (be16 n.toBytes.length ++ n.toBytes) ∧
      n.toBytes.length < 65536 := by
    intro n hn
    have h1 := encodable_wire hn
    have := nameWire_length h1.1 h1.2
    refine ⟨?_, by omega⟩
    have := (writes_u16 (ε := ParsingErr) (UInt16.ofNat n.toBytes.length)).bind (f := fun _ => writeBytes n.toBytes)
      (writes_bytes n.toBytes)
    rwa [u16_of_len (by omega)] at this
  cases d with
  | A ip =>
    exact ⟨_, rfl, (by decide : 4 < 65536), rfl,
      (writes_u16 4).bind (writes_bytes (ε := ParsingErr) ip.bytes)⟩
  | NS n => exact ⟨_, (encodable_wire hd).2, (key n hd).2, toBytes_length hd, (key n hd).1⟩
  | CNAME n => exact ⟨_, (encodable_wire hd).2, (key n hd).2, toBytes_length hd, (key n hd).1⟩
  | PTR n => exact ⟨_, (encodable_wire hd).2, (key n hd).2, toBytes_length hd, (key n hd).1⟩
  | SOA mn rn serial refresh retry expire minimum =>
    have h1 := encodable_wire hd.1
    have h2 := encodable_wire hd.2
    have l1 := nameWire_length h1.1 h1.2
    have l2 := nameWire_length h2.1 h2.2
    have hlen : ((mn.toBytes ++ (rn.toBytes ++ (be32 serial.toNat ++ (be32 refresh.toNat ++ (be32 retry.toNat ++
      (be32 expire.toNat ++ be32 minimum.toNat))))))).length = mn.toBytes.length + rn.toBytes.length + 20 := by
      simp only [List.length_append, be32_length]; omega
    refine ⟨_, ⟨_, _, h1.2, h2.2, rfl⟩, by omega, ?_, ?_⟩
    · rw [hlen, toBytes_length hd.1, toBytes_length hd.2]; rfl
    have hu := u16_of_len (n := mn.toBytes.length + rn.toBytes.length + 20) (by omega)
    rw [hlen]
    have w := writes_u16 (ε := ParsingErr) (UInt16.ofNat (mn.toBytes.length + rn.toBytes.length + 20))
    rw [hu] at w
    exact w.bind ((writes_bytes _).bind ((writes_bytes _).bind ((writes_u32 _).bind
      ((writes_u32 _).bind ((writes_u32 _).bind ((writes_u32 _).bind (writes_u32 _)))))))
  | WKS ip proto ports =>
    have hp : ports = [] := hd
    subst hp
    refine ⟨[ip.a, ip.b, ip.c, ip.d, proto], ⟨[], by simp, by simp⟩, (by decide : 5 < 65536), rfl, ?_⟩
    exact (writes_u16 (ε := ParsingErr) 5).bind ((writes_bytes ip.bytes).bind ((writes_u8 proto).bind Writes.pure))
  | HINFO cpu os =>
    have c1 : (charString cpu).length = (strBytes cpu).length + 1 := rfl
    have c2 : (charString os).length = (strBytes os).length + 1 := rfl
    have d1 := hd.1
    have d2 := hd.2
    have hlen : (charString cpu ++ charString os).length < 65536 := by
      simp only [List.length_append, c1, c2]; omega
    refine ⟨_, rfl, hlen, by rw [List.length_append, c1, c2]; rfl, ?_⟩
    have w := writes_u16 (ε := ParsingErr) (UInt16.ofNat (charString cpu ++ charString os).length)
    rw [u16_of_len hlen, List.length_append] at w
    rw [List.length_append]
    exact Writes.lift (encodeCharacterString_ok d1) (Writes.lift (encodeCharacterString_ok d2)
      (w.bind ((writes_bytes _).bind (writes_bytes _))))
  | MX pref n =>
    have h1 := encodable_wire hd
    have l1 := nameWire_length h1.1 h1.2
    have hlen : (be16 pref.toNat ++ n.toBytes).length = 2 + n.toBytes.length := by
      simp only [List.length_append, be16_length]
    refine ⟨_, ⟨_, h1.2, rfl⟩, by omega, by rw [hlen, toBytes_length hd]; rfl, ?_⟩
    have w := writes_u16 (ε := ParsingErr) (2 + UInt16.ofNat n.toBytes.length)
    have hu : (2 + UInt16.ofNat n.toBytes.length).toNat = 2 + n.toBytes.length := by
      rw [UInt16.toNat_add, u16_of_len (by omega)]
      show (2 + n.toBytes.length) % 65536 = _
      omega
    rw [hu] at w
    rw [hlen]
    exact w.bind ((writes_u16 _).bind (writes_bytes _))
  | TXT txts => exact hd.elim

theorem writes_record {r : Record} (hr : Plain r) : ∃ rdata x, RecordWire r rdata x ∧ rdata.length = rdLength r.data ∧
    Writes (Record.encode r) x := by
  obtain ⟨hn, hc, hd⟩ := hr
  obtain ⟨rdata, h1, h2, h3, h4⟩ := writes_data hd
  have hw := encodable_wire hn
  refine ⟨rdata, _, ⟨_, hw.2, h1, h2, rfl⟩, h3, ?_⟩
  unfold Record.encode
  refine Writes.assert r.data.supported (Writes.assert (by rw [hc]; rfl) ?_)
  refine Writes.bind (writes_bytes _) ?_
  refine Writes.bind (writes_u16 _) ?_
  refine Writes.bind (writes_u16 _) ?_
  exact Writes.bind (writes_u32 _) h4

theorem writes_question {q : Question} (hq : PlainQuestion q) : ∃ x, QuestionWire q x ∧ Writes (Question.encode q) x := by
  obtain ⟨hn, ht, hc⟩ := hq
  have hw := encodable_wire hn
  refine ⟨_, ⟨_, hw.2, rfl⟩, ?_⟩
  unfold Question.encode
  refine Writes.assert ht (Writes.assert (by rw [hc]; rfl) ?_)
  refine Writes.bind (writes_bytes _) ?_
  refine Writes.bind (writes_u16 _) ?_
  exact writes_u16 _

end Ariadne
