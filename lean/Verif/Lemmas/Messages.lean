import Verif.Lemmas.Items

/-! # Whole messages -/

namespace Ariadne

open Spec BitsBuf

/-! ## Unknown items -/

/-- `d` skips exactly the bytes `x` with an `UnknownType` error. -/
def Skips {α : Type} (d : BufM ParsingErr α) (x : List UInt8) : Prop :=
  ∀ pre post, ∃ n, d (rd (pre ++ x ++ post) pre.length) =
    (.err (.unknownType n), rd (pre ++ x ++ post) (pre.length + x.length))

theorem Skips.bind {α β : Type} {m : BufM ParsingErr α} {f : α → BufM ParsingErr β} {x y : List UInt8} {a : α}
    (h1 : Decodes m x a) (h2 : Skips (f a) y) : Skips (m >>= f) (x ++ y) := by
  intro pre post
  have e1 := h1 pre (y ++ post)
  obtain ⟨n, e2⟩ := h2 (pre ++ x) post
  refine ⟨n, ?_⟩
  simp only [List.append_assoc, List.length_append] at e1 e2 ⊢
  rw [BufM.bind_ok e1, e2, Nat.add_assoc]

theorem Skips.bind_first {α β : Type} {m : BufM ParsingErr α} {f : α → BufM ParsingErr β} {x : List UInt8}
    (h1 : Skips m x) : Skips (m >>= f) x := by
  intro pre post
  obtain ⟨n, e⟩ := h1 pre post
  exact ⟨n, BufM.bind_err e⟩

theorem Skips.throw {α : Type} (n : UInt16) : Skips (BufM.throw (.unknownType n) : BufM ParsingErr α) [] := by
  intro pre post; exact ⟨n, rfl⟩

theorem ite_some_elim {α : Type} {c : Prop} [Decidable c] {x r : α} {a : Option α} {P : Prop}
    (h : (if c then some x else a) = some r) (h1 : c → x = r → P) (h2 : a = some r → P) : P := by
  by_cases hc : c
  · rw [if_pos hc] at h; exact h1 hc (Option.some.inj h)
  · rw [if_neg hc] at h; exact h2 h

theorem RecordType.toNum_of_fromNum {t : UInt16} {rt : RecordType} (h : RecordType.fromNum t = some rt) :
    rt.toNum = t := by
  unfold RecordType.fromNum at h
  iterate 20 refine ite_some_elim h (fun e1 e2 => by subst e1 e2; rfl) fun h => ?_
  cases h

theorem Class.toNum_of_fromNum {t : UInt16} {rt : Class} (h : Class.fromNum t = some rt) : rt.toNum = t := by
  unfold Class.fromNum at h
  iterate 5 refine ite_some_elim h (fun e1 e2 => by subst e1 e2; rfl) fun h => ?_
  cases h

theorem fromNum_none {t : UInt16} (h : UnknownTypeNum t) : RecordType.fromNum t = none := by
  cases hf : RecordType.fromNum t with
  | none => rfl
  | some rt => exact absurd (RecordType.toNum_of_fromNum hf) (h rt)

theorem skips_question (p : Profile) {x : List UInt8} (h : UnknownQuestion x) : Skips (Question.decode p) x := by
  obtain ⟨n, owner, t, c, h1, h2, h3, rfl⟩ := h
  refine Skips.bind (decodes_name p h1 h2) (Skips.bind_first ?_)
  unfold Question.decodeRecordType
  refine Skips.bind (decodes_u16 t).check ?_
  rw [fromNum_none h3, ← List.append_nil (be16 c.toNat)]
  exact Skips.bind (decodes_u16 c).check (Skips.throw t)

theorem skips_record (p : Profile) {x : List UInt8} (h : UnknownRecord x) : Skips (Record.decode p) x := by
  obtain ⟨n, owner, rdata, t, c, ttl, h1, h2, h3, h4, rfl⟩ := h
  refine Skips.bind (decodes_name p h1 h2) (Skips.bind_first ?_)
  unfold Record.decodeRecordType
  refine Skips.bind (decodes_u16 t).check ?_
  rw [fromNum_none h3, ← List.append_nil rdata]
  refine Skips.bind (decodes_u16 c).check ?_
  refine Skips.bind (decodes_u32 ttl).check ?_
  rw [List.append_nil, ← u16_of_len h4]
  refine Skips.bind (decodes_u16 _).check ?_
  rw [u16_of_len h4, ← List.append_nil rdata]
  refine Skips.bind (decodes_bytes rdata (by simp)).check ?_
  exact Skips.throw t

/-! ## Sections -/

theorem decodes_section {α : Type} {d : BufM ParsingErr α} {K : α → List UInt8 → Prop} {U : List UInt8 → Prop}
    (hk : ∀ a x, K a x → Decodes d x a) (hu : ∀ x, U x → Skips d x) (sec : Section)
    {as : List α} {n : Nat} {y : List UInt8} (h : SectionWire K U as n y) :
    ∀ i, Decodes (Message.decodeItems d sec n i) y as := by
  induction h with
  | nil => intro i; exact Decodes.pure _
  | @known a as n x y hx _ ih =>
    intro i pre post
    have e1 := hk a x hx pre (y ++ post)
    have e2 := ih (i + 1) (pre ++ x) post
    simp only [List.append_assoc, List.length_append] at e1 e2 ⊢
    unfold Message.decodeItems
    simp only [e1]
    rw [BufM.bind_ok e2, Nat.add_assoc]
    rfl
  | @unknown as n x y hx _ ih =>
    intro i pre post
    obtain ⟨t, e1⟩ := hu x hx pre (y ++ post)
    have e2 := ih (i + 1) (pre ++ x) post
    simp only [List.append_assoc, List.length_append] at e1 e2 ⊢
    unfold Message.decodeItems
    simp only [e1]
    rw [e2, Nat.add_assoc]

theorem knownRecord_decodes (p : Profile) {r : Record} {x : List UInt8} (h : KnownRecord r x) :
    Decodes (Record.decode p) x r := by
  obtain ⟨h1, rdata, h2, h3⟩ := h
  have := decodes_record p h1 h2
  have e : UInt16.ofNat rdata.length = r.dataLen := by
    apply UInt16.toNat_inj.1
    rw [u16_of_len (h3 ▸ r.dataLen.toNat_lt), h3]
  rw [e] at this
  exact this

theorem decodes_header {hb : List UInt8} {h : Header} (hh : IsHeader hb h) : Decodes Header.decode hb h := by
  obtain ⟨h1, h2⟩ := hh
  intro pre post
  have : Laid (pre ++ hb ++ post) (8 * pre.length) (headerFields h) := by
    have key : ∀ (fs : List (Nat × Nat)) (r : Nat), r + (fs.map Prod.fst).sum ≤ 96 → Laid hb r fs →
        Laid (pre ++ hb ++ post) (8 * pre.length + r) fs := by
      intro fs
      induction fs with
      | nil => intro r _ _; trivial
      | cons f fs ih =>
        intro r hr hl
        obtain ⟨n, v⟩ := f
        simp only [List.map_cons, List.sum_cons] at hr
        obtain ⟨l1, l2⟩ := hl
        refine ⟨⟨l1.1, fun j hj => ?_⟩, ?_⟩
        · rw [l1.2 j hj, show 8 * pre.length + r + j = 8 * pre.length + (r + j) by omega, List.append_assoc,
            bitAt_append_right, bitAt_append_left (by omega)]
        · rw [Nat.add_assoc]; exact ih (r + n) (by omega) l2
    exact key _ 0 (by simp [headerFields]) h2
  have := header_decode_of_laid (by simp [h1]; omega) this
  rw [show rd (pre ++ hb ++ post) pre.length = rdBit (pre ++ hb ++ post) (8 * pre.length) from rfl, this]
  simp only [rd, h1]
  congr 2

theorem decodes_message (p : Profile) {m : Message} {x : List UInt8} (h : MessageWire m x) :
    Decodes (Message.decode p) x m := by
  obtain ⟨hb, q, an, au, ad, h1, h2, h3, h4, h5, h6, rfl⟩ := h
  unfold Message.decode
  refine Decodes.bind (decodes_header h1).mapErr ?_
  have hs : (m.header.isSupported.mapErr MessageErr.headerErr) = .ok () := by
    unfold Header.isSupported Header.decodeOpCode
    rw [h2]; rfl
  refine Decodes.bind (x := []) (Decodes.lift hs) ?_
  refine Decodes.bind (decodes_section (fun _ _ h => decodes_question p h.1 h.2) (fun _ h => skips_question p h) _ h3 0) ?_
  refine Decodes.bind (decodes_section (fun _ _ h => knownRecord_decodes p h) (fun _ h => skips_record p h) _ h4 0) ?_
  refine Decodes.bind (decodes_section (fun _ _ h => knownRecord_decodes p h) (fun _ h => skips_record p h) _ h5 0) ?_
  exact Decodes.map (f := fun ad => Message.mk m.header m.questions m.answers m.authorities ad)
    (decodes_section (fun _ _ h => knownRecord_decodes p h) (fun _ h => skips_record p h) _ h6 0)

theorem decodeFromBytes_wire (p : Profile) {m : Message} {x : List UInt8} (h : MessageWire m x) (post : List UInt8) :
    Message.decodeFromBytes p (x ++ post) = .ok m := by
  have := decodes_message p h [] post
  unfold Message.decodeFromBytes
  rw [rd_zero]
  simp only [List.nil_append, List.length_nil] at this
  rw [this]

/-! ## Encoding -/

theorem over_app {bs l : List UInt8} {b' : BitsBuf} (h : Over (app bs) b' (8 * l.length) (beVal l)) :
    b' = app (bs ++ l) := by
  obtain ⟨i, h1, h2, h3, h4, h5⟩ := h
  have hl : b'.buf.length = bs.length + l.length := by
    rw [i.len, h1]; simp [app]; omega
  have e : b'.buf = bs ++ l := by
    rw [← List.take_append_drop bs.length b'.buf]
    congr 1
    · apply bits_ext (by simp [hl])
      intro k hk
      have hk' : k < 8 * bs.length := by simp [hl] at hk; omega
      have := h4 k (.inl (by simpa [app] using hk'))
      rw [← show bitAt (app bs).buf k = bitAt bs k from rfl, ← this]
      conv => rhs; rw [← List.take_append_drop bs.length b'.buf]
      rw [bitAt_append_left hk]
    · have := bytes_of_field (bs := b'.buf) (l := l) (pre := bs.length) (by omega) h5
      rw [← this, List.take_of_length_le (by simp [hl])]
  obtain ⟨buf, last, w, r⟩ := b'
  simp only at e h1 h2 h3
  subst e
  simp only [app] at h1 h2 h3 ⊢
  simp only [List.length_append]
  rw [h1, h2, h3]
  congr 1 <;> omega

theorem writes_header {h : Header} (hop : h.opCode = .STD) : Writes (Header.encode h) (headerBytes h) := by
  intro bs
  obtain ⟨b', h1, h2⟩ := header_encode_over h (by rw [hop]; rfl) (inv_app bs)
  rw [h1]
  rw [← beVal_headerBytes] at h2
  rw [over_app (l := headerBytes h) h2]

theorem isHeader_headerBytes {h : Header} (hz : h.z.toNat < 8) : IsHeader (headerBytes h) h := by
  refine ⟨rfl, header_laid h hz ?_⟩
  rw [← beVal_headerBytes]
  have := field_mid (pre := []) (l := headerBytes h) (post := [])
  simp only [List.nil_append, List.append_nil] at this
  exact this

theorem Writes.mapErr {ε ε' : Type} {f : ε → ε'} {m : BufM ε Unit} {x : List UInt8} (h : Writes m x) :
    Writes (BufM.mapErr f m) x := fun bs => BufM.mapErr_ok (h bs)

theorem writes_section {α : Type} {e : α → BufM ParsingErr Unit} {K : α → List UInt8 → Prop} {U : List UInt8 → Prop}
    (sec : Section) {xs : List α} (hk : ∀ a ∈ xs, ∃ x, K a x ∧ Writes (e a) x) :
    ∀ n i, i + n = xs.length → ∃ y, SectionWire K U (xs.drop i) n y ∧ Writes (Message.encodeItems e sec xs n i) y
  | 0, i, h => ⟨[], by rw [List.drop_of_length_le (by omega)]; exact .nil, Writes.pure⟩
  | n + 1, i, h => by
    obtain ⟨y, h1, h2⟩ := writes_section sec hk n (i + 1) (by omega)
    have hi : i < xs.length := by omega
    obtain ⟨x, h3, h4⟩ := hk xs[i] (List.getElem_mem hi)
    refine ⟨x ++ y, ?_, ?_⟩
    · rw [List.drop_eq_getElem_cons hi]; exact .known h3 h1
    · unfold Message.encodeItems
      rw [List.getElem?_eq_getElem hi]
      exact Writes.bind h4.mapErr h2

theorem plainMessage_encodes {m : Message} (h : PlainMessage m) :
    ∃ x, m.encodeToBytes = .ok x ∧ MessageWire m x := by
  obtain ⟨h1, h2, h3, h4, h5, h6, h7, h8⟩ := h
  have hq : ∀ q ∈ m.questions, ∃ x, KnownQuestion q x ∧ Writes (Question.encode q) x := by
    intro q hq
    obtain ⟨x, a, b⟩ := writes_question (h7 q hq)
    exact ⟨x, ⟨h7 q hq, a⟩, b⟩
  have hr : ∀ r ∈ m.answers ++ m.authorities ++ m.additionals, ∃ x, KnownRecord r x ∧ Writes (Record.encode r) x := by
    intro r hr
    obtain ⟨hp, hl⟩ := h8 r hr
    obtain ⟨rdata, x, a, b, c⟩ := writes_record hp
    exact ⟨x, ⟨hp, rdata, a, by rw [hl, b]⟩, c⟩
  obtain ⟨q, q1, q2⟩ := writes_section (U := UnknownQuestion) .question hq m.header.questionsCount.toNat 0 (by omega)
  obtain ⟨an, an1, an2⟩ := writes_section (U := UnknownRecord) .answer (xs := m.answers)
    (fun r h => hr r (by simp [h])) m.header.answersCount.toNat 0 (by omega)
  obtain ⟨au, au1, au2⟩ := writes_section (U := UnknownRecord) .authority (xs := m.authorities)
    (fun r h => hr r (by simp [h])) m.header.authoritiesCount.toNat 0 (by omega)
  obtain ⟨ad, ad1, ad2⟩ := writes_section (U := UnknownRecord) .additional (xs := m.additionals)
    (fun r h => hr r (by simp [h])) m.header.additionalsCount.toNat 0 (by omega)
  refine ⟨headerBytes m.header ++ (q ++ (an ++ (au ++ ad))), ?_,
    headerBytes m.header, q, an, au, ad, isHeader_headerBytes h2, h1, q1, an1, au1, ad1, rfl⟩
  unfold Message.encodeToBytes
  rw [app_nil, BufM.bind_ok ((writes_header h1).mapErr (f := MessageErr.headerErr) []), BufM.bind_ok (q2 _),
    BufM.bind_ok (an2 _), BufM.bind_ok (au2 _), BufM.bind_ok (ad2 _)]
  simp [Message.takeVec, intoVec, app]

end Ariadne
