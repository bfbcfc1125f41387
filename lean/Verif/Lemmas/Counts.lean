import Verif.Lemmas.Nameserver
import Verif.Props.Net

/-! # Encoding and the section counts -/

namespace Ariadne

open Spec BitsBuf

namespace Message

variable {α : Type}

theorem encodeItems_congr {e : α → BufM ParsingErr Unit} {sec : Section} {xs ys : List α} : ∀ {n i : Nat},
    (∀ j, j < i + n → (xs[j]?).map e = (ys[j]?).map e) → encodeItems e sec xs n i = encodeItems e sec ys n i
  | 0, _, _ => rfl
  | n + 1, i, h => by
    have ih := encodeItems_congr (e := e) (sec := sec) (n := n) (i := i + 1) (xs := xs) (ys := ys) fun j hj => h j (by omega)
    have h0 := h i (by omega)
    unfold encodeItems
    cases hx : xs[i]? with
    | none =>
      cases hy : ys[i]? with
      | none => rfl
      | some y => rw [hx, hy] at h0; cases h0
    | some x =>
      cases hy : ys[i]? with
      | none => rw [hx, hy] at h0; cases h0
      | some y =>
        rw [hx, hy] at h0
        simp only [Option.map_some, Option.some.injEq] at h0
        simp only [h0, ih]

theorem encodeItemsTrunc_congr {e : α → BufM ParsingErr Unit} {sec : Section} {xs ys : List α} : ∀ {n i : Nat} {h : Header},
    (∀ j, j < i + n → (xs[j]?).map e = (ys[j]?).map e) → encodeItemsTrunc e sec xs n i h = encodeItemsTrunc e sec ys n i h
  | 0, _, _, _ => rfl
  | n + 1, i, hd, h => by
    have ih := fun hd => encodeItemsTrunc_congr (e := e) (sec := sec) (n := n) (i := i + 1) (h := hd) (xs := xs) (ys := ys)
      fun j hj => h j (by omega)
    have h0 := h i (by omega)
    unfold encodeItemsTrunc
    cases hx : xs[i]? with
    | none =>
      cases hy : ys[i]? with
      | none => rfl
      | some y => rw [hx, hy] at h0; cases h0
    | some x =>
      cases hy : ys[i]? with
      | none => rw [hx, hy] at h0; cases h0
      | some y =>
        rw [hx, hy] at h0
        simp only [Option.map_some, Option.some.injEq] at h0
        simp only [h0, ih]

/-- The same items as far as the counts go. -/
structure SameItems (m m' : Message) : Prop where
  header : m'.header = m.header
  questions : ∀ j, j < m.header.questionsCount.toNat → (m.questions[j]?).map Question.encode = (m'.questions[j]?).map Question.encode
  answers : ∀ j, j < m.header.answersCount.toNat → (m.answers[j]?).map Record.encode = (m'.answers[j]?).map Record.encode
  authorities : ∀ j, j < m.header.authoritiesCount.toNat → (m.authorities[j]?).map Record.encode = (m'.authorities[j]?).map Record.encode
  additionals : ∀ j, j < m.header.additionalsCount.toNat → (m.additionals[j]?).map Record.encode = (m'.additionals[j]?).map Record.encode

theorem SameItems.encode {m m' : Message} (h : SameItems m m') : m.encodeToBytes = m'.encodeToBytes := by
  unfold encodeToBytes
  rw [h.header, encodeItems_congr (ys := m'.questions) (fun j hj => h.questions j (by omega)),
    encodeItems_congr (ys := m'.answers) (fun j hj => h.answers j (by omega)),
    encodeItems_congr (ys := m'.authorities) (fun j hj => h.authorities j (by omega)),
    encodeItems_congr (ys := m'.additionals) (fun j hj => h.additionals j (by omega))]

/-- The last step of `encode_to_bytes_trunc`. -/
def truncEnd (res : List UInt8 ⊕ Header) : BufM MessageErr (List UInt8) :=
  match res with
  | .inl bytes => pure bytes
  | .inr h => do
    BitsBuf.setWritePos 0
    BufM.mapErr MessageErr.headerErr h.encode
    takeVec

theorem trunc_eq (m : Message) : m.encodeToBytesTrunc =
    ((truncBody m (zeroCounts m.header) >>= truncEnd) (app (List.replicate 12 0))).1 := by
  unfold encodeToBytesTrunc
  rw [app_nil, BufM.bind_ok (writes_bytes (ε := MessageErr) (List.replicate 12 0) [])]
  rw [List.nil_append]
  rfl

theorem SameItems.body {m m' : Message} (h : SameItems m m') (hd : Header) : truncBody m hd = truncBody m' hd := by
  unfold truncBody
  rw [h.header, encodeItemsTrunc_congr (ys := m'.questions) (fun j hj => h.questions j (by omega))]
  congr 1; funext hd
  rw [encodeItemsTrunc_congr (ys := m'.answers) (fun j hj => h.answers j (by omega))]
  congr 1; funext hd
  rw [encodeItemsTrunc_congr (ys := m'.authorities) (fun j hj => h.authorities j (by omega))]
  congr 1; funext hd
  rw [encodeItemsTrunc_congr (ys := m'.additionals) (fun j hj => h.additionals j (by omega))]

theorem SameItems.trunc {m m' : Message} (h : SameItems m m') : m.encodeToBytesTrunc = m'.encodeToBytesTrunc := by
  rw [trunc_eq, trunc_eq, h.body, h.header]

/-- The items the counts speak of. -/
def trim (m : Message) : Message :=
  { m with questions := m.questions.take m.header.questionsCount.toNat, answers := m.answers.take m.header.answersCount.toNat,
           authorities := m.authorities.take m.header.authoritiesCount.toNat,
           additionals := m.additionals.take m.header.additionalsCount.toNat }

theorem trim_same (m : Message) : SameItems m (trim m) where
  header := rfl
  questions := fun j hj => by simp only [trim]; rw [List.getElem?_take_of_lt hj]
  answers := fun j hj => by simp only [trim]; rw [List.getElem?_take_of_lt hj]
  authorities := fun j hj => by simp only [trim]; rw [List.getElem?_take_of_lt hj]
  additionals := fun j hj => by simp only [trim]; rw [List.getElem?_take_of_lt hj]

/-- A message with no more in the header than in the sections can be encoded. -/
theorem encodes {m : Message} (hop : m.header.opCode = .STD) (c1 : m.header.questionsCount.toNat ≤ m.questions.length)
    (c2 : m.header.answersCount.toNat ≤ m.answers.length) (c3 : m.header.authoritiesCount.toNat ≤ m.authorities.length)
    (c4 : m.header.additionalsCount.toNat ≤ m.additionals.length)
    (hq : ∀ q ∈ m.questions, ∃ w, Writes (Question.encode q) w)
    (hr : ∀ r ∈ m.answers ++ m.authorities ++ m.additionals, ∃ w, Writes (Record.encode r) w) :
    (∃ x, m.encodeToBytes = .ok x) ∧ ∃ x, m.encodeToBytesTrunc = .ok x := by
  have h := trim_same m
  rw [h.encode, h.trunc]
  refine Props.servable_message (m := trim m) ⟨?_, ?_, ?_, ?_⟩ hop (fun q h => hq q (List.mem_of_mem_take h)) fun r h => ?_
  · simp [trim]; omega
  · simp [trim]; omega
  · simp [trim]; omega
  · simp [trim]; omega
  · simp only [trim, List.mem_append] at h
    apply hr
    simp only [List.mem_append]
    rcases h with (h | h) | h
    · exact .inl (.inl (List.mem_of_mem_take h))
    · exact .inl (.inr (List.mem_of_mem_take h))
    · exact .inr (List.mem_of_mem_take h)

/-- Counts without items: no encoding. -/
theorem itemsTrunc_nil {e : α → BufM ParsingErr Unit} {sec : Section} {n : Nat} {h : Header} {b : BitsBuf} :
    encodeItemsTrunc e sec [] n 0 h b = (if n = 0 then .ok (.inr h) else .panic .index, b) := by
  cases n with
  | zero => rfl
  | succ n => rfl

theorem items_nil {e : α → BufM ParsingErr Unit} {sec : Section} {n : Nat} {b : BitsBuf} :
    encodeItems e sec [] n 0 b = (if n = 0 then .ok () else .panic .index, b) := by
  cases n with
  | zero => rfl
  | succ n => rfl

theorem andThen_nil {e : α → BufM ParsingErr Unit} {sec : Section} {n : Nat} {h : Header} {b : BitsBuf}
    {f : Header → BufM MessageErr (List UInt8 ⊕ Header)} :
    andThen (encodeItemsTrunc e sec [] n 0 h) f b = if n = 0 then f h b else (.panic .index, b) := by
  unfold andThen
  rw [BufM.bind_apply, itemsTrunc_nil]
  by_cases hn : n = 0
  · simp [hn]
  · simp [hn]

/-- A header that promises items, or has an op code other than QUERY, and no items. -/
theorem empty_panics {m : Message} (h1 : m.questions = []) (h2 : m.answers = []) (h3 : m.authorities = [])
    (h4 : m.additionals = []) (h : m.header.opCode ≠ .STD ∨ m.header.questionsCount ≠ 0 ∨ m.header.answersCount ≠ 0 ∨
      m.header.authoritiesCount ≠ 0 ∨ m.header.additionalsCount ≠ 0) :
    (∃ k, m.encodeToBytes = .panic k) ∧ ∃ k, m.encodeToBytesTrunc = .panic k := by
  have z : ∀ c : UInt16, c.toNat = 0 ↔ c = 0 := fun c => ⟨fun h => UInt16.toNat_inj.1 h, fun h => by rw [h]; rfl⟩
  constructor
  · unfold encodeToBytes
    by_cases hop : m.header.opCode = .STD
    · rw [app_nil, BufM.bind_ok ((writes_header hop).mapErr (f := MessageErr.headerErr) []), h1, h2, h3, h4]
      simp only [BufM.bind_apply, items_nil, z]
      by_cases e1 : m.header.questionsCount = 0
      · by_cases e2 : m.header.answersCount = 0
        · by_cases e3 : m.header.authoritiesCount = 0
          · by_cases e4 : m.header.additionalsCount = 0
            · simp_all
            · exact ⟨.index, by simp [e1, e2, e3, e4]⟩
          · exact ⟨.index, by simp [e1, e2, e3]⟩
        · exact ⟨.index, by simp [e1, e2]⟩
      · exact ⟨.index, by simp [e1]⟩
    · have h2 : Header.encode m.header BitsBuf.new = (.panic .assert, _) := Prod.ext (header_encode_panic hop _) rfl
      rw [BufM.bind_panic (BufM.mapErr_panic h2)]
      exact ⟨_, rfl⟩
  · have hb : ∀ hd b, truncBody m hd b = if m.header.questionsCount = 0 ∧ m.header.answersCount = 0 ∧
        m.header.authoritiesCount = 0 ∧ m.header.additionalsCount = 0 then (.ok (.inr hd), b) else (.panic .index, b) := by
      intro hd b
      unfold truncBody
      rw [h1, h2, h3, h4]
      simp only [andThen_nil, itemsTrunc_nil, z]
      by_cases e1 : m.header.questionsCount = 0
      · by_cases e2 : m.header.answersCount = 0
        · by_cases e3 : m.header.authoritiesCount = 0
          · by_cases e4 : m.header.additionalsCount = 0
            · simp [e1, e2, e3, e4]
            · simp [e1, e2, e3, e4]
          · simp [e1, e2, e3]
        · simp [e1, e2]
      · simp [e1]
    rw [trunc_eq, BufM.bind_apply, hb]
    by_cases hc : m.header.questionsCount = 0 ∧ m.header.answersCount = 0 ∧
        m.header.authoritiesCount = 0 ∧ m.header.additionalsCount = 0
    · rw [if_pos hc]
      simp only [truncEnd]
      rw [BufM.bind_ok (setWritePos_app _)]
      have hop : m.header.opCode ≠ .STD := by
        obtain ⟨e1, e2, e3, e4⟩ := hc
        simp_all
      have hh : Header.encode (zeroCounts m.header) (BitsBuf.mk (List.replicate 12 0)
          (8 * (List.replicate 12 (0 : UInt8)).length) 0 0) = (.panic .assert, _) :=
        Prod.ext (header_encode_panic (h := zeroCounts m.header) hop _) rfl
      rw [BufM.bind_panic (BufM.mapErr_panic hh)]
      exact ⟨_, rfl⟩
    · rw [if_neg hc]
      exact ⟨_, rfl⟩

/-- A body fails to decode only if the header promises one or has another op code. -/
theorem decode_err_header {p : Profile} {bytes : List UInt8} {h : Header} {e : MessageErr}
    (h1 : Message.decodeFromBytes p bytes = .err e) (h2 : Header.decodeFromBytes bytes = .ok h) :
    h.opCode ≠ .STD ∨ h.questionsCount ≠ 0 ∨ h.answersCount ≠ 0 ∨ h.authoritiesCount ≠ 0 ∨ h.additionalsCount ≠ 0 := by
  by_cases hop : h.opCode = .STD
  · refine .inr ?_
    apply Classical.byContradiction
    intro hn
    simp only [not_or, not_not] at hn
    obtain ⟨e1, e2, e3, e4⟩ := hn
    unfold decodeFromBytes decode at h1
    unfold Header.decodeFromBytes at h2
    obtain ⟨o, r', hd, -⟩ := header_decode_spec bytes 0 (Nat.zero_le _)
    have hd' : Header.decode (fromRawBytes bytes) = (o, rdBit bytes r') := hd
    rw [hd'] at h2
    simp only at h2
    subst h2
    rw [BufM.bind_ok (BufM.mapErr_ok hd')] at h1
    have hs : h.isSupported = .ok () := by
      unfold Header.isSupported; rw [hop]; rfl
    rw [hs] at h1
    simp only [e1, e2, e3, e4, BufM.bind_apply] at h1
    cases h1
  · exact .inl hop

/-- Encoding does not look at `data_len`. -/
theorem encode_dataLen (r : Record) (n : UInt16) : Record.encode { r with dataLen := n } = Record.encode r := rfl

end Message

end Ariadne
