import Verif.Lemmas.Messages
import Mathlib.Data.List.Forall2

/-! # Encoding with truncation -/

namespace Ariadne

open Spec BitsBuf

/-- An encoder appends fixed bytes, or always fails. -/
def Encoder {ε : Type} (m : BufM ε Unit) : Prop :=
  (∃ w, Writes m w) ∨ (∃ e, ∀ bs, (m (app bs)).1 = .err e) ∨ (∃ k, ∀ bs, (m (app bs)).1 = .panic k)

theorem Encoder.bind {ε : Type} {m : BufM ε Unit} {f : Unit → BufM ε Unit} (h1 : Encoder m) (h2 : Encoder (f ())) :
    Encoder (m >>= f) := by
  rcases h1 with ⟨w, h1⟩ | ⟨e, h1⟩ | ⟨k, h1⟩
  · rcases h2 with ⟨v, h2⟩ | ⟨e, h2⟩ | ⟨k, h2⟩
    · exact .inl ⟨_, h1.bind h2⟩
    · exact .inr (.inl ⟨e, fun bs => by rw [BufM.bind_ok (h1 bs)]; exact h2 _⟩)
    · exact .inr (.inr ⟨k, fun bs => by rw [BufM.bind_ok (h1 bs)]; exact h2 _⟩)
  · refine .inr (.inl ⟨e, fun bs => ?_⟩)
    have : m (app bs) = (.err e, (m (app bs)).2) := by rw [← h1 bs]
    rw [BufM.bind_err this]
  · refine .inr (.inr ⟨k, fun bs => ?_⟩)
    have : m (app bs) = (.panic k, (m (app bs)).2) := by rw [← h1 bs]
    rw [BufM.bind_panic this]

theorem Writes.unique {ε : Type} {m : BufM ε Unit} {x y : List UInt8} (h1 : Writes m x) (h2 : Writes m y) : x = y := by
  have := (h1 []).symm.trans (h2 [])
  have := congrArg BitsBuf.buf (Prod.mk.inj this).2
  simpa [app] using this

theorem Writes.bind_inv {ε : Type} {m : BufM ε Unit} {f : Unit → BufM ε Unit} {x : List UInt8} (h1 : Encoder m)
    (h2 : Encoder (f ())) (h : Writes (m >>= f) x) : ∃ a b, Writes m a ∧ Writes (f ()) b ∧ x = a ++ b := by
  rcases h1 with ⟨a, h1⟩ | ⟨e, h1⟩ | ⟨k, h1⟩
  · rcases h2 with ⟨b, h2⟩ | ⟨e, h2⟩ | ⟨k, h2⟩
    · exact ⟨a, b, h1, h2, Writes.unique h (h1.bind h2)⟩
    · have := h []; rw [BufM.bind_ok (h1 [])] at this
      have h3 := h2 ([] ++ a); rw [this] at h3; cases h3
    · have := h []; rw [BufM.bind_ok (h1 [])] at this
      have h3 := h2 ([] ++ a); rw [this] at h3; cases h3
  · have hm : m (app []) = (.err e, (m (app [])).2) := by rw [← h1 []]
    have := h []; rw [BufM.bind_err hm] at this; cases this
  · have hm : m (app []) = (.panic k, (m (app [])).2) := by rw [← h1 []]
    have := h []; rw [BufM.bind_panic hm] at this; cases this

theorem Encoder.of_writes {ε : Type} {m : BufM ε Unit} {w : List UInt8} (h : Writes m w) : Encoder m := .inl ⟨w, h⟩

theorem Encoder.assert {ε : Type} (c : Bool) {f : Unit → BufM ε Unit} (h2 : Encoder (f ())) :
    Encoder (BufM.assert c >>= f) := by
  cases c
  · exact .inr (.inr ⟨.assert, fun bs => rfl⟩)
  · exact h2

theorem Encoder.liftStr {s : Str} {f : List UInt8 → BufM ParsingErr Unit} (h2 : ∀ l, Encoder (f l)) :
    Encoder (BufM.lift (encodeCharacterString s) >>= f) := by
  unfold encodeCharacterString
  by_cases h : strLen s > 255
  · simp only [if_pos h]; exact .inr (.inl ⟨_, fun bs => rfl⟩)
  · simp only [if_neg h]; exact h2 _

theorem encodeStrings_cases : ∀ l : List Str, (∃ x, Record.encodeStrings l = .ok x) ∨
    (∃ e, Record.encodeStrings l = .err e)
  | [] => .inl ⟨[], rfl⟩
  | s :: ss => by
    unfold Record.encodeStrings encodeCharacterString
    by_cases h : strLen s > 255
    · simp only [if_pos h]; exact .inr ⟨_, rfl⟩
    · simp only [if_neg h]
      rcases encodeStrings_cases ss with ⟨x, hx⟩ | ⟨e, he⟩
      · rw [hx]; exact .inl ⟨_, rfl⟩
      · rw [he]; exact .inr ⟨_, rfl⟩

theorem writes_ports : ∀ l : List UInt32, Writes (Record.writePorts l) (l.flatMap fun p => be32 p.toNat)
  | [] => Writes.pure
  | p :: ps => by
    unfold Record.writePorts
    exact Writes.bind (writes_u32 p) (writes_ports ps)

theorem writes_all : ∀ l : List (List UInt8), Writes (Record.writeAllBytes l) l.flatten
  | [] => Writes.pure
  | p :: ps => by
    unfold Record.writeAllBytes
    exact Writes.bind (writes_bytes p) (writes_all ps)

theorem encoder_data (d : RData) : Encoder (Record.encodeData d) := by
  cases d with
  | A ip => exact .bind (.of_writes (writes_u16 _)) (.of_writes (writes_bytes _))
  | NS n => exact .bind (.of_writes (writes_u16 _)) (.of_writes (writes_bytes _))
  | CNAME n => exact .bind (.of_writes (writes_u16 _)) (.of_writes (writes_bytes _))
  | PTR n => exact .bind (.of_writes (writes_u16 _)) (.of_writes (writes_bytes _))
  | SOA a b s r t e m =>
    exact .bind (.of_writes (writes_u16 _)) (.bind (.of_writes (writes_bytes _)) (.bind (.of_writes (writes_bytes _))
      (.bind (.of_writes (writes_u32 _)) (.bind (.of_writes (writes_u32 _)) (.bind (.of_writes (writes_u32 _))
      (.bind (.of_writes (writes_u32 _)) (.of_writes (writes_u32 _))))))))
  | WKS ip pr ports =>
    exact .bind (.of_writes (writes_u16 _)) (.bind (.of_writes (writes_bytes _)) (.bind (.of_writes (writes_u8 _))
      (.of_writes (writes_ports _))))
  | HINFO c o =>
    exact .liftStr fun c => .liftStr fun o => .bind (.of_writes (writes_u16 _)) (.bind (.of_writes (writes_bytes _))
      (.of_writes (writes_bytes _)))
  | MX p n =>
    exact .bind (.of_writes (writes_u16 _)) (.bind (.of_writes (writes_u16 _)) (.of_writes (writes_bytes _)))
  | TXT l =>
    show Encoder (BufM.lift (Record.encodeStrings l) >>= fun bufs => (do
      writeU16 (UInt16.ofNat bufs.flatten.length)
      Record.writeAllBytes bufs))
    rcases encodeStrings_cases l with ⟨x, hx⟩ | ⟨e, he⟩
    · rw [hx]
      exact .of_writes (Writes.lift rfl (Writes.bind (writes_u16 _) (writes_all _)))
    · rw [he]; exact .inr (.inl ⟨_, fun bs => rfl⟩)

theorem encoder_record (r : Record) : Encoder (Record.encode r) :=
  .assert _ (.assert _ (.bind (.of_writes (writes_bytes _)) (.bind (.of_writes (writes_u16 _))
    (.bind (.of_writes (writes_u16 _)) (.bind (.of_writes (writes_u32 _)) (encoder_data _))))))

theorem encoder_question (q : Question) : Encoder (Question.encode q) :=
  .assert _ (.assert _ (.bind (.of_writes (writes_bytes _)) (.bind (.of_writes (writes_u16 _))
    (.of_writes (writes_u16 _)))))

/-! ## Rewriting the header in place -/

theorem overwrite_header {h : Header} (hop : h.opCode = .STD) {z x : List UInt8} (hz : z.length = 12) :
    ∃ b', Header.encode h (BitsBuf.mk (z ++ x) (8 * (z ++ x).length) 0 0) = (.ok (), b') ∧ b'.Inv ∧
      b'.buf = headerBytes h ++ x ∧ b'.last = 8 * (z ++ x).length := by
  have hinv : (BitsBuf.mk (z ++ x) (8 * (z ++ x).length) 0 0).Inv := by
    have := inv_app (z ++ x)
    exact ⟨this.len, Nat.zero_le _, Nat.zero_le _, this.pad⟩
  obtain ⟨b', h1, h2⟩ := header_encode_over h (by rw [hop]; rfl) hinv
  refine ⟨b', h1, h2.1, ?_, ?_⟩
  · obtain ⟨i, l1, l2, l3, l4, l5⟩ := h2
    have hlen : b'.buf.length = 12 + x.length := by
      rw [i.len, l1]; simp [hz]; try omega
    rw [← List.take_append_drop 12 b'.buf]
    congr 1
    · rw [← beVal_headerBytes] at l5
      have := bytes_of_field (bs := b'.buf) (l := headerBytes h) (pre := 0) (by rw [headerBytes_length]; omega) l5
      simpa [headerBytes_length] using this
    · apply bits_ext (by simp [hlen])
      intro k hk
      have e1 := bitAt_append_right (b'.buf.take 12) (b'.buf.drop 12) k
      rw [List.take_append_drop] at e1
      have e2 := bitAt_append_right z x k
      have e3 : (b'.buf.take 12).length = 12 := by simp [hlen]
      rw [e3] at e1
      rw [hz] at e2
      have e4 := l4 (8 * 12 + k) (.inr (by simp))
      simp only at e4
      rw [← e1, e4, e2]
  · rw [h2.2.1]
    show max (8 * (z ++ x).length) (0 + 96) = _
    simp [hz]; try omega

theorem truncate_bytes {b : BitsBuf} (hinv : b.Inv) {x y : List UInt8} (hb : b.buf = x ++ y)
    (hl : b.last = 8 * (x ++ y).length) : (b.truncate (8 * x.length)).buf = x := by
  obtain ⟨h1, h2, -, -, h3⟩ := truncate_spec (b := b) (8 * x.length) hinv
  have hm : min (8 * x.length) b.last = 8 * x.length := by rw [hl]; simp
  rw [hm] at h2 h3
  have hlen : (b.truncate (8 * x.length)).buf.length = x.length := by rw [h1.len, h2]; omega
  apply bits_ext hlen
  intro i hi
  rw [h3 i (by omega), hb, bitAt_append_left (by omega)]

theorem setWritePos_app {ε : Type} (bs : List UInt8) :
    (setWritePos 0 : BufM ε Unit) (app bs) = (.ok (), BitsBuf.mk bs (8 * bs.length) 0 0) := by
  unfold setWritePos
  rw [if_neg (by omega)]; rfl

/-- Header encoding of an unsupported op code panics. -/
theorem header_encode_panic {h : Header} (hop : h.opCode ≠ .STD) (b : BitsBuf) :
    (Header.encode h b).1 = .panic .assert := by
  unfold Header.encode
  have : h.opCode.isSupported = false := by cases hh : h.opCode <;> first | rfl | exact absurd hh hop
  rw [this, BufM.bind_panic (show (BufM.assert false : BufM ParsingErr Unit) b = (.panic .assert, b) from rfl)]

theorem finishTrunc_ok {h : Header} (hop : h.opCode = .STD) {z x y : List UInt8} (hz : z.length = 12) :
    ∃ b', Message.finishTrunc h (8 * (z ++ x).length) (app (z ++ x ++ y)) =
      (.ok (headerBytes { h with truncated := true } ++ x), b') := by
  obtain ⟨b', h1, h2, h3, h4⟩ := overwrite_header (h := { h with truncated := true }) hop (z := z) (x := x ++ y) hz
  unfold Message.finishTrunc
  rw [BufM.bind_ok (setWritePos_app _)]
  rw [List.append_assoc, BufM.bind_ok (BufM.mapErr_ok h1)]
  unfold Message.truncVec intoVec
  refine ⟨b'.truncate (8 * (z ++ x).length), ?_⟩
  have := truncate_bytes h2 (x := headerBytes { h with truncated := true } ++ x) (y := y)
    (by rw [h3]; simp) (by rw [h4]; simp [hz, headerBytes_length])
  have e : (z ++ x).length = (headerBytes { h with truncated := true } ++ x).length := by
    simp [hz, headerBytes_length]
  rw [e]
  rw [this]

/-! ## The loop -/

/-- Add `j` to the count of a section. -/
def addCount (sec : Section) (j : Nat) (h : Header) : Header :=
  match sec with
  | .question => { h with questionsCount := h.questionsCount + UInt16.ofNat j }
  | .answer => { h with answersCount := h.answersCount + UInt16.ofNat j }
  | .authority => { h with authoritiesCount := h.authoritiesCount + UInt16.ofNat j }
  | .additional => { h with additionalsCount := h.additionalsCount + UInt16.ofNat j }

theorem addCount_zero (sec : Section) (h : Header) : addCount sec 0 h = h := by
  cases sec <;> simp [addCount]

theorem addCount_succ (sec : Section) (j : Nat) (h : Header) :
    addCount sec j (Message.incCount sec h) = addCount sec (j + 1) h := by
  cases sec <;>
    simp only [addCount, Message.incCount, UInt16.ofNat_add, UInt16.add_assoc, UInt16.add_comm 1] <;> rfl

theorem addCount_op (sec : Section) (j : Nat) (h : Header) : (addCount sec j h).opCode = h.opCode := by
  cases sec <;> rfl

theorem incCount_op (sec : Section) (h : Header) : (Message.incCount sec h).opCode = h.opCode := by
  cases sec <;> rfl

/-- Encodings of the first items. -/
def Encodings {α : Type} (e : α → BufM ParsingErr Unit) (xs : List α) (ws : List (List UInt8)) : Prop :=
  List.Forall₂ (fun x w => Writes (e x) w) xs ws

/-- How one section ends, starting with the bytes `bs`. -/
def SectionOutcome {α : Type} (e : α → BufM ParsingErr Unit) (sec : Section) (xs : List α) (h : Header)
    (bs : List UInt8) : Out MessageErr (List UInt8 ⊕ Header) × BitsBuf → Prop
  | (.ok (.inr h'), b) => h' = addCount sec xs.length h ∧ ∃ ws, Encodings e xs ws ∧ b = app (bs ++ ws.flatten) ∧
      (bs ++ ws.flatten).length ≤ 512
  | (.ok (.inl out), _) => ∃ j ws, ∃ hj : j < xs.length, ∃ w, Encodings e (xs.take j) ws ∧ Writes (e xs[j]) w ∧
      (bs ++ ws.flatten).length ≤ 512 ∧ 512 < (bs ++ ws.flatten ++ w).length ∧ h.opCode = .STD ∧
      out = headerBytes { addCount sec j h with truncated := true } ++ (bs ++ ws.flatten).drop 12
  | _ => (∃ a ∈ xs, ∀ w, ¬ Writes (e a) w) ∨ h.opCode ≠ .STD

theorem section_trunc {α : Type} {e : α → BufM ParsingErr Unit} (he : ∀ a, Encoder (e a)) (sec : Section)
    (xs : List α) : ∀ n i, i + n = xs.length → ∀ (h : Header) (bs : List UInt8), 12 ≤ bs.length → bs.length ≤ 512 →
    SectionOutcome e sec (xs.drop i) h bs (Message.encodeItemsTrunc e sec xs n i h (app bs))
  | 0, i, hi, h, bs, h12, h512 => by
    have hd : xs.drop i = [] := List.drop_of_length_le (by omega)
    rw [hd]
    refine ⟨(addCount_zero sec h).symm, [], .nil, by simp, by simpa using h512⟩
  | n + 1, i, hi, h, bs, h12, h512 => by
    have hlt : i < xs.length := by omega
    unfold Message.encodeItemsTrunc
    rw [List.getElem?_eq_getElem hlt, List.drop_eq_getElem_cons hlt]
    simp only
    rw [BufM.bind_ok (show (writePos : BufM MessageErr Nat) (app bs) = (.ok (8 * bs.length), app bs) from rfl)]
    rcases he xs[i] with ⟨w, hw⟩ | ⟨er, hw⟩ | ⟨k, hw⟩
    · rw [BufM.bind_ok (hw.mapErr (f := sec.err i) bs)]
      rw [BufM.bind_ok (show (writePos : BufM MessageErr Nat) (app (bs ++ w)) = (.ok (8 * (bs ++ w).length), app (bs ++ w))
        from rfl)]
      by_cases hov : 8 * (bs ++ w).length / 8 > Message.MAX_UDP_LEN_BYTES
      · rw [if_pos hov]
        have hov' : 512 < (bs ++ w).length := by
          have : Message.MAX_UDP_LEN_BYTES = 512 := rfl
          omega
        by_cases hop : h.opCode = .STD
        · obtain ⟨b', hf⟩ := finishTrunc_ok hop (z := bs.take 12) (x := bs.drop 12) (y := w)
            (by simp; omega)
          rw [List.take_append_drop] at hf
          rw [BufM.bind_ok hf]
          refine ⟨0, [], by simp; omega, w, .nil, by simpa using hw, by simpa using h512, by simpa using hov', hop, ?_⟩
          rw [addCount_zero]; simp
        · have hp : ∃ b', Message.finishTrunc h (8 * bs.length) (app (bs ++ w)) = (.panic .assert, b') := by
            unfold Message.finishTrunc
            rw [BufM.bind_ok (setWritePos_app _)]
            have := header_encode_panic (h := { h with truncated := true }) hop
              (BitsBuf.mk (bs ++ w) (8 * (bs ++ w).length) 0 0)
            have h2 : Header.encode { h with truncated := true } (BitsBuf.mk (bs ++ w) (8 * (bs ++ w).length) 0 0) =
              (.panic .assert, (Header.encode { h with truncated := true }
                (BitsBuf.mk (bs ++ w) (8 * (bs ++ w).length) 0 0)).2) := by rw [← this]
            exact ⟨_, BufM.bind_panic (BufM.mapErr_panic h2)⟩
          obtain ⟨b', hp⟩ := hp
          rw [BufM.bind_panic hp]; exact .inr hop
      · rw [if_neg hov]
        have hov' : (bs ++ w).length ≤ 512 := by
          have : Message.MAX_UDP_LEN_BYTES = 512 := rfl
          omega
        have ih := section_trunc he sec xs n (i + 1) (by omega) (Message.incCount sec h) (bs ++ w)
          (by simp; omega) hov'
        generalize Message.encodeItemsTrunc e sec xs n (i + 1) (Message.incCount sec h) (app (bs ++ w)) = res at ih ⊢
        obtain ⟨o, b⟩ := res
        match o, ih with
        | .ok (.inr h'), ih =>
          obtain ⟨e1, ws, e2, e3, e4⟩ := ih
          refine ⟨by rw [e1, addCount_succ]; rfl, w :: ws, .cons hw e2, ?_, ?_⟩
          · rw [e3]; simp
          · simpa [Nat.add_assoc] using e4
        | .ok (.inl out), ih =>
          obtain ⟨j, ws, hj, v, e2, e3, e4, e5, e6, e7⟩ := ih
          refine ⟨j + 1, w :: ws, by simp; simp at hj; omega, v, ?_, ?_, ?_, ?_, ?_, ?_⟩
          · simp only [List.take_succ_cons]; exact .cons hw e2
          · exact e3
          · simpa [Nat.add_assoc] using e4
          · simpa [Nat.add_assoc] using e5
          · rw [incCount_op] at e6; exact e6
          · rw [e7, addCount_succ]; simp
        | .err _, ih => exact ih.imp (fun ⟨a, h1, h2⟩ => ⟨a, List.mem_cons_of_mem _ h1, h2⟩) (by rw [incCount_op]; exact id)
        | .panic _, ih => exact ih.imp (fun ⟨a, h1, h2⟩ => ⟨a, List.mem_cons_of_mem _ h1, h2⟩) (by rw [incCount_op]; exact id)
        | .diverge, ih => exact ih.imp (fun ⟨a, h1, h2⟩ => ⟨a, List.mem_cons_of_mem _ h1, h2⟩) (by rw [incCount_op]; exact id)
    · have h2 : e xs[i] (app bs) = (.err er, (e xs[i] (app bs)).2) := by rw [← hw bs]
      rw [BufM.bind_err (BufM.mapErr_err h2)]
      refine .inl ⟨xs[i], List.mem_cons_self, fun w h => ?_⟩
      have := hw []; rw [h []] at this; cases this
    · have h2 : e xs[i] (app bs) = (.panic k, (e xs[i] (app bs)).2) := by rw [← hw bs]
      rw [BufM.bind_panic (BufM.mapErr_panic h2)]
      refine .inl ⟨xs[i], List.mem_cons_self, fun w h => ?_⟩
      have := hw []; rw [h []] at this; cases this

/-- Encoding all items of known encodings. -/
theorem encodings_writes {α : Type} {e : α → BufM ParsingErr Unit} (sec : Section) (xs : List α) :
    ∀ n i ws, i + n = xs.length → Encodings e (xs.drop i) ws → Writes (Message.encodeItems e sec xs n i) ws.flatten
  | 0, i, ws, hi, h => by
    rw [List.drop_of_length_le (by omega)] at h
    cases h
    exact Writes.pure
  | n + 1, i, ws, hi, h => by
    have hlt : i < xs.length := by omega
    rw [List.drop_eq_getElem_cons hlt] at h
    cases h with
    | @cons _ w _ ws' h1 h2 =>
      unfold Message.encodeItems
      rw [List.getElem?_eq_getElem hlt]
      rw [List.flatten_cons]
      exact Writes.bind h1.mapErr (encodings_writes sec xs n (i + 1) ws' (by omega) h2)

theorem section_trunc' {α : Type} {e : α → BufM ParsingErr Unit} (he : ∀ a, Encoder (e a)) (sec : Section)
    (xs : List α) {n : Nat} (hn : n = xs.length) (h : Header) {bs : List UInt8} (h12 : 12 ≤ bs.length)
    (h512 : bs.length ≤ 512) : SectionOutcome e sec xs h bs (Message.encodeItemsTrunc e sec xs n 0 h (app bs)) := by
  have := section_trunc he sec xs n 0 (by omega) h bs h12 h512
  simpa using this

theorem encode_of_encodings {m : Message} (hop : m.header.opCode = .STD) (hc : CountsMatch m)
    {q an au ad : List (List UInt8)} (h1 : Encodings Question.encode m.questions q)
    (h2 : Encodings Record.encode m.answers an) (h3 : Encodings Record.encode m.authorities au)
    (h4 : Encodings Record.encode m.additionals ad) :
    m.encodeToBytes = .ok (headerBytes m.header ++ (q.flatten ++ (an.flatten ++ (au.flatten ++ ad.flatten)))) := by
  obtain ⟨c1, c2, c3, c4⟩ := hc
  unfold Message.encodeToBytes
  rw [app_nil, BufM.bind_ok ((writes_header hop).mapErr (f := MessageErr.headerErr) []),
    BufM.bind_ok (encodings_writes .question _ _ 0 _ (by omega) h1 _),
    BufM.bind_ok (encodings_writes .answer _ _ 0 _ (by omega) h2 _),
    BufM.bind_ok (encodings_writes .authority _ _ 0 _ (by omega) h3 _),
    BufM.bind_ok (encodings_writes .additional _ _ 0 _ (by omega) h4 _)]
  simp [Message.takeVec, intoVec, app]

theorem Encodings.snoc {α : Type} {e : α → BufM ParsingErr Unit} {xs : List α} {j : Nat} {ws : List (List UInt8)}
    {w : List UInt8} (h : Encodings e (xs.take j) ws) (hj : j < xs.length) (hw : Writes (e xs[j]) w) :
    Encodings e (xs.take (j + 1)) (ws ++ [w]) := by
  rw [List.take_succ_eq_append_getElem hj]
  exact List.rel_append h (.cons hw .nil)

/-- The conclusion about truncated encoding. -/
def TruncOk (m : Message) (out : List UInt8) : Prop :=
  12 ≤ out.length ∧ out.length ≤ 512 ∧ ∃ k ≤ total m, (cut m k).encodeToBytes = .ok out ∧
    (k < total m → ∃ out', (cut m (k + 1)).encodeToBytes = .ok out' ∧ 512 < out'.length)

/-- All items can be encoded. -/
def AllWrite (m : Message) : Prop :=
  m.header.opCode = .STD ∧ (∀ q ∈ m.questions, ∃ w, Writes (Question.encode q) w) ∧
    ∀ r ∈ m.answers ++ m.authorities ++ m.additionals, ∃ w, Writes (Record.encode r) w

theorem andThen_inr {m : BufM MessageErr (List UInt8 ⊕ Header)} {f : Header → BufM MessageErr (List UInt8 ⊕ Header)}
    {b b' : BitsBuf} {h : Header} (hm : m b = (.ok (.inr h), b')) : Message.andThen m f b = f h b' := by
  unfold Message.andThen; rw [BufM.bind_ok hm]

theorem andThen_inl {m : BufM MessageErr (List UInt8 ⊕ Header)} {f : Header → BufM MessageErr (List UInt8 ⊕ Header)}
    {b b' : BitsBuf} {x : List UInt8} (hm : m b = (.ok (.inl x), b')) :
    Message.andThen m f b = (.ok (.inl x), b') := by
  unfold Message.andThen; rw [BufM.bind_ok hm]; rfl

theorem andThen_fail {m : BufM MessageErr (List UInt8 ⊕ Header)} {f : Header → BufM MessageErr (List UInt8 ⊕ Header)}
    {b : BitsBuf} (hm : ∀ x, (m b).1 ≠ .ok x) : ∀ x, (Message.andThen m f b).1 ≠ .ok x := by
  intro x
  unfold Message.andThen
  rw [BufM.bind_apply]
  rcases h : m b with ⟨o, b'⟩
  cases o with
  | ok a => exact absurd (by rw [h]) (hm a)
  | err e => simp
  | panic k => simp
  | diverge => simp

/-- The part of `encode_to_bytes_trunc` after the placeholder header. -/
def truncBody (m : Message) (h : Header) : BufM MessageErr (List UInt8 ⊕ Header) :=
  Message.andThen (Message.encodeItemsTrunc Question.encode .question m.questions m.header.questionsCount.toNat 0 h) fun h =>
  Message.andThen (Message.encodeItemsTrunc Record.encode .answer m.answers m.header.answersCount.toNat 0 h) fun h =>
  Message.andThen (Message.encodeItemsTrunc Record.encode .authority m.authorities m.header.authoritiesCount.toNat 0 h) fun h =>
  Message.encodeItemsTrunc Record.encode .additional m.additionals m.header.additionalsCount.toNat 0 h

/-- `x` is the encoding of the first `k` items. -/
def BodyBytes (m : Message) (k : Nat) (x : List UInt8) : Prop :=
  ∃ q an au ad, Encodings Question.encode (cut m k).questions q ∧ Encodings Record.encode (cut m k).answers an ∧
      Encodings Record.encode (cut m k).authorities au ∧ Encodings Record.encode (cut m k).additionals ad ∧
      x = q.flatten ++ (an.flatten ++ (au.flatten ++ ad.flatten))

theorem body_q {m : Message} {j : Nat} {q : List (List UInt8)} (hj : j ≤ m.questions.length)
    (h : Encodings Question.encode (m.questions.take j) q) : BodyBytes m j q.flatten := by
  refine ⟨q, [], [], [], h, ?_, ?_, ?_, by simp⟩
  all_goals
    simp only [cut]
    rw [show j - m.questions.length = 0 by omega]
    simp [Encodings]

theorem body_an {m : Message} {j : Nat} {q an : List (List UInt8)} (hj : j ≤ m.answers.length)
    (h1 : Encodings Question.encode m.questions q) (h : Encodings Record.encode (m.answers.take j) an) :
    BodyBytes m (m.questions.length + j) (q.flatten ++ an.flatten) := by
  refine ⟨q, an, [], [], ?_, ?_, ?_, ?_, by simp⟩
  all_goals simp only [cut]
  · rw [List.take_of_length_le (by omega)]; exact h1
  · rw [show m.questions.length + j - m.questions.length = j by omega]; exact h
  all_goals
    rw [show m.questions.length + j - m.questions.length - m.answers.length = 0 by omega]
    simp [Encodings]

theorem body_au {m : Message} {j : Nat} {q an au : List (List UInt8)} (hj : j ≤ m.authorities.length)
    (h1 : Encodings Question.encode m.questions q) (h2 : Encodings Record.encode m.answers an)
    (h : Encodings Record.encode (m.authorities.take j) au) :
    BodyBytes m (m.questions.length + m.answers.length + j) (q.flatten ++ an.flatten ++ au.flatten) := by
  refine ⟨q, an, au, [], ?_, ?_, ?_, ?_, by simp⟩
  all_goals simp only [cut]
  · rw [List.take_of_length_le (by omega)]; exact h1
  · rw [List.take_of_length_le (by omega)]; exact h2
  · rw [show m.questions.length + m.answers.length + j - m.questions.length - m.answers.length = j by omega]; exact h
  · rw [show m.questions.length + m.answers.length + j - m.questions.length - m.answers.length - m.authorities.length
      = 0 by omega]
    simp [Encodings]

theorem body_ad {m : Message} {j : Nat} {q an au ad : List (List UInt8)}
    (h1 : Encodings Question.encode m.questions q) (h2 : Encodings Record.encode m.answers an)
    (h3 : Encodings Record.encode m.authorities au) (h : Encodings Record.encode (m.additionals.take j) ad) :
    BodyBytes m (m.questions.length + m.answers.length + m.authorities.length + j)
      (q.flatten ++ an.flatten ++ au.flatten ++ ad.flatten) := by
  refine ⟨q, an, au, ad, ?_, ?_, ?_, ?_, by simp⟩
  all_goals simp only [cut]
  · rw [List.take_of_length_le (by omega)]; exact h1
  · rw [List.take_of_length_le (by omega)]; exact h2
  · rw [List.take_of_length_le (by omega)]; exact h3
  · rw [show m.questions.length + m.answers.length + m.authorities.length + j - m.questions.length - m.answers.length -
      m.authorities.length = j by omega]; exact h

/-- Header after zeroing the counts. -/
def zeroCounts (h : Header) : Header :=
  { h with questionsCount := 0, answersCount := 0, authoritiesCount := 0, additionalsCount := 0 }

/-- How all sections end. -/
def BodyOutcome (m : Message) (z : List UInt8) : Out MessageErr (List UInt8 ⊕ Header) × BitsBuf → Prop
  | (.ok (.inr h'), b) => h' = (cut m (total m)).header ∧
      ∃ x, BodyBytes m (total m) x ∧ b = app (z ++ x) ∧ (z ++ x).length ≤ 512
  | (.ok (.inl out), _) => m.header.opCode = .STD ∧ ∃ k < total m, ∃ x w, BodyBytes m k x ∧ BodyBytes m (k + 1) (x ++ w) ∧
      (z ++ x).length ≤ 512 ∧ 512 < (z ++ x ++ w).length ∧ out = headerBytes (cut m k).header ++ x
  | _ => ¬ AllWrite m

theorem fail_not_all {α : Type} {e : α → BufM ParsingErr Unit} {sec : Section} {xs : List α} {h : Header}
    {bs : List UInt8} {o : Out MessageErr (List UInt8 ⊕ Header)} {b : BitsBuf}
    (hs : SectionOutcome e sec xs h bs (o, b)) (ho : ∀ x, o ≠ .ok x) :
    (∃ a ∈ xs, ∀ w, ¬ Writes (e a) w) ∨ h.opCode ≠ .STD := by
  cases o with
  | ok a => exact absurd rfl (ho a)
  | err e => exact hs
  | panic k => exact hs
  | diverge => exact hs

theorem bodyOutcome_fail {m : Message} {z : List UInt8} {o : Out MessageErr (List UInt8 ⊕ Header) × BitsBuf}
    (h : ∀ x, o.1 ≠ .ok x) (hn : ¬ AllWrite m) : BodyOutcome m z o := by
  obtain ⟨o, b⟩ := o
  cases o with
  | ok a => exact absurd rfl (h a)
  | err e => exact hn
  | panic k => exact hn
  | diverge => exact hn

theorem body_spec {m : Message} (hc : CountsMatch m) {z : List UInt8} (hzl : z.length = 12) :
    BodyOutcome m z (truncBody m (zeroCounts m.header) (app z)) := by
  have c1 := hc.1
  have c2 := hc.2.1
  have c3 := hc.2.2.1
  have c4 := hc.2.2.2
  have hop0 : (zeroCounts m.header).opCode = m.header.opCode := rfl
  unfold truncBody
  -- questions
  have s1 := section_trunc' encoder_question .question m.questions c1 (zeroCounts m.header) (bs := z) (by omega) (by omega)
  rcases hr1 : Message.encodeItemsTrunc Question.encode .question m.questions m.header.questionsCount.toNat 0
    (zeroCounts m.header) (app z) with ⟨o1, b1⟩
  rw [hr1] at s1
  by_cases ho1 : ∀ x, o1 ≠ .ok x
  · refine bodyOutcome_fail (andThen_fail (by rw [hr1]; exact ho1)) fun ⟨a1, a2, a3⟩ => ?_
    rcases fail_not_all s1 ho1 with ⟨a, h1, h2⟩ | h1
    · obtain ⟨w, hw⟩ := a2 a h1; exact h2 w hw
    · exact h1 a1
  obtain ⟨x1, rfl⟩ : ∃ x, o1 = .ok x := Classical.byContradiction fun hn => ho1 fun x hx => hn ⟨x, hx⟩
  cases x1 with
  | inl out =>
    rw [andThen_inl hr1]
    obtain ⟨j, ws, hj, w, e1, e2, e3, e4, e5, e6⟩ := s1
    have hk : j < total m := by unfold total; omega
    refine ⟨e5, j, hk, ws.flatten, w, body_q (by omega) e1, ?_, e3, e4, ?_⟩
    · have := body_q (by omega) (e1.snoc hj e2)
      simpa using this
    · rw [e6]
      congr 2
      · simp only [addCount, zeroCounts, cut, if_pos hk, UInt16.zero_add, List.length_take, Header.mk.injEq, true_and]
        refine ⟨by congr 1; omega, ?_, ?_, ?_⟩ <;> (rw [show j - m.questions.length = 0 by omega]; simp)
      · rw [List.drop_append_of_le_length (by omega), List.drop_of_length_le (by omega)]; rfl
  | inr h1 =>
  obtain ⟨t1, q, t2, rfl, t3⟩ := s1
  rw [andThen_inr hr1]
  have hop1 : h1.opCode = m.header.opCode := by rw [t1, addCount_op]; rfl
  -- answers
  have s2 := section_trunc' encoder_record .answer m.answers c2 h1 (bs := z ++ q.flatten)
    (by rw [List.length_append]; omega) t3
  rcases hr2 : Message.encodeItemsTrunc Record.encode .answer m.answers m.header.answersCount.toNat 0 h1
    (app (z ++ q.flatten)) with ⟨o1, b1⟩
  rw [hr2] at s2
  by_cases ho1 : ∀ x, o1 ≠ .ok x
  · refine bodyOutcome_fail (andThen_fail (by rw [hr2]; exact ho1)) fun ⟨a1, a2, a3⟩ => ?_
    rcases fail_not_all s2 ho1 with ⟨a, h1, h2⟩ | h1
    · obtain ⟨w, hw⟩ := a3 a (by simp [h1]); exact h2 w hw
    · exact h1 (hop1.trans a1)
  obtain ⟨x1, rfl⟩ : ∃ x, o1 = .ok x := Classical.byContradiction fun hn => ho1 fun x hx => hn ⟨x, hx⟩
  cases x1 with
  | inl out =>
    rw [andThen_inl hr2]
    obtain ⟨j, ws, hj, w, e1, e2, e3, e4, e5, e6⟩ := s2
    have hk : m.questions.length + j < total m := by unfold total; omega
    refine ⟨hop1 ▸ e5, m.questions.length + j, hk, q.flatten ++ ws.flatten, w, body_an (by omega) t2 e1, ?_,
      by simpa [Nat.add_assoc] using e3, by simpa [Nat.add_assoc] using e4, ?_⟩
    · have := body_an (by omega) t2 (e1.snoc hj e2)
      simpa [Nat.add_assoc] using this
    · rw [e6]
      congr 2
      · rw [t1]
        simp only [addCount, zeroCounts, cut, if_pos hk, UInt16.zero_add, List.length_take, Header.mk.injEq, true_and]
        refine ⟨by congr 1; omega, by congr 1; omega, ?_, ?_⟩ <;>
          (rw [show m.questions.length + j - m.questions.length - m.answers.length = 0 by omega]; simp)
      · rw [List.append_assoc, List.drop_append_of_le_length (by omega), List.drop_of_length_le (by omega)]; rfl
  | inr h2 =>
  obtain ⟨t4, an, t5, rfl, t6⟩ := s2
  rw [andThen_inr hr2]
  have hop2 : h2.opCode = m.header.opCode := by rw [t4, addCount_op, hop1]
  -- authorities
  have s3 := section_trunc' encoder_record .authority m.authorities c3 h2 (bs := z ++ q.flatten ++ an.flatten)
    (by rw [List.length_append, List.length_append]; omega) t6
  rcases hr3 : Message.encodeItemsTrunc Record.encode .authority m.authorities m.header.authoritiesCount.toNat 0 h2
    (app (z ++ q.flatten ++ an.flatten)) with ⟨o1, b1⟩
  rw [hr3] at s3
  by_cases ho1 : ∀ x, o1 ≠ .ok x
  · refine bodyOutcome_fail (andThen_fail (by rw [hr3]; exact ho1)) fun ⟨a1, a2, a3⟩ => ?_
    rcases fail_not_all s3 ho1 with ⟨a, h1, h2⟩ | h1
    · obtain ⟨w, hw⟩ := a3 a (by simp [h1]); exact h2 w hw
    · exact h1 (hop2.trans a1)
  obtain ⟨x1, rfl⟩ : ∃ x, o1 = .ok x := Classical.byContradiction fun hn => ho1 fun x hx => hn ⟨x, hx⟩
  cases x1 with
  | inl out =>
    rw [andThen_inl hr3]
    obtain ⟨j, ws, hj, w, e1, e2, e3, e4, e5, e6⟩ := s3
    have hk : m.questions.length + m.answers.length + j < total m := by unfold total; omega
    refine ⟨hop2 ▸ e5, m.questions.length + m.answers.length + j, hk, q.flatten ++ an.flatten ++ ws.flatten, w,
      body_au (by omega) t2 t5 e1, ?_, by simpa [Nat.add_assoc] using e3, by simpa [Nat.add_assoc] using e4, ?_⟩
    · have := body_au (by omega) t2 t5 (e1.snoc hj e2)
      simpa [Nat.add_assoc] using this
    · rw [e6]
      congr 2
      · rw [t4, t1]
        simp only [addCount, zeroCounts, cut, if_pos hk, UInt16.zero_add, List.length_take, Header.mk.injEq, true_and]
        refine ⟨by congr 1; omega, by congr 1; omega, by congr 1; omega, ?_⟩
        rw [show m.questions.length + m.answers.length + j - m.questions.length - m.answers.length -
          m.authorities.length = 0 by omega]; simp
      · rw [List.append_assoc, List.append_assoc, List.append_assoc, List.drop_append_of_le_length (by omega),
          List.drop_of_length_le (by omega)]; rfl
  | inr h3 =>
  obtain ⟨t7, au, t8, rfl, t9⟩ := s3
  rw [andThen_inr hr3]
  have hop3 : h3.opCode = m.header.opCode := by rw [t7, addCount_op, hop2]
  -- additionals
  have s4 := section_trunc' encoder_record .additional m.additionals c4 h3
    (bs := z ++ q.flatten ++ an.flatten ++ au.flatten)
    (by rw [List.length_append, List.length_append, List.length_append]; omega) t9
  rcases hr4 : Message.encodeItemsTrunc Record.encode .additional m.additionals m.header.additionalsCount.toNat 0 h3
    (app (z ++ q.flatten ++ an.flatten ++ au.flatten)) with ⟨o1, b1⟩
  rw [hr4] at s4
  by_cases ho1 : ∀ x, o1 ≠ .ok x
  · refine bodyOutcome_fail ho1 fun ⟨a1, a2, a3⟩ => ?_
    rcases fail_not_all s4 ho1 with ⟨a, h1, h2⟩ | h1
    · obtain ⟨w, hw⟩ := a3 a (by simp [h1]); exact h2 w hw
    · exact h1 (hop3.trans a1)
  obtain ⟨x1, rfl⟩ : ∃ x, o1 = .ok x := Classical.byContradiction fun hn => ho1 fun x hx => hn ⟨x, hx⟩
  cases x1 with
  | inl out =>
    obtain ⟨j, ws, hj, w, e1, e2, e3, e4, e5, e6⟩ := s4
    have hk : m.questions.length + m.answers.length + m.authorities.length + j < total m := by unfold total; omega
    refine ⟨hop3 ▸ e5, m.questions.length + m.answers.length + m.authorities.length + j, hk,
      q.flatten ++ an.flatten ++ au.flatten ++ ws.flatten, w,
      body_ad t2 t5 t8 e1, ?_, by simpa [Nat.add_assoc] using e3, by simpa [Nat.add_assoc] using e4, ?_⟩
    · have := body_ad t2 t5 t8 (e1.snoc hj e2)
      simpa [Nat.add_assoc] using this
    · rw [e6]
      congr 2
      · rw [t7, t4, t1]
        simp only [addCount, zeroCounts, cut, if_pos hk, UInt16.zero_add, List.length_take, Header.mk.injEq, true_and]
        refine ⟨by congr 1; omega, by congr 1; omega, by congr 1; omega, by congr 1; omega⟩
      · rw [List.append_assoc, List.append_assoc, List.append_assoc, List.append_assoc,
          List.drop_append_of_le_length (by omega), List.drop_of_length_le (by omega)]; simp
  | inr h4 =>
    obtain ⟨t10, ad, t11, rfl, t12⟩ := s4
    refine ⟨?_, q.flatten ++ an.flatten ++ au.flatten ++ ad.flatten, ?_, by simp, by simpa [Nat.add_assoc] using t12⟩
    · rw [t10, t7, t4, t1]
      simp only [addCount, zeroCounts, cut, UInt16.zero_add, List.length_take, Header.mk.injEq, true_and, Nat.lt_irrefl,
        if_false]
      unfold total
      refine ⟨by congr 1; omega, by congr 1; omega, by congr 1; omega, by congr 1; omega⟩
    · have := body_ad (j := m.additionals.length) t2 t5 t8 (by simpa using t11)
      exact this

theorem ofNat_take_length {α : Type} {l : List α} {c : UInt16} (hc : c.toNat = l.length) (k : Nat) :
    (UInt16.ofNat (l.take k).length).toNat = (l.take k).length := by
  have := c.toNat_lt
  rw [UInt16.toNat_ofNat']
  apply Nat.mod_eq_of_lt
  simp only [List.length_take]
  omega

theorem cut_counts {m : Message} (hc : CountsMatch m) (k : Nat) : CountsMatch (cut m k) :=
  ⟨ofNat_take_length hc.1 _, ofNat_take_length hc.2.1 _, ofNat_take_length hc.2.2.1 _, ofNat_take_length hc.2.2.2 _⟩

theorem body_encode {m : Message} (hc : CountsMatch m) (hop : m.header.opCode = .STD) {k : Nat} {x : List UInt8}
    (h : BodyBytes m k x) : (cut m k).encodeToBytes = .ok (headerBytes (cut m k).header ++ x) := by
  obtain ⟨q, an, au, ad, h1, h2, h3, h4, rfl⟩ := h
  exact encode_of_encodings (m := cut m k) hop (cut_counts hc k) h1 h2 h3 h4

/-- Encoding all items succeeds only if each is encodable. -/
theorem encodeItems_ok {α : Type} {e : α → BufM ParsingErr Unit} (he : ∀ a, Encoder (e a)) (sec : Section)
    (xs : List α) : ∀ n i, i + n = xs.length → ∀ bs b, Message.encodeItems e sec xs n i (app bs) = (.ok (), b) →
    (∀ a ∈ xs.drop i, ∃ w, Writes (e a) w) ∧ ∃ bs', b = app bs'
  | 0, i, hi, bs, b, h => by
    rw [List.drop_of_length_le (by omega)]
    cases h
    refine ⟨?_, bs, rfl⟩
    intro a ha; cases ha
  | n + 1, i, hi, bs, b, h => by
    have hlt : i < xs.length := by omega
    rw [List.drop_eq_getElem_cons hlt]
    unfold Message.encodeItems at h
    rw [List.getElem?_eq_getElem hlt] at h
    simp only at h
    rcases he xs[i] with ⟨w, hw⟩ | ⟨er, hw⟩ | ⟨k, hw⟩
    · rw [BufM.bind_ok (hw.mapErr (f := sec.err i) bs)] at h
      obtain ⟨h1, h2⟩ := encodeItems_ok he sec xs n (i + 1) (by omega) _ _ h
      refine ⟨fun a ha => ?_, h2⟩
      rcases List.mem_cons.1 ha with rfl | ha
      · exact ⟨w, hw⟩
      · exact h1 a ha
    · have h2 : e xs[i] (app bs) = (.err er, (e xs[i] (app bs)).2) := by rw [← hw bs]
      rw [BufM.bind_err (BufM.mapErr_err h2)] at h; cases h
    · have h2 : e xs[i] (app bs) = (.panic k, (e xs[i] (app bs)).2) := by rw [← hw bs]
      rw [BufM.bind_panic (BufM.mapErr_panic h2)] at h; cases h

theorem BufM.ok_bind {ε α β : Type} {m : BufM ε α} {f : α → BufM ε β} {b b'' : BitsBuf} {v : β}
    (h : (m >>= f) b = (.ok v, b'')) : ∃ a b', m b = (.ok a, b') ∧ f a b' = (.ok v, b'') := by
  rw [BufM.bind_apply] at h
  rcases hm : m b with ⟨o, b'⟩
  rw [hm] at h
  cases o with
  | ok a => exact ⟨a, b', rfl, h⟩
  | err e => cases h
  | panic k => cases h
  | diverge => cases h

theorem allWrite_of_encode {m : Message} (hc : CountsMatch m) {x : List UInt8} (h : m.encodeToBytes = .ok x) :
    AllWrite m := by
  obtain ⟨c1, c2, c3, c4⟩ := hc
  unfold Message.encodeToBytes at h
  rw [app_nil] at h
  have hop : m.header.opCode = .STD := Classical.byContradiction fun hop => by
    have h2 : Header.encode m.header (app []) = (.panic .assert, _) :=
        Prod.ext (header_encode_panic hop _) rfl
    rw [BufM.bind_panic (BufM.mapErr_panic h2)] at h; cases h
  rw [BufM.bind_ok ((writes_header hop).mapErr (f := MessageErr.headerErr) [])] at h
  replace h := Prod.ext (y := (Out.ok x, _)) h rfl
  obtain ⟨_, b1, g1, h⟩ := BufM.ok_bind h
  obtain ⟨e1, bs1, rfl⟩ := encodeItems_ok encoder_question _ _ _ _ (by omega) _ _ g1
  obtain ⟨_, b2, g2, h⟩ := BufM.ok_bind h
  obtain ⟨e2, bs2, rfl⟩ := encodeItems_ok encoder_record _ _ _ _ (by omega) _ _ g2
  obtain ⟨_, b3, g3, h⟩ := BufM.ok_bind h
  obtain ⟨e3, bs3, rfl⟩ := encodeItems_ok encoder_record _ _ _ _ (by omega) _ _ g3
  obtain ⟨_, b4, g4, h⟩ := BufM.ok_bind h
  obtain ⟨e4, bs4, rfl⟩ := encodeItems_ok encoder_record _ _ _ _ (by omega) _ _ g4
  refine ⟨hop, by simpa using e1, fun r hr => ?_⟩
  simp only [List.mem_append] at hr
  rcases hr with (hr | hr) | hr
  · exact e2 r (by simpa using hr)
  · exact e3 r (by simpa using hr)
  · exact e4 r (by simpa using hr)

/-- Sizes after a section. -/
def SizeOk : Out MessageErr (List UInt8 ⊕ Header) × BitsBuf → Prop
  | (.ok (.inl out), _) => 12 ≤ out.length ∧ out.length ≤ 512
  | (.ok (.inr _), b) => ∃ bs, b = app bs ∧ 12 ≤ bs.length ∧ bs.length ≤ 512
  | _ => True

theorem section_size {α : Type} {e : α → BufM ParsingErr Unit} (he : ∀ a, Encoder (e a)) (sec : Section)
    (xs : List α) : ∀ n i (h : Header) (bs : List UInt8), 12 ≤ bs.length → bs.length ≤ 512 →
    SizeOk (Message.encodeItemsTrunc e sec xs n i h (app bs))
  | 0, i, h, bs, h12, h512 => ⟨bs, rfl, h12, h512⟩
  | n + 1, i, h, bs, h12, h512 => by
    unfold Message.encodeItemsTrunc
    cases hx : xs[i]? with
    | none => trivial
    | some x =>
    simp only
    rw [BufM.bind_ok (show (writePos : BufM MessageErr Nat) (app bs) = (.ok (8 * bs.length), app bs) from rfl)]
    rcases he x with ⟨w, hw⟩ | ⟨er, hw⟩ | ⟨k, hw⟩
    · rw [BufM.bind_ok (hw.mapErr (f := sec.err i) bs)]
      rw [BufM.bind_ok (show (writePos : BufM MessageErr Nat) (app (bs ++ w)) = (.ok (8 * (bs ++ w).length), app (bs ++ w))
        from rfl)]
      by_cases hov : 8 * (bs ++ w).length / 8 > Message.MAX_UDP_LEN_BYTES
      · rw [if_pos hov]
        by_cases hop : h.opCode = .STD
        · obtain ⟨b', hf⟩ := finishTrunc_ok hop (z := bs.take 12) (x := bs.drop 12) (y := w)
            (by simp; omega)
          rw [List.take_append_drop] at hf
          rw [BufM.bind_ok hf]
          show _ ∧ _
          simp [headerBytes_length]; omega
        · have h2 : Header.encode { h with truncated := true } (BitsBuf.mk (bs ++ w) (8 * (bs ++ w).length) 0 0) =
              (.panic .assert, _) := Prod.ext (header_encode_panic (h := { h with truncated := true }) hop _) rfl
          have hp : ∃ b', Message.finishTrunc h (8 * bs.length) (app (bs ++ w)) = (.panic .assert, b') := by
            unfold Message.finishTrunc
            rw [BufM.bind_ok (setWritePos_app _)]
            exact ⟨_, BufM.bind_panic (BufM.mapErr_panic h2)⟩
          obtain ⟨b', hp⟩ := hp
          rw [BufM.bind_panic hp]; trivial
      · rw [if_neg hov]
        have : Message.MAX_UDP_LEN_BYTES = 512 := rfl
        exact section_size he sec xs n (i + 1) (Message.incCount sec h) (bs ++ w) (by simp; omega) (by omega)
    · have h2 : e x (app bs) = (.err er, (e x (app bs)).2) := by rw [← hw bs]
      rw [BufM.bind_err (BufM.mapErr_err h2)]; trivial
    · have h2 : e x (app bs) = (.panic k, (e x (app bs)).2) := by rw [← hw bs]
      rw [BufM.bind_panic (BufM.mapErr_panic h2)]; trivial

theorem sizeOk_andThen {m : BufM MessageErr (List UInt8 ⊕ Header)} {f : Header → BufM MessageErr (List UInt8 ⊕ Header)}
    {b : BitsBuf} (hm : SizeOk (m b)) (hf : ∀ h bs, 12 ≤ bs.length → bs.length ≤ 512 → SizeOk (f h (app bs))) :
    SizeOk (Message.andThen m f b) := by
  unfold Message.andThen
  rw [BufM.bind_apply]
  rcases h : m b with ⟨o, b'⟩
  rw [h] at hm
  match o, hm with
  | .ok (.inl out), hm => exact hm
  | .ok (.inr h), ⟨bs, h1, h2, h3⟩ => subst h1; exact hf h bs h2 h3
  | .err e, _ => trivial
  | .panic k, _ => trivial
  | .diverge, _ => trivial

theorem trunc_size {m : Message} {out : List UInt8} (ho : m.encodeToBytesTrunc = .ok out) :
    12 ≤ out.length ∧ out.length ≤ 512 := by
  have hb : SizeOk (truncBody m (zeroCounts m.header) (app (List.replicate 12 0))) := by
    unfold truncBody
    refine sizeOk_andThen (section_size encoder_question _ _ _ _ _ _ (by simp) (by simp)) fun h bs h1 h2 => ?_
    refine sizeOk_andThen (section_size encoder_record _ _ _ _ _ _ h1 h2) fun h bs h1 h2 => ?_
    refine sizeOk_andThen (section_size encoder_record _ _ _ _ _ _ h1 h2) fun h bs h1 h2 => ?_
    exact section_size encoder_record _ _ _ _ _ _ h1 h2
  unfold Message.encodeToBytesTrunc at ho
  rw [app_nil, BufM.bind_ok (writes_bytes (ε := MessageErr) (List.replicate 12 0) [])] at ho
  rw [List.nil_append] at ho
  change ((truncBody m (zeroCounts m.header) >>= _) _).1 = .ok out at ho
  rw [BufM.bind_apply] at ho
  rcases hr : truncBody m (zeroCounts m.header) (app (List.replicate 12 0)) with ⟨o, b⟩
  rw [hr] at hb ho
  match o, hb, ho with
  | .err e, _, ho => cases ho
  | .panic k, _, ho => cases ho
  | .diverge, _, ho => cases ho
  | .ok (.inl out'), hb, ho => cases ho; exact hb
  | .ok (.inr h'), ⟨bs, h1, h2, h3⟩, ho =>
    subst h1
    simp only at ho
    rw [BufM.bind_ok (setWritePos_app _)] at ho
    by_cases hop : h'.opCode = .STD
    · obtain ⟨b', k1, k2, k3, k4⟩ := overwrite_header hop (z := bs.take 12) (x := bs.drop 12) (by simp; omega)
      rw [List.take_append_drop] at k1
      rw [BufM.bind_ok (BufM.mapErr_ok k1)] at ho
      have ho : Out.ok b'.buf = .ok out := ho
      cases ho
      rw [k3]
      simp [headerBytes_length]; omega
    · have h2 : Header.encode h' (BitsBuf.mk bs (8 * bs.length) 0 0) = (.panic .assert, _) :=
        Prod.ext (header_encode_panic hop _) rfl
      rw [BufM.bind_panic (BufM.mapErr_panic h2)] at ho
      cases ho

/-- The statement of `trunc_spec` as a predicate on the outcome. -/
inductive TruncOutcome (m : Message) : Out MessageErr (List UInt8) → Prop
  | ok {out : List UInt8} : TruncOk m out → TruncOutcome m (.ok out)
  | err {e : MessageErr} : ¬ AllWrite m → TruncOutcome m (.err e)
  | panic {k : Panic} : ¬ AllWrite m → TruncOutcome m (.panic k)
  | diverge : ¬ AllWrite m → TruncOutcome m .diverge

theorem trunc_outcome {m : Message} (hc : CountsMatch m) : TruncOutcome m m.encodeToBytesTrunc := by
  have hb := body_spec hc (z := List.replicate 12 0) (by simp)
  unfold Message.encodeToBytesTrunc
  rw [app_nil, BufM.bind_ok (writes_bytes (ε := MessageErr) (List.replicate 12 0) [])]
  rw [List.nil_append]
  show TruncOutcome m ((truncBody m (zeroCounts m.header) >>= _) _).1
  rw [BufM.bind_apply]
  rcases hr : truncBody m (zeroCounts m.header) (app (List.replicate 12 0)) with ⟨o, b⟩
  rw [hr] at hb
  match o, hb with
  | .err e, hb => exact .err hb
  | .panic k, hb => exact .panic hb
  | .diverge, hb => exact .diverge hb
  | .ok (.inl out), hb =>
    obtain ⟨hop, k, hk, x, w, h1, h2, h3, h4, rfl⟩ := hb
    have e1 := body_encode hc hop h1
    have e2 := body_encode hc hop h2
    simp only [List.length_append, List.length_replicate] at h3 h4
    refine .ok ⟨by simp [headerBytes_length], by simp [headerBytes_length]; omega, k, by omega, e1, fun _ => ⟨_, e2, ?_⟩⟩
    simp [headerBytes_length]; omega
  | .ok (.inr h'), hb =>
    obtain ⟨rfl, x, h1, rfl, h3⟩ := hb
    simp only [List.length_append, List.length_replicate] at h3
    simp only
    rw [BufM.bind_ok (setWritePos_app _)]
    by_cases hop : m.header.opCode = .STD
    · obtain ⟨b', k1, k2, k3, k4⟩ := overwrite_header (h := (cut m (total m)).header) hop (z := List.replicate 12 0)
        (x := x) (by simp)
      rw [BufM.bind_ok (BufM.mapErr_ok k1)]
      refine TruncOutcome.ok (out := b'.buf) ?_
      rw [k3]
      refine ⟨by simp [headerBytes_length], by simp [headerBytes_length]; omega, total m, by omega,
        body_encode hc hop h1, by omega⟩
    · have h2 : Header.encode (cut m (total m)).header (BitsBuf.mk (List.replicate 12 0 ++ x)
        (8 * (List.replicate 12 (0 : UInt8) ++ x).length) 0 0) = (.panic .assert, _) :=
        Prod.ext (header_encode_panic (h := (cut m (total m)).header) hop _) rfl
      rw [BufM.bind_panic (BufM.mapErr_panic h2)]
      exact .panic fun h => hop h.1

theorem trunc_some {m : Message} (hc : CountsMatch m) {o : Out MessageErr (List UInt8)} (h : m.encodeToBytesTrunc = o) :
    TruncOutcome m o := by
  subst h
  exact trunc_outcome hc

theorem encodings_of_all {α : Type} {e : α → BufM ParsingErr Unit} : ∀ {xs : List α},
    (∀ a ∈ xs, ∃ w, Writes (e a) w) → ∃ ws, Encodings e xs ws
  | [], _ => ⟨[], .nil⟩
  | x :: xs, h => by
    obtain ⟨w, hw⟩ := h x (by simp)
    obtain ⟨ws, hws⟩ := encodings_of_all (xs := xs) fun a ha => h a (by simp [ha])
    exact ⟨w :: ws, .cons hw hws⟩

theorem encodings_take {α : Type} {e : α → BufM ParsingErr Unit} {xs : List α} {ws : List (List UInt8)}
    (h : Encodings e xs ws) : ∀ k, Encodings e (xs.take k) (ws.take k) := by
  induction h with
  | nil => intro k; simp [Encodings]
  | cons h1 h2 ih =>
    intro k
    cases k with
    | zero => exact .nil
    | succ k => exact .cons h1 (ih k)

theorem flatten_take_le (ws : List (List UInt8)) (k : Nat) : (ws.take k).flatten.length ≤ ws.flatten.length := by
  conv => rhs; rw [← List.take_append_drop k ws, List.flatten_append]
  simp

theorem encode_cut_length {m : Message} (hc : CountsMatch m) {x y : List UInt8} {k : Nat} (h : m.encodeToBytes = .ok x)
    (h' : (cut m k).encodeToBytes = .ok y) : y.length ≤ x.length := by
  obtain ⟨hop, h1, h2⟩ := allWrite_of_encode hc h
  obtain ⟨q, hq⟩ := encodings_of_all h1
  obtain ⟨an, han⟩ := encodings_of_all (xs := m.answers) fun r hr => h2 r (by simp [hr])
  obtain ⟨au, hau⟩ := encodings_of_all (xs := m.authorities) fun r hr => h2 r (by simp [hr])
  obtain ⟨ad, had⟩ := encodings_of_all (xs := m.additionals) fun r hr => h2 r (by simp [hr])
  have e1 := encode_of_encodings hop hc hq han hau had
  have e2 := encode_of_encodings (m := cut m k) hop (cut_counts hc k) (encodings_take hq _) (encodings_take han _)
    (encodings_take hau _) (encodings_take had _)
  rw [h] at e1
  rw [h'] at e2
  cases e1
  cases e2
  have a1 := flatten_take_le q k
  have a2 := flatten_take_le an (k - m.questions.length)
  have a3 := flatten_take_le au (k - m.questions.length - m.answers.length)
  have a4 := flatten_take_le ad (k - m.questions.length - m.answers.length - m.authorities.length)
  simp only [List.length_append, headerBytes_length]
  omega

end Ariadne
