import Verif.Spec.Net
import Verif.Props.Decode

/-!
# C29, C30: UDP and TCP readers and writers
-/

namespace Ariadne.Props

open Spec BitsBuf Net

theorem be16_eq_bytes (n : UInt16) : [(n >>> 8).toUInt8, n.toUInt8] = be16 n.toNat := by
  unfold be16
  congr 1
  · apply UInt8.toNat_inj.1
    simp [Nat.shiftRight_eq_div_pow]

theorem bytes_be16 (a b : UInt8) :
    ((a.toUInt16 <<< 8) ||| b.toUInt16).toNat = a.toNat * 256 + b.toNat := by
  have ha := a.toNat_lt
  have hb := b.toNat_lt
  simp only [UInt16.toNat_or, UInt16.toNat_shiftLeft, UInt8.toNat_toUInt16, UInt16.reduceToNat, Nat.reduceMod]
  rw [Nat.mod_eq_of_lt (by rw [Nat.shiftLeft_eq]; omega), Nat.shiftLeft_eq]
  rw [show a.toNat * 2 ^ 8 = 2 ^ 8 * a.toNat by omega, ← Nat.two_pow_add_eq_or_of_lt (by omega)]
  omega

theorem classify_iff (p : Profile) (bytes : List UInt8) (res : ReadResult) :
    classify p bytes = .ok res ↔ Classified p bytes res := by
  unfold classify
  constructor
  · intro h
    cases hm : Message.decodeFromBytes p bytes with
    | ok m => rw [hm] at h; cases h; exact .full hm
    | panic k => rw [hm] at h; cases h
    | diverge => rw [hm] at h; cases h
    | err e =>
      rw [hm] at h
      simp only at h
      cases hh : Header.decodeFromBytes bytes with
      | ok v => rw [hh] at h; cases h; exact .header hm hh
      | err eh => rw [hh] at h; cases h; exact .none hm hh
      | panic k => rw [hh] at h; cases h
      | diverge => rw [hh] at h; cases h
  · intro h
    cases h with
    | full hm => rw [hm]
    | header hm hh => rw [hm]; simp only [hh]
    | none hm hh => rw [hm]; simp only [hh]

theorem tcpRead_frame (p : Profile) (body rest : List UInt8) (hb : body.length < 65536) :
    tcpRead p (be16 body.length ++ (body ++ rest)) = (do let r ← classify p body; .ok (r, rest)) := by
  have e : be16 body.length ++ (body ++ rest) =
      UInt8.ofNat (body.length / 256) :: UInt8.ofNat body.length :: (body ++ rest) := rfl
  have hl : (((UInt8.ofNat (body.length / 256)).toUInt16 <<< 8) ||| (UInt8.ofNat body.length).toUInt16).toNat = body.length := by
    rw [bytes_be16]; simp; omega
  unfold tcpRead readExact
  rw [e, if_pos (by simp)]
  simp only [List.take_succ_cons, List.take_zero, List.drop_succ_cons, List.drop_zero]
  rw [hl, if_pos (by simp)]
  simp

/-- The full statement of C29 for replies: two length octets that hold the length, then the message. -/
def C29_statement : Prop :=
  ∀ (m : Message) (bytes : List UInt8), m.encodeToBytes = .ok bytes →
    ∃ len : UInt16, len.toNat = bytes.length ∧
      ∀ room, 2 + bytes.length ≤ room → tcpReply m room = .ok (be16 len.toNat ++ bytes, true)

/-- C29, part: replies of at most 65535 octets are framed correctly, a failing connection gets a proper prefix of the
frame and an error; the reader takes exactly the frame from the stream, whatever follows, and reads back what was
replied; what it does not report as an I/O error was framed in the stream. Missing: longer replies. -/
theorem C29_tcp_framing_partial :
    (∀ (m : Message) (bytes : List UInt8), m.encodeToBytes = .ok bytes → bytes.length < 65536 →
      (∀ room, 2 + bytes.length ≤ room → tcpReply m room = .ok (be16 bytes.length ++ bytes, true)) ∧
      (∀ room, room < 2 + bytes.length → tcpReply m room = .ok ((be16 bytes.length ++ bytes).take room, false))) ∧
    (∀ (p : Profile) (body rest : List UInt8), body.length < 65536 → ∀ res,
      tcpRead p (be16 body.length ++ (body ++ rest)) = .ok (res, rest) ↔ Classified p body res) ∧
    (∀ (p : Profile) (stream : List UInt8) (res : ReadResult) (rest : List UInt8),
      tcpRead p stream = .ok (res, rest) → res = .ioErr ∨
        ∃ body, body.length < 65536 ∧ stream = be16 body.length ++ (body ++ rest) ∧ Classified p body res) ∧
    (∀ (p : Profile) (stream : List UInt8),
      (¬ ∃ body rest, body.length < 65536 ∧ stream = be16 body.length ++ (body ++ rest)) →
        ∃ rest, tcpRead p stream = .ok (.ioErr, rest)) := by
  refine ⟨?_, ?_, ?_, ?_⟩
  · intro m bytes hm hl
    have e : [(UInt16.ofNat bytes.length >>> 8).toUInt8, (UInt16.ofNat bytes.length).toUInt8] = be16 bytes.length := by
      rw [be16_eq_bytes, u16_of_len hl]
    constructor
    · intro room hr
      simp only [tcpReply, hm, e, Net.writeAll]
      rw [if_pos (decide_eq_true (by rw [be16_length]; omega))]
      rw [List.take_of_length_le (by simp [be16_length]; omega), List.take_of_length_le (by omega)]
      simp; omega
    · intro room hr
      simp only [tcpReply, hm, e, Net.writeAll]
      by_cases h2 : 2 ≤ room
      · rw [if_pos (decide_eq_true (by rw [be16_length]; omega)), List.take_append, be16_length]
        simp; omega
      · rw [if_neg (by rw [decide_eq_true_eq, be16_length]; omega), List.take_append, be16_length]
        rw [show room - 2 = 0 by omega]; simp
  · intro p body rest hb res
    rw [tcpRead_frame p body rest hb, ← classify_iff]
    cases classify p body with
    | ok r => simp
    | err e => exact e.elim
    | panic k => simp
    | diverge => simp
  · intro p stream res rest h
    match stream with
    | [] => cases h; exact .inl rfl
    | [a] => cases h; exact .inl rfl
    | a :: b :: tl =>
      have hread : readExact 2 (a :: b :: tl) = some ([a, b], tl) := by simp [readExact]
      simp only [tcpRead, hread, bytes_be16] at h
      by_cases hlen : a.toNat * 256 + b.toNat ≤ tl.length
      · have hr2 : readExact (a.toNat * 256 + b.toNat) tl =
            some (tl.take (a.toNat * 256 + b.toNat), tl.drop (a.toNat * 256 + b.toNat)) := by
          unfold readExact; rw [if_pos hlen]
        simp only [hr2] at h
        cases hc : classify p (tl.take (a.toNat * 256 + b.toNat)) with
        | ok r =>
          rw [hc] at h
          cases h
          have ha := a.toNat_lt; have hb := b.toNat_lt
          have hl2 : (tl.take (a.toNat * 256 + b.toNat)).length = a.toNat * 256 + b.toNat := by simp; omega
          refine .inr ⟨_, by omega, ?_, (classify_iff _ _ _).1 hc⟩
          rw [hl2, List.take_append_drop]
          have e1 : UInt8.ofNat ((a.toNat * 256 + b.toNat) / 256) = a := by
            apply UInt8.toNat_inj.1; simp; omega
          have e2 : UInt8.ofNat (a.toNat * 256 + b.toNat) = b := by
            apply UInt8.toNat_inj.1; simp
          unfold be16
          rw [e1, e2]; rfl
        | err e => exact e.elim
        | panic k => rw [hc] at h; cases h
        | diverge => rw [hc] at h; cases h
      · have hr2 : readExact (a.toNat * 256 + b.toNat) tl = none := by
          unfold readExact; rw [if_neg hlen]
        simp only [hr2] at h
        cases h; exact .inl rfl
  · intro p stream h
    match stream with
    | [] => exact ⟨[], rfl⟩
    | [a] => exact ⟨[], rfl⟩
    | a :: b :: tl =>
      have hread : readExact 2 (a :: b :: tl) = some ([a, b], tl) := by simp [readExact]
      by_cases hlen : a.toNat * 256 + b.toNat ≤ tl.length
      · exfalso
        apply h
        have ha := a.toNat_lt; have hb := b.toNat_lt
        have hl2 : (tl.take (a.toNat * 256 + b.toNat)).length = a.toNat * 256 + b.toNat := by simp; omega
        refine ⟨tl.take (a.toNat * 256 + b.toNat), tl.drop (a.toNat * 256 + b.toNat), by omega, ?_⟩
        rw [hl2, List.take_append_drop]
        have e1 : UInt8.ofNat ((a.toNat * 256 + b.toNat) / 256) = a := by
          apply UInt8.toNat_inj.1; simp; omega
        have e2 : UInt8.ofNat (a.toNat * 256 + b.toNat) = b := by
          apply UInt8.toNat_inj.1; simp
        unfold be16
        rw [e1, e2]; rfl
      · have hr2 : readExact (a.toNat * 256 + b.toNat) tl = none := by
          unfold readExact; rw [if_neg hlen]
        exact ⟨[], by simp only [tcpRead, hread, bytes_be16, hr2]⟩

/-- An answer of `n` equal A records. -/
def manyRecords (n : Nat) : Message :=
  { header := { Header.default 7 with queryResp := true, answersCount := UInt16.ofNat n }
    questions := []
    answers := List.replicate n ⟨⟨"www.ex.com.".toList⟩, .IN, 60, 4, .A ⟨1, 2, 3, 4⟩⟩
    authorities := []
    additionals := [] }

theorem manyRecords_encodes (n : Nat) (hn : n < 65536) :
    ∃ bytes, (manyRecords n).encodeToBytes = .ok bytes ∧ bytes.length = 12 + 26 * n := by
  have key : Writes (Record.encode ⟨⟨"www.ex.com.".toList⟩, .IN, 60, 4, .A ⟨1, 2, 3, 4⟩⟩)
      [3, 119, 119, 119, 2, 101, 120, 3, 99, 111, 109, 0, 0, 1, 0, 1, 0, 0, 0, 60, 0, 4, 1, 2, 3, 4] :=
    Writes.assert (by decide) (Writes.assert (by decide) (Writes.bind (writes_bytes _) (Writes.bind (writes_u16 _)
      (Writes.bind (writes_u16 _) (Writes.bind (writes_u32 _) (Writes.bind (writes_u16 _) (writes_bytes _)))))))
  have he : ∀ n : Nat, Encodings Record.encode
      (List.replicate n ⟨⟨"www.ex.com.".toList⟩, .IN, 60, 4, .A ⟨1, 2, 3, 4⟩⟩) (List.replicate n
      [3, 119, 119, 119, 2, 101, 120, 3, 99, 111, 109, 0, 0, 1, 0, 1, 0, 0, 0, 60, 0, 4, 1, 2, 3, 4]) := by
    intro n
    induction n with
    | zero => exact .nil
    | succ n ih => exact .cons key ih
  exact ⟨_, encode_of_encodings rfl ⟨rfl, by simp [manyRecords]; omega, rfl, rfl⟩ (q := []) (au := []) (ad := [])
    .nil (he n) .nil .nil, by simp [headerBytes_length]; omega⟩

/-- C29 does not hold: the length of a reply above 65535 octets is cut to 16 bits; e.g. 2600 A records. -/
theorem C29_violated : ¬ C29_statement := by
  intro h
  obtain ⟨bytes, h1, h2⟩ := manyRecords_encodes 2600 (by omega)
  obtain ⟨len, h3, -⟩ := h _ _ h1
  have := len.toNat_lt
  omega

example : tcpRead .release (be16 sampleQuery.length ++ (sampleQuery ++ [1, 2, 3])) =
    .ok (.fullMessage ⟨Header.mk 7 false .STD false false true false 0 .NoError 1 0 0 0, [⟨⟨"a.".toList⟩, .A, .IN⟩], [], [], []⟩, [1, 2, 3]) := by
  decide +kernel

/-! ## C30 -/

/-- C30: over UDP (of the first 512 octets, the size of the receive buffer) and over TCP the same octets are classified
the same way, the one the English description says; reading panics or hangs for the same octets; an I/O error is
reported as such and nothing else is. -/
theorem C30_classification :
    (∀ p datagram res, udpRead p datagram = .ok res ↔ Classified p (datagram.take 512) res) ∧
    (∀ p (body rest : List UInt8) res, body.length < 65536 →
      (tcpRead p (be16 body.length ++ (body ++ rest)) = .ok (res, rest) ↔ Classified p body res)) ∧
    (∀ p (bytes rest : List UInt8), bytes.length ≤ 512 →
      tcpRead p (be16 bytes.length ++ (bytes ++ rest)) = (do let r ← udpRead p bytes; .ok (r, rest))) ∧
    (∀ p bytes, ¬ Classified p bytes .ioErr) ∧
    (∀ p bytes r r', Classified p bytes r → Classified p bytes r' → r = r') ∧
    (∀ p bytes, (∃ r, Classified p bytes r) ↔ (Message.decodeFromBytes p bytes).Returns) := by
  refine ⟨fun p d res => classify_iff p _ res, fun p body rest res hb => C29_tcp_framing_partial.2.1 p body rest hb res, ?_,
    ?_, ?_, ?_⟩
  · intro p bytes rest hb
    rw [tcpRead_frame p bytes rest (by omega)]
    unfold udpRead
    rw [List.take_of_length_le (by simp [Message.MAX_UDP_LEN_BYTES]; omega)]
  · intro p bytes h; cases h
  · intro p bytes r r' h h'
    have a := (classify_iff _ _ _).2 h
    have b := (classify_iff _ _ _).2 h'
    rw [a] at b; cases b; rfl
  · intro p bytes
    constructor
    · rintro ⟨r, h⟩
      cases h with
      | full h => rw [h]; trivial
      | header h _ => rw [h]; trivial
      | none h _ => rw [h]; trivial
    · intro h
      cases hm : Message.decodeFromBytes p bytes with
      | ok m => exact ⟨_, .full hm⟩
      | err e =>
        obtain ⟨o, r', h1, h2, h3⟩ := header_decode_spec bytes 0 (Nat.zero_le _)
        have h4 : Header.decodeFromBytes bytes = o := congrArg Prod.fst h1
        cases o with
        | ok v => exact ⟨_, .header hm h4⟩
        | err eh => exact ⟨_, .none hm h4⟩
        | panic k => exact h3.elim
        | diverge => exact h3.elim
      | panic k => rw [hm] at h; exact h.elim
      | diverge => rw [hm] at h; exact h.elim

end Ariadne.Props
