import Verif.Lemmas.Bounded
import Verif.Lemmas.Valid
import Verif.Lemmas.Truth
import Verif.Model.Net

/-! # C86: the counts in a header cannot promise more than the bytes hold -/

namespace Ariadne.Props

open Spec BitsBuf

theorem decoded_size {p : Profile} {bytes : List UInt8} {m : Message} (h : Message.decodeFromBytes p bytes = .ok m) :
    Claimed m ≤ bytes.length := by
  obtain ⟨o, r', e, -, hq, -⟩ := run_message_size p bytes
  unfold Message.decodeFromBytes at h
  have e' : Message.decode p (fromRawBytes bytes) = (o, rdBit bytes r') := e
  rw [e'] at h
  exact hq m h

/-- C86. Bytes that decode are at least as long as the header, five octets for every question and eleven for every record
that the header announces (`qd`, `an`, `ns`, `ar` are read from the bytes, at the places RFC 1035 4.1.1 gives them); the
sections of the decoded message have at most that many items. So a short message that announces many items is an
error, and never costs more than its own size. -/
theorem C86_counts_are_covered {p : Profile} {bytes : List UInt8} {m : Message} {qd an ns ar : Nat}
    (h : Message.decodeFromBytes p bytes = .ok m) (hqd : FieldAt bytes 32 16 qd) (han : FieldAt bytes 48 16 an)
    (hns : FieldAt bytes 64 16 ns) (har : FieldAt bytes 80 16 ar) :
    12 + 5 * qd + 11 * (an + ns + ar) ≤ bytes.length ∧
    m.questions.length ≤ qd ∧ m.answers.length ≤ an ∧ m.authorities.length ≤ ns ∧ m.additionals.length ≤ ar := by
  have hs := decoded_size h
  obtain ⟨hd, -⟩ := decoded_message h
  have hl := hd.header
  unfold headerFields at hl
  simp only [Laid] at hl
  obtain ⟨-, -, -, -, -, -, -, -, -, l1, l2, l3, l4, -⟩ := hl
  have e1 := fieldAt_unique l1 hqd
  have e2 := fieldAt_unique l2 han
  have e3 := fieldAt_unique l3 hns
  have e4 := fieldAt_unique l4 har
  unfold Claimed at hs
  have := hd.nq; have := hd.nan; have := hd.nau; have := hd.nad
  omega

theorem classify_full {p : Profile} {bytes : List UInt8} {m : Message} (h : Net.classify p bytes = .ok (.fullMessage m)) :
    Message.decodeFromBytes p bytes = .ok m := by
  unfold Net.classify at h
  cases hd : Message.decodeFromBytes p bytes with
  | ok m' => rw [hd] at h; injection h with h; injection h with h; rw [h]
  | err e => 
    rw [hd] at h
    cases hh : Header.decodeFromBytes bytes with
    | ok x => rw [hh] at h; cases h
    | err x => rw [hh] at h; cases h
    | panic x => rw [hh] at h; cases h
    | diverge => rw [hh] at h; cases h
  | panic k => rw [hd] at h; cases h
  | diverge => rw [hd] at h; cases h

theorem size_records {p : Profile} {bytes : List UInt8} {m : Message} (h : Message.decodeFromBytes p bytes = .ok m) :
    12 + 5 * m.questions.length + 11 * (m.answers.length + m.authorities.length + m.additionals.length) ≤ bytes.length := by
  have hs := decoded_size h
  obtain ⟨hd, -⟩ := decoded_message h
  have := hd.nq; have := hd.nan; have := hd.nau; have := hd.nad
  unfold Claimed at hs
  omega

/-- C86, for the two servers: a request read from a datagram has at most 100 questions and at most 45 records, whatever its
length; one read from a connection at most 13104 and 5956. -/
theorem C86_requests {p : Profile} {bytes rest : List UInt8} {m : Message} :
    (Net.udpRead p bytes = .ok (.fullMessage m) →
      m.questions.length ≤ 100 ∧ m.answers.length + m.authorities.length + m.additionals.length ≤ 45) ∧
    (Net.tcpRead p bytes = .ok (.fullMessage m, rest) →
      m.questions.length ≤ 13104 ∧ m.answers.length + m.authorities.length + m.additionals.length ≤ 5956) := by
  constructor
  · intro h
    have hs := size_records (classify_full h)
    rw [List.length_take] at hs
    have : Message.MAX_UDP_LEN_BYTES = 512 := rfl
    omega
  · intro h
    unfold Net.tcpRead at h
    split at h
    · next a b rest' _ =>
      simp only at h
      split at h
      · next buf rest2 hr =>
        have hlen : buf.length ≤ 65535 := by
          unfold Net.readExact at hr
          split at hr
          · injection hr with hr
            injection hr with hr _
            rw [← hr, List.length_take]
            have := UInt16.toNat_lt (a.toUInt16 <<< 8 ||| b.toUInt16)
            omega
          · cases hr
        obtain ⟨r, h1, h2⟩ := Out.of_bind_ok h
        injection h2 with h2
        injection h2 with h2 _
        rw [h2] at h1
        have hs := size_records (classify_full h1)
        omega
      · cases h
    · cases h

/-- A message of 34 octets that announces two answers: one of a type the code does not know, 11 octets, and an address. -/
def twoAnswers : List UInt8 :=
  [0, 1, 128, 0, 0, 0, 0, 2, 0, 0, 0, 0] ++ [0, 0, 99, 0, 1, 0, 0, 0, 0, 0, 0] ++ [0, 0, 1, 0, 1, 0, 0, 0, 9, 0, 4, 1, 2, 3, 4]

/-- How many answers are announced and kept. -/
def announced : Out MessageErr Message → Option (UInt16 × Nat)
  | .ok m => some (m.header.answersCount, m.answers.length)
  | _ => none

/-- The shortest records there are: 45 of a type that is not known fit in a datagram; announcing more than there are is an
error. -/
example : announced (Message.decodeFromBytes .debug twoAnswers) = some (2, 1) ∧
    announced (Message.decodeFromBytes .debug ([0, 1, 128, 0, 0, 0, 0, 45, 0, 0, 0, 0] ++
      (List.replicate 45 [0, 0, 99, 0, 1, 0, 0, 0, 0, 0, 0]).flatten)) = some (45, 0) ∧
    announced (Message.decodeFromBytes .debug ([0, 1, 128, 0, 0, 0, 255, 255, 0, 0, 0, 0] ++
      (List.replicate 45 [0, 0, 99, 0, 1, 0, 0, 0, 0, 0, 0]).flatten)) = none := by
  decide +kernel

end Ariadne.Props
