import Verif.Model.Message
/-!
# The unit tests of the code, run against the model

Not a property: a check of the model. The tests of `src/shared/buffer/buffer.rs:285-560`, the only unit tests
of the code, are copied here call for call with the numbers they expect (by a script, binary literals written in
decimal), and the kernel runs them against `Model/Buffer.lean`. A mismatch would mean that the model is not the
code.

The query packet that the code ships (`assets/messages/query_packet_hex.txt`) is decoded too. The response packet
(488 octets, 13 name servers and 11 additional records, five of them of the unknown type AAAA) is too long for the
kernel; evaluated with `#eval` it decodes to the 13 name servers and the six addresses.
-/
namespace Ariadne.Props.UnitTests
open BitsBuf

/-- A line of a test: a call, with the result the test expects, or `assert_buf!`
(src/shared/buffer/buffer.rs:285-292), which looks at the four fields. -/
inductive Line
  | raw (bytes : List UInt8)
  | fresh
  | holds (buf : List UInt8) (last rPos wPos : Nat)
  | readBits (n : Nat) (result : Option UInt8)
  | readU8 (result : Option UInt8)
  | readBytes (n : Nat) (result : Option (List UInt8))
  | setReadPos (pos : Nat)
  | setWritePos (pos : Nat)
  | writeBits (bits : UInt8) (n : Nat)
  | writeU8 (bits : UInt8)
  | writeBytes (bytes : List UInt8)
  | truncate (len : Nat)

/-- How a test ends. -/
inductive Verdict
  | passes | fails | panics
  deriving DecidableEq

/-- A call that must return `want`; then the rest of the test. -/
def call {α : Type} [DecidableEq α] (f : BufM Empty α) (want : α) (b : BitsBuf) (rest : BitsBuf → Verdict) : Verdict :=
  match f b with
  | (.ok a, b') => if a = want then rest b' else .fails
  | (.panic _, _) => .panics
  | (_, _) => .fails

/-- The test, on the model. -/
def follow : List Line → BitsBuf → Verdict
  | [], _ => .passes
  | .raw bytes :: ls, _ => follow ls (fromRawBytes bytes)
  | .fresh :: ls, _ => follow ls new
  | .holds buf last r w :: ls, b =>
    if b.buf = buf ∧ b.last = last ∧ b.rPos = r ∧ b.wPos = w then follow ls b else .fails
  | .readBits n o :: ls, b => call (BitsBuf.readBits n) o b (follow ls)
  | .readU8 o :: ls, b => call BitsBuf.readU8 o b (follow ls)
  | .readBytes n o :: ls, b => call (BitsBuf.readBytesVec n) o b (follow ls)
  | .setReadPos p :: ls, b => call (BitsBuf.setReadPos p) () b (follow ls)
  | .setWritePos p :: ls, b => call (BitsBuf.setWritePos p) () b (follow ls)
  | .writeBits v n :: ls, b => call (BitsBuf.writeBits v n) () b (follow ls)
  | .writeU8 v :: ls, b => call (BitsBuf.writeU8 v) () b (follow ls)
  | .writeBytes v :: ls, b => call (BitsBuf.writeBytes v) () b (follow ls)
  | .truncate n :: ls, b => follow ls (BitsBuf.truncate b n)

/-- src/shared/buffer/buffer.rs:294-321 (test_read_bits). -/
example : follow
    [.raw [10, 129, 67, 34],
     .holds [10, 129, 67, 34] 32 0 32,
     .readBits 7 (some 5),
     .holds [10, 129, 67, 34] 32 7 32,
     .readU8 (some 64),
     .holds [10, 129, 67, 34] 32 15 32,
     .readBits 1 (some 1),
     .holds [10, 129, 67, 34] 32 16 32,
     .readBits 5 (some 8),
     .holds [10, 129, 67, 34] 32 21 32,
     .readBits 5 (some 12),
     .holds [10, 129, 67, 34] 32 26 32,
     .readBits 4 (some 8),
     .holds [10, 129, 67, 34] 32 30 32,
     .readBits 4 none,
     .holds [10, 129, 67, 34] 32 30 32,
     .readBits 3 none,
     .holds [10, 129, 67, 34] 32 30 32,
     .readBits 2 (some 2),
     .holds [10, 129, 67, 34] 32 32 32,
     .readBits 1 none,
     .holds [10, 129, 67, 34] 32 32 32]
    .new = .passes := by decide +kernel

/-- src/shared/buffer/buffer.rs:323-334 (test_read_bytes). -/
example : follow
    [.raw [10, 129, 67, 34],
     .holds [10, 129, 67, 34] 32 0 32,
     .readBytes 3 (some [10, 129, 67]),
     .holds [10, 129, 67, 34] 32 24 32,
     .readBytes 1 (some [34]),
     .holds [10, 129, 67, 34] 32 32 32,
     .readBytes 1 none,
     .holds [10, 129, 67, 34] 32 32 32]
    .new = .passes := by decide +kernel

/-- src/shared/buffer/buffer.rs:336-345 (test_read_bytes_vec). -/
example : follow
    [.raw [10, 129, 67, 34],
     .holds [10, 129, 67, 34] 32 0 32,
     .readBytes 3 (some [10, 129, 67]),
     .holds [10, 129, 67, 34] 32 24 32,
     .readBytes 1 (some [34]),
     .holds [10, 129, 67, 34] 32 32 32]
    .new = .passes := by decide +kernel

/-- src/shared/buffer/buffer.rs:347-366 (test_read_pos). -/
example : follow
    [.raw [20, 24, 104, 64],
     .holds [20, 24, 104, 64] 32 0 32,
     .readBits 8 (some 20),
     .holds [20, 24, 104, 64] 32 8 32,
     .setReadPos 0,
     .readBits 8 (some 20),
     .holds [20, 24, 104, 64] 32 8 32,
     .setReadPos 8,
     .readBits 8 (some 24),
     .holds [20, 24, 104, 64] 32 16 32,
     .setReadPos 15,
     .readBits 8 (some 52),
     .holds [20, 24, 104, 64] 32 23 32,
     .setReadPos 32,
     .readBits 1 none,
     .holds [20, 24, 104, 64] 32 32 32]
    .new = .passes := by decide +kernel

/-- src/shared/buffer/buffer.rs:368-374 (test_read_pos_invalid). -/
example : follow
    [.raw [20, 24, 104, 64],
     .holds [20, 24, 104, 64] 32 0 32,
     .setReadPos 33]
    .new = .panics := by decide +kernel

/-- src/shared/buffer/buffer.rs:376-399 (test_write_bits). -/
example : follow
    [.fresh,
     .holds [] 0 0 0,
     .writeBits 1 6,
     .holds [4] 6 0 6,
     .writeBits 1 6,
     .holds [4, 16] 12 0 12,
     .writeBits 33 6,
     .holds [4, 24, 64] 18 0 18,
     .writeBits 161 8,
     .holds [4, 24, 104, 64] 26 0 26,
     .fresh,
     .holds [] 0 0 0,
     .writeU8 128,
     .holds [128] 8 0 8,
     .writeU8 175,
     .holds [128, 175] 16 0 16,
     .writeU8 241,
     .holds [128, 175, 241] 24 0 24]
    .new = .passes := by decide +kernel

/-- src/shared/buffer/buffer.rs:401-412 (test_write_bytes). -/
example : follow
    [.fresh,
     .holds [] 0 0 0,
     .writeBytes [128],
     .holds [128] 8 0 8,
     .writeBytes [175, 175],
     .holds [128, 175, 175] 24 0 24,
     .writeBytes [241],
     .holds [128, 175, 175, 241] 32 0 32]
    .new = .passes := by decide +kernel

/-- src/shared/buffer/buffer.rs:414-456 (test_write_pos). -/
example : follow
    [.raw [20, 24, 104, 64],
     .holds [20, 24, 104, 64] 32 0 32,
     .setWritePos 0,
     .holds [20, 24, 104, 64] 32 0 0,
     .writeBits 59 6,
     .holds [236, 24, 104, 64] 32 0 6,
     .writeBits 2 2,
     .holds [238, 24, 104, 64] 32 0 8,
     .writeBits 8 4,
     .holds [238, 136, 104, 64] 32 0 12,
     .writeBits 153 8,
     .holds [238, 137, 152, 64] 32 0 20,
     .writeBits 153 8,
     .holds [238, 137, 153, 144] 32 0 28,
     .writeBits 153 8,
     .holds [238, 137, 153, 153, 144] 36 0 36,
     .writeBits 4 3,
     .holds [238, 137, 153, 153, 152] 39 0 39,
     .writeBits 0 1,
     .holds [238, 137, 153, 153, 152] 40 0 40]
    .new = .passes := by decide +kernel

/-- src/shared/buffer/buffer.rs:458-464 (test_write_pos_invalid). -/
example : follow
    [.raw [20, 24, 104, 64],
     .holds [20, 24, 104, 64] 32 0 32,
     .setWritePos 33]
    .new = .panics := by decide +kernel

/-- src/shared/buffer/buffer.rs:466-515 (test_write_and_read). -/
example : follow
    [.raw [],
     .holds [] 0 0 0,
     .writeBits 1 6,
     .holds [4] 6 0 6,
     .writeBits 1 6,
     .holds [4, 16] 12 0 12,
     .writeBits 1 6,
     .holds [4, 16, 64] 18 0 18,
     .writeBits 1 5,
     .holds [4, 16, 66] 23 0 23,
     .readBits 2 (some 0),
     .holds [4, 16, 66] 23 2 23,
     .readBits 4 (some 1),
     .holds [4, 16, 66] 23 6 23,
     .readBits 6 (some 1),
     .holds [4, 16, 66] 23 12 23,
     .readBits 6 (some 1),
     .holds [4, 16, 66] 23 18 23,
     .readBits 4 (some 0),
     .holds [4, 16, 66] 23 22 23,
     .readBits 4 none,
     .holds [4, 16, 66] 23 22 23,
     .readBits 3 none,
     .holds [4, 16, 66] 23 22 23,
     .readBits 2 none,
     .holds [4, 16, 66] 23 22 23,
     .readBits 1 (some 1),
     .holds [4, 16, 66] 23 23 23,
     .readBits 1 none,
     .holds [4, 16, 66] 23 23 23,
     .writeBits 10 4,
     .holds [4, 16, 67, 64] 27 23 27,
     .readBits 6 none,
     .holds [4, 16, 67, 64] 27 23 27,
     .readBits 5 none,
     .holds [4, 16, 67, 64] 27 23 27,
     .readBits 3 (some 5),
     .holds [4, 16, 67, 64] 27 26 27,
     .readBits 2 none,
     .holds [4, 16, 67, 64] 27 26 27,
     .readBits 1 (some 0),
     .holds [4, 16, 67, 64] 27 27 27,
     .readBits 1 none,
     .holds [4, 16, 67, 64] 27 27 27]
    .new = .passes := by decide +kernel

/-- src/shared/buffer/buffer.rs:517-547 (test_truncate). -/
example : follow
    [.raw [20, 24, 104, 64],
     .holds [20, 24, 104, 64] 32 0 32,
     .truncate 32,
     .holds [20, 24, 104, 64] 32 0 32,
     .truncate 33,
     .holds [20, 24, 104, 64] 32 0 32,
     .truncate 31,
     .holds [20, 24, 104, 64] 31 0 31,
     .truncate 25,
     .holds [20, 24, 104, 0] 25 0 25,
     .truncate 24,
     .holds [20, 24, 104] 24 0 24,
     .truncate 13,
     .holds [20, 24] 13 0 13,
     .truncate 7,
     .holds [20] 7 0 7,
     .truncate 6,
     .holds [20] 6 0 6,
     .truncate 5,
     .holds [16] 5 0 5,
     .truncate 1,
     .holds [0] 1 0 1,
     .truncate 0,
     .holds [] 0 0 0,
     .truncate 20,
     .holds [] 0 0 0]
    .new = .passes := by decide +kernel

/-- assets/messages/query_packet_hex.txt. -/
def queryPacket : List UInt8 := [57, 244, 1, 32, 0, 1, 0, 0, 0, 0, 0, 0, 6, 103, 111, 111, 103, 108, 101, 3, 99, 111, 109, 0, 0, 1, 0, 1]

example : Message.decodeFromBytes .debug queryPacket = .ok
    { header := { id := 14836, queryResp := false, opCode := .STD, authAnswer := false, truncated := false,
                  recursionDesired := true, recursionAvailable := false, z := 2, respCode := .NoError,
                  questionsCount := 1, answersCount := 0, authoritiesCount := 0, additionalsCount := 0 }
      questions := [⟨⟨"google.com.".toList⟩, .A, .IN⟩], answers := [], authorities := [], additionals := [] } := by
  decide +kernel

/-- Encoded again, it is the packet. -/
example : (match Message.decodeFromBytes .debug queryPacket with
    | .ok m => m.encodeToBytes
    | _ => Out.diverge) = .ok queryPacket := by
  decide +kernel

end Ariadne.Props.UnitTests
