import Verif.Model.Record

/-!
# Messages – models src/shared/dns/message.rs
-/

namespace Ariadne

/-- message.rs:14-20 `struct Message`. -/
structure Message where
  header : Header
  questions : List Question
  answers : List Record
  authorities : List Record
  additionals : List Record
  deriving DecidableEq, Repr

/-- The four sections of a message, in wire order. -/
inductive Section
  | question | answer | authority | additional
  deriving DecidableEq, Repr

/-- The error of item `i` of a section. -/
def Section.err : Section → Nat → ParsingErr → MessageErr
  | .question => .questionErr
  | .answer => .answerErr
  | .authority => .authorityErr
  | .additional => .additionalErr

namespace Message

/-- message.rs:43-50 (and 51-58, 59-66, 67-74): `n` more items from item `i` on; an item of unknown type is skipped,
any other error ends the decoding. -/
def decodeItems {α : Type} (d : BufM ParsingErr α) (sec : Section) : Nat → Nat → BufM MessageErr (List α)
  | 0, _ => pure []
  | n + 1, i => fun b =>
    match d b with
    | (.ok v, b') => (do let rest ← decodeItems d sec n (i + 1); pure (v :: rest) : BufM MessageErr (List α)) b'
    | (.err (.unknownType _), b') => decodeItems d sec n (i + 1) b'
    | (.err e, b') => (.err (sec.err i e), b')
    | (.panic k, b') => (.panic k, b')
    | (.diverge, b') => (.diverge, b')

/-- message.rs:27-83 `Message::decode_from_bytes`, as a buffer computation. -/
def decode (p : Profile) : BufM MessageErr Message := do
  let header ← BufM.mapErr MessageErr.headerErr Header.decode
  BufM.lift (header.isSupported.mapErr MessageErr.headerErr)
  let questions ← decodeItems (Question.decode p) .question header.questionsCount.toNat 0
  let answers ← decodeItems (Record.decode p) .answer header.answersCount.toNat 0
  let authorities ← decodeItems (Record.decode p) .authority header.authoritiesCount.toNat 0
  let additionals ← decodeItems (Record.decode p) .additional header.additionalsCount.toNat 0
  pure { header, questions, answers, authorities, additionals }

/-- message.rs:27-83 `Message::decode_from_bytes`. -/
def decodeFromBytes (p : Profile) (bytes : List UInt8) : Out MessageErr Message :=
  (decode p (BitsBuf.fromRawBytes bytes)).1

/-- message.rs:92-97 (and 98-103, 104-109, 110-115): items `i, i+1, …, i+n-1`; `self.xs[i]` panics out of bounds. -/
def encodeItems {α : Type} (e : α → BufM ParsingErr Unit) (sec : Section) (xs : List α) :
    Nat → Nat → BufM MessageErr Unit
  | 0, _ => pure ()
  | n + 1, i =>
    match xs[i]? with
    | none => BufM.panic .index
    | some x => do
      BufM.mapErr (sec.err i) (e x)
      encodeItems e sec xs n (i + 1)

/-- `buf.into_vec()` (message.rs:117, 204). -/
def takeVec : BufM MessageErr (List UInt8) := fun b => (.ok b.intoVec, b)

/-- `buf.truncate(w_pos); buf.into_vec()` (message.rs:144-145 etc.). -/
def truncVec (wPos : Nat) : BufM MessageErr (List UInt8) := fun b => (.ok (b.truncate wPos).intoVec, b.truncate wPos)

/-- message.rs:88-118 `Message::encode_to_bytes`. -/
def encodeToBytes (m : Message) : Out MessageErr (List UInt8) :=
  ((do
    BufM.mapErr MessageErr.headerErr m.header.encode  -- `Header::encode_to_buf` returns no error
    encodeItems Question.encode .question m.questions m.header.questionsCount.toNat 0
    encodeItems Record.encode .answer m.answers m.header.answersCount.toNat 0
    encodeItems Record.encode .authority m.authorities m.header.authoritiesCount.toNat 0
    encodeItems Record.encode .additional m.additionals m.header.additionalsCount.toNat 0
    takeVec : BufM MessageErr (List UInt8)) BitsBuf.new).1

/-- message.rs:8 -/
def MAX_UDP_LEN_BYTES : Nat := 512

/-- Increment the count of a section (message.rs:147, 164, 181, 198). The loop bound is a `u16`, so no overflow. -/
def incCount (sec : Section) (h : Header) : Header :=
  match sec with
  | .question => { h with questionsCount := h.questionsCount + 1 }
  | .answer => { h with answersCount := h.answersCount + 1 }
  | .authority => { h with authoritiesCount := h.authoritiesCount + 1 }
  | .additional => { h with additionalsCount := h.additionalsCount + 1 }

/-- message.rs:141-145: the early return of a truncated message. -/
def finishTrunc (h : Header) (wPos : Nat) : BufM MessageErr (List UInt8) := do
  BitsBuf.setWritePos 0
  BufM.mapErr MessageErr.headerErr { h with truncated := true }.encode
  truncVec wPos

/-- message.rs:134-149 (and 151-166, 168-183, 185-200): write items while they fit. `inl bytes`: returned early with
these bytes; `inr h`: all written, header so far. -/
def encodeItemsTrunc {α : Type} (e : α → BufM ParsingErr Unit) (sec : Section) (xs : List α) :
    Nat → Nat → Header → BufM MessageErr (List UInt8 ⊕ Header)
  | 0, _, h => pure (.inr h)
  | n + 1, i, h =>
    match xs[i]? with
    | none => BufM.panic .index
    | some x => do
      let wPos ← BitsBuf.writePos
      BufM.mapErr (sec.err i) (e x)
      let pos ← BitsBuf.writePos
      if pos / 8 > MAX_UDP_LEN_BYTES then do
        let bytes ← finishTrunc h wPos
        pure (.inl bytes)
      else encodeItemsTrunc e sec xs n (i + 1) (incCount sec h)

/-- Continue with the next section unless the function has returned. -/
def andThen (m : BufM MessageErr (List UInt8 ⊕ Header)) (f : Header → BufM MessageErr (List UInt8 ⊕ Header)) :
    BufM MessageErr (List UInt8 ⊕ Header) := do
  match ← m with
  | .inl bytes => pure (.inl bytes)
  | .inr h => f h

/-- message.rs:123-205 `Message::encode_to_bytes_trunc`. -/
def encodeToBytesTrunc (m : Message) : Out MessageErr (List UInt8) :=
  ((do
    BitsBuf.writeBytes (List.replicate 12 0)
    let h0 : Header :=
      { m.header with questionsCount := 0, answersCount := 0, authoritiesCount := 0, additionalsCount := 0 }
    let res ←
      andThen (encodeItemsTrunc Question.encode .question m.questions m.header.questionsCount.toNat 0 h0) fun h =>
      andThen (encodeItemsTrunc Record.encode .answer m.answers m.header.answersCount.toNat 0 h) fun h =>
      andThen (encodeItemsTrunc Record.encode .authority m.authorities m.header.authoritiesCount.toNat 0 h) fun h =>
      encodeItemsTrunc Record.encode .additional m.additionals m.header.additionalsCount.toNat 0 h
    match res with
    | .inl bytes => pure bytes
    | .inr h => do
      BitsBuf.setWritePos 0
      BufM.mapErr MessageErr.headerErr h.encode
      takeVec : BufM MessageErr (List UInt8)) BitsBuf.new).1

end Message

end Ariadne
