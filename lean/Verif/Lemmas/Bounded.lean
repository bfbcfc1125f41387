import Verif.Lemmas.Safety

/-! # How much of a message an item takes -/

namespace Ariadne

open Spec BitsBuf

/-- The computation never fails with "unknown type". -/
def NoUnk {α : Type} (d : BufM ParsingErr α) : Prop := ∀ b n, (d b).1 ≠ .err (.unknownType n)

namespace NoUnk

variable {α β : Type}

theorem bind {m : BufM ParsingErr α} {f : α → BufM ParsingErr β} (h1 : NoUnk m) (h2 : ∀ a, NoUnk (f a)) : NoUnk (m >>= f) := by
  intro b n
  rw [BufM.bind_apply]
  have h := h1 b n
  revert h
  generalize m b = x
  intro h
  obtain ⟨o, b'⟩ := x
  cases o with
  | ok a => exact h2 a b' n
  | err e =>
    intro h'
    simp only at h h'
    injection h' with h'
    exact h (by rw [h'])
  | panic k => intro h'; cases h'
  | diverge => intro h'; cases h'

theorem pure (a : α) : NoUnk (Pure.pure a : BufM ParsingErr α) := by intro b n h; cases h

theorem throw {e : ParsingErr} (h : ∀ n, e ≠ .unknownType n) : NoUnk (BufM.throw e : BufM ParsingErr α) := by
  intro b n h'
  injection h' with h'
  exact h n h'

theorem lift {o : Out ParsingErr α} (h : ∀ n, o ≠ .err (.unknownType n)) : NoUnk (BufM.lift o) := fun _ n h' => h n h'

theorem panic {k : Panic} : NoUnk (BufM.panic k : BufM ParsingErr α) := by intro b n h; cases h

theorem diverge : NoUnk (BufM.diverge : BufM ParsingErr α) := by intro b n h; cases h

theorem ok {m : BufM ParsingErr α} (h : ∀ b e, (m b).1 ≠ .err e) : NoUnk m := fun b n => h b _

theorem checkEnd {m : BufM ParsingErr (Option α)} (h : NoUnk m) : NoUnk (checkEndP m) := by
  unfold checkEndP
  refine bind h fun a => ?_
  cases a with
  | none => exact throw (fun _ h => by cases h)
  | some v => exact pure v

theorem readPos : NoUnk (BitsBuf.readPos : BufM ParsingErr Nat) := by intro b n h; cases h

theorem setReadPos {r : Nat} : NoUnk (BitsBuf.setReadPos r : BufM ParsingErr Unit) := by
  intro b n
  unfold BitsBuf.setReadPos
  split <;> exact fun h => by cases h

theorem bits {n : Nat} : NoUnk (readBits n : BufM ParsingErr (Option UInt8)) := by
  intro b k
  unfold readBits
  dsimp only
  repeat' split
  all_goals exact fun h => by cases h

theorem u8 : NoUnk (checkEndP readU8) := checkEnd bits

theorem u8Unwrap : NoUnk (readU8Unwrap : BufM ParsingErr UInt8) := by
  unfold readU8Unwrap
  refine bind bits fun a => ?_
  cases a with
  | none => exact panic
  | some v => exact pure v

theorem u16 : NoUnk (checkEndP readU16) := by
  apply checkEnd
  intro b n
  unfold readU16
  split
  · exact fun h => by cases h
  · exact bind u8Unwrap (fun _ => bind u8Unwrap fun _ => pure _) b n

theorem u32 : NoUnk (checkEndP readU32) := by
  apply checkEnd
  intro b n
  unfold readU32
  split
  · exact fun h => by cases h
  · exact bind u8Unwrap (fun _ => bind u8Unwrap fun _ => bind u8Unwrap fun _ => bind u8Unwrap fun _ => pure _) b n

theorem loop : ∀ n, NoUnk (readBytesLoop n : BufM ParsingErr (List UInt8))
  | 0 => pure _
  | n + 1 => bind u8Unwrap fun _ => bind (loop n) fun _ => pure _

theorem vec (n : Nat) : NoUnk (readBytesVec n : BufM ParsingErr (Option (List UInt8))) := by
  intro b k
  unfold readBytesVec
  split
  · exact fun h => by cases h
  · exact bind (loop n) (fun _ => pure _) b k

theorem name (p : Profile) : NoUnk (nameP p) := by
  intro b n
  unfold nameP BufM.mapErr
  generalize Name.fromBytes p b = x
  obtain ⟨o, b'⟩ := x
  intro h
  cases o with
  | err e => cases e <;> cases h
  | ok a => cases h
  | panic a => cases h
  | diverge => cases h

theorem charStr : NoUnk decodeCharacterString := by
  unfold decodeCharacterString
  refine bind u8 fun l => bind (checkEnd (vec _)) fun bs => ?_
  by_cases hl : bs.length > 255
  · rw [if_pos hl]; exact throw fun _ h => by cases h
  · rw [if_neg hl]
    cases fromUtf8 bs with
    | none => exact throw fun _ h => by cases h
    | some s => exact pure _

theorem add (p : Profile) (a b : UInt16) : NoUnk (BufM.lift (addU16 p a b) : BufM ParsingErr UInt16) := by
  refine lift fun n => ?_
  unfold addU16
  split
  · exact fun h => by cases h
  · cases p <;> exact fun h => by cases h

theorem checkLen (p : Profile) (len : UInt16) (b a : Nat) (v : α) : NoUnk (Record.checkLen p len b a v) := by
  unfold Record.checkLen
  refine bind (lift fun n => ?_) fun w => ?_
  · unfold mulU16
    split
    · exact fun h => by cases h
    · cases p <;> exact fun h => by cases h
  · by_cases h : a - b ≠ w.toNat
    · rw [if_pos h]; exact throw fun _ h => by cases h
    · rw [if_neg h]; exact pure _

theorem ip4 : NoUnk (checkEndP Record.readIp4) := by
  apply checkEnd
  unfold Record.readIp4
  refine bind (vec 4) fun a => ?_
  split
  · exact pure _
  · exact pure _
  · exact panic

theorem nameData (p : Profile) (len : UInt16) : NoUnk (Record.decodeNameData p len) := by
  unfold Record.decodeNameData
  exact bind readPos fun _ => bind (name p) fun _ => bind readPos fun _ => checkLen _ _ _ _ _

theorem txtLoop (p : Profile) (len : UInt16) : ∀ fuel strs rd, NoUnk (Record.decodeTxtLoop p len fuel strs rd)
  | 0, _, _ => diverge
  | fuel + 1, strs, rd => by
    unfold Record.decodeTxtLoop
    refine bind readPos fun _ => bind u8 fun _ => bind setReadPos fun _ => bind (add _ _ _) fun _ => bind (add _ _ _) fun s2 => ?_
    by_cases h : s2 > len
    · rw [if_pos h]; exact throw fun _ h => by cases h
    · rw [if_neg h]
      refine bind charStr fun _ => bind (add _ _ _) fun _ => bind (add _ _ _) fun rd2 => ?_
      by_cases h : rd2 = len
      · rw [if_pos h]; exact pure _
      · rw [if_neg h]; exact txtLoop p len fuel _ _

theorem wksPorts (p : Profile) : ∀ (bs : List UInt8) (n : UInt16), Record.parseWksPorts p bs ≠ .err (.unknownType n)
  | [], _ => fun h => by cases h
  | x :: xs, n => by
    unfold Record.parseWksPorts
    by_cases h : x = 0
    · rw [if_pos h]; exact wksPorts p xs n
    · rw [if_neg h]; cases p <;> exact fun h => by cases h

theorem data (p : Profile) (t : RecordType) (len : UInt16) : NoUnk (Record.decodeData p t len) := by
  unfold Record.decodeData
  cases t
  case A =>
    refine bind ?_ fun _ => pure _
    unfold Record.decodeA
    by_cases h : len ≠ 4
    · rw [if_pos h]; exact throw fun _ h => by cases h
    · rw [if_neg h]; exact ip4
  case NS => exact bind (nameData _ _) fun _ => pure _
  case CNAME => exact bind (nameData _ _) fun _ => pure _
  case PTR => exact bind (nameData _ _) fun _ => pure _
  case SOA =>
    show NoUnk (Record.decodeSoa p len)
    unfold Record.decodeSoa
    exact bind readPos fun _ => bind (name p) fun _ => bind (name p) fun _ => bind u32 fun _ => bind u32 fun _ =>
      bind u32 fun _ => bind u32 fun _ => bind u32 fun _ => bind readPos fun _ => checkLen _ _ _ _ _
  case WKS =>
    show NoUnk (Record.decodeWks p len)
    unfold Record.decodeWks
    refine bind ip4 fun _ => bind u8 fun _ => ?_
    by_cases h : len > 5
    · rw [if_pos h]
      refine bind (vec _) fun o => ?_
      cases o with
      | none => exact panic
      | some bs => exact bind (lift (wksPorts p bs)) fun _ => pure _
    · rw [if_neg h]; exact pure _
  case HINFO =>
    show NoUnk (Record.decodeHinfo p len)
    unfold Record.decodeHinfo
    exact bind readPos fun _ => bind charStr fun _ => bind charStr fun _ => bind readPos fun _ => checkLen _ _ _ _ _
  case MX =>
    show NoUnk (Record.decodeMx p len)
    unfold Record.decodeMx
    exact bind readPos fun _ => bind u16 fun _ => bind (name p) fun _ => bind readPos fun _ => checkLen _ _ _ _ _
  case TXT => exact fun b n => bind (txtLoop _ _ _ _ _) (fun _ => pure _) b n
  all_goals exact panic

theorem cls (n : UInt16) : NoUnk (BufM.lift (Record.decodeClass n) : BufM ParsingErr Class) := by
  refine lift fun k => ?_
  unfold Record.decodeClass
  split
  · split <;> exact fun h => by cases h
  · exact fun h => by cases h

end NoUnk

theorem rdBit_inj {msg : List UInt8} {r r' : Nat} (h : rdBit msg r = rdBit msg r') : r = r' :=
  congrArg BitsBuf.rPos h

/-- Failing with "unknown type" leaves the cursor at bit `c` or later. -/
def Unk {α : Type} (msg : List UInt8) (r : Nat) (d : BufM ParsingErr α) (c : Nat) : Prop :=
  ∀ n r', d (rdBit msg r) = (.err (.unknownType n), rdBit msg r') → c ≤ r'

theorem NoUnk.unk {α : Type} {d : BufM ParsingErr α} (h : NoUnk d) {msg : List UInt8} {r c : Nat} : Unk msg r d c := by
  intro n r' e
  exact absurd (by rw [e]) (h (rdBit msg r) n)

theorem Unk.mono {α : Type} {msg : List UInt8} {r c c' : Nat} {d : BufM ParsingErr α} (h : Unk msg r d c) (hc : c' ≤ c) :
    Unk msg r d c' := fun n r' e => Nat.le_trans hc (h n r' e)

theorem Unk.bind {α β : Type} {msg : List UInt8} {r c : Nat} {m : BufM ParsingErr α} {f : α → BufM ParsingErr β}
    {Q : α → Nat → Prop} (h1 : Run msg r m True Q) (h2 : Unk msg r m c)
    (h3 : ∀ a r', r' ≤ 8 * msg.length → Q a r' → Unk msg r' (f a) c) : Unk msg r (m >>= f) c := by
  intro n r' e
  obtain ⟨o, r1, e1, hr1, hq, -⟩ := h1
  cases o with
  | ok a => rw [BufM.bind_ok e1] at e; exact h3 a r1 hr1 (hq a rfl) n r' e
  | err x => rw [BufM.bind_err e1] at e; injection e with e e'; injection e with e; subst e; rw [← rdBit_inj e']; exact h2 n r1 e1
  | panic x => rw [BufM.bind_panic e1] at e; cases e
  | diverge => rw [BufM.bind_apply, e1] at e; cases e

theorem Unk.throw {α : Type} {msg : List UInt8} {r : Nat} {e : ParsingErr} : Unk msg r (BufM.throw e : BufM ParsingErr α) r := by
  intro n r' h
  injection h with _ h
  exact Nat.le_of_eq (rdBit_inj h)

theorem unk_recordType {msg : List UInt8} {r : Nat} (hr : r ≤ 8 * msg.length) : Unk msg r Record.decodeRecordType (r + 80) := by
  unfold Record.decodeRecordType
  refine .bind (Run.u16 hr) (NoUnk.u16.unk) fun n r1 hr1 ⟨h1, _⟩ => ?_
  cases RecordType.fromNum n with
  | none =>
    exact .bind (Run.u16 hr1) (NoUnk.u16.unk) fun _ r2 hr2 ⟨h2, _⟩ =>
      .bind (Run.u32 hr2) (NoUnk.u32.unk) fun _ r3 hr3 ⟨h3, _⟩ =>
      .bind (Run.u16 hr3) (NoUnk.u16.unk) fun n r4 hr4 ⟨h4, _⟩ =>
      .bind (Run.bytes n.toNat hr4) ((NoUnk.checkEnd (NoUnk.vec _)).unk) fun _ r5 hr5 ⟨h5, _⟩ =>
      Unk.throw.mono (by omega)
  | some t =>
    simp only
    by_cases hs : (!t.isSupportedForRecords) = true
    · rw [if_pos hs]; exact (NoUnk.throw fun _ h => by cases h).unk
    · rw [if_neg hs]; exact (NoUnk.pure _).unk

theorem unk_record (p : Profile) {msg : List UInt8} {r : Nat} (hr : r ≤ 8 * msg.length) :
    Unk msg r (Record.decode p) (r + 88) := by
  unfold Record.decode
  refine .bind (Run.name p hr fun _ => trivial) ((NoUnk.name p).unk) fun node r1 hr1 ⟨l1, ls, k, hw⟩ => ?_
  have hw := (WireName_next hw).1
  exact .bind (run_recordType hr1) ((unk_recordType hr1).mono (by omega)) fun t r2 _ _ =>
    (NoUnk.bind .u16 fun cn => .bind (.cls cn) fun _ => .bind .u32 fun _ => .bind .u16 fun _ => .bind (.data _ _ _) fun _ =>
      .pure _).unk

theorem unk_question (p : Profile) {msg : List UInt8} {r : Nat} (hr : r ≤ 8 * msg.length) :
    Unk msg r (Question.decode p) (r + 40) := by
  unfold Question.decode
  refine .bind (Run.name p hr fun _ => trivial) ((NoUnk.name p).unk) fun node r1 hr1 ⟨l1, ls, k, hw⟩ => ?_
  have hw := (WireName_next hw).1
  have e : Question.decodeClass = Record.decodeClass := by
    funext cn
    unfold Question.decodeClass Record.decodeClass; cases Class.fromNum cn <;> rfl
  rw [e]
  have ht : Run msg r1 Question.decodeRecordType True (fun _ _ => True) := by
    unfold Question.decodeRecordType
    refine (Run.u16 hr1).bind fun n r2 hr2 ⟨h2, f⟩ => ?_
    cases RecordType.fromNum n with
    | none => exact (Run.u16 hr2).bind fun _ r3 hr3 _ => Run.throw hr3
    | some t =>
      simp only
      by_cases hs : (!t.isSupportedForQuestion) = true
      · rw [if_pos hs]; exact Run.throw hr2
      · rw [if_neg hs]; exact Run.pure hr2 trivial
  refine .bind ht ?_ fun t r2 _ _ => (NoUnk.bind .u16 fun cn => .bind (.cls cn) fun _ => .pure _).unk
  unfold Question.decodeRecordType
  refine .bind (Run.u16 hr1) (NoUnk.u16.unk) fun n r2 hr2 ⟨h2, _⟩ => ?_
  cases RecordType.fromNum n with
  | none => exact .bind (Run.u16 hr2) (NoUnk.u16.unk) fun _ r3 _ ⟨h3, _⟩ => Unk.throw.mono (by omega)
  | some t =>
    simp only
    by_cases hs : (!t.isSupportedForQuestion) = true
    · rw [if_pos hs]; exact (NoUnk.throw fun _ h => by cases h).unk
    · rw [if_neg hs]; exact (NoUnk.pure _).unk

/-- A section: every item, kept or skipped, takes at least `c` bits. -/
theorem run_items_size {α : Type} {msg : List UInt8} {d : BufM ParsingErr α} {sec : Section} (c : Nat)
    (hrun : ∀ r, r ≤ 8 * msg.length → Run msg r d True (fun _ r' => r + c ≤ r'))
    (hunk : ∀ r, r ≤ 8 * msg.length → Unk msg r d (r + c)) :
    ∀ (n i : Nat) (r : Nat), r ≤ 8 * msg.length →
      Run msg r (Message.decodeItems d sec n i) True (fun as r' => r + c * n ≤ r' ∧ as.length ≤ n)
  | 0, i, r, hr => Run.pure hr (by simp)
  | n + 1, i, r, hr => by
    obtain ⟨o, r', e, hr', hq, hb⟩ := hrun r hr
    unfold Run
    simp only [Message.decodeItems, e]
    have hm : c * (n + 1) = c * n + c := Nat.mul_succ c n
    cases o with
    | ok a =>
      have h := run_items_size c hrun hunk (sec := sec) n (i + 1) r' hr'
      have h1 := hq a rfl
      exact Run.bind (f := fun rest => (pure (a :: rest) : BufM MessageErr (List α))) h
        (Q' := fun as r' => r + c * (n + 1) ≤ r' ∧ as.length ≤ n + 1) (fun as r2 hr2 h4 => Run.pure hr2
          ⟨by omega, by simp only [List.length_cons]; omega⟩)
    | err x =>
      cases x with
      | unknownType v =>
        have h1 := hunk r hr v r' e
        exact (run_items_size c hrun hunk (sec := sec) n (i + 1) r' hr').mono id fun as r2 h => ⟨by omega, by omega⟩
      | _ => exact ⟨_, r', rfl, hr', by simp, by simp [Out.Returns]⟩
    | panic k => exact ⟨_, r', rfl, hr', by simp, fun _ => trivial⟩
    | diverge => exact ⟨_, r', rfl, hr', by simp, fun _ => trivial⟩

/-- The header's counts, with the size of the smallest question and record. -/
def Claimed (m : Message) : Nat :=
  12 + 5 * m.header.questionsCount.toNat + 11 * m.header.answersCount.toNat + 11 * m.header.authoritiesCount.toNat +
    11 * m.header.additionalsCount.toNat

theorem run_message_size (p : Profile) (msg : List UInt8) :
    Run msg 0 (Message.decode p) True (fun m _ => Claimed m ≤ msg.length) := by
  unfold Message.decode
  refine (Run.mapErr (run_header (Nat.zero_le _))).bind fun h r1 hr1 ⟨h1, _⟩ =>
    (Run.lift hr1 fun _ => trivial).bind fun _ r2 hr2 ⟨h2, _⟩ => ?_
  have rq : ∀ r, r ≤ 8 * msg.length → Run msg r (Question.decode p) True (fun _ r' => r + 40 ≤ r') := fun r hr =>
    (run_question p hr).mono (fun _ => trivial) fun _ r' ⟨_, _, _, next, _, hw, _, e⟩ => by
      have := (WireName_next hw).1; omega
  have rr : ∀ r, r ≤ 8 * msg.length → Run msg r (Record.decode p) True (fun _ r' => r + 88 ≤ r') :=
    fun r hr => (run_record p hr).mono (fun _ => trivial) fun _ _ ⟨_, _, next, _, hw, _, _, e, _⟩ => by
      have := (WireName_next hw).1; omega
  exact (run_items_size 40 rq (fun r hr => unk_question p hr) _ _ _ hr2).bind fun qs r3 hr3 h3 =>
    (run_items_size 88 rr (fun r hr => unk_record p hr) _ _ _ hr3).bind fun an r4 hr4 h4 =>
    (run_items_size 88 rr (fun r hr => unk_record p hr) _ _ _ hr4).bind fun au r5 hr5 h5 =>
    (run_items_size 88 rr (fun r hr => unk_record p hr) _ _ _ hr5).bind fun ad r6 hr6 h6 =>
    Run.pure hr6 (by unfold Claimed; simp only; omega)

end Ariadne
