import Verif.Lemmas.BufFields

/-!
# C01–C05: the bit buffer
-/

namespace Ariadne.Props

open Spec

/-! Every buffer a client can hold satisfies the representation invariant. -/

theorem forget_ok {α : Type} {m : BufM Unit α} {b b' : BitsBuf} {o : Out Unit Unit}
    (h : forget m b = (o, b')) : (m b).2 = b' ∧ (o = .ok () ↔ ∃ a, (m b).1 = .ok a) := by
  unfold forget at h
  rcases hm : m b with ⟨r, b1⟩
  rw [hm] at h
  cases r <;> simp at h <;> obtain ⟨rfl, rfl⟩ := h <;> simp

theorem forget_of {α : Type} {m : BufM Unit α} {b b' : BitsBuf} {a : α} (h : m b = (.ok a, b')) :
    forget m b = (.ok (), b') := by simp [forget, h]

theorem inv_rPos {b : BitsBuf} (h : b.Inv) {r : Nat} (hr : r ≤ b.last) : ({ b with rPos := r } : BitsBuf).Inv :=
  ⟨h.len, hr, h.w, h.pad⟩

theorem inv_wPos {b : BitsBuf} (h : b.Inv) {w : Nat} (hw : w ≤ b.last) : ({ b with wPos := w } : BitsBuf).Inv :=
  ⟨h.len, h.r, hw, h.pad⟩

theorem inv_lenle {b : BitsBuf} (h : b.Inv) : b.last ≤ 8 * b.buf.length := by
  have := h.len; omega

/-- Writing anywhere (not only at the end) keeps the invariant. -/
theorem writeU8_any {b : BitsBuf} (h : b.Inv) (v : UInt8) :
    ∃ b', (BitsBuf.writeBits v 8 : BufM Unit Unit) b = (.ok (), b') ∧ b'.Inv := by
  obtain ⟨buf', h1, _⟩ := BitsBuf.writeBits_spec (ε := Unit) (n := 8) v h (by decide) (by decide)
  exact ⟨_, h1, BitsBuf.writeBits_inv h (by decide) (by decide) h1⟩

theorem writeBytes_any (l : List UInt8) : ∀ {b : BitsBuf}, b.Inv →
    ∃ b', (BitsBuf.writeBytes l : BufM Unit Unit) b = (.ok (), b') ∧ b'.Inv := by
  induction l with
  | nil => intro b h; exact ⟨b, rfl, h⟩
  | cons x xs ih =>
    intro b h
    obtain ⟨c, h1, i1⟩ := writeU8_any h x
    obtain ⟨d, h2, i2⟩ := ih i1
    refine ⟨d, ?_, i2⟩
    unfold BitsBuf.writeBytes BitsBuf.writeU8
    rw [BufM.bind_ok h1, h2]

/-- A legal call on a well-formed buffer returns and leaves it well-formed. -/
theorem legal_ok (op : BufOp) {b : BitsBuf} (h : b.Inv) (hl : op.Legal b.last) :
    ∃ b', op.run b = (.ok (), b') ∧ b'.Inv := by
  cases op with
  | truncate len => exact ⟨_, rfl, (BitsBuf.truncate_spec len h).1⟩
  | setReadPos r =>
    exact ⟨_, forget_of (a := ()) (if_neg (Nat.not_lt.2 hl)), inv_rPos h hl⟩
  | setWritePos w =>
    exact ⟨_, forget_of (a := ()) (if_neg (Nat.not_lt.2 hl)), inv_wPos h hl⟩
  | readBits n =>
    by_cases h0 : n = 0
    · subst h0; exact ⟨b, forget_of (a := some 0) rfl, h⟩
    · by_cases hr : b.rPos + n ≤ b.last
      · obtain ⟨v, h1, _⟩ := BitsBuf.readBits_spec (ε := Unit) (inv_lenle h) (by omega) hl hr
        exact ⟨_, forget_of h1, inv_rPos h hr⟩
      · exact ⟨b, forget_of (BitsBuf.readBits_none (by omega) hl (by omega)), h⟩
  | readU8 =>
    by_cases hr : b.rPos + 8 ≤ b.last
    · obtain ⟨v, h1, _⟩ := BitsBuf.readBits_spec (ε := Unit) (n := 8) (inv_lenle h) (by omega) (by omega) hr
      exact ⟨_, forget_of h1, inv_rPos h hr⟩
    · exact ⟨b, forget_of (BitsBuf.readBits_none (n := 8) (by omega) (by omega) (by omega)), h⟩
  | readU16 =>
    by_cases hr : b.rPos + 16 ≤ b.last
    · obtain ⟨v, h1, _⟩ := BitsBuf.readU16_spec (ε := Unit) (inv_lenle h) hr
      exact ⟨_, forget_of h1, inv_rPos h hr⟩
    · exact ⟨b, forget_of (a := none) (by simp [BitsBuf.readU16]; omega), h⟩
  | readU32 =>
    by_cases hr : b.rPos + 32 ≤ b.last
    · obtain ⟨v, h1, _⟩ := BitsBuf.readU32_spec (ε := Unit) (inv_lenle h) hr
      exact ⟨_, forget_of h1, inv_rPos h hr⟩
    · exact ⟨b, forget_of (a := none) (by simp [BitsBuf.readU32]; omega), h⟩
  | readBytes n =>
    by_cases hr : b.rPos + 8 * n ≤ b.last
    · obtain ⟨v, _, h1, _⟩ := BitsBuf.readBytesVec_spec (ε := Unit) n (inv_lenle h) hr
      exact ⟨_, forget_of h1, inv_rPos h hr⟩
    · exact ⟨b, forget_of (a := none) (by simp [BitsBuf.readBytesVec]; omega), h⟩
  | writeBits v n =>
    obtain ⟨buf', h1, _⟩ := BitsBuf.writeBits_spec (ε := Unit) v h hl.1 hl.2
    exact ⟨_, forget_of h1, BitsBuf.writeBits_inv h hl.1 hl.2 h1⟩
  | writeU8 v =>
    obtain ⟨c, h1, i1⟩ := writeU8_any h v
    exact ⟨c, forget_of h1, i1⟩
  | writeU16 v =>
    obtain ⟨c, h1, i1⟩ := writeU8_any h (v >>> 8).toUInt8
    obtain ⟨d, h2, i2⟩ := writeU8_any i1 v.toUInt8
    exact ⟨d, forget_of (a := ()) (by unfold BitsBuf.writeU16; rw [BufM.bind_ok h1, h2]), i2⟩
  | writeU32 v =>
    obtain ⟨c, h1, i1⟩ := writeU8_any h (v >>> 24).toUInt8
    obtain ⟨d, h2, i2⟩ := writeU8_any i1 (v >>> 16).toUInt8
    obtain ⟨e, h3, i3⟩ := writeU8_any i2 (v >>> 8).toUInt8
    obtain ⟨f, h4, i4⟩ := writeU8_any i3 v.toUInt8
    exact ⟨f, forget_of (a := ()) (by
      unfold BitsBuf.writeU32; rw [BufM.bind_ok h1, BufM.bind_ok h2, BufM.bind_ok h3, h4]), i4⟩
  | writeBytes l =>
    obtain ⟨c, h1, i1⟩ := writeBytes_any l h
    exact ⟨c, forget_of h1, i1⟩

/-- An illegal call panics. -/
theorem illegal_panics (op : BufOp) {b : BitsBuf} (hl : ¬ op.Legal b.last) :
    ∃ k, op.run b = (.panic k, b) := by
  cases op with
  | setReadPos r => exact ⟨.explicit, by simp [BufOp.Legal] at hl; simp [BufOp.run, forget, BitsBuf.setReadPos, hl]⟩
  | setWritePos w => exact ⟨.explicit, by simp [BufOp.Legal] at hl; simp [BufOp.run, forget, BitsBuf.setWritePos, hl]⟩
  | readBits n =>
    exact ⟨.assert, by simp [BufOp.Legal] at hl; simp [BufOp.run, forget, BitsBuf.readBits, Nat.not_le.2 hl]⟩
  | writeBits v n =>
    refine ⟨.assert, ?_⟩
    simp only [BufOp.Legal] at hl
    have : ¬ (n ≤ 8 ∧ n > 0) := fun h => hl ⟨h.2, h.1⟩
    simp only [BufOp.run, forget, BitsBuf.writeBits, this]
    simp
  | _ => exact absurd trivial hl

theorem reachable_inv {b : BitsBuf} (h : Reachable b) : b.Inv := by
  induction h with
  | new => exact BitsBuf.inv_new
  | raw bytes => exact BitsBuf.inv_fromRaw bytes
  | @step b b' op _ hrun ih =>
    by_cases hl : op.Legal b.last
    · obtain ⟨c, h1, h2⟩ := legal_ok op ih hl
      rw [hrun] at h1
      obtain ⟨_, rfl⟩ := Prod.mk.inj h1
      exact h2
    · obtain ⟨k, h1⟩ := illegal_panics op hl
      rw [hrun] at h1
      simp at h1

/-- **C01.** `read_bits(n)` with `n ≤ 8` on any buffer a client can hold: with enough bits left it returns
exactly the next `n` bits as a big-endian number and only advances the read position; otherwise it
returns `None` and changes nothing. -/
theorem C01_read_bits_exact (b : BitsBuf) (hb : Reachable b) (n : Nat) (hn : n ≤ 8) :
    (b.rPos + n ≤ b.last → ∃ v : UInt8,
      (BitsBuf.readBits n : BufM Unit (Option UInt8)) b = (.ok (some v), { b with rPos := b.rPos + n }) ∧
      FieldAt b.buf b.rPos n v.toNat) ∧
    (b.last < b.rPos + n → (BitsBuf.readBits n : BufM Unit (Option UInt8)) b = (.ok none, b)) := by
  have hi := reachable_inv hb
  refine ⟨fun hr => ?_, fun hr => ?_⟩
  · by_cases h0 : n = 0
    · subst h0
      exact ⟨0, rfl, fieldAt_zero _ _⟩
    · exact BitsBuf.readBits_spec (inv_lenle hi) (by omega) hn hr
  · exact BitsBuf.readBits_none (by have := hi.r; omega) hn hr

/-- Non-trivial instance: an unaligned read across a byte boundary. -/
example : let b := ({ BitsBuf.fromRawBytes [0b00001010, 0b10000001] with rPos := 5 } : BitsBuf)
    Reachable b ∧ b.rPos + 7 ≤ b.last ∧
    (BitsBuf.readBits 7 : BufM Unit (Option UInt8)) b = (.ok (some 0b0101000), { b with rPos := 12 }) :=
  ⟨.step (.readBits 5) (.raw [0b00001010, 0b10000001]) (by decide), by decide, by decide⟩

/-- **C02.** `write_bits(v, n)` with `1 ≤ n ≤ 8` on any buffer a client can hold: the next `n` bits become the
low `n` bits of `v`, every other bit stays, the write position advances by `n`, the length grows only
when the write ends beyond it, and the read position stays. -/
theorem C02_write_bits_exact (b : BitsBuf) (hb : Reachable b) (v : UInt8) (n : Nat) (hn0 : 0 < n) (hn : n ≤ 8) :
    ∃ b', (BitsBuf.writeBits v n : BufM Unit Unit) b = (.ok (), b') ∧
      b'.wPos = b.wPos + n ∧ b'.last = max b.last (b.wPos + n) ∧ b'.rPos = b.rPos ∧
      FieldAt b'.buf b.wPos n (v.toNat % 2 ^ n) ∧
      (∀ i, i < b.wPos ∨ b.wPos + n ≤ i → bitAt b'.buf i = bitAt b.buf i) ∧
      b'.buf.length = (b'.last + 7) / 8 := by
  have hi := reachable_inv hb
  obtain ⟨buf', h1, h2, h3⟩ := BitsBuf.writeBits_spec (ε := Unit) v hi hn0 hn
  refine ⟨_, h1, rfl, rfl, rfl, ⟨Nat.mod_lt _ (Nat.pow_pos (by decide)), ?_⟩, ?_, h2⟩
  · intro j hj
    have e : b.wPos + j - b.wPos = j := by omega
    rw [h3, if_pos (by omega), Nat.testBit_mod_two_pow, e]
    have : n - 1 - j < n := by omega
    simp [this]
  · intro i hi
    rw [h3, if_neg (by omega)]

/-- Non-trivial instance: overwriting in the middle, across a byte boundary. -/
example : let b := ({ BitsBuf.fromRawBytes [0xff, 0xff] with wPos := 6 } : BitsBuf)
    Reachable b ∧ (BitsBuf.writeBits 0b0101 4 : BufM Unit Unit) b =
      (.ok (), { b with buf := [0b11111101, 0b01111111], wPos := 10 }) :=
  ⟨.step (.setWritePos 6) (.raw [0xff, 0xff]) (by decide), by decide⟩

/-- **C03.** On any buffer a client can hold, whatever the history, a call panics exactly when it violates the
documented contract (otherwise it returns); and positions never exceed the length. -/
theorem C03_panics_only_on_contract_violation (b : BitsBuf) (hb : Reachable b) (op : BufOp) :
    (op.Legal b.last ↔ ∃ b', op.run b = (.ok (), b')) ∧
    (¬ op.Legal b.last ↔ (op.run b).1.Panics) ∧
    b.rPos ≤ b.last ∧ b.wPos ≤ b.last ∧ b.buf.length = (b.last + 7) / 8 := by
  have hi := reachable_inv hb
  have h1 : op.Legal b.last → ∃ b', op.run b = (.ok (), b') := fun hl => by
    obtain ⟨c, h1, _⟩ := legal_ok op hi hl; exact ⟨c, h1⟩
  have h2 : ¬ op.Legal b.last → ∃ k, op.run b = (.panic k, b) := illegal_panics op
  refine ⟨⟨h1, fun ⟨b', h⟩ => ?_⟩, ⟨fun hl => ?_, fun hp hl => ?_⟩, hi.r, hi.w, hi.len⟩
  · by_contra hl
    obtain ⟨k, hk⟩ := h2 hl
    rw [h] at hk; simp at hk
  · obtain ⟨k, hk⟩ := h2 hl
    rw [hk]; trivial
  · obtain ⟨b', hb'⟩ := h1 hl
    rw [hb'] at hp; exact hp

/-- Non-trivial instance: a buffer reached by writing 3 bits, truncating and patching. -/
example : Reachable { buf := [0b10000000], last := 2, wPos := 2, rPos := 0 } :=
  .step (.truncate 2) (b := { buf := [0b10100000], last := 3, wPos := 3, rPos := 0 })
    (.step (.writeBits 5 3) .new (by decide)) (by decide)

/-- **C04.** Fields appended to an empty buffer are read back in order with the same widths and values (bit
groups reduced to their width), and each sits on the wire at the sum of the previous widths as a big-endian
number. -/
theorem C04_write_read_roundtrip (fs : List Field) (hf : ∀ f ∈ fs, f.WF) :
    ∃ b, writeAll fs BitsBuf.new = (.ok (), b) ∧
      b.last = (fs.map Field.width).sum ∧
      (readAll fs b).1 = .ok (fs.map Field.stored) ∧
      (readAll fs b).2.rPos = b.last ∧
      ∀ pre f post, fs = pre ++ f :: post → FieldAt b.buf (pre.map Field.width).sum f.width f.value := by
  obtain ⟨b, h1, hi, hl, _, hr, _, hlay⟩ := writeAll_spec fs hf BitsBuf.inv_new rfl
  have hl0 : b.last = totalWidth fs := by rw [hl]; simp [BitsBuf.new]
  have hr0 : b.rPos = 0 := hr
  have hlay0 : LaidOut b.buf b.rPos fs := by rw [hr0]; exact hlay
  have hread := readAll_spec fs hf (inv_lenle hi) (by omega) hlay0
  refine ⟨b, h1, hl0, by rw [hread], by rw [hread]; simp only; omega, ?_⟩
  intro pre f post e
  subst e
  have := laidOut_split hlay0
  rw [hr0, Nat.zero_add] at this
  exact this

/-- Non-trivial instance: the first fields of a DNS header. -/
example : ∀ f ∈ [Field.u16 0xabcd, .bits 1 1, .bits 0 4, .bits 0xff 3, .bytes [1, 2, 3], .u32 7], f.WF := by
  simp [Field.WF]

/-- **C05.** `truncate(len)` keeps exactly the first `len` bits, zeroes everything after, clamps the
positions, and does nothing when `len` is at or beyond the end. -/
theorem C05_truncate_exact (b : BitsBuf) (hb : Reachable b) (len : Nat) :
    (b.last ≤ len → b.truncate len = b) ∧
    (len < b.last →
      (b.truncate len).last = len ∧
      (b.truncate len).buf.length = (len + 7) / 8 ∧
      (∀ i, i < len → bitAt (b.truncate len).buf i = bitAt b.buf i) ∧
      (∀ i, len ≤ i → bitAt (b.truncate len).buf i = false) ∧
      (b.truncate len).rPos = min b.rPos len ∧ (b.truncate len).wPos = min b.wPos len) := by
  have hi := reachable_inv hb
  refine ⟨fun h => by simp [BitsBuf.truncate, h], fun h => ?_⟩
  obtain ⟨i1, l1, r1, w1, p1⟩ := BitsBuf.truncate_spec len hi
  have hm : min len b.last = len := by omega
  rw [hm] at l1 r1 w1 p1
  refine ⟨l1, by rw [i1.len, l1], p1, fun i hlen => i1.pad i (by omega), r1, w1⟩

example : (BitsBuf.fromRawBytes [0xff, 0xff]).truncate 11 =
    { buf := [0xff, 0b11100000], last := 11, wPos := 11, rPos := 0 } := by decide

end Ariadne.Props
