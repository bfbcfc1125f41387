import Verif.Lemmas.NameRound

/-!
# C06–C14: domain names
-/

namespace Ariadne.Props

open Spec BitsBuf

/-! ## C06 -/

/-- C06: `from_string` accepts exactly the well-formed absolute names and keeps the string; otherwise it returns an
error (no panic). -/
theorem C06_from_string_exact (s : Str) :
    (ValidName s → Name.fromString s = .ok ⟨s⟩) ∧ (¬ ValidName s → ∃ e, Name.fromString s = .err e) := by
  constructor
  · intro h; exact (fromString_iff s ⟨s⟩).2 ⟨rfl, h⟩
  · intro h
    have hr := validateName_returns s
    unfold Name.fromString
    cases hv : Name.validateName s with
    | ok u => exact absurd ((validateName_iff s).1 hv) h
    | err e => exact ⟨e, rfl⟩
    | panic k => rw [hv] at hr; exact hr.elim
    | diverge => rw [hv] at hr; exact hr.elim

example : ValidName "www.example.com.".toList := (validateName_iff _).1 (by decide)
example : ¬ ValidName "-a.com.".toList := fun h => by
  have := (validateName_iff _).2 h
  revert this; decide

/-! ## C07 -/

/-- The full statement of C07. -/
def C07_statement : Prop :=
  ∀ s n, Name.fromString s = .ok n → ∀ labels, NameOf n.s labels → ∀ l ∈ labels, l.length ≤ 63

/-- A name of one label of 64 letters. -/
def longLabelName : Str := List.replicate 64 'a' ++ ['.']

theorem longLabel_valid : NameOf longLabelName [List.replicate 64 'a'] := by
  refine ⟨?_, by decide⟩
  intro l hl
  simp only [List.mem_singleton] at hl
  subst hl
  exact (validateLabel_iff _).1 (by decide)

/-- C07 does not hold: `from_string` accepts a label of 64 octets; its encoding starts with the octet 64, which
`from_bytes` rejects as a malformed label. -/
theorem C07_violated : ¬ C07_statement ∧
    ∃ n, Name.fromString longLabelName = .ok n ∧ n.toBytes.head? = some 64 ∧
      (Name.fromBytes .release (fromRawBytes n.toBytes)).1 = .err .malformedLabel := by
  have hok : Name.fromString longLabelName = .ok ⟨longLabelName⟩ :=
    (fromString_iff _ _).2 ⟨rfl, by decide, _, longLabel_valid⟩
  constructor
  · intro h
    have := h _ _ hok _ longLabel_valid (List.replicate 64 'a') (List.mem_singleton.2 rfl)
    rw [List.length_replicate] at this
    omega
  · exact ⟨_, hok, by decide, by decide⟩

/-- C07, part: holds for every name that was read from the wire. Missing: names made by `from_string`, for which it is
false (`C07_violated`). -/
theorem C07_labels_le_63_partial (p : Profile) (msg : List UInt8) (r : Nat) (hr : r ≤ 8 * msg.length) (n : Name)
    (b : BitsBuf) (h : Name.fromBytes p (rdBit msg r) = (.ok n, b)) :
    ∀ labels, NameOf n.s labels → ∀ l ∈ labels, l.length ≤ 63 := by
  obtain ⟨o, r', h1, -, h3⟩ := Name.fromBytes_spec p msg r hr
  rw [h] at h1
  obtain ⟨rfl, rfl⟩ := Prod.mk.inj h1
  obtain ⟨-, ls, k, hw, -, hs⟩ := h3
  intro labels hn
  exact decoded_labels_le hn hs fun l hl => ((WireName_next hw).2.2.2 l hl).2

example : Name.fromBytes .release (rdBit [3, 99, 111, 109, 0] 0) =
    (.ok ⟨"com.".toList⟩, rdBit [3, 99, 111, 109, 0] 40) := by decide

/-! ## C08 -/

/-- C08: on any bytes, from any position, decoding a name ends within 272 rounds of the loop (16 jumps and at most 255
octets plus the last round): allowing more rounds changes nothing, and the outcome is not divergence. -/
theorem C08_name_decoding_terminates (p : Profile) (msg : List UInt8) (r : Nat) (hr : r ≤ 8 * msg.length) :
    (∀ rounds, 272 ≤ rounds →
      Name.fromBytesLoop p rounds [] 0 0 (rdBit msg r) = Name.fromBytesLoop p 272 [] 0 0 (rdBit msg r) ∧
      (Name.fromBytesLoop p rounds [] 0 0 (rdBit msg r)).1 ≠ .diverge) ∧
    (Name.fromBytes p (rdBit msg r)).1 ≠ .diverge := by
  constructor
  · intro f hf
    obtain ⟨o, r', h1, -, h3⟩ := Name.loop_spec p msg 272 [] 0 0 r hr (by simp) (by simp) (by simp)
    have hne : o ≠ .diverge := by rintro rfl; exact h3
    rw [h1, Name.loop_mono_le p hf h1 hne]
    exact ⟨rfl, hne⟩
  · obtain ⟨o, r', h1, -, h3⟩ := Name.fromBytes_spec p msg r hr
    rw [h1]
    rintro h
    simp only at h
    subst h
    exact h3

/-- A pointer to itself ends in an error. -/
example : (Name.fromBytes .release (rdBit [0xC0, 0] 0)).1 = .err .maxRedir := by decide +kernel

/-! ## C09 -/

/-- The full statement of C09. -/
def C09_statement : Prop :=
  ∀ p msg r, r ≤ 8 * msg.length → ¬ (Name.fromBytes p (rdBit msg r)).1.Panics

/-- C09 does not hold: two octets make the decoder panic, in both profiles. In general, every pointer beyond the end of
the message does. -/
theorem C09_violated : ¬ C09_statement ∧
    (∀ p, (Name.fromBytes p (fromRawBytes [0xC0, 0xFF])).1.Panics) ∧
    (∀ p msg r, BadPointer (codeAddr p) msg r → (Name.fromBytes p (rdBit msg r)).1.Panics) := by
  have h2 : ∀ p, (Name.fromBytes p (fromRawBytes [0xC0, 0xFF])).1.Panics := by intro p; cases p <;> decide
  refine ⟨fun h => h .release [0xC0, 0xFF] 0 (by simp) (h2 .release), h2, ?_⟩
  rintro p msg r ⟨off, h16, hoff, hf, hbad⟩
  obtain ⟨x, -, hx⟩ := readU8_bit (ε := NameErr) (msg := msg) (r := r) (by omega)
  obtain ⟨y, -, hy⟩ := readU8_bit (ε := NameErr) (msg := msg) (r := r + 8) (by omega)
  have hc := fieldAt_unique hf (fieldAt_concat hx hy)
  have hx256 := x.toNat_lt
  have hy256 := y.toNat_lt
  have hoff' : (x.toNat - 192) * 256 + y.toNat = off := by clear hbad; omega
  have hstep := Name.loop_ptr p (f := 299) [] 0 0 h16 hx hy (by clear hbad; omega) (by omega)
  rw [hoff'] at hstep
  cases hca : codeAddr p off with
  | none =>
    rw [hca] at hstep
    unfold Name.fromBytes
    rw [BufM.bind_panic (show Name.fromBytesLoop p Name.loopFuel [] 0 0 _ = _ from hstep)]
    trivial
  | some a =>
    rw [hca] at hstep
    simp only at hstep
    rw [if_pos (hbad a hca)] at hstep
    unfold Name.fromBytes
    rw [BufM.bind_panic (show Name.fromBytesLoop p Name.loopFuel [] 0 0 _ = _ from hstep)]
    trivial

/-- C09, part: a panic happens only if the labels and pointers of the name lead to a pointer whose target is outside
the message (or, with overflow checks, is at octet 8192 or beyond). So a message without such pointers is safe.
Missing: `C09_violated`. -/
theorem C09_no_panic_partial (p : Profile) (msg : List UInt8) (r : Nat) (hr : r ≤ 8 * msg.length)
    (hsafe : ∀ r₁, Visits (codeAddr p) msg r r₁ → ¬ BadPointer (codeAddr p) msg r₁) :
    (Name.fromBytes p (rdBit msg r)).1.Returns := by
  obtain ⟨o, r', h1, -, h3⟩ := Name.fromBytes_spec p msg r hr
  rw [h1]
  cases o with
  | ok n => trivial
  | err e => trivial
  | panic k => obtain ⟨r₁, hv, hb⟩ := h3; exact hsafe r₁ hv hb
  | diverge => exact h3

/-- A message of zero octets has no pointer at all. -/
example (p : Profile) : ∀ r₁, Visits (codeAddr p) [0, 0, 0] 0 r₁ → ¬ BadPointer (codeAddr p) [0, 0, 0] r₁ := by
  rintro r₁ - ⟨off, h1, hoff, ⟨-, hf⟩, -⟩
  have h0 := hf 0 (by omega)
  have hb : bitAt [0, 0, 0] (r₁ + 0) = false := by
    have hlt : (r₁ + 0) / 8 < 3 := by simp only [List.length_cons, List.length_nil] at h1; omega
    unfold bitAt
    have : ∀ i < 3, ([0, 0, 0] : List UInt8).getD i 0 = 0 := by decide
    rw [this _ hlt]; simp
  rw [hb] at h0
  have h2 : (0xC000 + off).testBit 15 = true := by
    rw [Nat.testBit_eq_decide_div_mod_eq]
    have : (0xC000 + off) / 2 ^ 15 = 1 := by omega
    rw [this]; rfl
  simp at h0
  rw [h2] at h0
  exact absurd h0 (by decide)

/-! ## C10 -/

/-- C10: a name read from the wire is a valid name; the bytes at the cursor are a (compressed) domain name in the sense
of RFC 1035 4.1.4 with labels of 1 to 63 octets and at most 16 pointers (where pointer offsets are read as the code
reads them, see C14); the name's characters are the dotted labels; and the cursor is left right after the zero octet or,
if there was a pointer, right after the first pointer, which is what `WireName` says about its end. -/
theorem C10_decoded_name_sound (p : Profile) (msg : List UInt8) (r : Nat) (hr : r ≤ 8 * msg.length) (n : Name)
    (b : BitsBuf) (h : Name.fromBytes p (rdBit msg r) = (.ok n, b)) :
    ValidName n.s ∧ Name.fromString n.s = .ok n ∧
    ∃ labels pointers next, WireName (codeAddr p) msg r labels next pointers ∧ pointers ≤ 16 ∧
      strBytes n.s = dotted labels ∧ b = rdBit msg next ∧ r < next ∧ next ≤ 8 * msg.length := by
  obtain ⟨o, r', h1, -, h3⟩ := Name.fromBytes_spec p msg r hr
  rw [h] at h1
  obtain ⟨rfl, rfl⟩ := Prod.mk.inj h1
  obtain ⟨hv, ls, k, hw, hk, hs⟩ := h3
  have := WireName_next hw
  exact ⟨hv, (fromString_iff _ _).2 ⟨rfl, hv⟩, ls, k, r', hw, hk, hs, rfl, by omega, this.2.1⟩

/-- "com." at octet 0 and "a.com." compressed at octet 5. -/
example : Name.fromBytes .release (rdBit [3, 99, 111, 109, 0, 1, 97, 0xC0, 0, 7] 40) =
    (.ok ⟨"a.com.".toList⟩, rdBit [3, 99, 111, 109, 0, 1, 97, 0xC0, 0, 7] 72) := by decide

/-! ## C11 -/

/-- The full statement of C11. -/
def C11_statement : Prop :=
  ∀ (p : Profile) (n : Name) (labels : List Str), ValidName n.s → NameOf n.s labels → (∀ l ∈ labels, l.length ≤ 63) →
    n.toBytes = rfcEncode labels ∧
    ∀ pre post, Name.fromBytes p (rd (pre ++ n.toBytes ++ post) pre.length) =
      (.ok n, rd (pre ++ n.toBytes ++ post) (pre.length + n.toBytes.length))

/-- C11 does not hold for the root: it is written as two zero octets, the second of which is not read back. -/
theorem C11_violated : ¬ C11_statement ∧ (⟨['.']⟩ : Name).toBytes = [0, 0] := by
  refine ⟨fun h => ?_, by decide⟩
  have := (h .release ⟨['.']⟩ [] ⟨by decide, [], by simp, rfl⟩ ⟨by simp, rfl⟩ (by simp)).1
  revert this; decide

/-- C11, part: holds for every name except the root. Missing: the root (`C11_violated`). -/
theorem C11_name_roundtrip_partial (p : Profile) (n : Name) (labels : List Str) (hv : ValidName n.s)
    (hn : NameOf n.s labels) (hroot : labels ≠ []) (h63 : ∀ l ∈ labels, l.length ≤ 63) :
    n.toBytes = rfcEncode labels ∧
    ∀ pre post, Name.fromBytes p (rd (pre ++ n.toBytes ++ post) pre.length) =
      (.ok n, rd (pre ++ n.toBytes ++ post) (pre.length + n.toBytes.length)) := by
  have ht := toBytes_rfc hn hroot
  refine ⟨ht, fun pre post => ?_⟩
  rw [ht]
  exact Name.fromBytes_complete p
    (wireName_rfcEncode (codeAddr p) post labels (fun l hl => ⟨hn.1 l hl, h63 l hl⟩) pre) (by omega) hv
    (by rw [hn.2, strBytes_render hn.1])

example : NameOf "www.example.com.".toList ["www".toList, "example".toList, "com".toList] := by
  refine ⟨?_, by decide⟩
  rw [← validateLabels_iff]; decide

/-! ## C12 -/

/-- The full statement of C12. -/
def C12_statement : Prop :=
  ∀ (n z : Name) (L M : List Str), NameOf n.s L → NameOf z.s M → (n.isInZone z = true ↔ M <:+ L)

/-- C12 does not hold for the root zone: "com." is not found to be inside ".". -/
theorem C12_violated : ¬ C12_statement := by
  intro h
  have h1 := h ⟨"com.".toList⟩ ⟨['.']⟩ ["com".toList] []
    ⟨by rw [← validateLabels_iff]; decide, by decide⟩ ⟨by simp, by decide⟩
  have h2 : (⟨"com.".toList⟩ : Name).isInZone ⟨['.']⟩ = false := by decide
  rw [h2] at h1
  simp at h1

/-- C12, part: for every zone but the root, membership is label-suffix containment. For the root zone only the root
itself is a member. Missing: the root zone (`C12_violated`). -/
theorem C12_in_zone_partial (n z : Name) (L M : List Str) (hn : NameOf n.s L) (hz : NameOf z.s M) :
    (M ≠ [] → (n.isInZone z = true ↔ M <:+ L)) ∧ (M = [] → (n.isInZone z = true ↔ n = z)) := by
  refine ⟨isInZone_iff hn hz, ?_⟩
  rintro rfl
  have hzs : z.s = ['.'] := hz.2
  have hsp : splitOn '.' z.s = [[], []] := by rw [hzs]; decide
  unfold Name.isInZone
  rw [inZoneLoop_iff, hsp]
  constructor
  · intro h
    by_cases hL : L = []
    · subst hL
      cases n; cases z
      simp only at hzs hn
      rw [hzs]; congr 1; exact hn.2
    · exfalso
      rw [hn.2, splitOn_render hn.1 hL] at h
      simp only [List.reverse_append, List.reverse_cons, List.reverse_nil, List.nil_append, List.singleton_append] at h
      have h := (List.cons_prefix_cons.1 h).2
      cases hr : L.reverse with
      | nil => simp at hr; exact hL hr
      | cons m ms =>
        rw [hr] at h
        have hm := (List.cons_prefix_cons.1 h).1
        have : m ∈ L := by rw [← List.mem_reverse, hr]; simp
        exact (hn.1 m this).ne_nil hm.symm
  · rintro rfl; rw [hsp]
    exact List.prefix_rfl

/-- String suffixes are not confused with label suffixes. -/
example : (⟨"evilexample.com.".toList⟩ : Name).isInZone ⟨"example.com.".toList⟩ = false := by decide
example : (⟨"www.example.com.".toList⟩ : Name).isInZone ⟨"example.com.".toList⟩ = true := by decide

/-! ## C13 -/

/-- ASCII letters to lower case. -/
def foldLabel (l : Str) : Str := l.map Char.toLower

/-- The full statement of C13 for zone membership: names equal up to letter case are members of the same zones. -/
def C13_statement : Prop :=
  ∀ (n n' z : Name) (L L' M : List Str), NameOf n.s L → NameOf n'.s L' → NameOf z.s M →
    L.map foldLabel = L'.map foldLabel → n.isInZone z = n'.isInZone z

/-- C13 does not hold: matching is case-sensitive. -/
theorem C13_violated : ¬ C13_statement := by
  intro h
  have := h ⟨"a.com.".toList⟩ ⟨"a.COM.".toList⟩ ⟨"com.".toList⟩ ["a".toList, "com".toList] ["a".toList, "COM".toList]
    ["com".toList] ⟨by rw [← validateLabels_iff]; decide, by decide⟩ ⟨by rw [← validateLabels_iff]; decide, by decide⟩
    ⟨by rw [← validateLabels_iff]; decide, by decide⟩ (by decide)
  revert this; decide

/-- C13, part: membership found by the code is membership up to letter case, and for names without upper-case letters the
two agree. Missing: names with upper-case letters (`C13_violated`). -/
theorem C13_case_partial (n z : Name) (L M : List Str) (hn : NameOf n.s L) (hz : NameOf z.s M) (hM : M ≠ []) :
    (n.isInZone z = true → M.map foldLabel <:+ L.map foldLabel) ∧
    ((∀ l ∈ L, foldLabel l = l) → (∀ l ∈ M, foldLabel l = l) →
      (n.isInZone z = true ↔ M.map foldLabel <:+ L.map foldLabel)) := by
  have hiff := isInZone_iff hn hz hM
  constructor
  · intro h; exact (hiff.1 h).map _
  · intro h1 h2
    rw [hiff, List.map_congr_left (f := foldLabel) (g := id) h1, List.map_congr_left (f := foldLabel) (g := id) h2]
    simp

example : foldLabel "example".toList = "example".toList := by decide

/-! ## C14 -/

/-- The full statement of C14 (for both profiles). -/
def C14_statement : Prop :=
  ∀ (p : Profile) (msg : List UInt8) (r : Nat) (labels : List (List UInt8)) (next pointers : Nat) (s : Str),
    WireName rfcAddr msg r labels next pointers → pointers ≤ 16 → ValidName s → strBytes s = dotted labels →
    Name.fromBytes p (rdBit msg r) = (.ok ⟨s⟩, rdBit msg next)

/-- A pointer to octet 8192, where the name "a." is stored after 8190 other octets. -/
def farMsg (zs : List UInt8) : List UInt8 := (0xE0 :: 0x00 :: zs) ++ rfcEncode [['a']] ++ []

theorem far_field (zs : List UInt8) : FieldAt (farMsg zs) 0 16 (0xC000 + 8192) := by
  have hlen : 1 < (farMsg zs).length := by simp [farMsg, rfcEncode]
  have h0 := fieldAt_byte (msg := farMsg zs) (i := 0) (by omega)
  have h1 := fieldAt_byte (msg := farMsg zs) (i := 1) (by omega)
  have e0 : (farMsg zs)[0] = 0xE0 := rfl
  have e1 : (farMsg zs)[1] = 0 := rfl
  rw [e0] at h0
  rw [e1] at h1
  have := fieldAt_concat h0 h1
  have e : UInt8.toNat 0xE0 * 2 ^ 8 + UInt8.toNat 0 = 0xC000 + 8192 := by decide
  rw [e] at this
  exact this

theorem far_wire (zs : List UInt8) (hz : zs.length = 8190) : WireName rfcAddr (farMsg zs) 0 [[97]] 16 1 := by
  have h := wireName_rfcEncode rfcAddr [] [['a']] (by
    intro l hl; simp at hl; subst hl
    exact ⟨(validateLabel_iff _).1 (by decide), by decide⟩) (0xE0 :: 0x00 :: zs)
  have hlen : (farMsg zs).length = 8195 := by simp [farMsg, rfcEncode, hz]
  have e2 : (0xE0 :: 0x00 :: zs : List UInt8).length = 8192 := by simp [hz]
  rw [e2] at h
  exact .pointer (off := 8192) (a := 8 * 8192) (by omega) (by omega) (far_field zs) rfl (by omega) h

/-- C14 does not hold for offsets of 8192 and more. With overflow checks (debug) the decoder panics; without (release)
it reads the name at the offset minus 8192 instead. -/
theorem C14_violated : ¬ C14_statement ∧
    (∀ msg r off, r + 16 ≤ 8 * msg.length → 8192 ≤ off → off < 0x4000 → FieldAt msg r 16 (0xC000 + off) →
      (Name.fromBytes .debug (rdBit msg r)).1.Panics) ∧
    (∀ msg r off labels next k s, r + 16 ≤ 8 * msg.length → 8192 ≤ off → off < 0x4000 →
      FieldAt msg r 16 (0xC000 + off) →
      WireName lowAddr msg (8 * (off - 8192)) labels next k → k ≤ 15 → ValidName s → strBytes s = dotted labels →
      Name.fromBytes .release (rdBit msg r) = (.ok ⟨s⟩, rdBit msg (r + 16))) := by
  have hdebug : ∀ msg r off, r + 16 ≤ 8 * msg.length → 8192 ≤ off → off < 0x4000 → FieldAt msg r 16 (0xC000 + off) →
      (Name.fromBytes .debug (rdBit msg r)).1.Panics := by
    intro msg r off h1 h2 h3 h4
    refine C09_violated.2.2 .debug msg r ⟨off, h1, h3, h4, ?_⟩
    intro a ha
    simp [codeAddr, Nat.not_lt.2 h2] at ha
  refine ⟨?_, hdebug, ?_⟩
  · intro h
    obtain ⟨zs, hz⟩ : ∃ zs : List UInt8, zs.length = 8190 := ⟨List.replicate 8190 0, List.length_replicate⟩
    have h1 := h .debug (farMsg zs) 0 [[97]] 16 1 ['a', '.'] (far_wire zs hz) (by omega)
      ((validateName_iff _).1 (by decide)) (by decide)
    have h2 : (Name.fromBytes .debug (rdBit (farMsg zs) 0)).1.Panics := by
      have hlen : (farMsg zs).length = 8195 := by simp [farMsg, rfcEncode, hz]
      exact hdebug (farMsg zs) 0 8192 (by omega) (by omega) (by omega) (far_field zs)
    rw [h1] at h2
    exact h2
  · intro msg r off labels next k s h1 h2 h3 h4 hw hk hv hs
    have hw' := WireName_mono (lowAddr_le .release) hw
    have hn := WireName_next hw
    refine Name.fromBytes_complete .release (.pointer (a := 8 * (off - 8192)) h1 h3 h4 ?_ (by omega) hw') (by omega) hv hs
    simp only [codeAddr, Option.some.injEq]
    omega

/-- C14, part: holds when every pointer followed has an offset below 8192, with any number of pointers up to 16, at any
position. Missing: offsets 8192 to 16383 (`C14_violated`). -/
theorem C14_pointers_partial (p : Profile) (msg : List UInt8) (r : Nat) (labels : List (List UInt8))
    (next pointers : Nat) (s : Str) (hw : WireName lowAddr msg r labels next pointers) (hk : pointers ≤ 16)
    (hv : ValidName s) (hs : strBytes s = dotted labels) :
    Name.fromBytes p (rdBit msg r) = (.ok ⟨s⟩, rdBit msg next) :=
  Name.fromBytes_complete p (WireName_mono (lowAddr_le p) hw) hk hv hs

end Ariadne.Props
