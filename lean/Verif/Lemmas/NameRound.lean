import Verif.Lemmas.NameWire

namespace Ariadne

open Spec BitsBuf

theorem WireName_next {addr : Nat → Option Nat} {msg : List UInt8} {r : Nat} {ls : List (List UInt8)} {next k : Nat}
    (h : WireName addr msg r ls next k) :
    r + 8 ≤ next ∧ next ≤ 8 * msg.length ∧ (∀ i, r = 8 * i → ∃ j, next = 8 * j) ∧ (∀ l ∈ ls, 1 ≤ l.length ∧ l.length ≤ 63) := by
  induction h with
  | @root r h _ => exact ⟨Nat.le_refl _, h, fun i hi => ⟨i + 1, by omega⟩, by simp⟩
  | @label r n l ls next k h _ h1 h2 hl h3 _ _ ih =>
    obtain ⟨i1, i2, i3, i4⟩ := ih
    refine ⟨by omega, i2, fun i hi => i3 (i + 1 + n) (by omega), ?_⟩
    intro x hx
    rcases List.mem_cons.1 hx with rfl | hx
    · omega
    · exact i4 x hx
  | @pointer r off a ls next k h _ _ _ _ _ ih =>
    exact ⟨by omega, h, fun i hi => ⟨i + 2, by omega⟩, ih.2.2.2⟩

theorem WireName_mono {addr addr' : Nat → Option Nat} (ha : ∀ o a, addr o = some a → addr' o = some a)
    {msg : List UInt8} {r : Nat} {ls : List (List UInt8)} {next k : Nat}
    (h : WireName addr msg r ls next k) : WireName addr' msg r ls next k := by
  induction h with
  | root h hf => exact .root h hf
  | label h hf h1 h2 hl h3 hb _ ih => exact .label h hf h1 h2 hl h3 hb ih
  | pointer h ho hf he hal _ ih => exact .pointer h ho hf (ha _ _ he) hal ih

theorem lowAddr_le (p : Profile) (o a : Nat) (h : lowAddr o = some a) : codeAddr p o = some a := by
  unfold lowAddr at h
  by_cases ho : o < 8192
  · rw [if_pos ho] at h
    cases p
    · simp [codeAddr, ho]; simpa using h
    · simp only [codeAddr]; rw [Nat.mod_eq_of_lt ho]; exact h
  · rw [if_neg ho] at h; cases h

namespace Name

theorem lift_validate (s : Str) (b : BitsBuf) :
    (BufM.lift (validateName s) : BufM NameErr Unit) b = (validateName s, b) := rfl

/-- Everything `from_bytes` can do, on any input. -/
theorem fromBytes_spec (p : Profile) (msg : List UInt8) (r : Nat) (hr : r ≤ 8 * msg.length) :
    ∃ o r', fromBytes p (rdBit msg r) = (o, rdBit msg r') ∧ r' ≤ 8 * msg.length ∧
      match o with
      | .ok n => ValidName n.s ∧ ∃ ls k, WireName (codeAddr p) msg r ls r' k ∧ k ≤ 16 ∧ strBytes n.s = dotted ls
      | .err _ => True
      | .panic _ => ∃ r₁, Visits (codeAddr p) msg r r₁ ∧ BadPointer (codeAddr p) msg r₁
      | .diverge => False := by
  obtain ⟨o, r', h1, h2, h3⟩ := loop_spec p msg loopFuel [] 0 0 r hr (by simp) (by simp) (by simp [loopFuel])
  unfold fromBytes
  match o, h3 with
  | .err e, _ => exact ⟨.err e, r', BufM.bind_err h1, h2, trivial⟩
  | .panic k, h3 => exact ⟨.panic k, r', BufM.bind_panic h1, h2, h3⟩
  | .ok (nb, af), ⟨ls, next, k, hw, hk, hg, hn, hcur⟩ =>
    rw [BufM.bind_ok h1]
    have hnx := WireName_next hw
    have hdot : nb = dotted ls := by
      rw [hg]; exact glue_dotted ls fun l hl => by
        have := hnx.2.2.2 l hl; intro h; subst h; simp at this
    have hset : restorePos af (rdBit msg r') =
        (.ok (), rdBit msg next) := by
      by_cases hk0 : k = 0
      · rw [if_pos hk0] at hcur
        obtain ⟨rfl, rfl⟩ := hcur
        rfl
      · rw [if_neg hk0, if_pos rfl] at hcur
        subst hcur
        rw [restorePos, if_pos (by omega), setReadPos_bit hn]
    simp only
    rw [BufM.bind_ok hset]
    cases hu : fromUtf8 nb with
    | none => exact ⟨.err .malformedName, next, rfl, hn, trivial⟩
    | some s =>
      simp only
      have hs := (fromUtf8_iff _ _).1 hu
      have hret := validateName_returns s
      cases hv : validateName s with
      | ok u =>
        exact ⟨_, next, rfl, hn, (validateName_iff s).1 hv, ls, k, hw, by omega, by rw [hs, hdot]⟩
      | err e =>
        exact ⟨_, next, rfl, hn, trivial⟩
      | panic k => rw [hv] at hret; exact hret.elim
      | diverge => rw [hv] at hret; exact hret.elim

theorem validName_bytes_len {s : Str} (h : ValidName s) : (strBytes s).length ≤ 255 := by
  obtain ⟨h1, L, hL⟩ := h
  rw [strBytes_ascii hL.ascii]; simpa using h1

theorem fromBytes_complete (p : Profile) {msg : List UInt8} {r : Nat} {ls : List (List UInt8)} {next k : Nat} {s : Str}
    (hw : WireName (codeAddr p) msg r ls next k) (hk : k ≤ 16) (hv : ValidName s) (hs : strBytes s = dotted ls) :
    fromBytes p (rdBit msg r) = (.ok ⟨s⟩, rdBit msg next) := by
  have hnx := WireName_next hw
  have hdot : glue [] ls = strBytes s := by
    rw [hs]; exact glue_dotted ls fun l hl => by
      have := hnx.2.2.2 l hl; intro h; subst h; simp at this
  have hlen := validName_bytes_len hv
  obtain ⟨f, r', h1, h2⟩ := loop_complete p msg hw [] 0 0 (by omega) (by rw [hdot]; omega)
  have hmax := loop_mono_le p (Nat.le_max_left f loopFuel) h1 (by simp)
  obtain ⟨o, r'', h3, -, h4⟩ := loop_spec p msg loopFuel [] 0 0 r (by omega) (by simp) (by simp) (by simp [loopFuel])
  have hmax' := loop_mono_le p (Nat.le_max_right f loopFuel) h3 (by intro h; rw [h] at h4; exact h4)
  have heq : fromBytesLoop p loopFuel [] 0 0 (rdBit msg r) =
      (.ok (glue [] ls, if k = 0 then 0 else next), rdBit msg r') := by
    rw [h3, ← hmax', hmax]; simp
  unfold fromBytes
  rw [BufM.bind_ok heq]
  simp only
  have hset : restorePos (if k = 0 then 0 else next) (rdBit msg r') = (.ok (), rdBit msg next) := by
    by_cases hk0 : k = 0
    · subst hk0; rw [h2 rfl]; rfl
    · simp only [if_neg hk0]
      rw [restorePos, if_pos (by omega), setReadPos_bit hnx.2.1]
  rw [BufM.bind_ok hset, hdot, fromUtf8_strBytes]
  simp only
  rw [BufM.bind_ok (lift_validate s _ |>.trans (by rw [(validateName_iff s).2 hv]))]
  rfl

end Name

/-! ## Uncompressed encodings -/

theorem fieldAt_byte {msg : List UInt8} {i : Nat} (h : i < msg.length) : FieldAt msg (8 * i) 8 (msg[i]).toNat := by
  have h1 := readU8_rd (ε := Unit) h
  obtain ⟨v, h2, h3⟩ := readU8_bit (ε := Unit) (msg := msg) (r := 8 * i) (by omega)
  rw [show rd msg i = rdBit msg (8 * i) from rfl, h2] at h1
  have : v = msg[i] := by simpa using congrArg Prod.fst h1
  rw [← this]; exact h3

theorem bytesAt_mid {pre l post : List UInt8} : BytesAt (pre ++ l ++ post) (8 * pre.length) l := by
  intro i hi
  have hlt : pre.length + i < (pre ++ l ++ post).length := by simp; omega
  have := fieldAt_byte hlt
  rw [show 8 * pre.length + 8 * i = 8 * (pre.length + i) by omega]
  have e : (pre ++ l ++ post)[pre.length + i] = l[i] := by
    rw [List.getElem_append_left (by simp; omega), List.getElem_append_right (by omega)]
    simp
  rw [e] at this; exact this

/-- Octets of a label. -/
def lblBytes (l : Str) : List UInt8 := l.map fun c => UInt8.ofNat c.toNat

theorem rfcEncode_nil : rfcEncode [] = [0] := rfl
theorem rfcEncode_cons (l : Str) (ls : List Str) :
    rfcEncode (l :: ls) = UInt8.ofNat l.length :: lblBytes l ++ rfcEncode ls := by
  simp [rfcEncode, lblBytes]

theorem wireName_rfcEncode (addr : Nat → Option Nat) (post : List UInt8) (labels : List Str)
    (h : ∀ l ∈ labels, ValidLabel l ∧ l.length ≤ 63) : ∀ pre : List UInt8,
    WireName addr (pre ++ rfcEncode labels ++ post) (8 * pre.length) (labels.map lblBytes)
      (8 * (pre.length + (rfcEncode labels).length)) 0 := by
  induction labels with
  | nil =>
    intro pre
    have hb : BytesAt (pre ++ [0] ++ post) (8 * pre.length) [0] := bytesAt_mid
    have h0 := hb 0 (by simp)
    simp only [rfcEncode_nil, List.map_nil, List.length_singleton]
    rw [show 8 * (pre.length + 1) = 8 * pre.length + 8 by omega]
    exact .root (by simp; omega) (by simpa using h0)
  | cons l ls ih =>
    intro pre
    have hl := h l (by simp)
    have hne := hl.1.ne_nil
    have hpos : 0 < l.length := List.length_pos_iff.2 hne
    rw [rfcEncode_cons]
    have e1 : pre ++ (UInt8.ofNat l.length :: lblBytes l ++ rfcEncode ls) ++ post =
        (pre ++ (UInt8.ofNat l.length :: lblBytes l)) ++ rfcEncode ls ++ post := by simp
    have e2 : pre ++ (UInt8.ofNat l.length :: lblBytes l ++ rfcEncode ls) ++ post =
        (pre ++ [UInt8.ofNat l.length]) ++ lblBytes l ++ (rfcEncode ls ++ post) := by simp
    have e3 : pre ++ (UInt8.ofNat l.length :: lblBytes l ++ rfcEncode ls) ++ post =
        pre ++ [UInt8.ofNat l.length] ++ (lblBytes l ++ rfcEncode ls ++ post) := by simp
    have hll : (lblBytes l).length = l.length := by simp [lblBytes]
    have hf : FieldAt (pre ++ (UInt8.ofNat l.length :: lblBytes l ++ rfcEncode ls) ++ post) (8 * pre.length) 8 l.length := by
      rw [e3]
      have hb : BytesAt (pre ++ [UInt8.ofNat l.length] ++ (lblBytes l ++ rfcEncode ls ++ post)) (8 * pre.length)
        [UInt8.ofNat l.length] := bytesAt_mid
      have h0 := hb 0 (by simp)
      have e : (UInt8.ofNat l.length).toNat = l.length := by simp; omega
      simp only [List.getElem_cons_zero, e] at h0
      simpa using h0
    have hb : BytesAt (pre ++ (UInt8.ofNat l.length :: lblBytes l ++ rfcEncode ls) ++ post) (8 * pre.length + 8)
        (lblBytes l) := by
      rw [e2]
      have := bytesAt_mid (pre := pre ++ [UInt8.ofNat l.length]) (l := lblBytes l) (post := rfcEncode ls ++ post)
      rw [show 8 * pre.length + 8 = 8 * (pre ++ [UInt8.ofNat l.length]).length by simp; omega]
      exact this
    have hrec := ih (fun x hx => h x (by simp [hx])) (pre ++ (UInt8.ofNat l.length :: lblBytes l))
    rw [← e1] at hrec
    simp only [List.map_cons]
    refine .label (n := l.length) (by simp; omega) hf hpos hl.2 hll (by simp [hll]; omega) hb ?_
    have e4 : 8 * pre.length + 8 + 8 * l.length = 8 * (pre ++ (UInt8.ofNat l.length :: lblBytes l)).length := by
      simp [hll]; omega
    have e5 : 8 * (pre.length + (UInt8.ofNat l.length :: lblBytes l ++ rfcEncode ls).length) =
        8 * ((pre ++ (UInt8.ofNat l.length :: lblBytes l)).length + (rfcEncode ls).length) := by
      simp [hll]; omega
    rw [e4, e5]
    exact hrec

theorem strBytes_render {labels : List Str} (h : ∀ l ∈ labels, ValidLabel l) :
    strBytes (render labels) = dotted (labels.map lblBytes) := by
  rw [strBytes_ascii (render_ascii h)]
  unfold render dotted
  by_cases hn : labels = []
  · subst hn; rfl
  · rw [if_neg hn, if_neg (by simpa using hn)]
    clear hn h
    induction labels with
    | nil => rfl
    | cons l ls ih => simp only [List.flatMap_cons, List.map_append, ih, List.map_cons]; rfl

theorem splitOn_render {labels : List Str} (h : ∀ l ∈ labels, ValidLabel l) (hn : labels ≠ []) :
    splitOn '.' (render labels) = labels ++ [[]] := by
  unfold render
  rw [if_neg hn]
  exact splitOn_flatMap fun l hl => (h l hl).no_dot

theorem toBytes_rfc {n : Name} {labels : List Str} (h : NameOf n.s labels) (hn : labels ≠ []) :
    n.toBytes = rfcEncode labels := by
  unfold Name.toBytes
  rw [h.2, splitOn_render h.1 hn, List.flatMap_append]
  unfold rfcEncode
  congr 1
  obtain ⟨h, -⟩ := h
  clear hn
  induction labels with
  | nil => rfl
  | cons l ls ih =>
    have hl := h l (by simp)
    simp only [List.flatMap_cons]
    rw [ih (fun x hx => h x (by simp [hx])), strLen_ascii hl.ascii, strBytes_ascii hl.ascii]

/-! ## Zone membership -/

theorem inZoneLoop_iff : ∀ (a b : List Str), Name.inZoneLoop a b = true ↔ a <+: b
  | [], b => by simp [Name.inZoneLoop]
  | x :: xs, [] => by simp [Name.inZoneLoop]
  | x :: xs, y :: ys => by
    unfold Name.inZoneLoop
    by_cases h : y = x
    · subst h; simp [inZoneLoop_iff xs ys]
    · simp [h, List.cons_prefix_cons]
      intro e; exact absurd e.symm h

theorem isInZone_iff {n z : Name} {L M : List Str} (hn : NameOf n.s L) (hz : NameOf z.s M) (hM : M ≠ []) :
    n.isInZone z = true ↔ M <:+ L := by
  unfold Name.isInZone
  rw [inZoneLoop_iff, hz.2, splitOn_render hz.1 hM]
  by_cases hL : L = []
  · subst hL
    rw [hn.2]
    have : splitOn '.' (render []) = [[], []] := by decide
    rw [this]
    simp only [List.reverse_append, List.reverse_cons, List.reverse_nil, List.nil_append, List.singleton_append,
      List.suffix_nil]
    constructor
    · intro h
      have h := (List.cons_prefix_cons.1 h).2
      cases hr : M.reverse with
      | nil => simpa using hr
      | cons m ms =>
        rw [hr] at h
        have hm := (List.cons_prefix_cons.1 h).1
        have : m ∈ M := by rw [← List.mem_reverse, hr]; simp
        exact absurd hm (hz.1 m this).ne_nil
    · rintro rfl; exact absurd rfl hM
  · rw [hn.2, splitOn_render hn.1 hL]
    simp [List.reverse_prefix]

/-! ## Labels decoded from the wire -/

theorem infix_split {α : Type} {c : α} {w a b : List α} (hw : c ∉ w) (h : w <:+: a ++ c :: b) : w <:+: a ∨ w <:+: b := by
  induction a with
  | nil =>
    rw [List.nil_append, List.infix_cons_iff] at h
    rcases h with h | h
    · cases w with
      | nil => left; exact List.infix_rfl
      | cons x xs =>
        have := (List.cons_prefix_cons.1 h).1
        subst this; simp at hw
    · exact .inr h
  | cons x xs ih =>
    rw [List.cons_append, List.infix_cons_iff] at h
    rcases h with h | h
    · left
      by_cases hlen : w.length ≤ (x :: xs).length
      · exact (List.prefix_of_prefix_length_le (l₃ := x :: (xs ++ c :: b)) h
          ⟨c :: b, by simp⟩ hlen).isInfix
      · exfalso
        have h2 : (x :: xs) ++ [c] <+: w :=
          List.prefix_of_prefix_length_le (l₃ := x :: (xs ++ c :: b)) ⟨b, by simp⟩ h (by simp at *; omega)
        exact hw (h2.subset (by simp))
    · rcases ih h with h | h
      · exact .inl (h.trans (List.suffix_cons x xs).isInfix)
      · exact .inr h

theorem infix_flatMap {w : List UInt8} {ls : List (List UInt8)} (hw : (46 : UInt8) ∉ w)
    (h : w <:+: ls.flatMap fun l => l ++ [46]) : w = [] ∨ ∃ l ∈ ls, w <:+: l := by
  induction ls with
  | nil => left; simpa using h
  | cons l ls ih =>
    simp only [List.flatMap_cons, List.append_assoc, List.singleton_append] at h
    rcases infix_split hw h with h | h
    · exact .inr ⟨l, by simp, h⟩
    · rcases ih h with h | ⟨m, hm, h⟩
      · exact .inl h
      · exact .inr ⟨m, by simp [hm], h⟩

theorem mem_infix_flatMap {l : List UInt8} {ls : List (List UInt8)} (h : l ∈ ls) :
    l <:+: ls.flatMap fun l => l ++ [46] := by
  obtain ⟨a, b, rfl⟩ := List.append_of_mem h
  refine ⟨a.flatMap fun l => l ++ [46], 46 :: b.flatMap fun l => l ++ [46], ?_⟩
  simp

theorem decoded_labels_le {s : Str} {L : List Str} {ls : List (List UInt8)} (hn : NameOf s L)
    (hs : strBytes s = dotted ls) (hls : ∀ l ∈ ls, l.length ≤ 63) : ∀ l ∈ L, l.length ≤ 63 := by
  intro l hl
  have hL : L ≠ [] := by rintro rfl; simp at hl
  have hval := hn.1 l hl
  have h1 : strBytes s = (L.map lblBytes).flatMap fun l => l ++ [46] := by
    rw [hn.2, strBytes_render hn.1, dotted, if_neg (by simpa using hL)]
  have hno : (46 : UInt8) ∉ lblBytes l := by
    intro hmem
    obtain ⟨c, hc, h⟩ := List.mem_map.1 hmem
    have h128 := hval.ascii c hc
    have : c.toNat = 46 := by
      have := congrArg UInt8.toNat h
      simp at this; omega
    have : c = '.' := Char.toNat_inj.1 this
    subst this
    exact hval.no_dot hc
  have hinf : lblBytes l <:+: dotted ls := by
    rw [← hs, h1]; exact mem_infix_flatMap (List.mem_map_of_mem hl)
  have hlen : (lblBytes l).length = l.length := by simp [lblBytes]
  unfold dotted at hinf
  by_cases hls0 : ls = []
  · rw [if_pos hls0] at hinf
    have := hinf.length_le
    simp at this; omega
  · rw [if_neg hls0] at hinf
    rcases infix_flatMap hno hinf with h | ⟨m, hm, h⟩
    · rw [h] at hlen; simp at hlen; omega
    · have := h.length_le
      have := hls m hm
      omega

end Ariadne
