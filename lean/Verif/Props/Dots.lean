import Verif.Spec.Dots
import Verif.Props.Names

/-!
# C111: different names on the wire are different names
-/

namespace Ariadne.Props

open Spec BitsBuf

/-- The full statement of C111: if two names on the wire are read as the same name, then they have the same labels. -/
def C111_statement : Prop :=
  ∀ (p p' : Profile) (msg msg' : List UInt8) (r r' next next' k k' : Nat) (labels labels' : List (List UInt8)) (n : Name) (b b' : BitsBuf),
    WireName rfcAddr msg r labels next k → WireName rfcAddr msg' r' labels' next' k' →
    Name.fromBytes p (rdBit msg r) = (.ok n, b) → Name.fromBytes p' (rdBit msg' r') = (.ok n, b') → labels = labels'

theorem lowAddr_rfc (o a : Nat) (h : lowAddr o = some a) : rfcAddr o = some a := by
  unfold lowAddr at h
  by_cases ho : o < 8192
  · rw [if_pos ho] at h; exact h
  · rw [if_neg ho] at h; cases h

/-- The first octet of two. -/
theorem fieldAt_high {bs : List UInt8} {r v : Nat} (h : FieldAt bs r 16 v) : FieldAt bs r 8 (v / 256) := by
  refine ⟨by have := h.1; omega, fun i hi => ?_⟩
  rw [← h.2 i (by omega), show (256 : Nat) = 2 ^ 8 from rfl, Nat.testBit_div_two_pow]
  congr 1
  omega

/-- What is on the wire has one meaning. -/
theorem wireName_unique {addr : Nat → Option Nat} {msg : List UInt8} {r : Nat} {ls : List (List UInt8)} {next k : Nat}
    (h : WireName addr msg r ls next k) : ∀ {ls' : List (List UInt8)} {next' k' : Nat}, WireName addr msg r ls' next' k' →
      ls = ls' ∧ next = next' ∧ k = k' := by
  induction h with
  | @root r h hf =>
    intro ls' next' k' h'
    cases h' with
    | root => exact ⟨rfl, rfl, rfl⟩
    | label _ hf' h1 => have := fieldAt_unique hf hf'; omega
    | @pointer _ off a _ _ _ h16 ho hf' _ _ _ =>
      have := fieldAt_high hf' 
      have := fieldAt_unique hf this
      omega
  | @label r n l ls next k h hf h1 h2 hl h3 hb _ ih =>
    intro ls' next' k' h'
    cases h' with
    | root _ hf' => have := fieldAt_unique hf hf'; omega
    | @label _ n' l' ls'' _ _ _ hf' _ _ hl' _ hb' hw' =>
      have e := fieldAt_unique hf hf'
      subst e
      obtain ⟨rfl, rfl, rfl⟩ := ih hw'
      rw [bytesAt_unique (by omega) hb hb']
      exact ⟨rfl, rfl, rfl⟩
    | @pointer _ off a _ _ _ h16 ho hf' _ _ _ =>
      have := fieldAt_high hf'
      have := fieldAt_unique hf this
      omega
  | @pointer r off a ls next k h16 ho hf ha _ _ ih =>
    intro ls' next' k' h'
    cases h' with
    | root _ hf' =>
      have := fieldAt_high hf
      have := fieldAt_unique hf' this
      omega
    | label _ hf' _ h2 =>
      have := fieldAt_high hf
      have := fieldAt_unique hf' this
      omega
    | @pointer _ off' a' _ _ _ _ ho' hf' ha' _ hw' =>
      have e := fieldAt_unique hf hf'
      have e : off = off' := by omega
      subst e
      rw [ha] at ha'
      cases ha'
      obtain ⟨rfl, -, rfl⟩ := ih hw'
      exact ⟨rfl, rfl, rfl⟩

/-- The dotted form tells where the labels end if there are no other dots. -/
theorem dots_unique : ∀ {ls ls' : List (List UInt8)}, DotFree ls → DotFree ls' →
    (ls.flatMap fun l => l ++ [46]) = (ls'.flatMap fun l => l ++ [46]) → ls = ls'
  | [], [], _, _, _ => rfl
  | [], l :: ls, _, _, h => by simp at h
  | l :: ls, [], _, _, h => by simp at h
  | l :: ls, l' :: ls', hd, hd', h => by
    simp only [List.flatMap_cons, List.append_assoc, List.singleton_append] at h
    obtain ⟨e1, e2⟩ := split_at_dot (hd l (List.mem_cons_self ..)) (hd' l' (List.mem_cons_self ..)) h
    rw [e1, dots_unique (fun x hx => hd x (List.mem_cons_of_mem _ hx)) (fun x hx => hd' x (List.mem_cons_of_mem _ hx)) e2]
where
  split_at_dot {l l' a a' : List UInt8} (h : (46 : UInt8) ∉ l) (h' : (46 : UInt8) ∉ l') (e : l ++ 46 :: a = l' ++ 46 :: a') :
      l = l' ∧ a = a' := by
    induction l generalizing l' with
    | nil =>
      cases l' with
      | nil => exact ⟨rfl, (List.cons.inj e).2⟩
      | cons x l' => exact absurd (by rw [(List.cons.inj e).1]; exact List.mem_cons_self ..) h'
    | cons x l ih =>
      cases l' with
      | nil => exact absurd (by rw [← (List.cons.inj e).1]; exact List.mem_cons_self ..) h
      | cons y l' =>
        obtain ⟨e1, e2⟩ := List.cons.inj e
        obtain ⟨e3, e4⟩ := ih (fun hm => h (List.mem_cons_of_mem _ hm)) (fun hm => h' (List.mem_cons_of_mem _ hm)) e2
        exact ⟨by rw [e1, e3], e4⟩

theorem head_dot {ls : List (List UInt8)} (hn : ∀ l ∈ ls, 1 ≤ l.length) (hd : DotFree ls) (e : ls ≠ [])
    (h : [46] = ls.flatMap fun l => l ++ [46]) : False := by
  cases ls with
  | nil => exact e rfl
  | cons l ls =>
    cases l with
    | nil => exact absurd (hn _ (List.mem_cons_self ..)) (by decide)
    | cons x l =>
      simp only [List.flatMap_cons, List.cons_append, List.cons.injEq] at h
      exact hd _ (List.mem_cons_self ..) (by rw [← h.1]; exact List.mem_cons_self ..)

theorem dotted_unique {ls ls' : List (List UInt8)} (hn : ∀ l ∈ ls, 1 ≤ l.length) (hn' : ∀ l ∈ ls', 1 ≤ l.length) (hd : DotFree ls)
    (hd' : DotFree ls') (h : dotted ls = dotted ls') : ls = ls' := by
  unfold dotted at h
  by_cases e : ls = []
  · by_cases e' : ls' = []
    · rw [e, e']
    · rw [if_pos e, if_neg e'] at h
      exact (head_dot hn' hd' e' h).elim
  · by_cases e' : ls' = []
    · rw [if_neg e, if_pos e'] at h
      exact (head_dot hn hd e h.symm).elim
    · rw [if_neg e, if_neg e'] at h
      exact dots_unique hd hd' h
/-- **C111, partially.** Two names on the wire that are read as the same name have the same labels, wherever and in whatever messages they are, however compressed, if
no label contains a dot. Missing: labels with dots (`C111_violated`), and pointers to
octet 8192 or beyond (see C14). -/
theorem C111_names_told_apart_partial (p p' : Profile) (msg msg' : List UInt8) (r r' next next' k k' : Nat) (labels labels' : List (List UInt8)) (n : Name)
    (b b' : BitsBuf) (hw : WireName lowAddr msg r labels next k) (hw' : WireName lowAddr msg' r' labels' next' k')
    (h : Name.fromBytes p (rdBit msg r) = (.ok n, b)) (h' : Name.fromBytes p' (rdBit msg' r') = (.ok n, b'))
    (hd : DotFree labels) (hd' : DotFree labels') : labels = labels' := by
  have key : ∀ {p : Profile} {msg : List UInt8} {r next k : Nat} {labels : List (List UInt8)} {b : BitsBuf}, WireName lowAddr msg r labels next k →
      Name.fromBytes p (rdBit msg r) = (.ok n, b) → strBytes n.s = dotted labels ∧ ∀ l ∈ labels, 1 ≤ l.length := by
    intro p msg r next k labels b hw h
    have hn := WireName_next hw
    obtain ⟨-, -, ls, _, _, h1, -, h2, -⟩ := C10_decoded_name_sound p msg r (by omega) n b h
    obtain ⟨rfl, -, -⟩ := wireName_unique h1 (WireName_mono (lowAddr_le p) hw)
    exact ⟨h2, fun l hl => (hn.2.2.2 l hl).1⟩
  obtain ⟨e1, e2⟩ := key hw h
  obtain ⟨e3, e4⟩ := key hw' h'
  exact dotted_unique e2 e4 hd hd' (e1.symm.trans e3)

/-- The name of one label, `a.b`, dot included. -/
def oneLabel : List UInt8 := [3, 97, 46, 98, 0]

/-- The name of the labels `a` and `b`. -/
def twoLabels : List UInt8 := [1, 97, 1, 98, 0]

theorem oneLabel_wire : WireName lowAddr oneLabel 0 [[97, 46, 98]] 40 0 :=
  .label (n := 3) (by decide) (fieldAt_byte (msg := oneLabel) (i := 0) (by decide)) (by decide) (by decide) rfl (by decide)
    (bytesAt_mid (pre := [3]) (l := [97, 46, 98]) (post := [0]))
    (.root (by decide) (fieldAt_byte (msg := oneLabel) (i := 4) (by decide)))

theorem twoLabels_wire : WireName lowAddr twoLabels 0 [[97], [98]] 40 0 :=
  .label (n := 1) (by decide) (fieldAt_byte (msg := twoLabels) (i := 0) (by decide)) (by decide) (by decide) rfl (by decide)
    (bytesAt_mid (pre := [1]) (l := [97]) (post := [1, 98, 0]))
    (.label (n := 1) (by decide) (fieldAt_byte (msg := twoLabels) (i := 2) (by decide)) (by decide) (by decide) rfl (by decide)
      (bytesAt_mid (pre := [1, 97, 1]) (l := [98]) (post := [0]))
      (.root (by decide) (fieldAt_byte (msg := twoLabels) (i := 4) (by decide))))

/-- C111 does not hold: the name of the one label `a.b` is read as the name of the two labels `a` and `b`, in both profiles; and what is written for it is not what was read. -/
theorem C111_violated : ¬ C111_statement ∧
    (∀ p, (Name.fromBytes p (rdBit oneLabel 0)).1 = .ok ⟨"a.b.".toList⟩ ∧ (Name.fromBytes p (rdBit twoLabels 0)).1 = .ok ⟨"a.b.".toList⟩) ∧
    (⟨"a.b.".toList⟩ : Name).toBytes = twoLabels := by
  have h : ∀ p, (Name.fromBytes p (rdBit oneLabel 0)).1 = .ok ⟨"a.b.".toList⟩ ∧ (Name.fromBytes p (rdBit twoLabels 0)).1 = .ok ⟨"a.b.".toList⟩ := by
    intro p; cases p <;> decide +kernel
  refine ⟨fun hs => ?_, h, by decide +kernel⟩
  have := hs .release .release _ _ _ _ _ _ _ _ _ _ ⟨"a.b.".toList⟩ _ _ (WireName_mono lowAddr_rfc oneLabel_wire) (WireName_mono lowAddr_rfc twoLabels_wire)
    (Prod.ext (h .release).1 rfl) (Prod.ext (h .release).2 rfl)
  revert this
  decide

/-- A name whose labels have no dots. -/
example : WireName lowAddr twoLabels 0 [[97], [98]] 40 0 ∧ DotFree [[97], [98]] ∧
    (Name.fromBytes .release (rdBit twoLabels 0)).1 = .ok ⟨"a.b.".toList⟩ :=
  ⟨twoLabels_wire, by unfold DotFree; decide, (C111_violated.2.1 .release).2⟩

end Ariadne.Props
