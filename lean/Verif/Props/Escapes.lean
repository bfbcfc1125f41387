import Verif.Spec.Escapes
import Verif.Props.Order

/-!
# C124: every string can be written in a zone file
-/

namespace Ariadne.Props

open Spec ZoneParser Nameserver

/-- After the line `x TXT "text"`, the server answers a question for the TXT records of `x.e.` with exactly the string `s`. -/
def Serves (p : Profile) (o : HashOrder) (text s : Str) : Prop :=
  ∃ fuel zones, parseZoneFiles p (textFiles text) o fuel smallConf = .ok zones ∧
    ∃ m, Replies p zones (ask "x.e." .TXT) m ∧ m.answers.map (·.data) = [.TXT [s]]

/-- The full statement of C124. -/
def C124_statement : Prop :=
  ∀ (p : Profile) (o : HashOrder) (text s : Str), Written s text → (∀ c ∈ s, c.toNat < 128) → Serves p o text s

theorem spells_more {o : Bool} {ws : List Word} {l : Str} {ls left : List Str} (h : Spells o ws l ls left) (more : List Str) :
    Spells o ws l (ls ++ more) (left ++ more) := by
  induction h with
  | done => exact .done
  | blank h _ ih => exact .blank h ih
  | word h1 h2 h3 _ ih => exact .word h1 h2 h3 ih
  | quoted h1 h2 _ ih => exact .quoted h1 h2 ih
  | opening _ ih => exact .opening ih
  | closing _ ih => exact .closing ih
  | comment _ ih => exact .comment ih
  | newline _ ih => exact .newline ih

theorem entry_more {head : Str} {ws : List Word} {ls left : List Str} (h : Spec.Entry head ws ls left) (more : List Str) :
    Spec.Entry head ws (ls ++ more) (left ++ more) := by
  cases h with
  | blank h1 h2 h3 => exact .blank h1 h2 (spells_more h3 more)
  | word h1 h2 h3 => exact .word h1 h2 (spells_more h3 more)

/-- The record of the last line. -/
def textRec (s : Str) : Record := ⟨⟨"x.e.".toList⟩, .IN, 60, 0, .TXT [s]⟩

theorem text_entry {s text : Str} (h : Quotes s text) :
    Spec.Entry "x".toList ([] ++ [.plain "TXT".toList, .quoted s]) ["x TXT ".toList ++ '"' :: text ++ ['"']] [] := by
  refine Spec.Entry.word (h := "x".toList) (l := " TXT ".toList ++ '"' :: text ++ ['"']) ?_ ?_ ?_
  · refine ⟨by decide, fun c hc => ?_, by decide⟩
    rw [List.mem_singleton.1 hc]
    exact ⟨by unfold Separates; decide, by decide⟩
  · intro c hc
    cases hc
    exact .inl rfl
  · refine .blank (.inl rfl) (.word (w := "TXT".toList) (l := ' ' :: '"' :: text ++ ['"']) ?_ (by decide) ?_ ?_)
    · refine ⟨by decide, fun c hc => ?_, by decide⟩
      have : c = 'T' ∨ c = 'X' ∨ c = 'T' := by simpa using hc
      rcases this with rfl | rfl | rfl <;> exact ⟨by unfold Separates; decide, by decide⟩
    · intro c hc
      cases hc
      exact .inl rfl
    · exact .blank (.inl rfl) (.quoted (l := []) h (fun c hc => by cases hc) .done)

theorem text_says {s text : Str} (h : Quotes s text) (ha : ∀ c ∈ s, c.toNat < 128) :
    FilesSay (textFiles text) smallConf sampleSoaRec [smallNs, textRec s] [] := by
  refine ⟨small_valid, by decide, (fun c hc => nomatch hc), ⟨0, ?_⟩, .nil⟩
  refine ⟨[], ["@ 60 IN SOA ns mail.f. 1 2 3 4 5".toList, "@ NS ns.f.".toList, "x TXT ".toList ++ '"' :: text ++ ['"']],
    ["@ NS ns.f.".toList, "x TXT ".toList ++ '"' :: text ++ ['"']], "@".toList, _, 5, rfl, by simp,
    entry_more (ls := ["@ 60 IN SOA ns mail.f. 1 2 3 4 5".toList]) (left := []) (entryOf_sound (n := 60) (by decide +kernel)) _,
    small_soa [], by decide,
    small_ns (entry_more (ls := ["@ NS ns.f.".toList]) (left := []) (entryOf_sound (n := 60) (by decide +kernel)) _) ?_⟩
  have h1 : NameText true ⟨"e.".toList⟩ "x".toList ⟨"x.e.".toList⟩ := nameText_rel ["x".toList] ["e".toList] (by decide)
  have h2 : (frameOf smallConf 5).Owns ⟨"x.e.".toList⟩ := small_owns (by decide +kernel) (by decide +kernel)
  have h3 : (frameOf smallConf 5).minimum ≤ 60 := by decide
  exact .record (r := textRec s) (head := "x".toList) (left := []) (text_entry h)
    ⟨[], _, rfl, .inr h1, .neither, rfl, .txt (by simp) (.cons ⟨ha, .inl rfl⟩ .nil), rfl⟩ h2 h3 .nil

theorem text_fits (s : Str) : FitTogether smallConf.zone ([smallNs, textRec s] ++ [sampleSoaRec]) [] where
  ns := ⟨smallNs, by simp, rfl⟩
  apex r hr ht := by
    rcases List.mem_cons.1 hr with rfl | hr
    · rfl
    · rcases List.mem_cons.1 hr with rfl | hr
      · cases ht
      · rw [List.mem_singleton.1 hr] at ht; cases ht
  subNs s hs := nomatch hs
  subApex s hs := nomatch hs
  glue s hs := nomatch hs
  used s hs := nomatch hs

theorem text_found (s : Str) : recordsAt ([smallNs, textRec s] ++ [sampleSoaRec]) ⟨"x.e.".toList⟩ .TXT = [textRec s] := by
  have h1 : (smallNs.node == (⟨"x.e.".toList⟩ : Name)) = false := by decide
  have h2 : (sampleSoaRec.node == (⟨"x.e.".toList⟩ : Name)) = false := by decide
  have h3 : ((textRec s).node == (⟨"x.e.".toList⟩ : Name)) = true := by show ((⟨"x.e.".toList⟩ : Name) == _) = true; decide
  have h4 : ((textRec s).recordType == .TXT) = true := rfl
  unfold recordsAt
  show List.filter _ [smallNs, textRec s, sampleSoaRec] = _
  rw [List.filter_cons, List.filter_cons, List.filter_cons, h1, h2, h3, h4]
  rfl

/-- **C124**, part: for texts without `\DDD`. -/
theorem C124_escapes_partial (p : Profile) (o : HashOrder) (text s : Str) (h : Quotes s text) (ha : ∀ c ∈ s, c.toNat < 128) :
    Serves p o text s := by
  classical
  have hf := text_says h ha
  obtain ⟨fuel, zones, hz⟩ := (says_fit (p := p) (o := o) hf).2 (text_fits s)
  refine ⟨fuel, zones, hz, _, ((C101_text p p _ o fuel _ _ _ _ zones hf hz _ _ (asks_ask (n := "x.e.") (t := .TXT)
    (by decide +kernel))).1 _).2 rfl, ?_⟩
  unfold expectedReply
  rw [if_neg (not_not.2 (within_of_isInZone (validName_of (by decide +kernel)) small_valid.1 (by decide +kernel)))]
  simp only [List.find?_nil]
  rw [text_found, if_pos (by simp)]
  rfl

theorem quotes_quoteText : ∀ s : Str, Quotes s (quoteText s)
  | [] => .nil
  | c :: s => by
    have ih := quotes_quoteText s
    unfold quoteText at ih ⊢
    rw [List.flatMap_cons]
    by_cases h : c = '"' ∨ c = '\\'
    · rw [if_pos h]
      exact .escape (by rcases h with rfl | rfl <;> decide) ih
    · rw [if_neg h]
      exact .char (fun e => h (.inl e)) (fun e => h (.inr e)) ih

/-- **C124**: every ASCII string can be served, written between quotes with a backslash before each quote and backslash. -/
theorem C124_every_string (p : Profile) (o : HashOrder) (s : Str) (ha : ∀ c ∈ s, c.toNat < 128) : Serves p o (quoteText s) s :=
  C124_escapes_partial p o _ s (quotes_quoteText s) ha

/-- A question for the string is not answered with "A". -/
def notA : Out ParseErr ManagedZone → Bool
  | .ok zones => replyIs .release zones (ask "x.e." .TXT) (fun m => m.answers.map (·.data) != [.TXT [['A']]])
  | _ => true

theorem notA_more (n : Nat) : notA (parseZoneFiles .release (textFiles "\\065".toList) forwards
    (Nat.succ (Nat.succ (Nat.succ (Nat.succ (Nat.succ n))))) smallConf) = true := by
  kernel_rfl

/-- C124 does not hold: `\065` is the string "065", not "A". -/
theorem C124_violated : ¬ C124_statement := by
  intro h
  have hw : Written ['A'] "\\065".toList := .code (a := '0') (b := '6') (c := '5') (by decide) (by decide) (by decide) (by decide) .nil
  obtain ⟨fuel, zones, hz, m, hm, he⟩ := h .release forwards _ _ hw (by decide)
  have key : notA (parseZoneFiles .release (textFiles "\\065".toList) forwards fuel smallConf) = true := by
    match fuel with
    | 0 => decide +kernel
    | 1 => decide +kernel
    | 2 => decide +kernel
    | 3 => decide +kernel
    | 4 => decide +kernel
    | n + 5 => exact notA_more n
  rw [hz] at key
  obtain ⟨m', h1, h2⟩ := replyIs_spec key
  rw [replies_unique h1 hm, he] at h2
  exact absurd h2 (by decide)

/-- C124 applies to texts with escapes. -/
example (p : Profile) (o : HashOrder) : Serves p o "a \\\"b\\; \\\\".toList "a \"b; \\".toList :=
  C124_escapes_partial p o _ _ (.char (by decide) (by decide) (.char (by decide) (by decide) (.escape (by decide) (.char (by decide) (by decide)
    (.escape (by decide) (.char (by decide) (by decide) (.escape (by decide) .nil))))))) (by decide)

/-- A string with a quote and a backslash. -/
example (p : Profile) (o : HashOrder) : Serves p o (quoteText "5\" \\ ;(".toList) "5\" \\ ;(".toList :=
  C124_every_string p o _ (by decide)

example : quoteText "5\" \\ ;(".toList = "5\\\" \\\\ ;(".toList := by decide

end Ariadne.Props
