import Verif.Lemmas.Layout
import Verif.Props.Loader

/-! # The layout of zone files: C97 -/

namespace Ariadne.Props

open Spec ZoneParser

/-- **C97.** Comments, lines without anything else, and line breaks in parentheses have no meaning: files that differ in them only load to
the same zones, or fail to load with the same error. -/
def C97_statement : Prop :=
  ∀ (p : Profile) (fs fs' : Files) (o : HashOrder) (fuel : Nat) (conf : Params), ValidConf conf → SameFiles (fun _ => True) fs fs' →
    parseZoneFiles p fs o fuel conf = parseZoneFiles p fs' o fuel conf

/-- A zone file, and the same with a comment at the end. -/
def dottedText (c : Str) : List (Option Str) :=
  [some "@ 60 IN SOA ns mail 1 2 3 4 5".toList, some "  NS ns".toList, some "ns A 10.0.0.1".toList, some ("t TXT a\\.b".toList ++ c)]
def dottedFiles (c : Str) : Files := fun path => if path = "auth".toList then some (dottedText c) else none
def dottedConf : Params := { filePath := "auth".toList, zone := ⟨"e.".toList⟩, startingTtl := 60, subZones := [] }

/-- C97 does not hold: a file with a TXT record that ends with a word in which a character is escaped makes the loader panic, and the same
file with a comment after the word loads. -/
theorem C97_violated : ¬ C97_statement := by
  intro h
  have hv : ValidConf dottedConf := ⟨validName_of (by decide +kernel), fun c hc => by cases hc⟩
  have hs : SameFiles (fun _ => True) (dottedFiles []) (dottedFiles [';']) := by
    intro path
    by_cases e : path = "auth".toList
    · refine .inr ⟨dottedText [], dottedText [';'], if_pos e, if_pos e, .rel _ _ (.comments (.same (.same (.same (.comment ⟨by decide, .inl rfl,
        .inr ⟨[], rfl⟩, fun _ => trivial⟩ .nil)))))⟩
    · exact .inl ⟨if_neg e, if_neg e⟩
  have k := h .release _ _ forwards 10 dottedConf hv hs
  have k1 : parseZoneFiles .release (dottedFiles []) forwards 10 dottedConf = .panic .index := by decide +kernel
  rw [k1] at k
  obtain ⟨z, hz, -⟩ := ok_of (x := parseZoneFiles .release (dottedFiles [';']) forwards 10 dottedConf) (fun _ => true) (by decide +kernel)
  rw [hz] at k
  cases k

/-- **C97, partially.** It holds of edits that are not made right after a word that has a backslash. -/
theorem C97_layout_partial {p : Profile} {fs fs' : Files} {o : HashOrder} {fuel : Nat} {conf : Params}
    (h : SameFiles (fun m => m ≠ .word true) fs fs') : parseZoneFiles p fs o fuel conf = parseZoneFiles p fs' o fuel conf :=
  alike_files (same_files h) p o fuel conf

/-- The files of a zone, in two layouts. -/
def wideText : List (Option Str) :=
  [some "@ 60 IN SOA ns mail ( 1  2 3 4 5 )".toList, some "  NS ns".toList, some "ns A 10.0.0.1".toList]
def tallText : List (Option Str) :=
  [some "; zone e.".toList, some "@ 60 IN SOA ns mail (".toList, some ("1 ".toList ++ "; serial".toList), some "2 3 4 5 )".toList,
   some [], some "  NS ns".toList, some "ns A 10.0.0.1".toList]
def oneFile (f : List (Option Str)) : Files := fun path => if path = "auth".toList then some f else none

/-- The layouts differ in two line breaks, two comments and an empty line. -/
theorem tall_wide : SameFiles (fun m => m ≠ .word true) (oneFile tallText) (oneFile wideText) := by
  intro path
  by_cases e : path = "auth".toList
  · refine .inr ⟨tallText, wideText, if_pos e, if_pos e, ?_⟩
    have s1 : Edit (fun m => m ≠ .word true) tallText
        [some "@ 60 IN SOA ns mail (".toList, some ("1 ".toList ++ []), some "2 3 4 5 )".toList, some "  NS ns".toList, some "ns A 10.0.0.1".toList] :=
      .comments (.more ⟨[], "; zone e.".toList, rfl, by simp, .inr ⟨" zone e.".toList, rfl⟩⟩ (.same (.comment (l := "1 ".toList)
        (c := "; serial".toList) (c' := []) ⟨by decide, .inr ⟨" serial".toList, rfl⟩, .inl rfl, fun _ => by decide⟩ (.same (.more ⟨[], [], rfl, by simp, .inl rfl⟩ (.same (.same .nil)))))))
    have plain : ∀ (l : Str) (c : Char), l.head? = some c → isWhitespace c = false → ∀ ch, l.head? = some ch → isWhitespace ch = true → ch = ' ' ∨ ch = '\t' := by
      intro l c h1 h2 ch h3 h4
      rw [h1] at h3
      rw [← Option.some.inj h3, h2] at h4
      cases h4
    have lead : ∀ f : List (Option Str), (f.all fun l => match l with | some l => l.head? != some '(' | none => true) = true → NoLeadingParenthesis f := by
      intro f h l hl e
      have := List.all_eq_true.1 h _ hl
      simp [e] at this
    have s2 : Edit (fun m => m ≠ .word true)
        [some "@ 60 IN SOA ns mail (".toList, some ("1 ".toList ++ []), some "2 3 4 5 )".toList, some "  NS ns".toList, some "ns A 10.0.0.1".toList]
        [some "@ 60 IN SOA ns mail (".toList, some ("1 ".toList ++ " ".toList ++ "2 3 4 5 )".toList), some "  NS ns".toList, some "ns A 10.0.0.1".toList] := by
      refine .join (Joined.join (ok := fun m => m ≠ .word true) [some "@ 60 IN SOA ns mail (".toList] [some "  NS ns".toList, some "ns A 10.0.0.1".toList] "1 ".toList " ".toList "2 3 4 5 )".toList
        (by decide) (.inl (by decide)) (by decide) ⟨' ', [], rfl, .inl rfl, by simp⟩ ?_ ?_ (plain _ '2' (by decide) (by decide))) (lead _ (by decide))
      · rw [← Tokenizer.NoCode_skippable]; decide
      · rw [← Tokenizer.NoCode_skippable]; decide
    have s3 : Edit (fun m => m ≠ .word true)
        [some "@ 60 IN SOA ns mail (".toList, some ("1 ".toList ++ " ".toList ++ "2 3 4 5 )".toList), some "  NS ns".toList, some "ns A 10.0.0.1".toList]
        [some ("@ 60 IN SOA ns mail (".toList ++ " ".toList ++ ("1 ".toList ++ " ".toList ++ "2 3 4 5 )".toList)), some "  NS ns".toList, some "ns A 10.0.0.1".toList] := by
      refine .join (Joined.join (ok := fun m => m ≠ .word true) [] [some "  NS ns".toList, some "ns A 10.0.0.1".toList] "@ 60 IN SOA ns mail (".toList " ".toList ("1 ".toList ++ " ".toList ++ "2 3 4 5 )".toList)
        (by decide) (.inl (by decide)) (by decide) ⟨' ', [], rfl, .inl rfl, by simp⟩ ?_ ?_ (plain _ '1' (by decide) (by decide))) (lead _ (by decide))
      · rw [← Tokenizer.NoCode_skippable]; decide
      · rw [← Tokenizer.NoCode_skippable]; decide
    exact .trans _ _ _ (.rel _ _ s1) (.trans _ _ _ (.rel _ _ s2) (.rel _ _ s3))
  · exact .inl ⟨if_neg e, if_neg e⟩

/-- Both load. -/
example : parseZoneFiles .release (oneFile tallText) forwards 10 dottedConf = parseZoneFiles .release (oneFile wideText) forwards 10 dottedConf ∧
    ∃ zones, parseZoneFiles .release (oneFile wideText) forwards 10 dottedConf = .ok zones ∧
      (zones.authZone.getAllOfType forwards .SOA).map (·.data) = [.SOA ⟨"ns.e.".toList⟩ ⟨"mail.e.".toList⟩ 1 2 3 4 5] := by
  refine ⟨C97_layout_partial tall_wide, ?_⟩
  obtain ⟨zones, h1, h2⟩ := ok_of (x := parseZoneFiles .release (oneFile wideText) forwards 10 dottedConf) (fun zones =>
    (zones.authZone.getAllOfType forwards .SOA).map (·.data) = [.SOA ⟨"ns.e.".toList⟩ ⟨"mail.e.".toList⟩ 1 2 3 4 5]) (by decide +kernel)
  exact ⟨zones, h1, of_decide_eq_true h2⟩

end Ariadne.Props
