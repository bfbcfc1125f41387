import Verif.Lemmas.Tokens4
import Verif.Lemmas.Tokens7

/-! # The text of zone files: C40 -/

namespace Ariadne.Props

open Spec

/-! ## C40: comments, parentheses, peeking -/

/-- **C40.** Comments never influence tokens, a parenthesised group yields the same tokens as the group on one line
(blanks aside), and peeking does not change what later calls return. -/
def C40_statement : Prop :=
  (∀ f f', SameButComments (fun _ => True) f f' → ∀ cs, replies cs (Tokenizer.start f) = replies cs (Tokenizer.start f')) ∧
  (∀ f f', Relation.ReflTransGen (Joined fun _ => True) f f' → ∀ cs : List Call, (∀ c ∈ cs, c.SkipsBlanks) →
    replies cs (Tokenizer.start f) = replies cs (Tokenizer.start f')) ∧
  ∀ file t, Consulted file t →
    (∀ tok t', t.peek = .ok (tok, t') → ∀ cs, replies cs t' = replies cs t) ∧
    ∀ tok t', t.peekAfterBlanks = .ok (tok, t') → ∀ c : Call, c.SkipsBlanks → ∀ cs, replies (c :: cs) t' = replies (c :: cs) t

/-- A word with a backslash, which is the last one of its line. -/
def escapedLine : Str := "a\\.b".toList

/-- C40 does not hold: reading a word with a backslash panics at the end of a line (tokens.rs:260-275 takes as many steps
as there are characters, though a backslash takes two), but not before a comment. -/
theorem C40_violated : ¬ C40_statement := by
  intro h
  have h1 := h.1 [some (escapedLine ++ [])] [some (escapedLine ++ [';'])]
    (.comment ⟨by decide, .inl rfl, .inr ⟨[], rfl⟩, fun _ => trivial⟩ .nil) [.next]
  revert h1
  decide +kernel

/-- **C40, partially.** Files that differ in comments yield the same tokens, if comments are neither added nor removed
right after a word that has a backslash. -/
theorem C40_comments_partial {f f' : List (Option Str)} (h : SameButComments (fun m => m ≠ .word true) f f') (cs : List Call) :
    replies cs (Tokenizer.start f) = replies cs (Tokenizer.start f') :=
  Tokenizer.replies_comments h cs

/-- **C40, partially.** Any number of line breaks in parentheses, none of them right after a word that has a backslash,
can be replaced by blanks: the tokens are the same, apart from blanks. -/
theorem C40_group_partial {f f' : List (Option Str)} (h : Relation.ReflTransGen (Joined fun m => m ≠ .word true) f f')
    (cs : List Call) (hcs : ∀ c ∈ cs, c.SkipsBlanks) : replies cs (Tokenizer.start f) = replies cs (Tokenizer.start f') := by
  induction h with
  | refl => rfl
  | tail _ h ih => exact ih.trans (Tokenizer.replies_joined h hcs)

/-- **C40**, peeking: whatever was called before and is called later, peeking changes no reply; peeking beyond blanks
changes none, if the next call skips blanks as well. -/
theorem C40_peek_partial {file : List (Option Str)} {t : Tokenizer} (h : Consulted file t) :
    (∀ tok t', t.peek = .ok (tok, t') → ∀ cs, replies cs t' = replies cs t) ∧
    ∀ tok t', t.peekAfterBlanks = .ok (tok, t') → ∀ c : Call, c.SkipsBlanks → ∀ cs, replies (c :: cs) t' = replies (c :: cs) t :=
  ⟨fun _ _ e cs => Tokenizer.replies_peek (Tokenizer.consulted_wf h) e cs,
   fun _ _ e c hc cs => Tokenizer.replies_peekAfterBlanks (Tokenizer.consulted_wf h) e c hc cs⟩

/-- Two files with and without comments, and what reading them returns. -/
def plainFile : List (Option Str) := [some "a MX ( 10".toList, some "b )".toList, some "c \"x;y\"".toList]
def commentedFile : List (Option Str) :=
  [some "; zone".toList, some ("a MX ( 10".toList ++ " ; preference".toList), some "  ;; next".toList,
   some ("b )".toList ++ ";".toList), some ("c \"x;y\"".toList ++ "; text".toList)]
def oneLineFile : List (Option Str) := [some ("a MX ( 10".toList ++ " ".toList ++ "b )".toList), some "c \"x;y\"".toList]

example : SameButComments (fun m => m ≠ .word true) [some ("a MX ( 10 ".toList ++ []), some "b".toList]
    [some "; zone".toList, some ("a MX ( 10 ".toList ++ "; preference".toList), some "b".toList] := by
  refine .less ⟨[], "; zone".toList, rfl, by simp, .inr ⟨" zone".toList, rfl⟩⟩ (.comment ⟨by decide, .inl rfl,
    .inr ⟨" preference".toList, rfl⟩, fun _ => by decide⟩ (.same .nil))

example : Joined (fun m => m ≠ .word true) plainFile oneLineFile := by
  refine Joined.join (ok := fun m => m ≠ .word true) [] [some "c \"x;y\"".toList] "a MX ( 10".toList " ".toList "b )".toList
    (by decide) (.inr ⟨false, by decide⟩) (by decide) ⟨' ', [], rfl, .inl rfl, by simp⟩ ?_ ?_ ?_
  · rw [← Tokenizer.NoCode_skippable]; decide
  · rw [← Tokenizer.NoCode_skippable]; decide
  · intro ch h
    have : ch = 'b' := by
      have e : "b )".toList.head? = some 'b' := by decide
      rw [e] at h
      exact (Option.some.inj h).symm
    subst this
    decide

/-- What reading the file returns, blanks aside. -/
example : replies (List.replicate 8 .nextAfterBlanks) (Tokenizer.start oneLineFile) =
    [.ok (.string "a".toList), .ok (.string "MX".toList), .ok (.number 10), .ok (.string "b".toList), .ok .newLine,
     .ok (.string "c".toList), .ok (.qString "x;y".toList), .ok .end] := by decide +kernel

example : replies (List.replicate 8 .nextAfterBlanks) (Tokenizer.start commentedFile) =
    replies (List.replicate 8 .nextAfterBlanks) (Tokenizer.start oneLineFile) := by decide +kernel

/-- A state with a peeked token. -/
example : ∃ t t', Consulted plainFile t ∧ t.peek = .ok (.string "a".toList, t') :=
  ⟨_, { Tokenizer.start plainFile with
        file := plainFile.tail, rest := " MX ( 10".toList, line := 1, peeked := [.string "a".toList] }, .start, by decide +kernel⟩

end Ariadne.Props
