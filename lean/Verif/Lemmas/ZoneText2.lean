import Verif.Lemmas.ZoneText1
import Verif.Lemmas.Within
import Verif.Lemmas.ZoneParser

/-! # Words and their values -/

namespace Ariadne.Tokenizer

open Spec

/-- Like `Sits`, but the next token may have been peeked at. -/
inductive Waits (left : List Str) (ws : List Word) (t : Tokenizer) : Prop
  | sits : Sits left ws t → Waits left ws t
  | word (w : Word) (ws' : List Word) (t' : Tokenizer) : ws = w :: ws' → t = { t' with peeked := [token w] } → Sits left ws' t' →
      Waits left ws t
  | over (tk : Token) (t' : Tokenizer) : ws = [] → t = { t' with peeked := [tk] } → tk = .newLine ∨ tk = .end → t'.peeked = [] →
      t'.line ≠ 0 → Opens left t' → Waits left ws t

theorem Sits.reading {left : List Str} {ws : List Word} {t : Tokenizer} (h : Sits left ws t) : Reading left ws t.nextAfterBlanks := by
  obtain ⟨o, l, ls, n, rfl, h⟩ := h
  exact Tokenizer.reading h n

theorem Sits.eq {left : List Str} {ws : List Word} {t : Tokenizer} (h : Sits left ws t) : { t with peeked := [] } = t ∧ t.peeked = [] ∧ t.line ≠ 0 := by
  obtain ⟨o, l, ls, n, rfl, -⟩ := h
  exact ⟨rfl, rfl, Nat.succ_ne_zero _⟩

theorem Waits.reading {left : List Str} {ws : List Word} {t : Tokenizer} (h : Waits left ws t) :
    Reading left ws t.nextAfterBlanks := by
  cases h with
  | sits h => exact h.reading
  | word w ws' t' hw ht hs =>
    subst hw ht
    rw [nextAfterBlanks_held (t := { t' with peeked := [token w] }) rfl hs.eq.2.2, if_neg (token_ne_blank w)]
    refine ⟨t', ?_, hs⟩
    show Out.ok (token w, { t' with peeked := [] }) = _
    rw [hs.eq.1]
  | over tk t' hw ht hk hp hl ho =>
    subst hw ht
    rw [nextAfterBlanks_held (t := { t' with peeked := [tk] }) rfl hl, if_neg (by rcases hk with rfl | rfl <;> simp)]
    refine ⟨tk, t', ?_, hk, hp, hl, ho⟩
    show Out.ok (tk, { t' with peeked := [] }) = _
    rw [← hp]

theorem Waits.next {left : List Str} {w : Word} {ws : List Word} {t : Tokenizer} (h : Waits left (w :: ws) t) :
    ∃ t', t.nextAfterBlanks = .ok (token w, t') ∧ Sits left ws t' := h.reading

/-- Peeking at a word. -/
theorem Sits.peek {left : List Str} {w : Word} {ws : List Word} {t : Tokenizer} (h : Sits left (w :: ws) t) :
    ∃ t', t.peekAfterBlanks = .ok (token w, { t' with peeked := [token w] }) ∧ Sits left ws t' ∧
      ({ t' with peeked := [token w] } : Tokenizer).next = .ok (token w, t') ∧
      ({ t' with peeked := [token w] } : Tokenizer).nextAfterBlanks = .ok (token w, t') := by
  obtain ⟨t', e, hs⟩ := h.reading
  refine ⟨t', ?_, hs, ?_, ?_⟩
  · rw [peekAfterBlanks, e]
    simp only [Out.bind_ok, hs.eq.2.1, List.nil_append]
  · rw [next_peeked (t := { t' with peeked := [token w] }) rfl hs.eq.2.2]
    show Out.ok (token w, { t' with peeked := [] }) = _
    rw [hs.eq.1]
  · rw [nextAfterBlanks_held (t := { t' with peeked := [token w] }) rfl hs.eq.2.2, if_neg (token_ne_blank w)]
    show Out.ok (token w, { t' with peeked := [] }) = _
    rw [hs.eq.1]

/-- Peeking at the end of an entry. -/
theorem Sits.peek_end {left : List Str} {t : Tokenizer} (h : Sits left [] t) :
    ∃ tk t', t.peekAfterBlanks = .ok (tk, t') ∧ (tk = .newLine ∨ tk = .end) ∧ Waits left [] t' := by
  obtain ⟨tk, t', e, hk, hp, hl, ho⟩ := h.reading
  refine ⟨tk, { t' with peeked := [tk] }, ?_, hk, .over tk t' rfl rfl hk hp hl ho⟩
  rw [peekAfterBlanks, e]
  simp only [Out.bind_ok, hp, List.nil_append]

theorem Solid.head {w : Str} (h : Solid w) : ∃ c r, w = c :: r ∧ isWhitespace c = false ∧ c ≠ ';' := by
  obtain ⟨hne, hall, -⟩ := h
  cases w with
  | nil => exact absurd rfl hne
  | cons c r =>
    have := (hall c List.mem_cons_self).1
    unfold Separates at this
    refine ⟨c, r, rfl, by cases h : isWhitespace c <;> tauto, by tauto⟩

/-- A line with blanks and a comment only spells nothing. -/
theorem spells_skippable {o : Bool} {ws : List Word} {l : Str} {ls left : List Str} (h : Spells o ws l ls left)
    (hs : skippable l = true) (ho : o = false) : ws = [] := by
  induction h with
  | done => rfl
  | blank hc h ih =>
    refine ih ?_ ho
    unfold skippable trimStart at hs ⊢
    rwa [List.dropWhile_cons, if_pos (blank_ws hc)] at hs
  | @word o ws w l ls left hw hd hb h ih =>
    obtain ⟨c, r, rfl, h1, h2⟩ := Solid.head hw
    unfold skippable trimStart at hs
    rw [List.cons_append, List.dropWhile_cons, h1] at hs
    simp at hs
    exact absurd hs h2
  | quoted => exact absurd hs (by simp [skippable, trimStart, show isWhitespace '"' = false by decide])
  | opening => exact absurd hs (by simp [skippable, trimStart, show isWhitespace '(' = false by decide])
  | closing => exact absurd hs (by simp [skippable, trimStart, show isWhitespace ')' = false by decide])
  | @comment o ws text ls left h ih => exact ih (by decide) ho
  | newline => cases ho

theorem spells_drop {o : Bool} {ws : List Word} {l : Str} {ls left : List Str} (h : Spells o ws l ls left) :
    Spells o ws (l.dropWhile isWhitespace) ls left := by
  induction h with
  | done => exact .done
  | blank hc h ih => rwa [List.dropWhile_cons, if_pos (blank_ws hc)]
  | @word o ws w l ls left hw hd hb h ih =>
    have hw' := hw
    obtain ⟨c, r, rfl, h1, h2⟩ := Solid.head hw
    rw [List.cons_append, List.dropWhile_cons, h1, if_neg Bool.false_ne_true, ← List.cons_append]
    exact .word hw' hd hb h
  | quoted h1 h2 h ih => exact .quoted h1 h2 h
  | opening h ih => exact .opening h
  | closing h ih => exact .closing h
  | comment h ih => exact .comment h
  | newline h ih => exact .newline h

/-- What the first token of an entry is. -/
def headToken (h : Str) : Token :=
  if h = [] then .blank
  else if h = "$ORIGIN".toList then .originDir
  else if h = "$INCLUDE".toList then .includeDir
  else wordToken h

theorem directive_T {l d : Str} {ls : List Str} {n : Nat} (hs : Solid ('$' :: d)) (hb : Boundary l)
    (hd : '$' :: d = "$ORIGIN".toList ∨ '$' :: d = "$INCLUDE".toList) :
    (T false ('$' :: d ++ l) ls n).next = .ok (headToken ('$' :: d), T false l ls n) := by
  have e := directiveLoop_solid hb d ['$'] l.length (fun c hc => hs.2.1 c (List.mem_cons_of_mem _ hc))
    (fun e => by rw [e]; rfl) (Nat.le_refl _) (fun h => List.length_pos_iff.2 h)
  rw [← List.length_append] at e
  rw [directive_next (t := T false ('$' :: d ++ l) ls n) (r := d ++ l) rfl (Nat.succ_ne_zero _) rfl, processDirective]
  show (do let (directive, rest) ← directiveLoop (d ++ l).length ['$'] (d ++ l); _) = _
  rw [e]
  simp only [Out.bind_ok, List.cons_append, List.nil_append, headToken]
  rcases hd with hd | hd
  · rw [if_pos hd, if_neg (by simp), if_pos hd]
    rfl
  · rw [hd, if_neg (by decide), if_pos rfl, if_neg (by decide), if_neg (by decide), if_pos rfl]
    rfl

/-- The beginning of an entry. -/
theorem entry_opens {head : Str} {ws : List Word} {ls left : List Str} (h : Entry head ws ls left)
    (hd : head.head? = some '$' → head = "$ORIGIN".toList ∨ head = "$INCLUDE".toList) {t : Tokenizer} (ho : Opens ls t) :
    ∃ t', t.next = .ok (headToken head, t') ∧ Sits left ws t' := by
  have key : ∃ l rest, ls = l :: rest ∧ ¬ NoCode l ∧ ∀ n, ∃ t', (T false l rest n).next = .ok (headToken head, t') ∧ Sits left ws t' := by
    cases h with
    | @blank _ c l ls _ hc hne h =>
      refine ⟨c :: l, ls, rfl, fun hn => ?_, fun n => ?_⟩
      · exact hne (spells_skippable (Spells.blank hc h) (NoCode_skippable.2 hn) rfl)
      · refine ⟨_, next_blanks (t := T false (c :: l) ls n) rfl (Nat.succ_ne_zero _) rfl hc, ?_⟩
        show Sits left ws (T false ((c :: l).dropWhile isWhitespace) ls n)
        refine ⟨false, _, ls, n, rfl, ?_⟩
        rw [List.dropWhile_cons, if_pos (blank_ws hc)]
        exact spells_drop h
    | @word _ _ l ls _ hs hb h =>
      refine ⟨head ++ l, ls, rfl, fun hn => ?_, fun n => ?_⟩
      · obtain ⟨c, r, rfl, h1, h2⟩ := Solid.head hs
        have := NoCode_skippable.2 hn
        unfold skippable trimStart at this
        rw [List.cons_append, List.dropWhile_cons, h1] at this
        simp at this
        exact h2 this
      · refine ⟨T false l ls n, ?_, false, l, ls, n, rfl, h⟩
        by_cases h1 : head.head? = some '$'
        · cases head with
          | nil => cases h1
          | cons c d =>
            rw [List.head?_cons, Option.some.injEq] at h1
            subst h1
            exact directive_T hs hb (hd rfl)
        · rw [word_T hs h1 hb, headToken, if_neg hs.1, if_neg (by rintro rfl; exact h1 rfl), if_neg (by rintro rfl; exact h1 rfl)]
  obtain ⟨l, rest, rfl, hn, k⟩ := key
  cases ho with
  | «end» t' ha => exact absurd (ha l List.mem_cons_self) hn
  | line pre l' rest' n he hp hl hx =>
    cases pre with
    | cons x pre =>
      rw [List.cons_append, List.cons.injEq] at he
      exact absurd (he.1 ▸ hp x List.mem_cons_self) hn
    | nil =>
      rw [List.nil_append, List.cons.injEq] at he
      rw [hx, ← he.1, ← he.2]
      exact k n

theorem opens_skip {l : Str} {ls : List Str} {t : Tokenizer} (h : Opens (l :: ls) t) (hl : NoCode l) : Opens ls t := by
  cases h with
  | «end» t' ha hx => exact .end t' (fun x hx => ha x (List.mem_cons_of_mem _ hx)) hx
  | line pre l' rest' n he hp hn hx =>
    cases pre with
    | nil =>
      rw [List.nil_append, List.cons.injEq] at he
      exact absurd (he.1 ▸ hl) hn
    | cons x pre =>
      rw [List.cons_append, List.cons.injEq] at he
      exact .line pre l' rest' n he.2 (fun x hx => hp x (List.mem_cons_of_mem _ hx)) hn hx

theorem opens_nil {t : Tokenizer} (h : Opens [] t) : ∃ t', t.next = .ok (.end, t') := by
  cases h with
  | «end» t' _ hx => exact ⟨t', hx⟩
  | line pre l' rest' n he =>
    have := congrArg List.length he
    simp at this

/-! ## Numerals -/

theorem digitVal_of {c : Char} (h : '0' ≤ c ∧ c ≤ '9') : digitVal c = some (c.toNat - '0'.toNat) := by
  unfold digitVal
  rw [if_pos h]

theorem digitsVal_of : ∀ (w : Str) (acc : Nat), (∀ c ∈ w, '0' ≤ c ∧ c ≤ '9') →
    digitsVal w acc = some (w.foldl (fun a c => 10 * a + (c.toNat - '0'.toNat)) acc)
  | [], _, _ => rfl
  | c :: w, acc, h => by
    rw [digitsVal, digitVal_of (h c List.mem_cons_self)]
    simp only [List.foldl_cons]
    rw [digitsVal_of w _ fun x hx => h x (List.mem_cons_of_mem _ hx), Nat.mul_comm acc 10]

theorem digitsVal_some : ∀ (w : Str) (acc v : Nat), digitsVal w acc = some v → ∀ c ∈ w, '0' ≤ c ∧ c ≤ '9'
  | [], _, _, _ => by simp
  | c :: w, acc, v, h => by
    rw [digitsVal] at h
    have hc : '0' ≤ c ∧ c ≤ '9' := by
      by_contra hn
      unfold digitVal at h
      rw [if_neg hn] at h
      cases h
    rw [digitVal_of hc] at h
    intro x hx
    rcases List.mem_cons.1 hx with rfl | hx
    · exact hc
    · exact digitsVal_some w _ _ h x hx

theorem numeral_value {w : Str} {n : Nat} (h : Numeral w n) : digitsVal w 0 = some n := by
  rw [digitsVal_of w 0 h.2.1, h.2.2]

theorem not_plus {c : Char} (h : '0' ≤ c ∧ c ≤ '9') : c ≠ '+' := by
  rintro rfl
  exact absurd h.1 (by decide)

theorem not_at {c : Char} (h : '0' ≤ c ∧ c ≤ '9') : c ≠ '@' := by
  rintro rfl
  exact absurd h.2 (by decide)

theorem parseU32_numeral {w : Str} {n : Nat} (h : Numeral w n) (hn : n < 2 ^ 32) : parseU32 w = some (UInt32.ofNat n) := by
  have hv := numeral_value h
  obtain ⟨hne, hd, -⟩ := h
  unfold parseU32
  split
  · rename_i rest
    exact absurd rfl (not_plus (hd '+' List.mem_cons_self))
  · rw [if_neg hne, hv]
    simp only
    rw [if_pos (by omega)]

theorem parseU32_some {w : Str} {v : UInt32} (h : parseU32 w = some v) : LooksNumeric w := by
  unfold parseU32 at h
  have : ∃ d, (w = d ∨ w = '+' :: d) ∧ (if d = [] then none
      else match digitsVal d 0 with
        | none => none
        | some v => if v < 4294967296 then some (UInt32.ofNat v) else none) = some v := by
    split at h
    · rename_i rest
      exact ⟨rest, .inr rfl, h⟩
    · exact ⟨w, .inl rfl, h⟩
  obtain ⟨d, hd, h⟩ := this
  by_cases hne : d = []
  · rw [if_pos hne] at h; cases h
  · rw [if_neg hne] at h
    cases hv : digitsVal d 0 with
    | none => rw [hv] at h; cases h
    | some x =>
      rw [hv] at h
      simp only at h
      by_cases hx : x < 4294967296
      · have ha := digitsVal_some d 0 x hv
        rw [digitsVal_of d 0 ha] at hv
        exact ⟨d, x, hd, ⟨hne, ha, Option.some.inj hv⟩, by omega⟩
      · rw [if_neg hx] at h; cases h

/-- A numeral is a number token. -/
theorem wordToken_numeral {w : Str} {n : UInt32} (h : Numeral w n.toNat) : wordToken w = .number n := by
  unfold wordToken
  rw [if_neg, parseU32_numeral h n.toNat_lt]
  · simp
  · rintro rfl
    exact absurd rfl (not_at (h.2.1 '@' (List.mem_singleton.2 rfl)))

/-- Another word is a string token. -/
theorem wordToken_string {w : Str} (h : ¬ LooksNumeric w) (h' : w ≠ ['@']) : wordToken w = .string w := by
  unfold wordToken
  rw [if_neg h']
  cases e : parseU32 w with
  | none => rfl
  | some v => exact absurd (parseU32_some e) h

/-- A word that starts with something else than a digit or a plus sign does not look like a number. -/
theorem not_numeric {w : Str} {c : Char} (hm : c ∈ w) (hc : ¬ ('0' ≤ c ∧ c ≤ '9')) (hp : c ≠ '+') : ¬ LooksNumeric w := by
  rintro ⟨d, n, hd, hn, -⟩
  rcases hd with rfl | rfl
  · exact hc (hn.2.1 c hm)
  · rcases List.mem_cons.1 hm with h | h
    · exact hp h
    · exact hc (hn.2.1 c h)

end Ariadne.Tokenizer
