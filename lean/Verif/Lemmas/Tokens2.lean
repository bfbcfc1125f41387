import Verif.Lemmas.Tokens

/-! # The tokenizer: equations for `next` and `next_after_blanks` -/

namespace Ariadne.Tokenizer

theorem nextChar_congr {r1 r2 : Tokenizer → Out TokenErr (Token × Tokenizer)} {t : Tokenizer} (hl : t.line ≠ 0)
    (hp : t.peeked = [])
    (h : ∀ t1 : Tokenizer, t1.size < t.size → Fresh t1 → r1 t1 = r2 t1) : nextChar r1 t = nextChar r2 t := by
  unfold nextChar
  cases hr : t.rest with
  | nil => rfl
  | cons ch rest =>
    simp only
    have a : ∀ (r : Str) (m : Bool), r.length ≤ rest.length →
        r1 { t with multiline := m, rest := r } = r2 { t with multiline := m, rest := r } := fun r m hle =>
      h _ (by simp only [Tokenizer.size, hr, List.length_cons]; omega) ⟨hp, fun e => absurd e hl⟩
    rw [a rest true (le_refl _), a rest false (le_refl _)]
    have b := a [] t.multiline (by simp)
    rw [b]

theorem nextLoaded_congr {r1 r2 : Tokenizer → Out TokenErr (Token × Tokenizer)} {t : Tokenizer} (hl : t.line ≠ 0)
    (h : ∀ t1 : Tokenizer, t1.size < t.size → Fresh t1 → r1 t1 = r2 t1) :
    nextLoaded r1 t = nextLoaded r2 t := by
  unfold nextLoaded
  cases hp : t.peeked with
  | cons a b => rfl
  | nil =>
    simp only
    by_cases he : t.rest = []
    · rw [if_pos he, if_pos he]
      cases hload : t.loadNewLine with
      | ok r =>
        obtain ⟨b, t1⟩ := r
        have hs := (loadFrom_sat (np := False) (nd := False) t.file t he rfl).of_ok hload
        simp only [Out.bind_ok]
        cases b with
        | false => rfl
        | true =>
          have h3 := hs.2.2.2.1 rfl
          simp only at h3
          have := nextChar_congr (r1 := r1) (r2 := r2) (t := t1) h3.1 (by have := hs.2.1; simp only at this; rw [this, hp])
            fun t2 h2 => h t2 (lt_trans h2 h3.2.2)
          rw [this]
      | err e => rfl
      | panic k => rfl
      | diverge => rfl
    · rw [if_neg he, if_neg he]
      exact nextChar_congr hl hp h

theorem nextF_fuel : ∀ (n m : Nat) (t : Tokenizer), t.size < n → t.size < m → (t.line = 0 → t.rest = []) →
    nextF n t = nextF m t
  | 0, _, t, h, _, _ => by omega
  | _, 0, t, _, h, _ => by omega
  | n + 1, m + 1, t, hn, hm, hb => by
    unfold nextF
    by_cases hl : t.line = 0
    · rw [if_pos hl, if_pos hl]
      cases hload : t.loadNewLine with
      | ok r =>
        obtain ⟨b, t1⟩ := r
        have hs := (loadFrom_sat (np := False) (nd := False) t.file t (hb hl) rfl).of_ok hload
        simp only [Out.bind_ok]
        cases b with
        | false => rfl
        | true =>
          have h3 := hs.2.2.2.1 rfl
          simp only at h3
          rw [if_pos rfl, if_pos rfl]
          exact nextLoaded_congr h3.1 fun t2 h2 hf => nextF_fuel n m t2 (by omega) (by omega) hf.boot
      | err e => rfl
      | panic k => rfl
      | diverge => rfl
    · rw [if_neg hl, if_neg hl]
      exact nextLoaded_congr hl fun t2 h2 hf => nextF_fuel n m t2 (by omega) (by omega) hf.boot

/-- The recursion equation of `next`. -/
theorem next_live {t : Tokenizer} (hl : t.line ≠ 0) : t.next = nextLoaded next t := by
  unfold next nextF
  rw [if_neg hl]
  exact nextLoaded_congr hl fun t2 h2 hf => nextF_fuel _ _ t2 h2 (Nat.lt_succ_self _) hf.boot

/-- The first call. -/
theorem next_boot {t : Tokenizer} (hl : t.line = 0) (hr : t.rest = []) :
    t.next = (do let r ← t.loadNewLine; if r.1 then nextLoaded next r.2 else atEnd r.2) := by
  unfold next nextF
  rw [if_pos hl]
  cases hload : t.loadNewLine with
  | ok r =>
    obtain ⟨b, t1⟩ := r
    have hs := (loadFrom_sat (np := False) (nd := False) t.file t hr rfl).of_ok hload
    simp only [Out.bind_ok]
    cases b with
    | false => rfl
    | true =>
      have h3 := hs.2.2.2.1 rfl
      simp only at h3
      rw [if_pos rfl, if_pos rfl]
      exact nextLoaded_congr h3.1 fun t2 h2 hf => nextF_fuel _ _ t2 (by omega) (Nat.lt_succ_self _) hf.boot
  | err e => rfl
  | panic k => rfl
  | diverge => rfl

theorem nextAfterBlanksF_fuel : ∀ (n m : Nat) (t : Tokenizer), t.size < n → t.size < m → Fresh t →
    nextAfterBlanksF n t = nextAfterBlanksF m t
  | 0, _, t, h, _, _ => by omega
  | _, 0, t, _, h, _ => by omega
  | n + 1, m + 1, t, hn, hm, hf => by
    unfold nextAfterBlanksF
    have hs := next_sat (np := False) (nd := False) (pl := False) hf (fun h => h.elim) (fun h => h.elim)
    cases hx : t.next with
    | ok r =>
      obtain ⟨tk, t1⟩ := r
      have hs := hs.of_ok hx
      simp only [Out.bind_ok]
      by_cases hb : tk = .blank
      · rw [if_pos hb, if_pos hb]
        have := hs.blank hb
        simp only at this
        exact nextAfterBlanksF_fuel n m t1 (by omega) (by omega) (hs.fresh (by rw [hb]; simp))
      · rw [if_neg hb, if_neg hb]
    | err e => rfl
    | panic k => rfl
    | diverge => rfl

/-- The recursion equation of `next_after_blanks`. -/
theorem nextAfterBlanks_fresh {t : Tokenizer} (hf : Fresh t) :
    t.nextAfterBlanks = (do let r ← t.next; if r.1 = .blank then r.2.nextAfterBlanks else .ok r) := by
  have hs := next_sat (np := False) (nd := False) (pl := False) hf (fun h => h.elim) (fun h => h.elim)
  rw [nextAfterBlanks, hf.peeked, nextAfterBlanksF]
  cases hx : t.next with
  | ok r =>
    obtain ⟨tk, t1⟩ := r
    have hs := hs.of_ok hx
    simp only [Out.bind_ok]
    by_cases hb : tk = .blank
    · rw [if_pos hb, if_pos hb]
      have h1 := hs.blank hb
      have hf1 := hs.fresh (by rw [hb]; simp)
      simp only at h1 hf1
      rw [nextAfterBlanks, hf1.peeked]
      simp only [List.length_nil, Nat.add_zero]
      exact nextAfterBlanksF_fuel _ _ t1 (by omega) (by omega) hf1
    · rw [if_neg hb, if_neg hb]
  | err e => rfl
  | panic k => rfl
  | diverge => rfl

/-- A peeked token is returned next, unless it is a blank to be skipped. -/
theorem nextAfterBlanks_held {t : Tokenizer} {tk : Token} (hp : t.peeked = [tk]) (hl : t.line ≠ 0) :
    t.nextAfterBlanks = if tk = .blank then ({ t with peeked := [] } : Tokenizer).nextAfterBlanks
      else .ok (tk, { t with peeked := [] }) := by
  rw [nextAfterBlanks, hp, nextAfterBlanksF, next_peeked hp hl]
  simp only [Out.bind_ok]
  by_cases hb : tk = .blank
  · rw [if_pos hb, if_pos hb]
    rfl
  · rw [if_neg hb, if_neg hb]

/-- Result of skipping blanks. -/
structure TookWord (pl : Prop) (t : Tokenizer) (tk : Token) (t' : Tokenizer) : Prop where
  took : Took pl t tk t'
  word : tk ≠ .blank

theorem nextAfterBlanks_sat {np nd pl : Prop} : ∀ (n : Nat) {t : Tokenizer}, t.size < n → Fresh t → (np → t.Clean) →
    (pl → t.Plain) → Sat np nd t.nextAfterBlanks fun r => TookWord pl t r.1 r.2
  | 0, t, h, _, _, _ => by omega
  | n + 1, t, h, hf, hc, hpl => by
    rw [nextAfterBlanks_fresh hf]
    refine Sat.bind (next_sat (np := np) (nd := nd) hf hc hpl) fun r _ hr => ?_
    refine Sat.ite (fun hb => ?_) fun hb => ⟨hr, hb⟩
    have hs := hr.blank hb
    refine (nextAfterBlanks_sat n (t := r.2) (by omega) (hr.fresh (by rw [hb]; simp)) (fun x => hr.after.clean (hc x))
      (fun x => hr.after.plain (hpl x))).mono fun r' _ k => ⟨?_, k.word⟩
    exact Took.of_after hr.after k.took

end Ariadne.Tokenizer
