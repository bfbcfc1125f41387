import Verif.Model.ZoneParser
import Verif.Spec.Tokens
import Verif.Lemmas.Tokens4

/-! # The zone loader sees a file only through the calls it makes -/

namespace Ariadne

open Spec

namespace ZoneParser

/-- Every sequence of calls gets the same replies from both. -/
def Alike (t t' : Tokenizer) : Prop := ∀ cs, replies cs t = replies cs t'

/-- The outcomes are the same, but for what they hold, which is related. -/
def Agree {ε α : Type} (r : α → α → Prop) : Out ε α → Out ε α → Prop
  | .ok a, .ok b => r a b
  | .err e, .err e' => e = e'
  | .panic k, .panic k' => k = k'
  | .diverge, .diverge => True
  | _, _ => False

/-- The same result, and tokenizers that are related. -/
def Val {α : Type} (r : Tokenizer → Tokenizer → Prop) (x y : α × Tokenizer) : Prop := x.1 = y.1 ∧ r x.2 y.2

/-- The same two results, and tokenizers that are related. -/
def Triple {α β : Type} (r : Tokenizer → Tokenizer → Prop) (x y : α × β × Tokenizer) : Prop := x.1 = y.1 ∧ x.2.1 = y.2.1 ∧ r x.2.2 y.2.2

/-- States after a token was peeked at. -/
def Held (M : Tokenizer → Tokenizer → Prop) (t t' : Tokenizer) : Prop := M t t' ∧ Agree (Val M) t.next t'.next

/-- All that the loader needs to know of two files in order to load them alike: `E` relates states at the beginning of entries, `M` relates
states within entries, where the loader skips blanks. -/
structure Sim (E M : Tokenizer → Tokenizer → Prop) : Prop where
  first : ∀ {t t' : Tokenizer}, E t t' → Agree (Val M) t.next t'.next
  peek : ∀ {t t' : Tokenizer}, E t t' → Agree (Val (Held M)) t.peek t'.peek
  nab : ∀ {t t' : Tokenizer}, M t t' →
    Agree (fun x y => x.1 = y.1 ∧ M x.2 y.2 ∧ (x.1 = .newLine ∨ x.1 = .end → E x.2 y.2)) t.nextAfterBlanks t'.nextAfterBlanks
  pab : ∀ {t t' : Tokenizer}, M t t' → Agree (Val (Held M)) t.peekAfterBlanks t'.peekAfterBlanks

theorem Agree.of_eq {ε α : Type} {r : α → α → Prop} (h : ∀ a, r a a) {x y : Out ε α} (e : x = y) : Agree r x y := by
  subst e
  cases x <;> simp [Agree, h]

theorem Agree.to_eq {ε α : Type} {x y : Out ε α} (h : Agree Eq x y) : x = y := by
  cases x <;> cases y <;> simp_all [Agree]

theorem Agree.bind {ε α β : Type} {r : α → α → Prop} {s : β → β → Prop} {x y : Out ε α} {f g : α → Out ε β} (h : Agree r x y)
    (hf : ∀ a b, r a b → Agree s (f a) (g b)) : Agree s (x >>= f) (y >>= g) := by
  cases x <;> cases y <;> simp_all [Agree]

theorem Agree.mapErr {ε ε' α : Type} {r : α → α → Prop} {x y : Out ε α} (h : Agree r x y) (f : ε → ε') : Agree r (x.mapErr f) (y.mapErr f) := by
  cases x <;> cases y <;> simp_all [Agree, Out.mapErr]

theorem Alike.call {t t' : Tokenizer} (h : Alike t t') (c : Call) : Agree (Val Alike) (c.run t) (c.run t') := by
  have h0 := h [c]
  have hc := fun cs => h (c :: cs)
  simp only [replies] at h0 hc
  cases e : c.run t with
  | ok a =>
    obtain ⟨tok, t1⟩ := a
    simp only [e] at h0 hc
    cases e' : c.run t' with
    | ok b =>
      obtain ⟨tok', t1'⟩ := b
      simp only [e'] at h0 hc
      refine ⟨?_, fun cs => ?_⟩
      · simpa using h0
      · exact (List.cons.inj (hc cs)).2
    | err _ => simp [e'] at h0
    | panic _ => simp [e'] at h0
    | diverge => simp [e'] at h0
  | err x =>
    simp only [e] at h0
    cases e' : c.run t' with
    | ok b => simp [e'] at h0
    | err y => simp only [e'] at h0; first | exact h0.elim | simpa [Agree] using h0
    | panic y => simp only [e'] at h0; first | exact h0.elim | simpa [Agree] using h0
    | diverge => simp [e'] at h0
  | panic x =>
    simp only [e] at h0
    cases e' : c.run t' with
    | ok b => simp [e'] at h0
    | err y => simp only [e'] at h0; first | exact h0.elim | simpa [Agree] using h0
    | panic y => simp only [e'] at h0; first | exact h0.elim | simpa [Agree] using h0
    | diverge => simp [e'] at h0
  | diverge =>
    simp only [e] at h0
    cases e' : c.run t' with
    | diverge => trivial
    | ok b => simp [e'] at h0
    | err y => simp [e'] at h0
    | panic y => simp [e'] at h0

theorem alike_held {t t' : Tokenizer} (h : Alike t t') : Held Alike t t' := ⟨h, h.call .next⟩

theorem Agree.mono {ε α : Type} {r s : α → α → Prop} {x y : Out ε α} (h : Agree r x y) (hs : ∀ a b, r a b → s a b) : Agree s x y := by
  cases x <;> cases y <;> first | exact hs _ _ h | exact h

/-- Tokenizers that no calls tell apart. -/
theorem alike_sim : Sim Alike Alike where
  first h := h.call .next
  peek h := (h.call .peek).mono fun _ _ h => ⟨h.1, alike_held h.2⟩
  nab h := (h.call .nextAfterBlanks).mono fun _ _ h => ⟨h.1, h.2, fun _ => h.2⟩
  pab h := (h.call .peekAfterBlanks).mono fun _ _ h => ⟨h.1, alike_held h.2⟩

theorem agree_unwrap {r : Tokenizer → Tokenizer → Prop} {x y : Out TokenErr (Token × Tokenizer)} (h : Agree (Val r) x y) :
    Agree (ε := ParseErr) r (unwrapTok x) (unwrapTok y) := by
  cases x <;> cases y <;> simp_all [Agree, unwrapTok, Val]

theorem agree_ok {α : Type} {r : Tokenizer → Tokenizer → Prop} (a : α) {t t' : Tokenizer} (h : r t t') :
    Agree (ε := ParseErr) (Val r) (.ok (a, t)) (.ok (a, t')) := ⟨rfl, h⟩
theorem agree_t {r : Tokenizer → Tokenizer → Prop} {t t' : Tokenizer} (h : r t t') : Agree (ε := ParseErr) r (.ok t) (.ok t') := h
theorem agree_err {α : Type} {r : α → α → Prop} (e : ParseErr) : Agree r (.err e) (.err e) := rfl
theorem agree_panic {α : Type} {r : α → α → Prop} (k : Panic) : Agree (ε := ParseErr) r (.panic k) (.panic k) := rfl

/-- The same computation first. -/
theorem Agree.pre {ε α β : Type} {s : β → β → Prop} {x : Out ε α} {f g : α → Out ε β} (hf : ∀ a, Agree s (f a) (g a)) : Agree s (x >>= f) (x >>= g) := by
  cases x <;> simp_all [Agree]

/-- A step that yields a value and a tokenizer. -/
theorem Agree.step {ε α β : Type} {r : Tokenizer → Tokenizer → Prop} {s : β → β → Prop} {x y : Out ε (α × Tokenizer)}
    {f g : α × Tokenizer → Out ε β} (h : Agree (Val r) x y)
    (hf : ∀ a t t', r t t' → Agree s (f (a, t)) (g (a, t'))) : Agree s (x >>= f) (y >>= g) := by
  refine h.bind ?_
  rintro ⟨a, t⟩ ⟨b, t'⟩ ⟨e, h⟩
  simp only at e h
  subst e
  exact hf a t t' h

/-- What is left of `parseStartingSoa` once the owner is known. -/
def startingRest (st : AuthState) (node : Name) (t : Tokenizer) : Out ParseErr (Record × UInt32 × Tokenizer) :=
  if node ≠ st.zone then .err .nameNotInRootNode
  else do
    let ((ttl, cls), t) ← parseTtlClass t
    match cls with
    | none => .err .malformedData
    | some cls => do
      let ttl := ttl.getD st.currentTtl
      ensureClassIsSupported cls
      let (typeTok, t) ← tok t.nextAfterBlanks
      match typeTok with
      | .string s =>
        match RecordType.fromStr s with
        | none => .err .malformedData
        | some ty =>
          if ty ≠ .SOA then .err .unexpectedRecord
          else do
            let (soa, minimum, t) ← parseSoa t st.zone { node := node, cls := cls, ttl := ttl }
            ensureMinTtl minimum ttl
            let t ← endOfEntry t
            .ok (soa, minimum, t)
      | other => .err (.unexpectedToken other)

section
variable {E M : Tokenizer → Tokenizer → Prop} (S : Sim E M) {t t' : Tokenizer}
include S

theorem sim_nab (h : M t t') : Agree (ε := ParseErr) (Val M) (tok t.nextAfterBlanks) (tok t'.nextAfterBlanks) :=
  ((S.nab h).mono fun _ _ h => ⟨h.1, h.2.1⟩ : Agree (Val M) t.nextAfterBlanks t'.nextAfterBlanks).mapErr _
theorem sim_nab' (h : M t t') :
    Agree (ε := ParseErr) (fun x y => x.1 = y.1 ∧ M x.2 y.2 ∧ (x.1 = .newLine ∨ x.1 = .end → E x.2 y.2)) (tok t.nextAfterBlanks) (tok t'.nextAfterBlanks) :=
  (S.nab h).mapErr _
theorem sim_pab (h : M t t') : Agree (ε := ParseErr) (Val (Held M)) (tok t.peekAfterBlanks) (tok t'.peekAfterBlanks) := (S.pab h).mapErr _
theorem sim_peek (h : E t t') : Agree (ε := ParseErr) (Val (Held M)) (tok t.peek) (tok t'.peek) := (S.peek h).mapErr _
theorem sim_first (h : E t t') : Agree (ε := ParseErr) (Val M) (tok t.next) (tok t'.next) := (S.first h).mapErr _
theorem sim_unab (h : M t t') : Agree (ε := ParseErr) M (unwrapTok t.nextAfterBlanks) (unwrapTok t'.nextAfterBlanks) :=
  agree_unwrap ((S.nab h).mono fun _ _ h => ⟨h.1, h.2.1⟩)
omit S in
theorem held_unext (h : Held M t t') : Agree (ε := ParseErr) M (unwrapTok t.next) (unwrapTok t'.next) := agree_unwrap h.2

theorem sim_ttlClass (h : M t t') : Agree (Val M) (parseTtlClass t) (parseTtlClass t') := by
  unfold parseTtlClass
  refine (sim_pab S h).step fun a t t' h => ?_
  cases a with
  | number n =>
    refine (held_unext h).bind fun t t' h => (sim_pab S h).step fun a t t' h => ?_
    dsimp only
    cases tryToClass a with
    | none => exact agree_ok _ h.1
    | some c => exact (held_unext h).bind fun t t' h => agree_ok _ h
  | string s =>
    dsimp only
    cases Class.fromString s with
    | none => exact agree_ok _ h.1
    | some c =>
      refine (held_unext h).bind fun t t' h => (sim_pab S h).step fun a t t' h => ?_
      dsimp only
      cases tryToTtl a with
      | none => exact agree_ok _ h.1
      | some c => exact (held_unext h).bind fun t t' h => agree_ok _ h
  | _ => exact agree_err _

theorem sim_discard (fuel : Nat) : ∀ {t t' : Tokenizer}, M t t' → Agree M (discardStrings fuel t) (discardStrings fuel t') := by
  induction fuel with
  | zero => exact fun _ => trivial
  | succ fuel ih =>
    intro t t' h
    unfold discardStrings
    refine (sim_pab S h).step fun a t t' h => ?_
    cases a with
    | newLine => exact agree_t h.1
    | «end» => exact agree_t h.1
    | string s => exact (sim_unab S h.1).bind fun t t' h => ih h
    | _ => exact agree_err _

theorem sim_address (h : M t t') : Agree (Val M) (parseAddress t) (parseAddress t') := by
  unfold parseAddress
  refine (sim_nab S h).step fun a t t' h => ?_
  cases a with
  | string s =>
    dsimp only
    cases parseIpv4 s with
    | none => exact agree_err _
    | some a => exact agree_ok _ h
  | _ => exact agree_err _

theorem sim_relName (h : M t t') (origin : Name) : Agree (Val M) (parseRelName t origin) (parseRelName t' origin) := by
  unfold parseRelName
  refine (sim_nab S h).step fun a t t' h => ?_
  cases a with
  | string s => exact Agree.pre fun n => agree_ok _ h
  | _ => exact agree_err _

theorem sim_number (h : M t t') : Agree (Val M) (parseNumber t) (parseNumber t') := by
  unfold parseNumber
  refine (sim_nab S h).step fun a t t' h => ?_
  cases a with
  | number n => exact agree_ok _ h
  | _ => exact agree_err _

theorem sim_a (h : M t t') (d : RecData) : Agree (Val M) (parseA t d) (parseA t' d) := by
  unfold parseA
  exact (sim_address S h).step fun a t t' h => agree_ok _ h

theorem sim_ns (h : M t t') (origin : Name) (d : RecData) : Agree (Val M) (parseNs t origin d) (parseNs t' origin d) := by
  unfold parseNs
  exact (sim_relName S h origin).step fun a t t' h => agree_ok _ h

theorem sim_cname (h : M t t') (origin : Name) (d : RecData) : Agree (Val M) (parseCname t origin d) (parseCname t' origin d) := by
  unfold parseCname
  refine (sim_nab S h).step fun a t t' h => ?_
  cases a with
  | string s => exact Agree.pre fun n => agree_ok _ h
  | «at» => exact agree_ok _ h
  | _ => exact agree_err _


theorem sim_soa (h : M t t') (origin : Name) (d : RecData) : Agree (Triple M) (parseSoa t origin d) (parseSoa t' origin d) := by
  unfold parseSoa
  refine (sim_relName S h origin).step fun a t t' h => (sim_relName S h origin).step fun a t t' h => (sim_number S h).step fun a t t' h =>
    (sim_number S h).step fun a t t' h => (sim_number S h).step fun a t t' h => (sim_number S h).step fun a t t' h =>
    (sim_number S h).step fun a t t' h => ⟨rfl, rfl, h⟩

theorem sim_wks (fuel : Nat) (h : M t t') (d : RecData) : Agree (Val M) (parseWks fuel t d) (parseWks fuel t' d) := by
  unfold parseWks
  refine (sim_address S h).step fun a t t' h => (sim_nab S h).step fun b t t' h => ?_
  cases b with
  | string s =>
    dsimp only
    cases wksProtocol s with
    | none => exact agree_err _
    | some n => exact (sim_discard S fuel h).bind fun t t' h => agree_ok _ h
  | _ => exact agree_err _

theorem sim_ptr (h : M t t') (d : RecData) : Agree (Val M) (parsePtr t d) (parsePtr t' d) := by
  unfold parsePtr
  refine (sim_nab S h).step fun a t t' h => ?_
  cases a with
  | string s => exact Agree.pre fun _ => Agree.pre fun n => agree_ok _ h
  | _ => exact agree_err _

theorem sim_hinfo (h : M t t') (d : RecData) : Agree (Val M) (parseHinfo t d) (parseHinfo t' d) := by
  unfold parseHinfo
  exact (sim_nab S h).step fun a t t' h => Agree.pre fun _ => (sim_nab S h).step fun b t t' h => Agree.pre fun _ => agree_ok _ h

theorem sim_mx (h : M t t') (origin : Name) (d : RecData) : Agree (Val M) (parseMx t origin d) (parseMx t' origin d) := by
  unfold parseMx
  refine (sim_number S h).step fun a t t' h => ?_
  dsimp only
  split
  · exact (sim_relName S h origin).step fun a t t' h => agree_ok _ h
  · exact agree_err _

theorem sim_txtLoop (fuel : Nat) : ∀ {t t' : Tokenizer} (l : List Str), M t t' → Agree (Val M) (txtLoop fuel t l) (txtLoop fuel t' l) := by
  induction fuel with
  | zero => exact fun _ _ => trivial
  | succ fuel ih =>
    intro t t' l h
    unfold txtLoop
    refine (sim_pab S h).step fun a t t' h => ?_
    cases a with
    | newLine => exact agree_ok _ h.1
    | «end» => exact agree_ok _ h.1
    | _ => exact (sim_unab S h.1).bind fun t t' h => Agree.pre fun s => ih _ h

theorem sim_txt (fuel : Nat) (h : M t t') (d : RecData) : Agree (Val M) (parseTxt fuel t d) (parseTxt fuel t' d) := by
  unfold parseTxt
  exact (sim_txtLoop S fuel [] h).step fun a t t' h => agree_ok _ h

theorem sim_endOfEntry (h : M t t') : Agree E (endOfEntry t) (endOfEntry t') := by
  unfold endOfEntry
  refine (sim_nab' S h).bind ?_
  rintro ⟨a, t⟩ ⟨b, t'⟩ ⟨e, -, he⟩
  simp only at e he
  subst e
  cases a with
  | newLine => exact agree_t (he (.inl rfl))
  | «end» => exact agree_t (he (.inr rfl))
  | _ => exact agree_err _

omit S in
theorem sim_assertNext (h : Held M t t') (want : Token) : Agree M (assertNext t want) (assertNext t' want) := by
  unfold assertNext
  have := h.2
  generalize t.next = x at this ⊢
  generalize t'.next = y at this ⊢
  cases x with
  | ok a =>
    cases y with
    | ok b =>
      obtain ⟨a, t⟩ := a
      obtain ⟨b, t'⟩ := b
      obtain ⟨e, h⟩ := this
      simp only at e h
      subst e
      by_cases c : a = want
      · simp only [if_pos c]; exact agree_t h
      · simp only [if_neg c]; exact agree_panic _
    | _ => exact this.elim
  | err e => cases y <;> first | exact this.elim | exact agree_panic _
  | panic e => cases y <;> first | exact this.elim | (cases this; exact agree_panic _)
  | diverge => cases y <;> first | exact this.elim | trivial

theorem sim_origin (h : Held M t t') (st : AuthState) : Agree (Val E) (parseOrigin t st) (parseOrigin t' st) := by
  unfold parseOrigin
  refine (sim_assertNext h _).bind fun t t' h => (sim_nab S h).step fun a t t' h => ?_
  cases a with
  | string s => exact Agree.pre fun _ => Agree.pre fun _ => Agree.pre fun _ => (sim_endOfEntry S h).bind fun t t' h => agree_ok _ h
  | _ => exact agree_err _

theorem sim_include (h : Held M t t') (st : AuthState) : Agree (Triple E) (parseInclude t st) (parseInclude t' st) := by
  unfold parseInclude
  refine (sim_assertNext h _).bind fun t t' h => (sim_nab S h).step fun a t t' h => ?_
  dsimp only
  cases includeFile a with
  | none => exact agree_err _
  | some file =>
    refine (sim_nab' S h).bind ?_
    rintro ⟨b, t⟩ ⟨b', t'⟩ ⟨e, h, he⟩
    simp only at e h he
    subst e
    cases b with
    | string s =>
      refine (sim_nab' S h).bind ?_
      rintro ⟨c, t⟩ ⟨c', t'⟩ ⟨e, h, he⟩
      simp only at e h he
      subst e
      refine Agree.pre fun _ => Agree.pre fun _ => ?_
      dsimp only
      by_cases hc : c = .newLine ∨ c = .end
      · rw [if_pos hc, if_pos hc]; exact ⟨rfl, rfl, he hc⟩
      · rw [if_neg hc, if_neg hc]; exact agree_err _
    | _ =>
      dsimp only
      first
      | exact ⟨rfl, rfl, he (by simp)⟩
      | exact agree_err _

omit S in
theorem sim_owner (h : Held M t t') (origin : Name) (check : Name → Out ParseErr Unit) :
    Agree (Val M) (parseOwner t origin check) (parseOwner t' origin check) := by
  unfold parseOwner
  have := h.2
  generalize t.next = x at this ⊢
  generalize t'.next = y at this ⊢
  cases x with
  | ok a =>
    cases y with
    | ok b =>
      obtain ⟨a, t⟩ := a
      obtain ⟨b, t'⟩ := b
      obtain ⟨e, h⟩ := this
      simp only at e h
      subst e
      cases a with
      | string s => exact Agree.pre fun _ => Agree.pre fun _ => agree_ok _ h
      | «at» => exact agree_ok _ h
      | blank => exact agree_ok _ h
      | _ => exact agree_panic _
    | _ => exact this.elim
  | err e => cases y <;> first | exact this.elim | exact agree_panic _
  | panic e => cases y <;> first | exact this.elim | (cases this; exact agree_panic _)
  | diverge => cases y <;> first | exact this.elim | trivial

theorem sim_authData (fuel : Nat) (h : M t t') (origin : Name) (ty : RecordType) (d : RecData) :
    Agree (Val M) (parseAuthData fuel t origin ty d) (parseAuthData fuel t' origin ty d) := by
  unfold parseAuthData
  cases ty with
  | A => exact sim_a S h d
  | NS => exact sim_ns S h origin d
  | CNAME => exact sim_cname S h origin d
  | WKS => exact sim_wks S fuel h d
  | PTR => exact sim_ptr S h d
  | HINFO => exact sim_hinfo S h d
  | MX => exact sim_mx S h origin d
  | TXT => exact sim_txt S fuel h d
  | SOA => exact agree_err _
  | _ => exact agree_panic _

theorem sim_record (fuel : Nat) (h : Held M t t') (st : AuthState) : Agree (Val E) (parseRecord fuel t st) (parseRecord fuel t' st) := by
  unfold parseRecord
  refine (sim_owner h _ _).step fun n t t' h => (sim_ttlClass S h).step fun ⟨ttl, cls⟩ t t' h => Agree.pre fun _ => Agree.pre fun _ =>
    (sim_nab S h).step fun a t t' h => ?_
  cases a with
  | string s =>
    dsimp only
    cases RecordType.fromStr s with
    | none => exact agree_err _
    | some ty =>
      dsimp only
      split
      · exact agree_err _
      · exact (sim_authData S fuel h _ _ _).step fun r t t' h => (sim_endOfEntry S h).bind fun t t' h => agree_ok _ h
  | _ => exact agree_err _

theorem sim_starting (h : E t t') (st : AuthState) : Agree (Triple E) (parseStartingSoa t st) (parseStartingSoa t' st) := by
  unfold parseStartingSoa
  refine (sim_first S h).step fun a t t' h => ?_
  have key : ∀ node : Name, Agree (Triple E) (startingRest st node t) (startingRest st node t') := fun node => by
    unfold startingRest
    split
    · exact agree_err _
    refine (sim_ttlClass S h).step fun ⟨ttl, cls⟩ t t' h => ?_
    cases cls with
    | none => exact agree_err _
    | some cls =>
      refine Agree.pre fun _ => (sim_nab S h).step fun a t t' h => ?_
      cases a with
      | string s =>
        dsimp only
        cases RecordType.fromStr s with
        | none => exact agree_err _
        | some ty =>
          dsimp only
          split
          · exact agree_err _
          · refine (sim_soa S h _ _).bind ?_
            rintro ⟨r, m, t⟩ ⟨r', m', t'⟩ ⟨e1, e2, h⟩
            simp only at e1 e2 h
            subst e1 e2
            exact Agree.pre fun _ => (sim_endOfEntry S h).bind fun t t' h => ⟨rfl, rfl, h⟩
      | _ => exact agree_err _
  cases a with
  | string s => exact Agree.pre fun n => key n
  | blank => exact key _
  | «at» => exact key _
  | _ => exact agree_err _

theorem sim_subRecord (h : Held M t t') (zone : Name) (ttl minTtl : UInt32) :
    Agree (Val E) (parseSubRecord t zone ttl minTtl) (parseSubRecord t' zone ttl minTtl) := by
  unfold parseSubRecord
  refine (sim_owner h _ _).step fun n t t' h => (sim_ttlClass S h).step fun ⟨ttl, cls⟩ t t' h => Agree.pre fun _ => Agree.pre fun _ =>
    (sim_nab S h).step fun a t t' h => ?_
  cases a with
  | string s =>
    refine Agree.step (?_ : Agree (Val M) (parseSubData t zone (RecordType.fromStr s) _) _) fun r t t' h => (sim_endOfEntry S h).bind fun t t' h => agree_ok _ h
    unfold parseSubData
    cases RecordType.fromStr s with
    | none => exact agree_err _
    | some ty =>
      cases ty with
      | A => exact sim_a S h _
      | NS => exact Agree.pre fun _ => sim_ns S h _ _
      | _ => exact agree_err _
  | _ => exact agree_err _

theorem sim_subEntries (fuel : Nat) : ∀ {t t' : Tokenizer} (zone : Name) (ttl minTtl : UInt32) (z : Zone), E t t' →
    Agree Eq (parseSubEntries fuel zone ttl minTtl t z) (parseSubEntries fuel zone ttl minTtl t' z) := by
  induction fuel with
  | zero => exact fun _ _ _ _ _ => trivial
  | succ fuel ih =>
    intro t t' zone ttl minTtl z h
    unfold parseSubEntries
    refine (sim_peek S h).step fun a t t' h => ?_
    cases a with
    | «end» => exact (rfl : z = z)
    | string s => exact (sim_subRecord S h _ _ _).step fun r t t' h => ih _ _ _ _ h
    | «at» => exact (sim_subRecord S h _ _ _).step fun r t t' h => ih _ _ _ _ h
    | blank => exact (sim_subRecord S h _ _ _).step fun r t t' h => ih _ _ _ _ h
    | _ => exact agree_err _

end

/-- Nothing the loader does tells the files with the same names apart. -/
def AlikeFiles (fs fs' : Files) : Prop := ∀ path,
  match fs path, fs' path with
  | some f, some f' => ∃ E M, Sim E M ∧ E (Tokenizer.start f) (Tokenizer.start f')
  | none, none => True
  | _, _ => False

theorem alike_entries {fs fs' : Files} (hfs : AlikeFiles fs fs') (o : HashOrder) (fuel : Nat) : ∀ {E M : Tokenizer → Tokenizer → Prop} (_ : Sim E M) {t t' : Tokenizer} (st : AuthState) (z : Zone), E t t' →
    Agree Eq (parseEntries fs o fuel st t z) (parseEntries fs' o fuel st t' z) := by
  induction fuel with
  | zero => intros; trivial
  | succ fuel ih =>
    intro E M S t t' st z h
    unfold parseEntries
    refine (sim_peek S h).step fun a t t' h => ?_
    cases a with
    | «end» => exact (rfl : z = z)
    | originDir => exact (sim_origin S h _).step fun n t t' h => ih S _ _ h
    | includeDir =>
      refine (sim_include S h _).bind ?_
      rintro ⟨path, m, t⟩ ⟨path', m', t'⟩ ⟨e1, e2, h⟩
      simp only at e1 e2 h
      subst e1 e2
      dsimp only
      have := hfs path
      generalize fs path = x at this ⊢
      generalize fs' path = y at this ⊢
      cases x with
      | none => cases y with
        | none => exact agree_err _
        | some _ => exact this.elim
      | some f => cases y with
        | none => exact this.elim
        | some f' =>
          obtain ⟨E', M', S', h'⟩ := this
          refine (ih S' _ _ h').bind ?_
          rintro z1 _ rfl
          exact ih S _ _ h
    | string s => exact (sim_record S fuel h _).step fun r t t' h => ih S _ _ h
    | «at» => exact (sim_record S fuel h _).step fun r t t' h => ih S _ _ h
    | blank => exact (sim_record S fuel h _).step fun r t t' h => ih S _ _ h
    | _ => exact agree_err _

theorem alike_auth {fs fs' : Files} (hfs : AlikeFiles fs fs') (o : HashOrder) (fuel : Nat) (conf : Params) :
    parseAuthZoneFile fs o fuel conf = parseAuthZoneFile fs' o fuel conf := by
  refine Agree.to_eq ?_
  unfold parseAuthZoneFile
  have := hfs conf.filePath
  generalize fs conf.filePath = x at this ⊢
  generalize fs' conf.filePath = y at this ⊢
  cases x with
  | none => cases y with
    | none => exact agree_err _
    | some _ => exact this.elim
  | some f => cases y with
    | none => exact this.elim
    | some f' =>
      obtain ⟨E, M, S, h0⟩ := this
      refine (sim_starting S h0 _).bind ?_
      rintro ⟨r, m, t⟩ ⟨r', m', t'⟩ ⟨e1, e2, h⟩
      simp only at e1 e2 h
      subst e1 e2
      refine (alike_entries hfs o fuel S _ _ h).bind ?_
      rintro z _ rfl
      exact (rfl : z.insert r = z.insert r)

theorem alike_sub {fs fs' : Files} (hfs : AlikeFiles fs fs') (fuel : Nat) (conf : SubParams) :
    parseSubZoneFile fs fuel conf = parseSubZoneFile fs' fuel conf := by
  refine Agree.to_eq ?_
  unfold parseSubZoneFile
  have := hfs conf.filePath
  generalize fs conf.filePath = x at this ⊢
  generalize fs' conf.filePath = y at this ⊢
  cases x with
  | none => cases y with
    | none => exact agree_err _
    | some _ => exact this.elim
  | some f => cases y with
    | none => exact this.elim
    | some f' => obtain ⟨E, M, S, h⟩ := this; exact sim_subEntries S fuel _ _ _ _ h

theorem alike_subs {fs fs' : Files} (hfs : AlikeFiles fs fs') (fuel : Nat) (l : List SubParams) : parseSubZones fs fuel l = parseSubZones fs' fuel l := by
  induction l with
  | nil => rfl
  | cons c cs ih => unfold parseSubZones; rw [alike_sub hfs, ih]

/-- Files that are alike load alike. -/
theorem alike_files {fs fs' : Files} (hfs : AlikeFiles fs fs') (p : Profile) (o : HashOrder) (fuel : Nat) (conf : Params) :
    parseZoneFiles p fs o fuel conf = parseZoneFiles p fs' o fuel conf := by
  unfold parseZoneFiles
  rw [alike_auth hfs, alike_subs hfs]

end ZoneParser

end Ariadne
