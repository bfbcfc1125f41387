import Verif.Spec.Resolver
import Verif.Lemmas.Extract
import Verif.Lemmas.Valid
import Verif.Lemmas.Cache
import Verif.Lemmas.Sat
import Verif.Lemmas.Messages

/-! # Reasoning about lookups -/

namespace Ariadne.Resolver

open Spec

/-- What holds whenever a lookup is in this world. -/
def Good (env : Env) (w : World) : Prop := GoodCache (env.clock w.ticks) w.cache

theorem GoodCache.later {t t' : Nat} {c : RecordsCache} (h : GoodCache t c) (ht : t ≤ t') : GoodCache t' c := by
  intro k e r hf
  obtain ⟨h1, h2, h3, s, ttl, h4, h5⟩ := h k e r hf
  exact ⟨h1, h2, h3, s, ttl, by omega, h5⟩

/-- What a computation has to respect: events, and reasons for panics and hanging. -/
structure Rules where
  /-- Events. -/
  E : Event → Prop
  /-- Logs that excuse a panic. -/
  P : List Event → Prop
  /-- Logs that excuse hanging. -/
  H : List Event → Prop

/-- From world `w` on the computation respects the rules and keeps the cache good, and its result satisfies `Q`. -/
def Tri (env : Env) (ρ : Rules) {α : Type} (w : World) (m : M α) (Q : α → World → Prop) : Prop :=
  ∃ o w' new, m w = (o, w') ∧ w'.log = w.log ++ new ∧ Good env w' ∧ (∀ e ∈ new, ρ.E e) ∧
    match o with
    | .ok a => Q a w'
    | .err _ => True
    | .panic _ => ρ.P w'.log
    | .diverge => ρ.H w'.log

variable {env : Env} {ρ : Rules} {α β : Type} {w : World}

namespace Tri

theorem bind {m : M α} {f : α → M β} {Q : α → World → Prop} {Q' : β → World → Prop} (h : Tri env ρ w m Q)
    (hf : ∀ a w' new, w'.log = w.log ++ new → Good env w' → Q a w' → Tri env ρ w' (f a) Q') : Tri env ρ w (m >>= f) Q' := by
  obtain ⟨o, w', new, e, hl, hg, hE, hq⟩ := h
  have hb : (m >>= f) w = match m w with
    | (.ok a, w') => f a w'
    | (.err e, w') => (.err e, w')
    | (.panic k, w') => (.panic k, w')
    | (.diverge, w') => (.diverge, w') := rfl
  rw [e] at hb
  cases o with
  | ok a =>
    obtain ⟨o2, w2, new2, e2, hl2, hg2, hE2, hq2⟩ := hf a w' new hl hg hq
    refine ⟨o2, w2, new ++ new2, hb.trans e2, by rw [hl2, hl, List.append_assoc], hg2, ?_, hq2⟩
    intro x hx
    rcases List.mem_append.1 hx with h | h
    · exact hE x h
    · exact hE2 x h
  | err e => exact ⟨_, w', new, hb, hl, hg, hE, trivial⟩
  | panic k => exact ⟨_, w', new, hb, hl, hg, hE, hq⟩
  | diverge => exact ⟨_, w', new, hb, hl, hg, hE, hq⟩

theorem mono {m : M α} {Q Q' : α → World → Prop} (h : Tri env ρ w m Q) (hf : ∀ a w', Q a w' → Q' a w') : Tri env ρ w m Q' := by
  obtain ⟨o, w', new, e, hl, hg, hE, hq⟩ := h
  refine ⟨o, w', new, e, hl, hg, hE, ?_⟩
  cases o with
  | ok a => exact hf a w' hq
  | err e => trivial
  | panic k => exact hq
  | diverge => exact hq

theorem weaken {ρ' : Rules} {m : M α} {Q : α → World → Prop} (h : Tri env ρ' w m Q) (hE : ∀ e, ρ'.E e → ρ.E e)
    (hP : ∀ l, ρ'.P l → ρ.P l) (hH : ∀ l, ρ'.H l → ρ.H l) : Tri env ρ w m Q := by
  obtain ⟨o, w', new, e, hl, hg, hE', hq⟩ := h
  refine ⟨o, w', new, e, hl, hg, fun x hx => hE x (hE' x hx), ?_⟩
  cases o with
  | ok a => exact hq
  | err e => trivial
  | panic k => exact hP _ hq
  | diverge => exact hH _ hq

theorem pure {Q : α → World → Prop} {a : α} (hg : Good env w) (h : Q a w) : Tri env ρ w (Pure.pure a : M α) Q :=
  ⟨.ok a, w, [], rfl, by simp, hg, by simp, h⟩

theorem lift {o : Out LookupErr α} {Q : α → Prop} (hg : Good env w) (h : Sat True True o Q) :
    Tri env ρ w (M.lift o) (fun a w' => Q a ∧ w' = w) := by
  refine ⟨o, w, [], rfl, by simp, hg, by simp, ?_⟩
  cases o with
  | ok a => exact ⟨h, rfl⟩
  | err e => trivial
  | panic k => exact absurd trivial h
  | diverge => exact absurd trivial h

theorem throw {Q : α → World → Prop} {e : LookupErr} (hg : Good env w) : Tri env ρ w (M.throw e : M α) Q :=
  ⟨.err e, w, [], rfl, by simp, hg, by simp, trivial⟩

theorem panic {Q : α → World → Prop} {k : Panic} (hg : Good env w) (h : ρ.P w.log) : Tri env ρ w (M.panic k : M α) Q :=
  ⟨.panic k, w, [], rfl, by simp, hg, by simp, h⟩

theorem attempt {m : M α} {Q : α → World → Prop} (h : Tri env ρ w m Q) :
    Tri env ρ w (M.attempt m) (fun x w' => ∀ a, x = .inr a → Q a w') := by
  obtain ⟨o, w', new, e, hl, hg, hE, hq⟩ := h
  have hb : M.attempt m w = match m w with
    | (.ok a, w') => (.ok (.inr a), w')
    | (.err e, w') => (.ok (.inl e), w')
    | (.panic k, w') => (.panic k, w')
    | (.diverge, w') => (.diverge, w') := rfl
  rw [e] at hb
  cases o with
  | ok a => exact ⟨_, w', new, hb, hl, hg, hE, by rintro a' h; cases h; exact hq⟩
  | err e => exact ⟨_, w', new, hb, hl, hg, hE, by rintro a' h; cases h⟩
  | panic k => exact ⟨_, w', new, hb, hl, hg, hE, hq⟩
  | diverge => exact ⟨_, w', new, hb, hl, hg, hE, hq⟩

theorem emit {e : Event} (hg : Good env w) (h : ρ.E e) :
    Tri env ρ w (M.emit e) (fun _ w' => w' = { w with log := w.log ++ [e] }) :=
  ⟨.ok (), _, [e], rfl, rfl, hg, by simpa using h, rfl⟩

end Tri

/-! ## Names -/

theorem validName_strLen {s : Str} (h : ValidName s) : strLen s ≤ 255 := by
  obtain ⟨h1, L, hL⟩ := h
  rw [strLen_ascii hL.ascii]
  exact h1

theorem nsData_of {r : Record} (h : r.recordType = .NS) : ∃ n, r.data = .NS n := by
  unfold Record.recordType at h
  cases hd : r.data <;> rw [hd] at h <;> cases h
  exact ⟨_, rfl⟩

theorem aData_of {r : Record} (h : r.recordType = .A) : ∃ n, r.data = .A n := by
  unfold Record.recordType at h
  cases hd : r.data <;> rw [hd] at h <;> cases h
  exact ⟨_, rfl⟩

theorem cnameData_of {r : Record} (h : r.recordType = .CNAME) : ∃ n, r.data = .CNAME n := by
  unfold Record.recordType at h
  cases hd : r.data <;> rw [hd] at h <;> cases h
  exact ⟨_, rfl⟩

/-! ## Servers -/

/-- The server is usable: an NS record, and A records of its target. -/
structure NsOk (ns : NextNs) : Prop where
  names : WellFormed ns.nsRecord
  target : ∃ t, ns.nsRecord.data = .NS t
  addrs : ∀ r ∈ ns.aRecords, r.recordType = .A ∧ WellFormed r ∧ ns.nsRecord.data = .NS r.node

theorem NsOk.zone {ns : NextNs} (h : NsOk ns) : ValidName ns.zone.s := h.names.1

theorem NsOk.node {ns : NextNs} (h : NsOk ns) : ∃ t, ns.nsRecord.data = .NS t ∧ ValidName t.s ∧ ∀ ε, (ns.node : Out ε Name) = .ok t := by
  obtain ⟨t, ht⟩ := h.target
  refine ⟨t, ht, h.names.2.1 t (by rw [ht]; simp [dataNames]), fun ε => ?_⟩
  unfold NextNs.node Record.nsData
  rw [ht]

theorem addrsOf_ok {ε : Type} : ∀ {rs : List Record}, (∀ r ∈ rs, r.recordType = .A) → ∃ as, (addrsOf rs : Out ε (List Ip4)) = .ok as ∧
    as.length = rs.length
  | [], _ => ⟨[], rfl, rfl⟩
  | r :: rs, h => by
    obtain ⟨as, e, hl⟩ := addrsOf_ok (ε := ε) (rs := rs) fun x hx => h x (by simp [hx])
    obtain ⟨a, ha⟩ := aData_of (h r (by simp))
    refine ⟨a :: as, ?_, by simp [hl]⟩
    unfold addrsOf Record.aData
    rw [ha, e]
    rfl

theorem NsOk.addrs_ok {ns : NextNs} (h : NsOk ns) (ε : Type) : ∃ as, (ns.addrs : Out ε (List Ip4)) = .ok as ∧ as.length = ns.aRecords.length :=
  addrsOf_ok fun r hr => (h.addrs r hr).1

/-! ## Interpretation of responses -/

/-- The server comes from these records. -/
def NsFrom (ns : NextNs) (au ad : List Record) : Prop :=
  ns.nsRecord ∈ au ∧ ns.nsRecord.recordType = .NS ∧ ∀ r ∈ ns.aRecords, r ∈ ad ∧ r.recordType = .A ∧ ns.nsRecord.data = .NS r.node

theorem pairWithAddrs_sat {keep : NextNs → Out LookupErr Bool} {K : NextNs → Prop}
    (hk : ∀ ns, (∃ t, ns.nsRecord.data = .NS t) → (∀ r ∈ ns.aRecords, r.recordType = .A) →
      Sat True True (keep ns) fun b => b = true → K ns) :
    ∀ {rs ad : List Record}, (∀ r ∈ rs, r.recordType = .NS) →
      Sat True True (pairWithAddrs keep rs ad) fun nss => ∀ ns ∈ nss, NsFrom ns rs ad ∧ K ns
  | [], ad, _ => by unfold pairWithAddrs; exact Sat.ok (by simp)
  | r :: rs, ad, h => by
    obtain ⟨t, ht⟩ := nsData_of (h r (by simp))
    unfold pairWithAddrs
    have e : (r.nsData : Out LookupErr Name) = .ok t := by unfold Record.nsData; rw [ht]
    rw [e]
    simp only [Out.bind_ok]
    refine Sat.bind (hk ⟨r, (extractRecords ad .A t).1⟩ ⟨t, ht⟩ fun x hx => (mem_extracted hx).2.2) fun b _ hb => ?_
    refine Sat.bind (pairWithAddrs_sat hk fun x hx => h x (by simp [hx])) fun rest _ hrest => ?_
    refine Sat.ok ?_
    have old : ∀ ns ∈ rest, NsFrom ns (r :: rs) ad ∧ K ns := by
      intro ns hns
      obtain ⟨⟨h1, h2, h3⟩, h4⟩ := hrest ns hns
      exact ⟨⟨List.mem_cons_of_mem _ h1, h2, fun x hx => ⟨mem_left (h3 x hx).1, (h3 x hx).2⟩⟩, h4⟩
    cases b with
    | false => simpa using old
    | true =>
      simp only [if_pos]
      intro ns hns
      rcases List.mem_cons.1 hns with rfl | hns
      · refine ⟨⟨List.mem_cons_self, h r (by simp), ?_⟩, hb rfl⟩
        intro x hx
        obtain ⟨h1, h2, h3⟩ := mem_extracted hx
        exact ⟨h1, h3, by rw [ht, h2]⟩
      · exact old ns hns

theorem hasGlue_sat {ns : NextNs} (ht : ∃ t, ns.nsRecord.data = .NS t) (ha : ∀ r ∈ ns.aRecords, r.recordType = .A) :
    Sat True True (hasGlueIfNeeded ns) fun b => b = true →
      (ns.aRecords = [] → ∀ t, ns.nsRecord.data = .NS t → endsWith t ns.zone = false) := by
  obtain ⟨t, ht⟩ := ht
  obtain ⟨as, e, hl⟩ := addrsOf_ok (ε := LookupErr) ha
  unfold hasGlueIfNeeded NextNs.node NextNs.addrs Record.nsData
  rw [ht, e]
  simp only [Out.bind_ok]
  refine Sat.ok ?_
  intro hb h0 t' ht'
  cases ht'
  have : as = [] := by rw [h0] at hl; exact List.length_eq_zero_iff.1 hl
  rw [this] at hb
  simpa using hb

/-- What `interpret` may return. -/
def Means (resp : Message) (node : Name) (kind : RecordType) (zone : Name) : NsResponse → Prop
  | .noDomain soa => resp.header.respCode = .NxDomain ∧ resp.header.authAnswer = true ∧
      ∀ r, soa = some r → r ∈ resp.authorities ∧ r.node = node ∧ r.recordType = .SOA
  | .answer answers additionals => resp.header.respCode = .NoError ∧ answers ≠ [] ∧
      (∀ r ∈ answers, r ∈ resp.answers ∧ r.node = node ∧ r.recordType = kind) ∧ additionals = resp.additionals
  | .alias cname nss => resp.header.respCode = .NoError ∧ cname ∈ resp.answers ∧ cname.node = node ∧
      (∀ r ∈ resp.answers, ¬ (r.node = node ∧ r.recordType = kind)) ∧
      ∃ t, cname.data = .CNAME t ∧ ∀ ns ∈ nss, NsFrom ns resp.authorities resp.additionals ∧ endsWith t ns.zone = true
  | .delegation nss => resp.header.respCode = .NoError ∧ nss ≠ [] ∧
      (∀ r ∈ resp.answers, ¬ (r.node = node ∧ (r.recordType = kind ∨ r.recordType = .CNAME))) ∧
      ∀ ns ∈ nss, NsFrom ns resp.authorities resp.additionals ∧ endsWith node ns.zone = true ∧
        strLen zone.s < strLen ns.zone.s ∧
        (ns.aRecords = [] → ∀ t, ns.nsRecord.data = .NS t → endsWith t ns.zone = false)

theorem NsFrom.mono {ns : NextNs} {au au' ad : List Record} (h : NsFrom ns au ad) (hs : ∀ r ∈ au, r ∈ au') : NsFrom ns au' ad :=
  ⟨hs _ h.1, h.2⟩

theorem interpret_sat (resp : Message) (node : Name) (kind : RecordType) (zone : Name) :
    Sat True True (interpret resp node kind zone) (Means resp node kind zone) := by
  unfold interpret
  cases hc : resp.header.respCode with
  | NoError =>
    simp only
    obtain ⟨hperm, -, hleft⟩ := extractRecords_spec resp.answers kind node
    by_cases hl : (extractRecords resp.answers kind node).1.length > 0
    · rw [if_pos hl]
      exact Sat.ok ⟨hc, List.ne_nil_of_length_pos hl, fun r hr => mem_extracted hr, rfl⟩
    · rw [if_neg hl]
      have hnil : (extractRecords resp.answers kind node).1 = [] := List.length_eq_zero_iff.1 (by omega)
      have hno : ∀ r ∈ resp.answers, ¬ (r.node = node ∧ r.recordType = kind) := by
        intro r hr hw
        rw [hnil, List.nil_append] at hperm
        have := hleft r (hperm.mem_iff.2 hr)
        rw [isWanted_iff.2 hw] at this
        cases this
      cases he : extractRecord (extractRecords resp.answers kind node).2 .CNAME node with
      | mk o l =>
      cases o with
      | some cname =>
        simp only
        have hs := extractRecord_spec (r := cname) (congrArg Prod.fst he)
        obtain ⟨t, ht⟩ := cnameData_of hs.2.2
        have e : (cname.cnameData : Out LookupErr Name) = .ok t := by unfold Record.cnameData; rw [ht]
        rw [e, Out.bind_ok]
        unfold extractNextNssForCname
        refine Sat.bind (pairWithAddrs_sat (K := fun _ => True) (fun ns _ _ => Sat.ok fun _ => trivial) ?_)
          fun nss _ hnss => Sat.ok ?_
        · intro r hr
          have := (List.mem_filter.1 hr).2
          rw [Bool.and_eq_true, beq_iff_eq] at this
          exact this.1
        · refine ⟨hc, mem_left hs.1, hs.2.1, hno, t, ht, fun ns hns => ?_⟩
          obtain ⟨h1, -⟩ := hnss ns hns
          have := (List.mem_filter.1 h1.1).2
          rw [Bool.and_eq_true] at this
          exact ⟨h1.mono fun r hr => (List.mem_filter.1 hr).1, this.2⟩
      | none =>
        simp only
        unfold extractNextNssForSubzone
        refine Sat.bind (pairWithAddrs_sat (K := fun ns => ns.aRecords = [] → ∀ t, ns.nsRecord.data = .NS t → endsWith t ns.zone = false)
          (fun ns h1 h2 => hasGlue_sat h1 h2) ?_) fun nss _ hnss => ?_
        · intro r hr
          have := (List.mem_filter.1 hr).2
          rw [Bool.and_eq_true, beq_iff_eq] at this
          exact this.1
        · by_cases h0 : nss.length > 0
          · rw [if_pos h0]
            refine Sat.ok ⟨hc, List.ne_nil_of_length_pos h0, ?_, fun ns hns => ?_⟩
            · rintro r hr ⟨hn, hk | hk⟩
              · exact hno r hr ⟨hn, hk⟩
              · rw [hnil, List.nil_append] at hperm
                have hr' := hperm.mem_iff.2 hr
                unfold extractRecord at he
                cases hi : List.findIdx? (isWanted .CNAME node) (extractRecords resp.answers kind node).2 with
                | some i =>
                  rw [hi] at he
                  simp only at he
                  rw [List.findIdx?_eq_some_iff_getElem] at hi
                  rw [List.getElem?_eq_getElem hi.1] at he
                  cases he
                | none =>
                  rw [List.findIdx?_eq_none_iff] at hi
                  have := hi r hr'
                  rw [isWanted_iff.2 ⟨hn, hk⟩] at this
                  cases this
            · obtain ⟨h1, h2⟩ := hnss ns hns
              have := (List.mem_filter.1 h1.1).2
              rw [Bool.and_eq_true, Bool.and_eq_true] at this
              refine ⟨h1.mono fun r hr => (List.mem_filter.1 hr).1, this.2.1, ?_, h2⟩
              have := this.2.2
              unfold isSubzone at this
              simp at this
              exact this
          · rw [if_neg h0]; exact Sat.err
  | NxDomain =>
    simp only
    by_cases ha : resp.header.authAnswer = true
    · rw [if_pos ha]
      exact Sat.ok ⟨hc, ha, fun r hr => extractRecord_spec hr⟩
    · rw [if_neg ha]; exact Sat.err
  | _ => exact Sat.err

end Ariadne.Resolver
