import Verif.Lemmas.Truth
import Verif.Props.Lookup

/-! # C82: lookups in a world of honest servers -/

namespace Ariadne.Props

open Spec Resolver

/-! ## C82 -/

/-- What other threads do to the cache keeps it true. -/
def TruthfulOthers (U : Facts) (env : Env) : Prop :=
  ∀ i c, FactualCache U c → WholeCache U c → FactualCache U (env.others i c) ∧ WholeCache U (env.others i c)

/-- The full statement of C82: if all servers are honest (they may truncate, but say so) and the cache is true, a successful
lookup returns nothing but facts: CNAME records that lead from the queried name to a final one, and all of the records of the
queried type of that name; or that there are none. -/
def C82_statement : Prop :=
  ∀ (U : Facts) (env : Env) (p : Profile) (conf : Params) (fuel : Nat) (node : Name) (kind : RecordType) (w w' : World) (r : Response),
    (∀ n, (U n .CNAME).length ≤ 1) → HonestWorld U env p → FactualCache U w.cache → WholeCache U w.cache → TruthfulOthers U env →
    lookup env p conf fuel node kind w = (.ok r, w') →
    (∀ x ∈ r.answers ++ r.authorities ++ r.additionals, Factual U x) ∧
    ∃ chain final recs, r.answers = chain ++ recs ∧ Aliases node chain final ∧
      (∀ x ∈ recs, x.node = final ∧ x.recordType = kind) ∧
      (r.noRecords = true → recs = [] ∧ ∀ t, U final t = []) ∧ (r.noRecords = false → HasAll U final kind recs)

/-- C82, the part that holds even if responses are truncated: no lies. The cache keeps saying nothing but the truth. -/
theorem C82_facts_partial (U : Facts) (env : Env) (p : Profile) (conf : Params) (fuel : Nat) (node : Name) (kind : RecordType)
    (w : World) (hon : HonestWorld U env p) (hc : FactualCache U w.cache)
    (hoth : ∀ i c, FactualCache U c → FactualCache U (env.others i c)) :
    FactualCache U (lookup env p conf fuel node kind w).2.cache ∧
    ∀ r, (lookup env p conf fuel node kind w).1 = .ok r →
      (∀ x ∈ r.answers ++ r.authorities ++ r.additionals, Factual U x) ∧
      ∃ chain final recs, r.answers = chain ++ recs ∧ Aliases node chain final ∧
        (kind ≠ .NS → ∀ x ∈ recs, x.node = final ∧ x.recordType = kind) ∧
        (r.noRecords = true → recs = [] ∧ ∀ t, U final t = []) ∧ (r.noRecords = false → recs ≠ []) := by
  have ha : Around U False env p := ⟨False.elim, hon, False.elim, fun i c h => ⟨hoth i c h.1, False.elim⟩⟩
  obtain ⟨h1, h2⟩ := perform_keeps ha fuel ⟨node, kind, [], [], conf⟩ (by simp) w ⟨hc, False.elim⟩
  refine ⟨h1.1, fun r hr => ?_⟩
  obtain ⟨h3, chain, final, recs, h4, h5, h6, h7, h8⟩ := h2 r hr
  exact ⟨h3, chain, final, recs, by simpa using h4, h5, h6, h7, fun h => (h8 h).1⟩

/-- C82, part: the full statement, if no response is truncated, for all types but NS. The cache stays true and whole. -/
theorem C82_whole_partial (U : Facts) (env : Env) (p : Profile) (conf : Params) (fuel : Nat) (node : Name) (kind : RecordType)
    (w : World) (hu : ∀ n, (U n .CNAME).length ≤ 1) (hon : HonestWorld U env p) (hnt : NeverTruncated env p)
    (hc : FactualCache U w.cache) (hw : WholeCache U w.cache) (hoth : TruthfulOthers U env) :
    (FactualCache U (lookup env p conf fuel node kind w).2.cache ∧ WholeCache U (lookup env p conf fuel node kind w).2.cache) ∧
    ∀ r, (lookup env p conf fuel node kind w).1 = .ok r →
      (∀ x ∈ r.answers ++ r.authorities ++ r.additionals, Factual U x) ∧
      ∃ chain final recs, r.answers = chain ++ recs ∧ Aliases node chain final ∧
        (kind ≠ .NS → ∀ x ∈ recs, x.node = final ∧ x.recordType = kind) ∧
        (r.noRecords = true → recs = [] ∧ ∀ t, U final t = []) ∧
        (r.noRecords = false → recs ≠ [] ∧ (kind ≠ .NS → HasAll U final kind recs)) := by
  have ha : Around U True env p := ⟨fun _ => hu, hon, fun _ => hnt, fun i c h => ⟨(hoth i c h.1 (h.2 trivial)).1, fun _ => (hoth i c h.1 (h.2 trivial)).2⟩⟩
  obtain ⟨h1, h2⟩ := perform_keeps ha fuel ⟨node, kind, [], [], conf⟩ (by simp) w ⟨hc, fun _ => hw⟩
  refine ⟨⟨h1.1, h1.2 trivial⟩, fun r hr => ?_⟩
  obtain ⟨h3, chain, final, recs, h4, h5, h6, h7, h8⟩ := h2 r hr
  exact ⟨h3, chain, final, recs, by simpa using h4, h5, h6, h7, fun h => ⟨(h8 h).1, (h8 h).2 trivial⟩⟩

/-- A scripted world is honest if all replies are. -/
theorem honest_scripted {U : Facts} {replies : Nat → Option (List UInt8)} {p : Profile}
    (h : ∀ k raw m, replies k = some raw → Message.decodeFromBytes p (raw.take 512) = .ok m → ∀ node, Honest U node m) :
    HonestWorld U (scripted replies) p := fun _ _ _ _ _ node _ m hn _ hd _ => h _ _ m hn hd node

/-- A truncated response with id 7. -/
def cutResponse (answers : List Record) : Option (List UInt8) :=
  datagram ⟨⟨7, true, .STD, true, true, false, false, 0, .NoError, 0, UInt16.ofNat answers.length, 0, 0⟩, [], answers, [], []⟩

/-- The name a. has two addresses. -/
def twoAddrs : Facts := fun n k =>
  if n = ⟨"a.".toList⟩ ∧ k = .A then [.A ⟨1, 2, 3, 4⟩, .A ⟨5, 6, 7, 8⟩] else []

/-- Servers that truncate after the first one, and say so. -/
def cutEnv : Env := scripted fun _ => cutResponse [⟨⟨"a.".toList⟩, .IN, 9, 4, .A ⟨1, 2, 3, 4⟩⟩]

theorem cut_decodes (p : Profile) : ∃ raw, cutResponse [⟨⟨"a.".toList⟩, .IN, 9, 4, .A ⟨1, 2, 3, 4⟩⟩] = some raw ∧
    Message.decodeFromBytes p (raw.take 512) =
      .ok ⟨⟨7, true, .STD, true, true, false, false, 0, .NoError, 0, 1, 0, 0⟩, [], [⟨⟨"a.".toList⟩, .IN, 9, 4, .A ⟨1, 2, 3, 4⟩⟩], [], []⟩ := by
  have h : (cutResponse [⟨⟨"a.".toList⟩, .IN, 9, 4, .A ⟨1, 2, 3, 4⟩⟩]).map (fun raw => Message.decodeFromBytes p (raw.take 512)) =
      some (.ok ⟨⟨7, true, .STD, true, true, false, false, 0, .NoError, 0, 1, 0, 0⟩, [], [⟨⟨"a.".toList⟩, .IN, 9, 4, .A ⟨1, 2, 3, 4⟩⟩], [], []⟩) := by
    cases p <;> decide +kernel
  exact Option.map_eq_some_iff.1 h

theorem cut_honest (p : Profile) : HonestWorld twoAddrs cutEnv p := by
  refine honest_scripted fun k raw m hr hd node => ?_
  obtain ⟨raw', h1, h2⟩ := cut_decodes p
  rw [h1] at hr
  cases hr
  rw [h2] at hd
  cases hd
  exact ⟨by intro r hr; simp at hr; subst hr; unfold Factual twoAddrs; decide, fun h => (by cases h), fun h => (by cases h)⟩

theorem one_address {n m : Name} {c : Class} {t : UInt32} {l : UInt16} {a : Ip4} {chain recs : List Record}
    (h : [⟨n, c, t, l, .A a⟩] = chain ++ recs) (hc : Aliases n chain m) : m = n ∧ recs = [⟨n, c, t, l, .A a⟩] := by
  cases hc with
  | nil => exact ⟨rfl, h.symm⟩
  | cons _ hd _ =>
    rw [List.cons_append] at h
    injection h with h _
    rw [← h] at hd
    cases hd

/-- The resolver does not look at the TC flag: the truncated record set is returned (and cached) as if it were whole. -/
theorem C82_violated : ¬ C82_statement := by
  intro h
  have run : answersOf (lookup cutEnv .debug ⟨1, 1, 3, false⟩ 5 ⟨"a.".toList⟩ .A ⟨.empty, 0, []⟩).1 =
      some [⟨⟨"a.".toList⟩, .IN, 9, 4, .A ⟨1, 2, 3, 4⟩⟩] := by decide +kernel
  have run2 : (okOf (lookup cutEnv .debug ⟨1, 1, 3, false⟩ 5 ⟨"a.".toList⟩ .A ⟨.empty, 0, []⟩).1).map Response.noRecords = some false := by
    decide +kernel
  cases hx : lookup cutEnv .debug ⟨1, 1, 3, false⟩ 5 ⟨"a.".toList⟩ .A ⟨.empty, 0, []⟩ with
  | mk o w' =>
  rw [hx] at run run2
  cases o with
  | ok r =>
    have e : r.answers = [⟨⟨"a.".toList⟩, .IN, 9, 4, .A ⟨1, 2, 3, 4⟩⟩] := Option.some.inj run
    have e2 : r.noRecords = false := Option.some.inj run2
    obtain ⟨-, chain, final, recs, h1, h2, h3, -, h5⟩ := h twoAddrs cutEnv .debug ⟨1, 1, 3, false⟩ 5 ⟨"a.".toList⟩ .A ⟨.empty, 0, []⟩ w' r
      (by intro n; unfold twoAddrs; rw [if_neg (by simp)]; simp) (cut_honest _) (fun k e r hf => by cases hf)
      (fun k e r hf => by cases hf) (fun _ _ a b => ⟨a, b⟩) hx
    obtain ⟨h6, h7⟩ := one_address (e.symm.trans h1) h2
    rw [h6] at h5
    obtain ⟨x, hx, -, -, hd⟩ := h5 e2 (.A ⟨5, 6, 7, 8⟩) (by unfold twoAddrs; decide)
    rw [h7, List.mem_singleton] at hx
    rw [hx] at hd
    exact absurd hd (by decide)
  | err e => cases run
  | panic k => cases run
  | diverge => cases run

/-- The message carried by a datagram, if any. -/
def carried (p : Profile) (d : Option (List UInt8)) : Option Message :=
  match d with
  | some raw => match Message.decodeFromBytes p (raw.take 512) with
    | .ok m => some m
    | _ => none
  | none => none

theorem carried_of {p : Profile} {d : Option (List UInt8)} {raw : List UInt8} {m : Message} (h : d = some raw)
    (hd : Message.decodeFromBytes p (raw.take 512) = .ok m) : carried p d = some m := by
  subst h
  unfold carried
  simp only [hd]

/-- Honest without regard to the query: no denials. -/
theorem honest_of {U : Facts} {m : Message} (hc : m.header.respCode ≠ .NxDomain)
    (hf : ∀ r ∈ m.answers ++ m.authorities ++ m.additionals, r.data ∈ U r.node r.recordType)
    (hw : ∀ l ∈ [m.answers, m.authorities, m.additionals], ∀ r ∈ l, ∀ d ∈ U r.node r.recordType,
      ∃ r' ∈ l, r'.node = r.node ∧ r'.recordType = r.recordType ∧ r'.data = d) (node : Name) : Honest U node m :=
  ⟨hf, fun h => absurd h hc, fun _ => hw⟩

/-- A zone with two name servers and a host. -/
def smallZone : Facts := fun n k =>
  if n = ⟨"b.".toList⟩ ∧ k = .NS then [.NS ⟨"x.b.".toList⟩, .NS ⟨"y.b.".toList⟩]
  else if n = ⟨"x.b.".toList⟩ ∧ k = .A then [.A ⟨1, 2, 3, 4⟩]
  else if n = ⟨"h.b.".toList⟩ ∧ k = .A then [.A ⟨5, 6, 7, 8⟩, .A ⟨5, 6, 7, 9⟩]
  else if n = ⟨"w.b.".toList⟩ ∧ k = .CNAME then [.CNAME ⟨"h.b.".toList⟩]
  else []

/-- The referral to that zone, with the address of only one of the servers. -/
def smallReferral : Option (List UInt8) :=
  response .NoError false [] [⟨⟨"b.".toList⟩, .IN, 9, 5, .NS ⟨"x.b.".toList⟩⟩, ⟨⟨"b.".toList⟩, .IN, 9, 5, .NS ⟨"y.b.".toList⟩⟩]
    [⟨⟨"x.b.".toList⟩, .IN, 9, 4, .A ⟨1, 2, 3, 4⟩⟩]

/-- The addresses of the host. -/
def smallAnswer : Option (List UInt8) :=
  response .NoError true [⟨⟨"h.b.".toList⟩, .IN, 9, 4, .A ⟨5, 6, 7, 8⟩⟩, ⟨⟨"h.b.".toList⟩, .IN, 9, 4, .A ⟨5, 6, 7, 9⟩⟩] [] []

/-- The alias of the host. -/
def smallAlias : Option (List UInt8) :=
  response .NoError true [⟨⟨"w.b.".toList⟩, .IN, 9, 5, .CNAME ⟨"h.b.".toList⟩⟩] [] []

/-- The referral comes first, then the alias, then the addresses. -/
def smallEnv : Env := scripted fun k => match k with
  | 0 => smallReferral
  | 1 => smallAlias
  | _ => smallAnswer

theorem small_referral (p : Profile) : carried p smallReferral = some ⟨⟨7, true, .STD, false, false, false, false, 0, .NoError, 0, 0, 2, 1⟩, [], [],
    [⟨⟨"b.".toList⟩, .IN, 9, 5, .NS ⟨"x.b.".toList⟩⟩, ⟨⟨"b.".toList⟩, .IN, 9, 5, .NS ⟨"y.b.".toList⟩⟩],
    [⟨⟨"x.b.".toList⟩, .IN, 9, 4, .A ⟨1, 2, 3, 4⟩⟩]⟩ := by cases p <;> decide +kernel

theorem small_answer (p : Profile) : carried p smallAnswer = some ⟨⟨7, true, .STD, true, false, false, false, 0, .NoError, 0, 2, 0, 0⟩, [],
    [⟨⟨"h.b.".toList⟩, .IN, 9, 4, .A ⟨5, 6, 7, 8⟩⟩, ⟨⟨"h.b.".toList⟩, .IN, 9, 4, .A ⟨5, 6, 7, 9⟩⟩], [], []⟩ := by cases p <;> decide +kernel

theorem small_alias (p : Profile) : carried p smallAlias = some ⟨⟨7, true, .STD, true, false, false, false, 0, .NoError, 0, 1, 0, 0⟩, [],
    [⟨⟨"w.b.".toList⟩, .IN, 9, 5, .CNAME ⟨"h.b.".toList⟩⟩], [], []⟩ := by cases p <;> decide +kernel

theorem honest_carried {U : Facts} {p : Profile} {d : Option (List UInt8)} {m0 : Message} (hm : carried p d = some m0)
    (h : (∀ node, Honest U node m0) ∧ m0.header.truncated = false) {raw : List UInt8} {m : Message} (hr : d = some raw)
    (hd : Message.decodeFromBytes p (raw.take 512) = .ok m) : (∀ node, Honest U node m) ∧ m.header.truncated = false := by
  have e := (carried_of hr hd).symm.trans hm
  injection e with e
  rw [e]
  exact h

theorem honest_three {U : Facts} {p : Profile} {a b c : Option (List UInt8)} {k : Nat}
    (ha : ∀ raw m, a = some raw → Message.decodeFromBytes p (raw.take 512) = .ok m → (∀ node, Honest U node m) ∧ m.header.truncated = false)
    (hb : ∀ raw m, b = some raw → Message.decodeFromBytes p (raw.take 512) = .ok m → (∀ node, Honest U node m) ∧ m.header.truncated = false)
    (hc : ∀ raw m, c = some raw → Message.decodeFromBytes p (raw.take 512) = .ok m → (∀ node, Honest U node m) ∧ m.header.truncated = false)
    {raw : List UInt8} {m : Message} (hr : (match k with | 0 => a | 1 => b | _ => c) = some raw)
    (hd : Message.decodeFromBytes p (raw.take 512) = .ok m) : (∀ node, Honest U node m) ∧ m.header.truncated = false := by
  match k, hr with
  | 0, hr => exact ha raw m hr hd
  | 1, hr => exact hb raw m hr hd
  | _ + 2, hr => exact hc raw m hr hd

theorem small_honest_msg (p : Profile) (k : Nat) (raw : List UInt8) (m : Message)
    (hr : (match k with | 0 => smallReferral | 1 => smallAlias | _ => smallAnswer) = some raw)
    (hd : Message.decodeFromBytes p (raw.take 512) = .ok m) : (∀ node, Honest smallZone node m) ∧ m.header.truncated = false :=
  honest_three (k := k)
    (fun _ _ => honest_carried (small_referral p) ⟨honest_of (by decide) (by decide +kernel) (by decide +kernel), rfl⟩)
    (fun _ _ => honest_carried (small_alias p) ⟨honest_of (by decide) (by decide +kernel) (by decide +kernel), rfl⟩)
    (fun _ _ => honest_carried (small_answer p) ⟨honest_of (by decide) (by decide +kernel) (by decide +kernel), rfl⟩) hr hd

theorem small_honest (p : Profile) : HonestWorld smallZone smallEnv p :=
  honest_scripted fun k raw m hr hd node => (small_honest_msg p k raw m hr hd).1 node

theorem small_whole (p : Profile) : NeverTruncated smallEnv p :=
  fun _ _ _ raw m hn hd => (small_honest_msg p _ raw m hn hd).2

theorem small_cname (n : Name) : (smallZone n .CNAME).length ≤ 1 := by
  unfold smallZone
  repeat' split
  all_goals first | decide | (rename_i h; exact absurd h.2 (by decide)) | (simp; done)

/-- The hypotheses of both parts are met by a lookup that takes a referral, follows an alias and finds all addresses. -/
example : ((∀ n, (smallZone n .CNAME).length ≤ 1) ∧ HonestWorld smallZone smallEnv .release ∧ NeverTruncated smallEnv .release ∧
      FactualCache smallZone .empty ∧ WholeCache smallZone .empty ∧ TruthfulOthers smallZone smallEnv) ∧
    answersOf (lookup smallEnv .release ⟨1, 1, 3, false⟩ 5 ⟨"w.b.".toList⟩ .A ⟨.empty, 0, []⟩).1 =
      some [⟨⟨"w.b.".toList⟩, .IN, 9, 5, .CNAME ⟨"h.b.".toList⟩⟩, ⟨⟨"h.b.".toList⟩, .IN, 9, 4, .A ⟨5, 6, 7, 8⟩⟩,
        ⟨⟨"h.b.".toList⟩, .IN, 9, 4, .A ⟨5, 6, 7, 9⟩⟩] :=
  ⟨⟨small_cname, small_honest _, small_whole _, fun _ _ _ hf => (by cases hf), fun _ _ _ hf => (by cases hf), fun _ _ a b => ⟨a, b⟩⟩,
    by decide +kernel⟩

/-- The other reason why C82 fails, even if nothing is truncated: of the NS records of a referral those that need glue and
have none are dropped, and the rest is cached and later returned as the answer to a query for NS records. -/
theorem C82_ns_incomplete : (HonestWorld smallZone smallEnv .debug ∧ NeverTruncated smallEnv .debug) ∧
    let w1 := (lookup smallEnv .debug ⟨1, 1, 3, false⟩ 5 ⟨"w.b.".toList⟩ .A ⟨.empty, 0, []⟩).2
    answersOf (lookup smallEnv .debug ⟨1, 1, 3, false⟩ 5 ⟨"b.".toList⟩ .NS w1).1 =
      some [⟨⟨"b.".toList⟩, .IN, 8, 5, .NS ⟨"x.b.".toList⟩⟩] ∧
    smallZone ⟨"b.".toList⟩ .NS = [.NS ⟨"x.b.".toList⟩, .NS ⟨"y.b.".toList⟩] :=
  ⟨⟨small_honest _, small_whole _⟩, by decide +kernel⟩

end Ariadne.Props
