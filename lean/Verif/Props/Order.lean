import Mathlib.Data.List.Perm.Basic
import Verif.Spec.Order
import Verif.Props.Expected

/-!
# C123: the order in which the sub zones are configured
-/

namespace Ariadne.Props

open Spec ZoneParser Nameserver

/-! ## Lists with at most one matching element -/

theorem filter_perm {α : Type} {l l' : List α} {f : α → Bool} (hp : l.Perm l') (h : l.Pairwise fun a b => ¬ (f a = true ∧ f b = true)) :
    l.filter f = l'.filter f := by
  have h1 : (l.filter f).Perm (l'.filter f) := hp.filter f
  have h2 : (l.filter f).Pairwise fun a b => ¬ (f a = true ∧ f b = true) := h.filter f
  cases e : l.filter f with
  | nil => rw [e] at h1; exact h1.nil_eq
  | cons a t =>
    cases t with
    | nil => rw [e] at h1; exact (List.perm_singleton.1 h1.symm).symm
    | cons b t =>
      rw [e] at h2
      have ha : a ∈ l.filter f := by rw [e]; simp
      have hb : b ∈ l.filter f := by rw [e]; simp
      exact absurd ⟨(List.mem_filter.1 ha).2, (List.mem_filter.1 hb).2⟩ ((List.pairwise_cons.1 h2).1 b List.mem_cons_self)

theorem find_perm {α : Type} {l l' : List α} {f : α → Bool} (hp : l.Perm l') (h : l.Pairwise fun a b => ¬ (f a = true ∧ f b = true)) :
    l.find? f = l'.find? f := by
  rw [← List.head?_filter, ← List.head?_filter, filter_perm hp h]

theorem flatMap_filter_if {α β : Type} (P : α → Prop) [DecidablePred P] (g : α → List β) : ∀ l : List α,
    (l.flatMap fun a => if P a then g a else []) = (l.filter fun a => decide (P a)).flatMap g
  | [] => rfl
  | a :: l => by
    rw [List.flatMap_cons, flatMap_filter_if P g l, List.filter_cons]
    by_cases h : P a
    · simp [h]
    · simp [h]

/-! ## The reply -/

/-- Of two names that contain the same name, one contains the other. -/
theorem apart_disjoint {names : List Name} (h : Apart names) : names.Pairwise fun a b => ∀ n, ¬ (Within n a ∧ Within n b) := by
  refine h.imp fun {a b} hab n hn => ?_
  obtain ⟨⟨L, M, h1, h2, h3⟩, L', M', h4, h5, h6⟩ := hn
  rw [nameOf_unique h4 h1] at h6
  rcases List.suffix_or_suffix_of_suffix h3 h6 with h | h
  · exact hab.2 ⟨M', M, h5, h2, h⟩
  · exact hab.1 ⟨M, M', h2, h5, h⟩

theorem listReply_perm {zone : Name} {soa : Record} {rs : List Record} {subs subs' : List (Name × List Record)} (hp : subs.Perm subs')
    (hd : Apart (subs.map Prod.fst)) (req : Message) (q : Question) :
    listReply zone soa rs subs req q = listReply zone soa rs subs' req q := by
  classical
  have hd' : subs.Pairwise fun a b => ∀ n, ¬ (Within n a.1 ∧ Within n b.1) := List.pairwise_map.1 (apart_disjoint hd)
  have hpw : ∀ n : Name, subs.Pairwise fun a b => ¬ (decide (Within n a.1) = true ∧ decide (Within n b.1) = true) := fun n =>
    hd'.imp fun {a b} h => by simpa only [decide_eq_true_eq] using h n
  have hf := find_perm hp (hpw q.node)
  have ha : ∀ n, addressesIn subs n = addressesIn subs' n := by
    intro n
    unfold addressesIn
    rw [flatMap_filter_if, flatMap_filter_if, filter_perm hp (hpw n)]
  have hs : ∀ ns, serverAddresses subs ns = serverAddresses subs' ns := by
    intro ns
    unfold serverAddresses
    congr 1
    funext r
    cases r.data <;> first | rfl | exact ha _
  unfold listReply
  rw [hf]
  split
  · rfl
  · cases subs'.find? fun s => decide (Within q.node s.1) with
    | none => rfl
    | some s => simp only [hs]

/-! ## The files -/

theorem means_frame {strict : Bool} {f f' : ZoneFrame} {inc inc' : Str → Name → UInt32 → List Record → Prop}
    (ho : ∀ n, f.Owns n → f'.Owns n) (hm : f.minimum = f'.minimum) (hi : ∀ path o t rs, inc path o t rs → inc' path o t rs)
    {o : Name} {last : UInt32} {ls : List Str} {rs : List Record} (h : FileMeans strict f inc o last ls rs) :
    FileMeans strict f' inc' o last ls rs := by
  induction h with
  | nil => exact .nil
  | skip h _ ih => exact .skip h ih
  | record h1 h2 h3 h4 _ ih => exact .record h1 h2 (ho _ h3) (hm ▸ h4) ih
  | origin h1 h2 h3 _ ih => exact .origin h1 h2 (ho _ h3) ih
  | «include» h1 h2 h3 h4 _ ih =>
    exact .include h1 h2 (h3.imp_right fun ⟨w, e, n, w'⟩ => ⟨w, e, n, ho _ w'⟩) (hi _ _ _ _ h4) ih

theorem included_frame {strict : Bool} {fs : Files} {f f' : ZoneFrame} (ho : ∀ n, f.Owns n → f'.Owns n) (hm : f.minimum = f'.minimum) :
    ∀ (depth : Nat) (path : Str) (o : Name) (t : UInt32) (rs : List Record), Included strict fs f depth path o t rs →
      Included strict fs f' depth path o t rs
  | 0, _, _, _, _, h => h
  | depth + 1, _, _, _, _, ⟨ls, e, h⟩ => ⟨ls, e, means_frame ho hm (included_frame ho hm depth) h⟩

/-- What the files say of the configuration in one order, they say of the other: the same records, the sub zones reordered alike. -/
theorem says_perm {fs : Files} {conf : Params} {soa : Record} {rs : List Record} {subs : List (Name × List Record)}
    (h : FilesSay fs conf soa rs subs) {cs : List SubParams} (hp : conf.subZones.Perm cs) :
    ∃ subs', subs.Perm subs' ∧ FilesSay fs (reorder conf cs) soa rs subs' := by
  obtain ⟨subs', h1, h2⟩ := List.perm_comp_forall₂ hp.symm h.sub
  refine ⟨subs', h2.symm, ⟨⟨h.valid.1, fun c hc => h.valid.2 c (hp.mem_iff.2 hc)⟩, h.notRoot,
    fun c hc => h.subNotRoot c (hp.mem_iff.2 hc), ?_, h1⟩⟩
  obtain ⟨depth, pre, ls, left, head, ws, minimum, g1, g2, g3, g4, g5, g6⟩ := h.zone
  have ho : ∀ n, (frameOf conf minimum).Owns n → (frameOf (reorder conf cs) minimum).Owns n := fun n hn =>
    ⟨hn.1, fun s hs => hn.2 s ((hp.map (·.zone)).mem_iff.2 hs)⟩
  exact ⟨depth, pre, ls, left, head, ws, minimum, g1, g2, g3, g4, g5, means_frame ho rfl (included_frame ho rfl depth) g6⟩

theorem fit_perm {zone : Name} {rs : List Record} {subs subs' : List (Name × List Record)} (hp : subs.Perm subs')
    (h : FitTogether zone rs subs) : FitTogether zone rs subs' where
  ns := h.ns
  apex := h.apex
  subNs s hs := h.subNs s (hp.mem_iff.2 hs)
  subApex s hs := h.subApex s (hp.mem_iff.2 hs)
  glue s hs r hr n hd hw s' hs' hw' := h.glue s (hp.mem_iff.2 hs) r hr n hd hw s' (hp.mem_iff.2 hs') hw'
  used s hs a ha ht := by
    obtain ⟨s', h1, h2⟩ := h.used s (hp.mem_iff.2 hs) a ha ht
    exact ⟨s', hp.mem_iff.1 h1, h2⟩

theorem says_fit {p : Profile} {fs : Files} {o : HashOrder} {conf : Params} {soa : Record} {rs : List Record}
    {subs : List (Name × List Record)} (h : FilesSay fs conf soa rs subs) :
    (∃ fuel zones, parseZoneFiles p fs o fuel conf = .ok zones) ↔ FitTogether conf.zone (rs ++ [soa]) subs := by
  obtain ⟨depth, hm⟩ := h.zone
  obtain ⟨h1, h2⟩ := zip_pairs h.sub
  have h3 := C100_accepts p fs o conf depth soa rs _ h.valid h.notRoot h.subNotRoot hm h1
  rw [h2] at h3
  constructor
  · rintro ⟨fuel, zones, hz⟩
    by_contra hn
    exact (h3.2 hn).2 fuel zones hz
  · intro hf
    obtain ⟨N, hN⟩ := h3.1 hf
    obtain ⟨zones, hz⟩ := hN N (Nat.le_refl _)
    exact ⟨N, zones, hz⟩

/-! ## C123 -/

/-- The full statement of C123. -/
def C123_statement : Prop :=
  ∀ (p p₁ p₂ : Profile) (fs : Files) (o₁ o₂ : HashOrder) (fuel₁ fuel₂ : Nat) (conf : Params) (cs : List SubParams)
    (zones₁ zones₂ : ManagedZone), ValidConf conf → conf.subZones.Perm cs →
    parseZoneFiles p₁ fs o₁ fuel₁ conf = .ok zones₁ → parseZoneFiles p₂ fs o₂ fuel₂ (reorder conf cs) = .ok zones₂ →
    ∀ req q, Asks req q → ∀ m, Replies p zones₁ req m → Replies p zones₂ req m

/-- Two sub zones, one within the other. -/
def nestedOuter : SubParams := { filePath := "outer".toList, zone := ⟨"a.e.".toList⟩, startingTtl := 60, minTtl := 1 }
def nestedInner : SubParams := { filePath := "inner".toList, zone := ⟨"b.a.e.".toList⟩, startingTtl := 60, minTtl := 1 }
def nestedConf : Params := { filePath := "auth".toList, zone := ⟨"e.".toList⟩, startingTtl := 60, subZones := [nestedOuter, nestedInner] }

def nestedFiles : Files := files
  [("auth", ["@ 60 IN SOA ns.f. mail.f. 1 2 3 4 5", "@ NS ns.f."]), ("outer", ["@ NS ns.g."]), ("inner", ["@ NS ns.h."])]

theorem nested_valid : ValidConf nestedConf := by
  refine ⟨validName_of (by decide +kernel), fun c hc => ?_⟩
  rcases List.mem_cons.1 hc with rfl | hc
  · exact validName_of (by decide +kernel)
  · rw [List.mem_singleton.1 hc]; exact validName_of (by decide +kernel)

/-- C123 does not hold: a name in a sub zone of a sub zone is referred to whichever was configured first. -/
theorem C123_violated : ¬ C123_statement := by
  intro h
  obtain ⟨z₁, h1, h2⟩ := ok_of (x := parseZoneFiles .release nestedFiles forwards 10 nestedConf) (fun zones =>
    replyIs .release zones (ask "x.b.a.e." .A) (fun m => m.authorities.map (·.node) == [⟨"a.e.".toList⟩])) (by decide +kernel)
  obtain ⟨z₂, h3, h4⟩ := ok_of (x := parseZoneFiles .release nestedFiles forwards 10 (reorder nestedConf [nestedInner, nestedOuter]))
    (fun zones => replyIs .release zones (ask "x.b.a.e." .A) (fun m => m.authorities.map (·.node) == [⟨"b.a.e.".toList⟩])) (by decide +kernel)
  obtain ⟨m₁, r1, e1⟩ := replyIs_spec h2
  obtain ⟨m₂, r2, e2⟩ := replyIs_spec h4
  have hr := h .release _ _ nestedFiles _ _ _ _ nestedConf [nestedInner, nestedOuter] z₁ z₂ nested_valid (List.Perm.swap _ _ _) h1 h3
    _ _ (asks_ask (by decide +kernel)) m₁ r1
  rw [replies_unique hr r2, beq_iff_eq] at e1
  rw [beq_iff_eq, e1] at e2
  exact absurd e2 (by decide)

/-- **C123**, part: whether the configuration is accepted does not depend on the order. For files as in C101. -/
theorem C123_loads_partial (p p' : Profile) (fs : Files) (o o' : HashOrder) (conf : Params) (cs : List SubParams) (soa : Record)
    (rs : List Record) (subs : List (Name × List Record)) (h : FilesSay fs conf soa rs subs) (hp : conf.subZones.Perm cs) :
    (∃ fuel zones, parseZoneFiles p fs o fuel conf = .ok zones) ↔
    ∃ fuel zones, parseZoneFiles p' fs o' fuel (reorder conf cs) = .ok zones := by
  obtain ⟨subs', h1, h2⟩ := says_perm h hp
  rw [says_fit h, says_fit h2]
  exact ⟨fit_perm h1, fit_perm h1.symm⟩

theorem handle_perm {p p₁ p₂ : Profile} {fs : Files} {o₁ o₂ : HashOrder} {fuel₁ fuel₂ : Nat} {conf : Params} {cs : List SubParams}
    {soa : Record} {rs : List Record} {subs : List (Name × List Record)} {zones₁ zones₂ : ManagedZone}
    (h : FilesSay fs conf soa rs subs) (hp : conf.subZones.Perm cs) (hd : Apart (conf.subZones.map (·.zone)))
    (hz₁ : parseZoneFiles p₁ fs o₁ fuel₁ conf = .ok zones₁) (hz₂ : parseZoneFiles p₂ fs o₂ fuel₂ (reorder conf cs) = .ok zones₂)
    (read : ReadResult) (hv : ∀ req, read = .fullMessage req → ∀ q ∈ req.questions, ValidName q.node.s) :
    Nameserver.handle p zones₁ read = Nameserver.handle p zones₂ read := by
  obtain ⟨subs', h1, h2⟩ := says_perm h hp
  have e : subs.map Prod.fst = conf.subZones.map (·.zone) := by
    have := h.sub
    clear h hp hd hz₁ hz₂ h1 h2
    generalize conf.subZones = l at this
    induction this with
    | nil => rfl
    | cons g _ ih => rw [List.map_cons, List.map_cons, ih, g.1]
  cases read with
  | fullMessage req =>
    unfold Nameserver.handle
    simp only
    cases hval : Nameserver.validate req with
    | none => rfl
    | some q =>
      have hm := validate_mem hval
      simp only
      rw [query_list h hz₁ req q (hv req rfl q hm), query_list h2 hz₂ req q (hv req rfl q hm),
        listReply_perm h1 (e ▸ hd)]
      rfl
  | headerOnly _ _ => rfl
  | parseErr _ _ => rfl
  | ioErr => rfl

/-- **C123**, part: if no sub zone lies within another, exactly the same is sent, whatever arrives. For files as in C101.
Missing: sub zones within each other (`C123_violated`). -/
theorem C123_order_partial (p p₁ p₂ : Profile) (fs : Files) (o₁ o₂ : HashOrder) (fuel₁ fuel₂ : Nat) (conf : Params)
    (cs : List SubParams) (soa : Record) (rs : List Record) (subs : List (Name × List Record)) (zones₁ zones₂ : ManagedZone)
    (h : FilesSay fs conf soa rs subs) (hp : conf.subZones.Perm cs) (hd : Apart (conf.subZones.map (·.zone)))
    (hz₁ : parseZoneFiles p₁ fs o₁ fuel₁ conf = .ok zones₁) (hz₂ : parseZoneFiles p₂ fs o₂ fuel₂ (reorder conf cs) = .ok zones₂) :
    (∀ req q, Asks req q → ∀ m, Replies p zones₁ req m ↔ Replies p zones₂ req m) ∧
    (∀ datagram sends, Nameserver.serveUdp p zones₁ datagram sends = Nameserver.serveUdp p zones₂ datagram sends) ∧
    ∀ stream room, Nameserver.serveTcp p zones₁ stream room = Nameserver.serveTcp p zones₂ stream room := by
  refine ⟨fun req q hq m => ?_, fun datagram sends => ?_, fun stream room => ?_⟩
  · have key := handle_perm (p := p) h hp hd hz₁ hz₂ (.fullMessage req) (fun req' e q' hq' => by
      cases e
      rw [hq.one, List.mem_singleton] at hq'
      rw [hq']; exact hq.valid)
    unfold Replies
    rw [key]
  · unfold Nameserver.serveUdp
    cases hr : Net.udpRead p datagram with
    | ok read =>
      rw [Out.bind_ok, Out.bind_ok, handle_perm h hp hd hz₁ hz₂ read]
      rintro req rfl q hq
      have hd := (C30_classification.1 p datagram _).1 hr
      cases hd with
      | full hd => exact (decoded_message hd).2.qs q hq
    | _ => rfl
  · unfold Nameserver.serveTcp
    cases hr : Net.tcpRead p stream with
    | ok x =>
      obtain ⟨read, rest⟩ := x
      rw [Out.bind_ok, Out.bind_ok]
      simp only
      rw [handle_perm h hp hd hz₁ hz₂ read]
      rintro req rfl q hq
      rcases C29_tcp_framing_partial.2.2.1 p stream _ rest hr with e | ⟨body, -, -, hd⟩
      · cases e
      · cases hd with
        | full hd => exact (decoded_message hd).2.qs q hq
    | _ => rfl

/-! ## An example -/

def twoA : SubParams := { filePath := "suba".toList, zone := ⟨"a.e.".toList⟩, startingTtl := 60, minTtl := 1 }
def twoB : SubParams := { filePath := "subb".toList, zone := ⟨"b.e.".toList⟩, startingTtl := 60, minTtl := 1 }
def twoConf : Params := { filePath := "auth".toList, zone := ⟨"e.".toList⟩, startingTtl := 60, subZones := [twoA, twoB] }

/-- The name server of the one sub zone lies in the other. -/
def twoFiles : Files := files
  [("auth", ["@ 60 IN SOA ns mail.f. 1 2 3 4 5", "@ NS ns.f."]), ("suba", ["@ NS ns.b.e."]), ("subb", ["@ NS ns.b.e.", "ns A 10.0.0.3"])]

def twoRecsA : List Record := [⟨⟨"a.e.".toList⟩, .IN, 60, 0, .NS ⟨"ns.b.e.".toList⟩⟩]
def twoRecsB : List Record := [⟨⟨"b.e.".toList⟩, .IN, 60, 0, .NS ⟨"ns.b.e.".toList⟩⟩,
  ⟨⟨"ns.b.e.".toList⟩, .IN, 60, 0, .A ⟨10, 0, 0, 3⟩⟩]

theorem two_valid : ValidConf twoConf := by
  refine ⟨validName_of (by decide +kernel), fun c hc => ?_⟩
  rcases List.mem_cons.1 hc with rfl | hc
  · exact validName_of (by decide +kernel)
  · rw [List.mem_singleton.1 hc]; exact validName_of (by decide +kernel)

theorem two_roots : ∀ c ∈ twoConf.subZones, c.zone.s ≠ ['.'] := by
  intro c hc
  rcases List.mem_cons.1 hc with rfl | hc
  · decide
  · rw [List.mem_singleton.1 hc]; decide

theorem two_not_within {n z : Name} {L M : List Str} (hn : NameOf n.s L) (hz : NameOf z.s M) (h : ¬ M <:+ L) : ¬ Within n z := by
  rintro ⟨L', M', h1, h2, h3⟩
  rw [nameOf_unique h1 hn, nameOf_unique h2 hz] at h3
  exact h h3

theorem two_apart : Apart (twoConf.subZones.map (·.zone)) := by
  have ha : NameOf "a.e.".toList ["a".toList, "e".toList] := nameOf_of (by decide)
  have hb : NameOf "b.e.".toList ["b".toList, "e".toList] := nameOf_of (by decide)
  exact List.pairwise_pair.2 ⟨two_not_within (n := ⟨"a.e.".toList⟩) (z := ⟨"b.e.".toList⟩) ha hb (by decide),
    two_not_within (n := ⟨"b.e.".toList⟩) (z := ⟨"a.e.".toList⟩) hb ha (by decide)⟩

theorem two_apex : (frameOf twoConf 5).Owns ⟨"e.".toList⟩ := by
  have he : NameOf "e.".toList ["e".toList] := nameOf_of (by decide)
  have ha : NameOf "a.e.".toList ["a".toList, "e".toList] := nameOf_of (by decide)
  have hb : NameOf "b.e.".toList ["b".toList, "e".toList] := nameOf_of (by decide)
  refine ⟨within_refl two_valid.1, fun s hs => ?_⟩
  rcases List.mem_cons.1 hs with rfl | hs
  · exact two_not_within (n := ⟨"e.".toList⟩) (z := ⟨"a.e.".toList⟩) he ha (by decide)
  · rw [List.mem_singleton.1 hs]
    exact two_not_within (n := ⟨"e.".toList⟩) (z := ⟨"b.e.".toList⟩) he hb (by decide)

theorem two_suba : SubZoneMeans true twoFiles twoA twoRecsA := by
  have hz : ValidName "a.e.".toList := validName_of (by decide +kernel)
  refine ⟨["@ NS ns.b.e.".toList], by decide, ?_⟩
  exact .record (head := "@".toList) (ws := [] ++ [.plain "NS".toList, .plain "ns.b.e.".toList])
    (left := []) (entryOf_sound (n := 60) (by decide +kernel))
    ⟨[], _, rfl, .inl ⟨.inr (by decide), rfl⟩, .neither, rfl,
      .ns (.inr (nameText_abs ["ns".toList, "b".toList, "e".toList] (by decide))), rfl⟩ (.inr rfl) (within_refl hz) (by decide) .nil

theorem two_subb : SubZoneMeans true twoFiles twoB twoRecsB := by
  have hz : ValidName "b.e.".toList := validName_of (by decide +kernel)
  refine ⟨["@ NS ns.b.e.".toList, "ns A 10.0.0.3".toList], by decide, ?_⟩
  refine .record (head := "@".toList) (ws := [] ++ [.plain "NS".toList, .plain "ns.b.e.".toList])
    (left := ["ns A 10.0.0.3".toList]) (entryOf_sound (n := 60) (by decide +kernel))
    ⟨[], _, rfl, .inl ⟨.inr (by decide), rfl⟩, .neither, rfl,
      .ns (.inr (nameText_abs ["ns".toList, "b".toList, "e".toList] (by decide))), rfl⟩ (.inr rfl) (within_refl hz) (by decide) ?_
  exact .record (head := "ns".toList) (ws := [] ++ [.plain "A".toList, .plain "10.0.0.3".toList])
    (left := []) (entryOf_sound (n := 60) (by decide +kernel))
    ⟨[], _, rfl, .inr (nameText_rel ["ns".toList] ["b".toList, "e".toList] (by decide)), .neither, rfl,
      .a ⟨"10".toList, "0".toList, "0".toList, "3".toList, by decide, octet_of (by decide), octet_of (by decide),
          octet_of (by decide), octet_of (by decide)⟩, rfl⟩ (.inl rfl)
      (within_of_isInZone (validName_of (by decide +kernel)) hz (by decide +kernel)) (by decide) .nil

theorem two_says : FilesSay twoFiles twoConf sampleSoaRec [smallNs] [(twoA.zone, twoRecsA), (twoB.zone, twoRecsB)] := by
  refine ⟨two_valid, by decide, two_roots, ⟨0, ?_⟩, .cons ⟨rfl, two_suba⟩ (.cons ⟨rfl, two_subb⟩ .nil)⟩
  exact ⟨[], ["@ 60 IN SOA ns mail.f. 1 2 3 4 5".toList, "@ NS ns.f.".toList], ["@ NS ns.f.".toList], "@".toList, _, 5, by decide, by simp,
    entryOf_sound (n := 60) (by decide +kernel), small_soa [], by decide,
    .record (r := smallNs) (head := "@".toList) (ws := [] ++ [.plain "NS".toList, .plain "ns.f.".toList]) (left := [])
      (entryOf_sound (n := 60) (by decide +kernel)) ⟨[], _, rfl, .inl ⟨.inr (by decide), rfl⟩, .neither, rfl,
    .ns (.inr (nameText_abs ["ns".toList, "f".toList] (by decide))), rfl⟩ two_apex (by decide) .nil⟩

/-- Both orders are loaded, and the servers reply alike; a name in the first sub zone is referred to its server, which has its address
in the second. -/
example (p : Profile) : ∃ zones₁ zones₂, parseZoneFiles p twoFiles forwards 20 twoConf = .ok zones₁ ∧
    parseZoneFiles p twoFiles forwards 20 (reorder twoConf [twoB, twoA]) = .ok zones₂ ∧
    replyIs p zones₂ (ask "x.a.e." .A) (fun m => m.authorities == twoRecsA && m.additionals.map (·.data) == [.A ⟨10, 0, 0, 3⟩]) = true ∧
    ∀ datagram sends, Nameserver.serveUdp p zones₁ datagram sends = Nameserver.serveUdp p zones₂ datagram sends := by
  obtain ⟨zones₁, h1, -⟩ := ok_of (x := parseZoneFiles p twoFiles forwards 20 twoConf) (fun _ => true) (by cases p <;> decide +kernel)
  obtain ⟨zones₂, h2, h3⟩ := ok_of (x := parseZoneFiles p twoFiles forwards 20 (reorder twoConf [twoB, twoA])) (fun zones =>
    replyIs p zones (ask "x.a.e." .A) (fun m => m.authorities == twoRecsA && m.additionals.map (·.data) == [.A ⟨10, 0, 0, 3⟩]))
    (by cases p <;> decide +kernel)
  exact ⟨zones₁, zones₂, h1, h2, h3, (C123_order_partial p p p twoFiles _ _ _ _ twoConf _ _ _ _ _ _ two_says (List.Perm.swap _ _ _)
    two_apart h1 h2).2.1⟩

end Ariadne.Props
