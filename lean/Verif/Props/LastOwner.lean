import Verif.Spec.LastOwner
import Verif.Props.ZoneLines

/-! # C117: blank owners -/

namespace Ariadne.Props

open Spec ZoneParser

/-- **C117.** A record line that starts with a blank stands for a record of the last stated owner. -/
def C117_statement : Prop :=
  ∀ (fs : Files) (o : HashOrder) (conf : Params) (depth : Nat) (soa : Record) (rs : List Record), ValidConf conf → conf.zone.s ≠ ['.'] →
    OwnersZone false fs conf depth soa rs →
    (∃ N, ∀ fuel ≥ N, ∃ z, parseAuthZoneFile fs o fuel conf = .ok z) ∧
    ∀ fuel z, parseAuthZoneFile fs o fuel conf = .ok z → Returns z (rs ++ [soa])

theorem recordText_of {origin owner : Name} {last : UInt32} {head : Str} {ws : List Spec.Word} {r : Record} (h : RecordOf origin owner last head ws r)
    (hs : head = [] → owner = origin) : RecordText true origin last head ws r := by
  rcases h with ⟨-, h⟩ | ⟨rfl, h1, ts, ds, e, h2, h3, h4, h5⟩
  · exact h
  · exact ⟨ts, ds, e, .inl ⟨.inl rfl, h1.trans (hs rfl)⟩, h2, h3, h4, h5⟩

theorem fileMeans_of {f : ZoneFrame} {inc inc' : Str → Name → UInt32 → List Record → Prop} (hi : ∀ p o l rs, inc p o l rs → inc' p o l rs)
    {origin owner : Name} {last : UInt32} {ls : List Str} {rs : List Record} (h : OwnersMean true f inc origin owner last ls rs) :
    FileMeans true f inc' origin last ls rs := by
  induction h with
  | nil => exact .nil
  | skip h1 _ ih => exact .skip h1 ih
  | record h1 h2 h3 h4 h5 _ ih => exact .record h1 (recordText_of h2 (h3 rfl)) h4 h5 ih
  | origin h1 h2 h3 _ ih => exact .origin h1 h2 h3 ih
  | «include» h1 h2 h3 h4 _ ih => exact .include h1 (fun _ => h2) h3 (hi _ _ _ _ h4) ih

theorem included_of {fs : Files} {f : ZoneFrame} : ∀ {depth : Nat} (p : Str) (o : Name) (l : UInt32) (rs : List Record),
    OwnersIncluded true fs f depth p o l rs → Included true fs f depth p o l rs
  | 0, _, _, _, _, h => h
  | _ + 1, _, _, _, _, ⟨ls, h1, h2⟩ => ⟨ls, h1, fileMeans_of (fun _ _ _ _ => included_of _ _ _ _) h2⟩

/-- **C117, partially.** It does if the last stated owner is the current origin. Otherwise the record is loaded for the origin (`C41_records_partial`,
`C117_violated`). -/
theorem C117_blank_owner_partial (fs : Files) (o : HashOrder) (conf : Params) (depth : Nat) (soa : Record) (rs : List Record) (hv : ValidConf conf)
    (hr : conf.zone.s ≠ ['.']) (h : OwnersZone true fs conf depth soa rs) :
    (∃ N, ∀ fuel ≥ N, ∃ z, parseAuthZoneFile fs o fuel conf = .ok z) ∧
    ∀ fuel z, parseAuthZoneFile fs o fuel conf = .ok z → Returns z (rs ++ [soa]) := by
  obtain ⟨pre, ls, left, head, ws, minimum, h1, h2, h3, h4, h5, h6⟩ := h
  exact C41_records_partial fs o conf depth soa rs hv hr
    ⟨pre, ls, left, head, ws, minimum, h1, h2, h3, h4, h5, fileMeans_of (fun _ _ _ _ => included_of _ _ _ _) h6⟩

/-- A zone file in which the second address of a.e. is on a line of its own, without the name. -/
def blankFiles : Files := files [("auth", ["@ 60 IN SOA ns.f. mail.f. 1 2 3 4 5", " NS ns.f.", "a A 10.0.0.1", "  A 10.0.0.2"])]

def blankSoa : Record := ⟨⟨"e.".toList⟩, .IN, 60, 0, .SOA ⟨"ns.f.".toList⟩ ⟨"mail.f.".toList⟩ 1 2 3 4 5⟩
def blankNs : Record := ⟨⟨"e.".toList⟩, .IN, 60, 0, .NS ⟨"ns.f.".toList⟩⟩
def blankFirst : Record := ⟨⟨"a.e.".toList⟩, .IN, 60, 0, .A ⟨10, 0, 0, 1⟩⟩
def blankSecond (owner : Name) : Record := ⟨owner, .IN, 60, 0, .A ⟨10, 0, 0, 2⟩⟩

theorem blank_owns {n : Name} (hv : (Name.fromString n.s : Out NameErr Name) = .ok ⟨n.s⟩) (h : n.isInZone reverseConf.zone = true) :
    (frameOf reverseConf 5).Owns n :=
  ⟨within_of_isInZone (validName_of hv) reverse_valid.1 h, fun s hs => by cases hs⟩

theorem blank_line_ns : Spec.Entry [] ([] ++ [.plain "NS".toList, .plain "ns.f.".toList]) [" NS ns.f.".toList, "a A 10.0.0.1".toList, "  A 10.0.0.2".toList]
    ["a A 10.0.0.1".toList, "  A 10.0.0.2".toList] := entryOf_sound (n := 30) (by decide +kernel)

theorem blank_line_a : Spec.Entry "a".toList ([] ++ [.plain "A".toList, .plain "10.0.0.1".toList]) ["a A 10.0.0.1".toList, "  A 10.0.0.2".toList]
    ["  A 10.0.0.2".toList] := entryOf_sound (n := 30) (by decide +kernel)

theorem blank_line_b : Spec.Entry [] ([] ++ [.plain "A".toList, .plain "10.0.0.2".toList]) ["  A 10.0.0.2".toList] [] :=
  entryOf_sound (n := 30) (by decide +kernel)

theorem blank_data_ns : DataText true ⟨"e.".toList⟩ [.plain "NS".toList, .plain "ns.f.".toList] blankNs.data :=
  .ns (.inr (nameText_abs ["ns".toList, "f".toList] (by decide)))

theorem blank_data_a : DataText true ⟨"e.".toList⟩ [.plain "A".toList, .plain "10.0.0.1".toList] blankFirst.data :=
  .a ⟨"10".toList, "0".toList, "0".toList, "1".toList, by decide, octet_of (by decide), octet_of (by decide), octet_of (by decide),
    octet_of (by decide)⟩

theorem blank_data_b (n : Name) : DataText true ⟨"e.".toList⟩ [.plain "A".toList, .plain "10.0.0.2".toList] (blankSecond n).data :=
  .a ⟨"10".toList, "0".toList, "0".toList, "2".toList, by decide, octet_of (by decide), octet_of (by decide), octet_of (by decide),
    octet_of (by decide)⟩

theorem blank_text_a : RecordText true ⟨"e.".toList⟩ 60 "a".toList ([] ++ [.plain "A".toList, .plain "10.0.0.1".toList]) blankFirst :=
  ⟨[], _, rfl, .inr (nameText_rel ["a".toList] ["e".toList] (by decide)), .neither, rfl, blank_data_a, rfl⟩

/-- What the file stands for. -/
theorem blank_owners : OwnersZone false blankFiles reverseConf 0 blankSoa [blankNs, blankFirst, blankSecond ⟨"a.e.".toList⟩] :=
  ⟨[], _, [" NS ns.f.".toList, "a A 10.0.0.1".toList, "  A 10.0.0.2".toList], _, _, 5, by decide, by simp, (reverse_soa _).1, (reverse_soa []).2 _,
    by decide,
    .record blank_line_ns (.inr ⟨rfl, rfl, [], _, rfl, .neither, rfl, blank_data_ns, rfl⟩) (fun h => by cases h)
      (blank_owns (by decide +kernel) (by decide +kernel)) (by decide)
    (.record blank_line_a (.inl ⟨by decide, blank_text_a⟩) (fun h => by cases h) (blank_owns (by decide +kernel) (by decide +kernel)) (by decide)
    (.record blank_line_b (.inr ⟨rfl, rfl, [], _, rfl, .neither, rfl, blank_data_b _, rfl⟩) (fun h => by cases h)
      (blank_owns (by decide +kernel) (by decide +kernel)) (by decide) .nil))⟩

/-- What the loader takes it for. -/
theorem blank_read : ZoneMeans true blankFiles reverseConf (fun _ => reverseConf.startingTtl) (fun f => Included true blankFiles f 0) blankSoa
    [blankNs, blankFirst, blankSecond ⟨"e.".toList⟩] :=
  ⟨[], _, [" NS ns.f.".toList, "a A 10.0.0.1".toList, "  A 10.0.0.2".toList], _, _, 5, by decide, by simp, (reverse_soa _).1, (reverse_soa []).2 _,
    by decide,
    .record blank_line_ns ⟨[], _, rfl, .inl ⟨.inl rfl, rfl⟩, .neither, rfl, blank_data_ns, rfl⟩
      (blank_owns (by decide +kernel) (by decide +kernel)) (by decide)
    (.record blank_line_a blank_text_a (blank_owns (by decide +kernel) (by decide +kernel)) (by decide)
    (.record blank_line_b ⟨[], _, rfl, .inl ⟨.inl rfl, rfl⟩, .neither, rfl, blank_data_b _, rfl⟩
      (blank_owns (by decide +kernel) (by decide +kernel)) (by decide) .nil))⟩

/-- C117 does not hold: the second address of a.e. is loaded as an address of e. -/
theorem C117_violated : ¬ C117_statement := by
  intro h
  obtain ⟨⟨N, h1⟩, h2⟩ := h blankFiles forwards reverseConf 0 _ _ reverse_valid (by decide) blank_owners
  obtain ⟨z, hz⟩ := h1 N (le_refl _)
  have a := (h2 _ _ hz).1 .release ⟨"e.".toList⟩ .A
  have b := ((C41_records_partial blankFiles forwards reverseConf 0 _ _ reverse_valid (by decide) blank_read).2 _ _ hz).1 .release ⟨"e.".toList⟩ .A
  rw [a] at b
  have ha : (if recordsAt ([blankNs, blankFirst, blankSecond ⟨"a.e.".toList⟩] ++ [blankSoa]) ⟨"e.".toList⟩ .A = [] then none
      else some (recordsAt ([blankNs, blankFirst, blankSecond ⟨"a.e.".toList⟩] ++ [blankSoa]) ⟨"e.".toList⟩ .A)) = none := by decide +kernel
  have hb : (if recordsAt ([blankNs, blankFirst, blankSecond ⟨"e.".toList⟩] ++ [blankSoa]) ⟨"e.".toList⟩ .A = [] then none
      else some (recordsAt ([blankNs, blankFirst, blankSecond ⟨"e.".toList⟩] ++ [blankSoa]) ⟨"e.".toList⟩ .A)) ≠ none := by decide +kernel
  rw [← Out.ok.inj b] at hb
  exact hb ha

/-- Two lines with blank owners after the SOA record: the hypotheses of `C117_blank_owner_partial` are met. -/
def apexFiles : Files := files [("auth", ["@ 60 IN SOA ns.f. mail.f. 1 2 3 4 5", " NS ns.f.", "  A 10.0.0.2"])]

theorem apex_line_ns : Spec.Entry [] ([] ++ [.plain "NS".toList, .plain "ns.f.".toList]) [" NS ns.f.".toList, "  A 10.0.0.2".toList]
    ["  A 10.0.0.2".toList] := entryOf_sound (n := 30) (by decide +kernel)

example : OwnersZone true apexFiles reverseConf 0 blankSoa [blankNs, blankSecond ⟨"e.".toList⟩] :=
  ⟨[], _, [" NS ns.f.".toList, "  A 10.0.0.2".toList], _, _, 5, by decide, by simp, (reverse_soa _).1, (reverse_soa []).2 _, by decide,
    .record apex_line_ns (.inr ⟨rfl, rfl, [], _, rfl, .neither, rfl, blank_data_ns, rfl⟩) (fun _ _ => rfl)
      (blank_owns (by decide +kernel) (by decide +kernel)) (by decide)
    (.record blank_line_b (.inr ⟨rfl, rfl, [], _, rfl, .neither, rfl, blank_data_b _, rfl⟩) (fun _ _ => rfl)
      (blank_owns (by decide +kernel) (by decide +kernel)) (by decide) .nil)⟩

end Ariadne.Props
