import Verif.Spec.ZoneText

/-!
# Blank owners (RFC 1035 5.1: "if an entry begins with a blank, then the RR is assumed to be owned by the last stated owner")

The grammar is that of `Spec.ZoneText`, except for the entries that start with a blank. `same` leaves out those where the last stated owner is not the
current origin.
-/

namespace Ariadne.Spec

/-- The record an entry stands for, where `owner` is the last stated owner. -/
def RecordOf (origin owner : Name) (last : UInt32) (head : Str) (ws : List Word) (r : Record) : Prop :=
  (head ≠ [] ∧ RecordText true origin last head ws r) ∨
  (head = [] ∧ r.node = owner ∧ ∃ ts ds, ws = ts ++ ds ∧ TtlClass last ts r.ttl ∧ r.cls = .IN ∧ DataText true origin ds r.data ∧ r.dataLen = 0)

/-- As `FileMeans`, with the last stated owner. -/
inductive OwnersMean (same : Bool) (f : ZoneFrame) (inc : Str → Name → UInt32 → List Record → Prop) :
    Name → Name → UInt32 → List Str → List Record → Prop
  | nil {origin owner : Name} {last : UInt32} : OwnersMean same f inc origin owner last [] []
  | skip {origin owner : Name} {last : UInt32} {l : Str} {ls : List Str} {rs : List Record} : NoCode l →
      OwnersMean same f inc origin owner last ls rs → OwnersMean same f inc origin owner last (l :: ls) rs
  | record {origin owner : Name} {last : UInt32} {head : Str} {ws : List Word} {ls left : List Str} {r : Record} {rs : List Record} :
      Entry head ws ls left → RecordOf origin owner last head ws r → (same = true → head = [] → owner = origin) →
      f.Owns r.node → f.minimum ≤ r.ttl →
      OwnersMean same f inc origin r.node r.ttl left rs → OwnersMean same f inc origin owner last ls (r :: rs)
  | origin {origin origin' owner : Name} {last : UInt32} {ls left : List Str} {rs : List Record} :
      Entry "$ORIGIN".toList [.plain origin'.s] ls left → ValidName origin'.s → f.Owns origin' →
      OwnersMean same f inc origin' owner last left rs → OwnersMean same f inc origin owner last ls rs
  | include {origin origin' owner : Name} {last : UInt32} {path : Str} {ws : List Word} {ls left : List Str} {rs' rs : List Record} :
      Entry "$INCLUDE".toList (.plain path :: ws) ls left → ¬ LooksNumeric path ∧ path ≠ ['@'] →
      (ws = [] ∧ origin' = origin) ∨ (∃ w, ws = [.plain w] ∧ NameText true origin w origin' ∧ f.Owns origin') →
      inc path origin' last rs' → OwnersMean same f inc origin owner last left rs →
      OwnersMean same f inc origin owner last ls (rs' ++ rs)

/-- What included files stand for; before the first owner is stated there, a blank is the origin. -/
def OwnersIncluded (same : Bool) (fs : ZoneParser.Files) (f : ZoneFrame) : Nat → Str → Name → UInt32 → List Record → Prop
  | 0 => fun _ _ _ _ => False
  | depth + 1 => fun path origin last rs =>
    ∃ ls, fs path = some (ls.map some) ∧ OwnersMean same f (OwnersIncluded same fs f depth) origin origin last ls rs

/-- As `ZoneMeans`; the first stated owner is that of the SOA record, which is the zone. -/
def OwnersZone (same : Bool) (fs : ZoneParser.Files) (conf : ZoneParser.Params) (depth : Nat) (soa : Record) (rs : List Record) : Prop :=
  ∃ pre ls left head ws minimum, fs conf.filePath = some ((pre ++ ls).map some) ∧ (∀ l ∈ pre, NoCode l) ∧
    Entry head ws ls left ∧ SoaText true conf.zone conf.startingTtl head ws soa minimum ∧ minimum ≤ soa.ttl ∧
    OwnersMean same (frameOf conf minimum) (OwnersIncluded same fs (frameOf conf minimum) depth) conf.zone soa.node conf.startingTtl left rs

end Ariadne.Spec
