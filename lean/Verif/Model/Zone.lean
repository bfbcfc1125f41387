import Verif.Model.Record

/-!
# Zone store – models src/nameserver/zones/parser.rs:157-217

A `HashMap` is an association list with distinct keys, in insertion order. Rust iterates over a hash map in an arbitrary
order: every operation that iterates takes the order in which it visits the entries as a parameter (`HashOrder`).
-/

namespace Ariadne

/-- Value stored under a key. -/
def assocGet {κ α : Type} [DecidableEq κ] (k : κ) : List (κ × α) → Option α
  | [] => none
  | (k', v) :: rest => if k' = k then some v else assocGet k rest

/-- `entry(k).or_default()` followed by an update of the value in place. -/
def assocUpd {κ α : Type} [DecidableEq κ] (k : κ) (dflt : α) (f : α → α) : List (κ × α) → List (κ × α)
  | [] => [(k, f dflt)]
  | (k', v) :: rest => if k' = k then (k', f v) :: rest else (k', v) :: assocUpd k dflt f rest

/-- The record sets of one owner name. -/
abbrev TypeMap := List (RecordType × List Record)

/-- The whole map of a zone. -/
abbrev NodeMap := List (Name × TypeMap)

/-- The orders in which hash maps are iterated over: any permutations. Simplification: a function of the contents of the
map; `C35` shows that the order cannot be observed. -/
structure HashOrder where
  nodes : NodeMap → NodeMap
  types : TypeMap → TypeMap
  nodes_perm : ∀ m, (nodes m).Perm m
  types_perm : ∀ m, (types m).Perm m

/-- parser.rs:164-167 `struct Zone`. -/
structure Zone where
  records : NodeMap
  zone : Name
  deriving DecidableEq, Repr

namespace Zone

/-- parser.rs:171-176 `Zone::new`. -/
def new (zone : Name) : Zone := { records := [], zone := zone }

/-- parser.rs:179-185 `insert`. -/
def insert (z : Zone) (r : Record) : Zone :=
  { z with records := assocUpd r.node [] (assocUpd r.recordType [] (· ++ [r])) z.records }

/-- parser.rs:188-195 `get`. `assert!(!records.is_empty())` (193) panics; the `debug_assert!`s (191-192) panic in the
debug profile only. -/
def get {ε : Type} (p : Profile) (z : Zone) (node : Name) (kind : RecordType) : Out ε (Option (List Record)) :=
  match assocGet node z.records with
  | none => .ok none
  | some inner =>
    match assocGet kind inner with
    | none => .ok none
    | some records =>
      if p = .debug ∧ !(records.all fun r => r.recordType == kind) then .panic .assert
      else if p = .debug ∧ !(records.all fun r => r.node == node) then .panic .assert
      else if records.isEmpty then .panic .assert
      else .ok (some records)

/-- parser.rs:198-205 `get_all_of_type`. -/
def getAllOfType (o : HashOrder) (z : Zone) (kind : RecordType) : List Record :=
  ((o.nodes z.records).filterMap fun e => assocGet kind e.2).flatten

/-- The order in which parser.rs:209-211 visits the records of a zone. -/
def visit (o : HashOrder) (z : Zone) : List Record :=
  (o.nodes z.records).flatMap fun e => (o.types e.2).flatMap fun e' => e'.2

/-- parser.rs:208-216 `extend`. -/
def extend (o : HashOrder) (z other : Zone) : Zone := (other.visit o).foldl insert z

end Zone

/-- parser.rs:159-162 `struct ManagedZone`. -/
structure ManagedZone where
  authZone : Zone
  subZones : List Zone
  deriving DecidableEq, Repr

end Ariadne
