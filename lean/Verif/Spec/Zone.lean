import Verif.Model.Zone

/-! # Histories of zone stores -/

namespace Ariadne.Spec

/-- How a zone store came about: `new`, `insert` and `extend` in any order and nesting; each `extend` may iterate over
the other store's maps in its own order. -/
inductive History
  | new (zone : Name)
  | insert (h : History) (r : Record)
  | extend (h other : History) (o : HashOrder)

/-- The store. -/
def History.store : History → Zone
  | .new zone => Zone.new zone
  | .insert h r => h.store.insert r
  | .extend h other o => h.store.extend o other.store

/-- The records in the order in which they were inserted, those of an added store after those already there. -/
def History.log : History → List Record
  | .new _ => []
  | .insert h r => h.log ++ [r]
  | .extend h other _ => h.log ++ other.log

/-- The records with this owner and type, in order. -/
def recordsAt (log : List Record) (node : Name) (kind : RecordType) : List Record :=
  log.filter fun r => r.node == node && r.recordType == kind

end Ariadne.Spec
