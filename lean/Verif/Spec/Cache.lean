import Verif.Model.Cache

/-! # Vocabulary for the cache -/

namespace Ariadne.Spec

open Cache

variable {K V : Type} [DecidableEq K]

/-- All clock readings of the operation lie between `lo` and `hi` and do not go back. -/
def TakesPlace (lo hi : Nat) : Op K V → Prop
  | .onFound _ _ now => lo ≤ now ∧ now ≤ hi
  | .set _ _ _ now now' => lo ≤ now ∧ now ≤ now' ∧ now' ≤ hi
  | .remove _ now => lo ≤ now ∧ now ≤ hi
  | .clean clock => lo ≤ hi ∧ ∀ k, lo ≤ clock k ∧ clock k ≤ hi
  | .getClone _ now => lo ≤ now ∧ now ≤ hi

/-- The operations happen one after the other between `lo` and `hi`. -/
def InOrder (lo : Nat) : List (Op K V) → Nat → Prop
  | [], hi => lo ≤ hi
  | op :: ops, hi => ∃ t, TakesPlace lo t op ∧ InOrder t ops hi

/-- What a history (most recent operation first) says about a key: the last `set` counts, with the changes that
`on_found` closures made to it while it was not expired, unless it was removed since; reading and cleaning do not count. -/
def lastSet (key : K) : List (Op K V) → Option (Nat × V)
  | [] => none
  | .set key' ttl val now _ :: before => if key' = key then some (now + ttl, val) else lastSet key before
  | .remove key' _ :: before => if key' = key then none else lastSet key before
  | .onFound key' callback now :: before =>
      if key' = key then
        match lastSet key before with
        | some (exp, val) => if now < exp then some (exp, callback exp val) else some (exp, val)
        | none => none
      else lastSet key before
  | .clean _ :: before => lastSet key before
  | .getClone _ _ :: before => lastSet key before

/-- An entry, if its expiry is in the future. -/
def alive (now : Nat) (e : Option (Nat × V)) : Option (Nat × V) := e.filter fun e => now < e.1

/-- What an operation has to return after a history (most recent operation first): what is alive under its key. -/
def expected (before : List (Op K V)) : Op K V → Option (Nat × V)
  | .onFound key _ now => alive now (lastSet key before)
  | .set key _ _ _ now' => alive now' (lastSet key before)
  | .remove key now => alive now (lastSet key before)
  | .clean _ => none
  | .getClone key now => alive now (lastSet key before)

/-- The operation is a call of `clean`. -/
def isClean : Op K V → Bool
  | .clean _ => true
  | _ => false

/-- The call behind an operation. -/
def callOf : Op K V → Call K V
  | .onFound key callback _ => .onFound key callback
  | .set key ttl val _ _ => .set key ttl val
  | .remove key _ => .remove key
  | .clean _ => .clean
  | .getClone key _ => .getClone key

/-- Herlihy and Wing: a trace is linearizable if there is a sequence of operations, each a call of the trace, that contains
every call that returned, that gives the results returned when executed one after the other (with clock readings in this
order, between `t0` and `t1`), and in which `a` comes before `b` if `a` returned before `b` was called. -/
structure Linearizes (t0 t1 : Nat) (trace : List (Event K V)) (lin : List (Nat × Op K V)) : Prop where
  /-- The operations happen one after the other. -/
  order : InOrder t0 (lin.map Prod.snd) t1
  /-- Every call occurs at most once. -/
  once : (lin.map Prod.fst).Nodup
  /-- Only calls of the trace occur. -/
  called : ∀ id op, (id, op) ∈ lin → .call id (callOf op) ∈ trace
  /-- Calls that returned occur and returned the result of the sequential execution. -/
  results : ∀ id res, .ret id res ∈ trace →
    ∃ before op after, lin = before ++ (id, op) :: after ∧
      ((runOps empty (before.map Prod.snd)).1.step op).2 = res
  /-- Real time. -/
  realTime : ∀ a b res c t1 t2 t3, trace = t1 ++ .ret a res :: t2 ++ .call b c :: t3 → ∀ op before after,
    lin = before ++ (b, op) :: after → ∃ op', (a, op') ∈ before

end Ariadne.Spec
