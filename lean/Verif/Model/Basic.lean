/-!
# Outcomes of Rust computations

Common vocabulary of the model: what a call of a Rust function can result in.
-/

namespace Ariadne

/-- Why a Rust thread panics. `assert`: `assert!`/`debug_assert!`; `index`: slice index out of
bounds; `unwrap`: `unwrap()` on `None`/`Err`; `overflow`: arithmetic overflow (only the `debug`
profile checks it, the `release` profile wraps); `explicit`: `panic!`/`unreachable!`. -/
inductive Panic
  | assert
  | index
  | unwrap
  | overflow
  | explicit
  deriving DecidableEq, Repr

/-- Result of a call: a value (`Ok`), an error (`Err`), a panic, or non-termination (the fuel of a
fuelled loop ran out). -/
inductive Out (ε α : Type) : Type
  | ok (a : α)
  | err (e : ε)
  | panic (k : Panic)
  | diverge
  deriving DecidableEq, Repr

namespace Out

/-- Sequencing with early return (`?` operator). -/
@[inline] protected def bind {ε α β : Type} (x : Out ε α) (f : α → Out ε β) : Out ε β :=
  match x with
  | ok a => f a
  | err e => err e
  | panic k => panic k
  | diverge => diverge

instance {ε : Type} : Monad (Out ε) where
  pure := Out.ok
  bind := Out.bind

@[simp] theorem pure_eq {ε α : Type} (a : α) : (pure a : Out ε α) = Out.ok a := rfl
@[simp] theorem bind_ok {ε α β : Type} (a : α) (f : α → Out ε β) : (Out.ok a >>= f) = f a := rfl
@[simp] theorem bind_err {ε α β : Type} (e : ε) (f : α → Out ε β) : (Out.err e >>= f) = .err e := rfl
@[simp] theorem bind_panic {ε α β : Type} (k : Panic) (f : α → Out ε β) :
    ((Out.panic k : Out ε α) >>= f) = .panic k := rfl
@[simp] theorem bind_diverge {ε α β : Type} (f : α → Out ε β) :
    ((Out.diverge : Out ε α) >>= f) = .diverge := rfl

/-- Converting the error of a result (`map_err`, or `From` in the `?` operator). -/
def mapErr {ε ε' α : Type} (f : ε → ε') : Out ε α → Out ε' α
  | ok a => ok a
  | err e => err (f e)
  | panic k => panic k
  | diverge => diverge

/-- The call returned normally, with `Ok` or `Err`. -/
def Returns {ε α : Type} : Out ε α → Prop
  | ok _ => True
  | err _ => True
  | _ => False

/-- The call panicked. -/
def Panics {ε α : Type} : Out ε α → Prop
  | panic _ => True
  | _ => False

instance {ε α : Type} (o : Out ε α) : Decidable o.Returns := by
  cases o <;> simp only [Returns] <;> infer_instance

instance {ε α : Type} (o : Out ε α) : Decidable o.Panics := by
  cases o <;> simp only [Panics] <;> infer_instance

end Out

/-- Build profile. `debug`: overflow checks on (`cargo build`, `cargo test`).
`release`: fixed-width arithmetic wraps (`cargo build --release`, used by the README). -/
inductive Profile
  | debug
  | release
  deriving DecidableEq, Repr

/-- `u16` multiplication `a * b` in the given profile. -/
def mulU16 {ε : Type} (p : Profile) (a b : UInt16) : Out ε UInt16 :=
  if a.toNat * b.toNat < 65536 then .ok (a * b)
  else match p with
    | .debug => .panic .overflow
    | .release => .ok (a * b)

/-- `u16` addition `a + b` in the given profile. -/
def addU16 {ε : Type} (p : Profile) (a b : UInt16) : Out ε UInt16 :=
  if a.toNat + b.toNat < 65536 then .ok (a + b)
  else match p with
    | .debug => .panic .overflow
    | .release => .ok (a + b)

end Ariadne
