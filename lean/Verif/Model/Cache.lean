import Verif.Model.Zone

/-!
# The resolver's cache – models src/resolver/back_end/cache.rs

Time: `time::Instant` is a number of nanoseconds since an arbitrary origin, `time::Duration` a number of nanoseconds.
Simplification: `Instant + Duration` does not overflow (the durations are at most `u32::MAX` seconds). Every call of
`Instant::now()` is a parameter of the operation. The `HashMap` is an association list.
-/

namespace Ariadne

/-- cache.rs:28-31 `struct Cache`: the map from keys to expiry and value. `conf` (30) only matters for the cleaning period
(`max_cleaned` is used nowhere). -/
structure Cache (K V : Type) where
  data : List (K × (Nat × V))
  deriving DecidableEq

namespace Cache

variable {K V : Type} [DecidableEq K]

/-- cache.rs:33-39, 44-49 `default`, `new`. -/
def empty : Cache K V := ⟨[]⟩

/-- `HashMap::get`. -/
def find (c : Cache K V) (key : K) : Option (Nat × V) := assocGet key c.data

/-- `HashMap::remove`, the map after it. -/
def erase (c : Cache K V) (key : K) : Cache K V := ⟨c.data.filter fun e => e.1 ≠ key⟩

/-- `HashMap::insert`, the map after it. -/
def put (c : Cache K V) (key : K) (entry : Nat × V) : Cache K V := ⟨(key, entry) :: (c.erase key).data⟩

/-- cache.rs:155-157 `is_expired`, at time `now`. -/
def isExpired (instant now : Nat) : Bool := instant ≤ now

/-- cache.rs:54-72 `on_found`: the cache after the call, and what the closure got to see (`none`: it did not run and the
call returned `false`). The closure replaces the value by `callback exp value`. `now`: the reading in line 66. -/
def onFound (c : Cache K V) (key : K) (callback : Nat → V → V) (now : Nat) : Cache K V × Option (Nat × V) :=
  match c.find key with
  | none => (c, none)
  | some (exp, val) =>
    if isExpired exp now then (c.erase key, none)
    else (c.put key (exp, callback exp val), some (exp, val))

/-- cache.rs:76-85 `set`. `now`: the reading in line 79; `now'`: the reading in line 81. -/
def set (c : Cache K V) (key : K) (ttl : Nat) (val : V) (now now' : Nat) : Cache K V × Option (Nat × V) :=
  let entry := (now + ttl, val)
  match c.find key with
  | none => (c.put key entry, none)
  | some removed => (c.put key entry, if isExpired removed.1 now' then none else some removed)

/-- cache.rs:89-97 `remove`. `now`: the reading in line 93. -/
def remove (c : Cache K V) (key : K) (now : Nat) : Cache K V × Option (Nat × V) :=
  match c.find key with
  | none => (c, none)
  | some entry => (c.erase key, if isExpired entry.1 now then none else some entry)

/-- cache.rs:101-105 `clean`. `clock key`: the reading for the entry of `key`; `retain` reads the clock once per entry, in
the order of the hash map. -/
def clean (c : Cache K V) (clock : K → Nat) : Cache K V := ⟨c.data.filter fun e => !isExpired e.2.1 (clock e.1)⟩

/-- cache.rs:111-126 `get_clone`. `now`: the reading in line 119. -/
def getClone (c : Cache K V) (key : K) (now : Nat) : Cache K V × Option (Nat × V) :=
  match c.find key with
  | none => (c, none)
  | some entry => if isExpired entry.1 now then (c.erase key, none) else (c, some entry)

/-! ## Sequences of operations -/

/-- A call of one of the public methods with the clock readings it takes. -/
inductive Op (K V : Type)
  | onFound (key : K) (callback : Nat → V → V) (now : Nat)
  | set (key : K) (ttl : Nat) (val : V) (now now' : Nat)
  | remove (key : K) (now : Nat)
  | clean (clock : K → Nat)
  | getClone (key : K) (now : Nat)

/-- The effect and the result of a call. -/
def step (c : Cache K V) : Op K V → Cache K V × Option (Nat × V)
  | .onFound key callback now => c.onFound key callback now
  | .set key ttl val now now' => c.set key ttl val now now'
  | .remove key now => c.remove key now
  | .clean clock => (c.clean clock, none)
  | .getClone key now => c.getClone key now

/-- A sequence of calls: the cache after it and the results. -/
def runOps (c : Cache K V) : List (Op K V) → Cache K V × List (Option (Nat × V))
  | [] => (c, [])
  | op :: ops => ((runOps (c.step op).1 ops).1, (c.step op).2 :: (runOps (c.step op).1 ops).2)

/-! ## Several threads

Every method takes the lock (`self.data.lock().unwrap()`), works on the map and reads the clock in several steps, and
drops the guard when it returns. Other threads may take steps of their own between any two steps. -/

/-- A call without clock readings. -/
inductive Call (K V : Type)
  | onFound (key : K) (callback : Nat → V → V)
  | set (key : K) (ttl : Nat) (val : V)
  | remove (key : K)
  | clean
  | getClone (key : K)

/-- What a thread holding the lock does next. -/
inductive Prog (K V : Type)
  /-- Read the clock. -/
  | now (k : Nat → Prog K V)
  /-- Access the map: change it by `upd`, go on depending on what it was. -/
  | access (upd : Cache K V → Cache K V) (k : Cache K V → Prog K V)
  /-- Drop the guard and return. -/
  | ret (res : Option (Nat × V))

/-- cache.rs:103-104: `retain` visits `keys`. -/
def cleanProg : List K → Prog K V
  | [] => .ret none
  | key :: keys => .now fun now =>
      .access (fun c => match c.find key with
        | some (exp, _) => if isExpired exp now then c.erase key else c
        | none => c) fun _ => cleanProg keys

/-- The bodies of the methods, after the lock is taken: cache.rs:60-71, 78-84, 91-96, 103-104, 117-125. `keys` is the
order in which `retain` visits the entries of the map. -/
def Call.prog (keys : Cache K V → List K) : Call K V → Prog K V
  | .onFound key callback =>
      .access id fun c => match c.find key with
        | none => .ret none
        | some (exp, val) => .now fun now =>
          if isExpired exp now then .access (·.erase key) fun _ => .ret none
          else .access (·.put key (exp, callback exp val)) fun _ => .ret (some (exp, val))
  | .set key ttl val =>
      .now fun now => .access (·.put key (now + ttl, val)) fun c => match c.find key with
        | none => .ret none
        | some removed => .now fun now' => .ret (if isExpired removed.1 now' then none else some removed)
  | .remove key =>
      .access (·.erase key) fun c => match c.find key with
        | none => .ret none
        | some entry => .now fun now => .ret (if isExpired entry.1 now then none else some entry)
  | .clean => .access id fun c => cleanProg (keys c)
  | .getClone key =>
      .access id fun c => match c.find key with
        | none => .ret none
        | some entry => .now fun now =>
          if isExpired entry.1 now then .access (·.erase key) fun _ => .ret none
          else .ret (some entry)

/-- What threads and clients can see of the cache: call number `id` starts, call number `id` returns. -/
inductive Event (K V : Type)
  | call (id : Nat) (call : Call K V)
  | ret (id : Nat) (res : Option (Nat × V))

/-- The cache, its lock, the clock and the calls in progress. -/
structure Conc (K V : Type) where
  cache : Cache K V
  clock : Nat
  /-- The call that holds the lock and what it does next. -/
  holder : Option (Nat × Call K V × Prog K V)
  /-- Calls that wait for the lock. -/
  blocked : List (Nat × Call K V)
  /-- Calls that have dropped the lock but not returned yet. -/
  done : List (Nat × Option (Nat × V))
  /-- Everything seen so far, oldest first. -/
  trace : List (Event K V)

/-- Before the first call. -/
def Conc.init (t : Nat) : Conc K V := ⟨empty, t, none, [], [], []⟩

/-- A step of the system. Each call is made by some thread, so any number of them are in progress at the same time;
`id`s tell them apart. Simplification: closures do not panic, so the lock is never poisoned. -/
inductive ConcStep (keys : Cache K V → List K) : Conc K V → Conc K V → Prop
  /-- Time passes. -/
  | tick {s : Conc K V} {t : Nat} : s.clock ≤ t → ConcStep keys s { s with clock := t }
  /-- A thread calls a method. -/
  | call {s : Conc K V} {id : Nat} {c : Call K V} : (∀ c', .call id c' ∉ s.trace) →
      ConcStep keys s { s with blocked := (id, c) :: s.blocked, trace := s.trace ++ [.call id c] }
  /-- A thread gets the lock. -/
  | lock {s : Conc K V} {id : Nat} {c : Call K V} {l r : List (Nat × Call K V)} : s.holder = none →
      s.blocked = l ++ (id, c) :: r →
      ConcStep keys s { s with holder := some (id, c, c.prog keys), blocked := l ++ r }
  /-- The thread with the lock reads the clock. -/
  | now {s : Conc K V} {id : Nat} {c : Call K V} {k : Nat → Prog K V} : s.holder = some (id, c, .now k) →
      ConcStep keys s { s with holder := some (id, c, k s.clock) }
  /-- The thread with the lock accesses the map. -/
  | access {s : Conc K V} {id : Nat} {c : Call K V} {upd : Cache K V → Cache K V} {k : Cache K V → Prog K V} :
      s.holder = some (id, c, .access upd k) →
      ConcStep keys s { s with cache := upd s.cache, holder := some (id, c, k s.cache) }
  /-- The thread with the lock drops it. -/
  | unlock {s : Conc K V} {id : Nat} {c : Call K V} {res : Option (Nat × V)} : s.holder = some (id, c, .ret res) →
      ConcStep keys s { s with holder := none, done := (id, res) :: s.done }
  /-- A call returns. -/
  | ret {s : Conc K V} {id : Nat} {res : Option (Nat × V)} {l r : List (Nat × Option (Nat × V))} :
      s.done = l ++ (id, res) :: r → ConcStep keys s { s with done := l ++ r, trace := s.trace ++ [.ret id res] }

/-- Any number of steps. -/
inductive ConcRun (keys : Cache K V → List K) : Conc K V → Conc K V → Prop
  | refl {s : Conc K V} : ConcRun keys s s
  | step {s t u : Conc K V} : ConcRun keys s t → ConcStep keys t u → ConcRun keys s u

end Cache

end Ariadne
