import Verif.Props.Trace

/-! # C79: a world for deep traces -/

namespace Ariadne.Props

open Spec Resolver

/-! ## A world in which lookups are nested 256 deep -/

/-- Two letters for every number below 676. -/
def letters (k : Nat) : Str := [Char.ofNat (97 + k / 26), Char.ofNat (97 + k % 26)]

/-- Zone number `k`: `aa.`, `ab.` and so on. -/
def deepZone (k : Nat) : Name := ⟨letters k ++ ['.']⟩

/-- A name in it. -/
def deepName (k : Nat) : Name := ⟨'n' :: '.' :: (letters k ++ ['.'])⟩

/-- `deepZone k NS deepName (k + 1)`. -/
def deepRecord (k : Nat) : Record := ⟨deepZone k, .IN, 9, 6, .NS (deepName (k + 1))⟩

/-- The letters on the wire. -/
def octets (k : Nat) : List UInt8 := [UInt8.ofNat (97 + k / 26), UInt8.ofNat (97 + k % 26)]

/-- A response with this record in the authority section and nothing else. -/
def deepReply (k : Nat) : List UInt8 :=
  [0, 7, 128, 0, 0, 0, 0, 0, 0, 1, 0, 0, 2] ++ (octets k ++ ([0, 0, 2, 0, 1, 0, 0, 0, 9, 0, 6, 1, 110, 2] ++ (octets (k + 1) ++ [0])))

/-- The same, decoded. -/
def deepMessage (k : Nat) : Message := ⟨⟨7, true, .STD, false, false, false, false, 0, .NoError, 0, 0, 1, 0⟩, [], [], [deepRecord k], []⟩

/-- Is it the start of a lookup? -/
def isStart : Event → Bool
  | .start _ _ _ _ => true
  | _ => false

/-- How many lookups have been started. -/
def started (log : List Event) : Nat := log.countP isStart

/-- The `k`-th lookup is told that the server of zone `k` is in zone `k + 1`, up to 256; there is no other answer. The cache
is always empty when we look at it. -/
def deepEnv : Env where
  clock n := n
  mono _ _ h := h
  others _ _ := .empty
  ids _ := 7
  net log _ _ := if started log ≤ 256 then some (deepReply (started log - 1)) else none

/-- Everything that has to be checked about zone `k`. -/
def deepOk (k : Nat) : Bool :=
  (match Message.decodeFromBytes .debug ((deepReply k).take 512) with | .ok m => m == deepMessage k | _ => false) &&
  (match interpret (deepMessage k) (deepName k) .A ⟨['.']⟩ with | .ok (.delegation l) => l == [⟨deepRecord k, []⟩] | _ => false)

set_option maxRecDepth 100000 in
theorem deepOk_all : ∀ k < 256, deepOk k = true := by decide +kernel

/-- The names can be parsed. -/
def deepParsed (k : Nat) : Bool :=
  (generateDomainHierarchy (deepName k).s).all fun d => match nameUnwrap d with | .ok _ => true | _ => false

set_option maxRecDepth 100000 in
theorem deepParsed_all : ∀ k < 257, deepParsed k = true := by decide +kernel

end Ariadne.Props
