import Verif.Lemmas.Zone

/-!
# C35: the zone store
-/

namespace Ariadne.Props

open Spec

/-- C35. After any history of insertions and merges, in both build profiles: a lookup by owner and type returns exactly
the inserted records with this owner and type, in order of insertion, or nothing if there are none (and never panics);
the records of a type are exactly the inserted ones of this type, as often as they were inserted. The orders in which
merges and the last call iterate over the maps do not matter. -/
theorem C35_zone_store (h : History) (p : Profile) (o : HashOrder) :
    (∀ node kind, (h.store.get p node kind : Out ParsingErr _) =
      .ok (if recordsAt h.log node kind = [] then none else some (recordsAt h.log node kind))) ∧
    (∀ kind, (h.store.getAllOfType o kind).Perm (h.log.filter fun r => r.recordType == kind)) :=
  ⟨fun node kind => (holds_history h).get p node kind, fun kind => (holds_history h).all_perm o kind⟩

/-- Iteration backwards. -/
def backwards : HashOrder := ⟨List.reverse, List.reverse, List.reverse_perm, List.reverse_perm⟩

def aRecord (name : String) (last : UInt8) : Record :=
  { node := ⟨name.toList⟩, cls := .IN, ttl := 60, dataLen := 0, data := .A ⟨10, 0, 0, last⟩ }

def nsRecord (name target : String) : Record :=
  { node := ⟨name.toList⟩, cls := .IN, ttl := 60, dataLen := 0, data := .NS ⟨target.toList⟩ }

/-- A store with an included one, visited backwards. -/
def sampleHistory : History :=
  .insert (.extend (.insert (.new ⟨"e.".toList⟩) (aRecord "a.e." 1))
    (.insert (.insert (.insert (.new ⟨"e.".toList⟩) (aRecord "a.e." 2)) (nsRecord "e." "a.e.")) (aRecord "a.e." 3))
    backwards) (aRecord "a.e." 4)

example : (sampleHistory.store.get .debug ⟨"a.e.".toList⟩ .A : Out ParsingErr _) =
    .ok (some [aRecord "a.e." 1, aRecord "a.e." 2, aRecord "a.e." 3, aRecord "a.e." 4]) := by decide +kernel

example : sampleHistory.store.getAllOfType backwards .NS = [nsRecord "e." "a.e."] := by decide +kernel

end Ariadne.Props
