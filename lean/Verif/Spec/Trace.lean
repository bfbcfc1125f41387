import Verif.Model.Trace

/-! # Vocabulary for traces -/

namespace Ariadne.Spec

open Resolver

/-- What a trace and the history of a lookup have in common. -/
inductive Step
  /-- The resolution of a name starts. -/
  | start (node : Name) (kind : RecordType)
  /-- A server of a zone is asked. -/
  | ask (node : Name) (kind : RecordType) (server zone : Name)
  deriving DecidableEq, Repr

/-- The steps in the history. -/
def stepsOf : List Event → List Step
  | [] => []
  | .start _ _ node kind :: es => .start node kind :: stepsOf es
  | .contact _ ns node kind :: es =>
    match ns.nsRecord.data with
    | .NS server => .ask node kind server ns.nsRecord.node :: stepsOf es
    | _ => stepsOf es
  | .exchange _ _ _ :: es => stepsOf es
  | .saved _ _ _ :: es => stepsOf es

mutual

/-- The steps told by a line of a trace. -/
def toldBy : TraceLine → List Step
  | .resolutionStart node kind => [.start node kind]
  | .nameserverStart node kind server zone => [.ask node kind server zone]
  | .subResolution lines => told lines
  | _ => []

/-- The steps told by a trace, in the order of its lines; those of a trace within it are where that is. -/
def told : List TraceLine → List Step
  | [] => []
  | l :: ls => toldBy l ++ told ls

end

/-- A trace in which every request to a server is directly followed by its outcome: the filtered response or the error,
after the unfiltered response, if there is one and `verbose` says that it is wanted; and there are no other outcomes. -/
inductive Paired (verbose : Bool) : List TraceLine → Prop
  | nil : Paired verbose []
  | start {n k ls} : Paired verbose ls → Paired verbose (.resolutionStart n k :: ls)
  | hit {n k rs ls} : Paired verbose ls → Paired verbose (.cacheHit n k rs :: ls)
  | miss {n k ls} : Paired verbose ls → Paired verbose (.cacheMiss n k :: ls)
  | nsHit {n rs ls} : Paired verbose ls → Paired verbose (.cacheNsHit n rs :: ls)
  | nsMiss {n ls} : Paired verbose ls → Paired verbose (.cacheNsMiss n :: ls)
  | sub {l ls} : Paired verbose l → Paired verbose ls → Paired verbose (.subResolution l :: ls)
  | lost {n k s z e ls} : Paired verbose ls → Paired verbose (.nameserverStart n k s z :: .nameserverErr e :: ls)
  | failed {n k s z m e ls} : Paired verbose ls →
      Paired verbose (.nameserverStart n k s z :: ((if verbose then [.rawResp m] else []) ++ .nameserverErr e :: ls))
  | answered {n k s z m r ls} : Paired verbose ls →
      Paired verbose (.nameserverStart n k s z :: ((if verbose then [.rawResp m] else []) ++ .nameserverResp r :: ls))

mutual

/-- A line that tells nothing: another trace that tells nothing. -/
def HollowLine : TraceLine → Prop
  | .subResolution lines => Hollow lines
  | _ => False

/-- A trace that tells nothing: it has no lines but traces that tell nothing. -/
def Hollow : List TraceLine → Prop
  | [] => True
  | l :: ls => HollowLine l ∧ Hollow ls

end

/-- A lookup was started on behalf of another one. -/
def Delegated (log : List Event) : Prop := ∃ zs nf node kind, .start zs nf node kind ∈ log ∧ zs ≠ []

mutual

/-- How deep traces are nested in a line. -/
def lineDepth : TraceLine → Nat
  | .subResolution lines => depth lines + 1
  | _ => 0

/-- How deep traces are nested in a trace. -/
def depth : List TraceLine → Nat
  | [] => 0
  | l :: ls => max (lineDepth l) (depth ls)

end

mutual

/-- What is to be shown of a line within `d` other traces: the line, at indentation `d`, and for another trace all it
contains and an empty line. -/
def shownLine (d : Nat) : TraceLine → List (Nat × Option TraceLine)
  | .subResolution lines => shown (d + 1) lines ++ [(0, none)]
  | l => [(d, some l)]

/-- What is to be shown of a trace. -/
def shown (d : Nat) : List TraceLine → List (Nat × Option TraceLine)
  | [] => []
  | l :: ls => shownLine d l ++ shown d ls

end

end Ariadne.Spec
