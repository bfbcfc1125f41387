import Mathlib.Data.List.Forall2
import Verif.Spec.Zone
import Verif.Spec.Nameserver

/-!
# Specification: the reply to a question, from the records of the zone and its sub zones
-/

namespace Ariadne.Spec

/-- A reply to `req` with this code, authority bit and these records: the identification, the kind of query and the other bits of the
request, its question, the counts of the records (modulo 2^16). -/
def replyWith (req : Message) (code : RespCode) (aa : Bool) (answers authorities additionals : List Record) : Message :=
  { header := { req.header with
      queryResp := true, authAnswer := aa, recursionAvailable := false, z := 0, respCode := code, questionsCount := 1,
      answersCount := UInt16.ofNat answers.length, authoritiesCount := UInt16.ofNat authorities.length,
      additionalsCount := UInt16.ofNat additionals.length }
    questions := req.questions, answers := answers, authorities := authorities, additionals := additionals }

open Classical in
/-- The addresses of a name server in the sub zones that contain it. -/
noncomputable def addressesIn (subs : List (Name × List Record)) (ns : Name) : List Record :=
  subs.flatMap fun s => if Within ns s.1 then recordsAt s.2 ns .A else []

/-- The addresses of the targets of these NS records. -/
noncomputable def serverAddresses (subs : List (Name × List Record)) (nss : List Record) : List Record :=
  nss.flatMap fun r => match r.data with
    | .NS n => addressesIn subs n
    | _ => []

open Classical in
/-- The reply to the request `req` with the question `q`, if the zone has the SOA record `soa` and the further records `rs`, and the sub
zones have these names and records. -/
noncomputable def expectedReply (zone : Name) (soa : Record) (rs : List Record) (subs : List (Name × List Record)) (req : Message)
    (q : Question) : Message :=
  if ¬ Within q.node zone then replyWith req .Refused true [] [] []
  else match subs.find? fun s => decide (Within q.node s.1) with
    | some s => replyWith req .NoError false [] (recordsAt s.2 s.1 .NS) (serverAddresses subs (recordsAt s.2 s.1 .NS))
    | none =>
      if recordsAt (rs ++ [soa]) q.node q.recordType ≠ [] then
        replyWith req .NoError true (recordsAt (rs ++ [soa]) q.node q.recordType) [] []
      else if recordsAt rs q.node .CNAME ≠ [] then replyWith req .NoError true (recordsAt rs q.node .CNAME) [] []
      else replyWith req .NxDomain true [] [soa] []

/-- Two zones with their sub zones have the same records for `node`, in the same order for each type, and their sub zones have the same
names and, for each name and type, the same records in the same order. -/
structure SameFor (node : Name) (rs rs' : List Record) (subs subs' : List (Name × List Record)) : Prop where
  own : ∀ kind, recordsAt rs node kind = recordsAt rs' node kind
  sub : List.Forall₂ (fun s s' => s.1 = s'.1 ∧ ∀ n kind, recordsAt s.2 n kind = recordsAt s'.2 n kind) subs subs'

end Ariadne.Spec
