import Verif.Model.Resolver
import Verif.Spec.Wire
import Verif.Spec.Nameserver
import Verif.Spec.Together

/-! # What the framing of replies and the sizes of sections are about -/

namespace Ariadne.Spec

open Resolver

/-- The record, up to its TTL, was in a message of at most 512 octets. -/
def Received (p : Profile) (r : Record) : Prop :=
  ∃ bytes m r₀ t, bytes.length ≤ 512 ∧ Message.decodeFromBytes p bytes = .ok m ∧
    r₀ ∈ m.answers ++ m.authorities ++ m.additionals ∧ r = r₀.setTtl t

/-- Every entry holds at most 45 records, which have been received (45 is what fits in 512 octets). -/
def ReceivedCache (p : Profile) (c : RecordsCache) : Prop :=
  ∀ k e rs, c.find k = some (e, rs) → rs.length ≤ 45 ∧ ∀ r ∈ rs, Received p r

/-- The cache holds received records only, and the other threads keep it so. -/
structure OnlyReceived (env : Env) (p : Profile) (w : World) : Prop where
  cache : ReceivedCache p w.cache
  others : ∀ i c, ReceivedCache p c → ReceivedCache p (env.others i c)

/-- RFC 1035 4.2.2: nothing, or one message with its length in two octets before it. -/
def Framed (out : List UInt8) : Prop := out = [] ∨ ∃ body, body.length < 65536 ∧ out = be16 body.length ++ body

/-- The records fit in a message of 65535 octets beside the header and one question (of at most 260 octets). -/
def SmallSet (rs : List Record) : Prop := 12 + 260 + (rs.map recordSize).sum < 65536

instance (rs : List Record) : Decidable (SmallSet rs) := by unfold SmallSet; infer_instance

/-- Everything these zones have for one name and type, and every list of name servers with their addresses, is that small. -/
structure SmallAnswers (zones : ManagedZone) : Prop where
  sets : ∀ o n k, SmallSet (setAt o zones.authZone n k)
  referrals : ∀ o, ∀ sub ∈ zones.subZones,
    SmallSet (setAt o sub sub.zone .NS ++ glueFor o zones.subZones (setAt o sub sub.zone .NS))

end Ariadne.Spec
