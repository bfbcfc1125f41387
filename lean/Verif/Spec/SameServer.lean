import Verif.Model.Nameserver
import Verif.Model.ZoneParser

/-! # Specification vocabulary: servers that cannot be told apart -/

namespace Ariadne.Spec

open ZoneParser

/-- Two name servers that no client can tell apart: whatever bytes they get and however the socket takes the reply, they do the same. -/
def SameServer (p : Profile) (zones zones' : ManagedZone) : Prop :=
  (∀ datagram sends, Nameserver.serveUdp p zones datagram sends = Nameserver.serveUdp p zones' datagram sends) ∧
    ∀ stream room, Nameserver.serveTcp p zones stream room = Nameserver.serveTcp p zones' stream room

/-- Two attempts to load the zones with the same outcome. -/
inductive SameStart (p : Profile) : Out ParseErr ManagedZone → Out ParseErr ManagedZone → Prop
  | serves {zones zones' : ManagedZone} : SameServer p zones zones' → SameStart p (.ok zones) (.ok zones')
  | refuses (e e' : ParseErr) : SameStart p (.err e) (.err e')
  | panics (k : Panic) : SameStart p (.panic k) (.panic k)
  | hangs : SameStart p .diverge .diverge

end Ariadne.Spec
