import Verif.Model.Net

/-! # Specification of request classification -/

namespace Ariadne.Spec

/-- What a request of these octets counts as: the message if it decodes, else header and error if the header decodes,
else the two errors. -/
inductive Classified (p : Profile) (bytes : List UInt8) : ReadResult → Prop
  | full {m : Message} : Message.decodeFromBytes p bytes = .ok m → Classified p bytes (.fullMessage m)
  | header {h : Header} {e : MessageErr} : Message.decodeFromBytes p bytes = .err e →
      Header.decodeFromBytes bytes = .ok h → Classified p bytes (.headerOnly h e)
  | none {e : MessageErr} {eh : ParsingErr} : Message.decodeFromBytes p bytes = .err e →
      Header.decodeFromBytes bytes = .err eh → Classified p bytes (.parseErr e eh)

end Ariadne.Spec
