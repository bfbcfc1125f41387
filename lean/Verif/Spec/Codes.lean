import Verif.Model.Codes

/-!
# RFC 1035 code tables (3.2.2 TYPE, 3.2.3 QTYPE, 3.2.4 CLASS, 3.2.5 QCLASS, 4.1.1 OPCODE, RCODE)
-/

namespace Ariadne.Spec

/-- RFC 1035 3.2.2, 3.2.3: value, number, mnemonic. -/
def rfcTypes : List (RecordType × Nat × String) :=
  [(.A, 1, "A"), (.NS, 2, "NS"), (.MD, 3, "MD"), (.MF, 4, "MF"), (.CNAME, 5, "CNAME"), (.SOA, 6, "SOA"), (.MB, 7, "MB"),
   (.MG, 8, "MG"), (.MR, 9, "MR"), (.NULL, 10, "NULL"), (.WKS, 11, "WKS"), (.PTR, 12, "PTR"), (.HINFO, 13, "HINFO"),
   (.MINFO, 14, "MINFO"), (.MX, 15, "MX"), (.TXT, 16, "TXT"), (.AXFR, 252, "AXFR"), (.MAILB, 253, "MAILB"),
   (.MAILA, 254, "MAILA"), (.WC, 255, "*")]

/-- RFC 1035 3.2.4, 3.2.5. -/
def rfcClasses : List (Class × Nat × String) :=
  [(.IN, 1, "IN"), (.CS, 2, "CS"), (.CH, 3, "CH"), (.HS, 4, "HS"), (.WC, 255, "*")]

/-- RFC 1035 4.1.1 OPCODE. -/
def rfcOpCodes : List (OpCode × Nat) := [(.STD, 0), (.INV, 1), (.STS, 2)]

/-- RFC 1035 4.1.1 RCODE. -/
def rfcRespCodes : List (RespCode × Nat) :=
  [(.NoError, 0), (.FormErr, 1), (.ServFail, 2), (.NxDomain, 3), (.NotImp, 4), (.Refused, 5)]

/-- The record types this library implements. -/
def implementedTypes : List RecordType := [.A, .NS, .CNAME, .SOA, .WKS, .PTR, .HINFO, .MX, .TXT]

end Ariadne.Spec
