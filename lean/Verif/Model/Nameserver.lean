import Verif.Model.Net
import Verif.Model.Zone

/-!
# Name server – models src/nameserver/handler.rs

Logging is dropped. The handler gives the message it passes to `DnsWrite::reply`, if any: on every path of the code there
is at most one such call, and it is the last thing done (`reply`, 220-228, only logs the result).
-/

namespace Ariadne

namespace Nameserver

/-- handler.rs:232-241 `resp_header_from_req_header`. -/
def respHeader (h : Header) (code : RespCode) : Header :=
  { h with queryResp := true, authAnswer := false, recursionAvailable := false, z := 0, respCode := code }

/-- handler.rs:244-263 `validate_dns_request`; `none` is an error, its text is dropped. -/
def validate (m : Message) : Option Question :=
  if !m.header.isRequest then none
  else if m.header.answersCount ≠ 0 then none
  else if m.header.authoritiesCount ≠ 0 then none
  else match m.questions with
    | [question] => some question
    | _ => none

/-- handler.rs:202-217 `handle_err`. -/
def errReply (req : Message) (code : RespCode) : Message :=
  { header := { respHeader req.header code with
      authAnswer := true, answersCount := 0, authoritiesCount := 0, additionalsCount := 0 }
    questions := req.questions, answers := [], authorities := [], additionals := [] }

/-- handler.rs:181-198 `handle_nx_err`. -/
def nxReply (req : Message) (soa : Record) : Out Empty Message :=
  if soa.recordType ≠ .SOA then .panic .assert
  else .ok
    { header := { respHeader req.header .NxDomain with
        authAnswer := true, answersCount := 0, authoritiesCount := 1, additionalsCount := 0 }
      questions := req.questions, answers := [], authorities := [soa], additionals := [] }

/-- handler.rs:159-177 `handle_decode_err`. -/
def decodeErrReply (h : Header) (e : MessageErr) : Message :=
  let code : RespCode := match e.innerErr with
    | .unsupportedOpCode _ => .NotImp
    | .unsupportedClass _ => .NotImp
    | .unsupportedType _ => .NotImp
    | _ => .FormErr
  { header := respHeader h code, questions := [], answers := [], authorities := [], additionals := [] }

/-- handler.rs:97-110: the reply with the records found. -/
def answerReply (req : Message) (records : List Record) : Message :=
  { header := { respHeader req.header .NoError with
      authAnswer := true, questionsCount := 1, answersCount := UInt16.ofNat records.length,
      authoritiesCount := 0, additionalsCount := 0 }
    questions := req.questions, answers := records, authorities := [], additionals := [] }

/-- handler.rs:75-110 `handle_auth_zone`, for the question `q` (`request.questions[0]`). -/
def authZone (p : Profile) (req : Message) (q : Question) (z : Zone) : Out Empty Message := do
  let searched ← z.get p q.node q.recordType
  let searched := searched.getD []
  if searched.isEmpty then do
    let cname ← z.get p q.node .CNAME
    match cname with
    | some cname => .ok (answerReply req cname)
    | none => do
      let soaRecords ← z.get p z.zone .SOA
      match soaRecords with
      | none => .panic .unwrap
      | some [] => .panic .unwrap
      | some (soa :: _) => nxReply req soa
  else .ok (answerReply req searched)

/-- handler.rs:144-155 `search_a_additionals_for_subzone_ns`. -/
def glue (p : Profile) (nsName : Name) : List Zone → Out Empty (List Record)
  | [] => .ok []
  | z :: zs =>
    if nsName.isInZone z.zone then do
      let rs ← z.get p nsName .A
      let more ← glue p nsName zs
      .ok (rs.getD [] ++ more)
    else glue p nsName zs

/-- handler.rs:118-125: the glue records of all name servers. -/
def allGlue (p : Profile) (subZones : List Zone) : List Record → Out Empty (List Record)
  | [] => .ok []
  | r :: rs =>
    match r.data with
    | .NS name => do
      let g ← glue p name subZones
      let more ← allGlue p subZones rs
      .ok (g ++ more)
    | _ => .panic .explicit  -- records.rs:300-305 `ns_data`

/-- handler.rs:114-142 `handle_subzone`. -/
def referral (p : Profile) (req : Message) (sub : Zone) (zones : ManagedZone) : Out Empty Message := do
  let nsRecords ← sub.get p sub.zone .NS
  match nsRecords with
  | none => .panic .unwrap
  | some authorities =>
    if authorities.length = 0 then .panic .assert
    else do
      let additionals ← allGlue p zones.subZones authorities
      .ok
        { header := { respHeader req.header .NoError with
            authAnswer := false, questionsCount := 1, answersCount := 0,
            authoritiesCount := UInt16.ofNat authorities.length, additionalsCount := UInt16.ofNat additionals.length }
          questions := req.questions, answers := [], authorities := authorities, additionals := additionals }

/-- handler.rs:54-71 `handle_query`. -/
def query (p : Profile) (req : Message) (q : Question) (zones : ManagedZone) : Out Empty Message :=
  if !q.node.isInZone zones.authZone.zone then .ok (errReply req .Refused)
  else match zones.subZones.find? fun sub => q.node.isInZone sub.zone with
    | some sub => referral p req sub zones
    | none => authZone p req q zones.authZone

/-- handler.rs:15-49 `handle_dns_request`. -/
def handle (p : Profile) (zones : ManagedZone) (read : ReadResult) : Out Empty (Option Message) :=
  match read with
  | .fullMessage req =>
    match validate req with
    | none => .ok (some (errReply req .FormErr))
    | some q => do
      let m ← query p req q zones
      .ok (some m)
  | .headerOnly h e => .ok (some (decodeErrReply h e))
  | .parseErr _ _ => .ok none
  | .ioErr => .ok none

/-- handler.rs:9-13 with udp_server.rs:88-112: serving one UDP datagram. The datagrams sent, and whether `reply` returned
`Ok`. -/
def serveUdp (p : Profile) (zones : ManagedZone) (datagram : List UInt8) (sends : List (Option Nat)) :
    Out Empty (List (List UInt8) × Bool) := do
  let read ← Net.udpRead p datagram
  let reply ← handle p zones read
  match reply with
  | none => .ok ([], true)
  | some m => Net.udpReply m sends

/-- handler.rs:9-13 with tcp_server.rs: serving one TCP connection (one request each). The bytes sent. -/
def serveTcp (p : Profile) (zones : ManagedZone) (stream : List UInt8) (room : Nat) : Out Empty (List UInt8 × Bool) := do
  let (read, _) ← Net.tcpRead p stream
  let reply ← handle p zones read
  match reply with
  | none => .ok ([], true)
  | some m => Net.tcpReply m room

end Nameserver

end Ariadne
