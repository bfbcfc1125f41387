import Verif.Model.ZoneParser
import Verif.Model.Resolver

/-!
# Configurations and start-up – models src/nameserver/conf.rs, src/resolver/conf.rs, and the parts of src/bin/*.rs,
src/shared/net/{udp_server,tcp_server}.rs and src/shared/thread_pool.rs that use them

Not modelled: reading the file and serde's JSON decoder (`Conf::from_file` up to `validate`), the log level and the trace
flags, whether `bind` succeeds. `IpAddr::from_str` (std) is the parameter `isIp`. Time-outs are whole seconds.
-/

namespace Ariadne.Conf

/-- conf.rs:16-22 (both) `struct UdpServerConf`. -/
structure Udp where
  address : Str
  port : UInt16
  writeTimeout : UInt64
  threads : Nat

/-- conf.rs:24-31 (both) `struct TcpServerConf`. -/
structure Tcp where
  address : Str
  port : UInt16
  readTimeout : UInt64
  writeTimeout : UInt64
  threads : Nat

/-- nameserver/conf.rs:41-47 `struct SubZoneConf`. -/
structure SubZone where
  startingTtl : UInt32
  minTtl : UInt32
  zone : Str
  file : Str

/-- nameserver/conf.rs:33-39 `struct ZoneConf`. -/
structure Zone where
  startingTtl : UInt32
  zone : Str
  file : Str
  subZones : List SubZone

/-- nameserver/conf.rs:8-14 `struct Conf`. -/
structure NsConf where
  udp : Udp
  tcp : Tcp
  zone : Zone

/-- resolver/conf.rs:33-48 `struct ResolverConf`, `struct CacheConf`. -/
structure ResolverPart where
  maxNsQueried : Nat
  maxNsRetries : Nat
  maxCnameRedir : Nat
  readTimeout : UInt64
  writeTimeout : UInt64
  cleanPeriod : UInt64
  entriesCleaned : UInt64

/-- resolver/conf.rs:8-14 `struct Conf`. -/
structure ResConf where
  udp : Udp
  tcp : Tcp
  resolver : ResolverPart

/-- The messages of `validate` (a `String` in the code). -/
inductive Complaint
  | udpAddress | udpWriteTimeout | udpThreads | tcpAddress | tcpWriteTimeout | tcpThreads
  | zoneName | subZoneName | maxNsQueried | maxNsRetries | maxCnameRedir | resolverTimeouts | cleanPeriod | entriesCleaned
  deriving DecidableEq, Repr

/-- nameserver/conf.rs:68-88 and resolver/conf.rs:78-97, the same code. -/
def validateServers (isIp : Str → Bool) (udp : Udp) (tcp : Tcp) : Out Complaint Unit :=
  if !isIp udp.address then .err .udpAddress
  else if udp.writeTimeout == 0 then .err .udpWriteTimeout
  else if udp.threads == 0 then .err .udpThreads
  else if !isIp tcp.address then .err .tcpAddress
  else if tcp.writeTimeout == 0 then .err .tcpWriteTimeout
  else if tcp.threads == 0 then .err .tcpThreads
  else .ok ()

/-- nameserver/conf.rs:94-98: the loop over the sub zones. -/
def validateSubZones : List SubZone → Out Complaint Unit
  | [] => .ok ()
  | c :: cs =>
    match (Name.fromString c.zone : Out NameErr Name) with
    | .ok _ => validateSubZones cs
    | .err _ => .err .subZoneName
    | .panic k => .panic k
    | .diverge => .diverge

/-- nameserver/conf.rs:66-101 `Conf::validate`. -/
def NsConf.validate (isIp : Str → Bool) (c : NsConf) : Out Complaint Unit := do
  validateServers isIp c.udp c.tcp
  match (Name.fromString c.zone.zone : Out NameErr Name) with
  | .ok _ => validateSubZones c.zone.subZones
  | .err _ => .err .zoneName
  | .panic k => .panic k
  | .diverge => .diverge

/-- resolver/conf.rs:99-121. -/
def ResolverPart.validate (r : ResolverPart) : Out Complaint Unit :=
  if r.maxNsQueried == 0 then .err .maxNsQueried
  else if r.maxNsRetries == 0 then .err .maxNsRetries
  else if r.maxCnameRedir == 0 then .err .maxCnameRedir
  else if r.readTimeout == 0 || r.writeTimeout == 0 then .err .resolverTimeouts
  else if r.cleanPeriod == 0 then .err .cleanPeriod
  else if r.entriesCleaned == 0 then .err .entriesCleaned
  else .ok ()

/-- resolver/conf.rs:76-124 `Conf::validate`. -/
def ResConf.validate (isIp : Str → Bool) (c : ResConf) : Out Complaint Unit := do
  validateServers isIp c.udp c.tcp
  c.resolver.validate

/-! ## Use -/

/-- `Name::from_string(..).unwrap()`. -/
def nameUnwrap (s : Str) : Out Empty Name :=
  match (Name.fromString s : Out NameErr Name) with
  | .ok n => .ok n
  | .err _ => .panic .unwrap
  | .panic k => .panic k
  | .diverge => .diverge

/-- bin/nameserver.rs:63-72: the closure mapped over the sub zones, and `collect`. -/
def processSubZones : List SubZone → Out Empty (List ZoneParser.SubParams)
  | [] => .ok []
  | c :: cs => do
    let zone ← nameUnwrap c.zone
    let rest ← processSubZones cs
    .ok (⟨c.file, zone, c.startingTtl, c.minTtl⟩ :: rest)

/-- bin/nameserver.rs:62-80 `process_zones_confs`. -/
def processZones (c : Zone) : Out Empty ZoneParser.Params := do
  let subs ← processSubZones c.subZones
  let zone ← nameUnwrap c.zone
  .ok ⟨c.file, zone, c.startingTtl, subs⟩

/-- bin/resolver.rs:39-46: the parameters of lookups. -/
def ResConf.params (c : ResConf) : Resolver.Params :=
  ⟨c.resolver.maxNsQueried, c.resolver.maxNsRetries, c.resolver.maxCnameRedir, false⟩

/-- thread_pool.rs:18-34 `ThreadPool::new`: the number of workers started. Running out of memory or threads is not modelled. -/
def poolNew (size : Nat) : Out Empty Nat := if size > 0 then .ok size else .panic .assert

/-- `set_read_timeout(Some(d))`, `set_write_timeout(Some(d))` (std): an error for the zero duration. -/
def setTimeout (d : UInt64) : Bool := d != 0

/-- udp_server.rs:59-73, 116-121: starting the UDP server. `false`: it logs an error and exits. -/
def startUdp (c : Udp) : Out Empty Bool := do
  let _ ← poolNew c.threads
  .ok (setTimeout c.writeTimeout)

/-- tcp_server.rs:68-81: starting the TCP server. -/
def startTcp (c : Tcp) : Out Empty Bool := do
  let _ ← poolNew c.threads
  .ok true

/-- tcp_server.rs:122-129 `setup_connection`: whether a connection is served at all; otherwise tcp_server.rs:107-110 drops
it. -/
def setupConnection (c : Tcp) : Bool := setTimeout c.readTimeout && setTimeout c.writeTimeout

/-- requests.rs:273-274 in `send_udp_packet`: whether the socket of a lookup can be set up. -/
def setupQuery (c : ResConf) : Bool := setTimeout c.resolver.readTimeout && setTimeout c.resolver.writeTimeout

end Ariadne.Conf
