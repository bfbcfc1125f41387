import Verif.Model.Net
import Verif.Model.Cache

/-!
# The recursive resolver – models src/resolver/back_end/{recursive,requests,utils,errors}.rs

The world around a lookup is arbitrary (`Env`): what servers (or anybody else who can send datagrams to the socket) answer,
what the clock shows, which random ids are drawn, and what the other threads do to the shared cache between any two accesses.
Tracing (trace.rs) and the texts of errors are dropped. Rust's `?` and `match` on results are `bind` and `attempt`.
-/

namespace Ariadne

namespace Resolver

/-- errors.rs:10-24 `LookupErr`. Texts and `io::Error`s are dropped, as is the context of `LookupErrCtx` (errors.rs:5). -/
inductive LookupErr
  | io
  | unexpectedRespCode (code : RespCode)
  | unexpectedEmptyResp
  | malformedResp
  | zonesLoop
  | cnamesLoop
  | unexpectedCname
  | maxCnameRedir
  | subLookupErr (err : LookupErr)
  deriving DecidableEq, Repr

/-- recursive.rs:13-20 `ResolverParams`. The time-outs are dropped: whether an answer comes in time is up to `Env.net`. -/
structure Params where
  maxNsQueried : Nat
  maxUdpRetries : Nat
  maxCnameRedir : Nat
  noFollowCname : Bool
  deriving DecidableEq, Repr

/-- requests.rs:48-51 `NextSubzoneNs`. -/
structure NextNs where
  nsRecord : Record
  aRecords : List Record
  deriving DecidableEq, Repr

/-- recursive.rs:45 `RecordsCache`. -/
abbrev RecordsCache := Cache (Name × RecordType) (List Record)

/-- What a lookup does that can be seen from outside (the rest of the state is in the cache). -/
inductive Event
  /-- A lookup (or, after a CNAME, the next round of it) starts; `zones` are those whose name servers are being looked up. -/
  | start (zones : List Name) (noFollowCname : Bool) (node : Name) (kind : RecordType)
  /-- `perform_request` is called for this server. -/
  | contact (zones : List Name) (ns : NextNs) (node : Name) (kind : RecordType)
  /-- A query is sent to port 53 of `addr`; the answer is a datagram or none. -/
  | exchange (addr : Ip4) (query : List UInt8) (reply : Option (List UInt8))
  /-- Records are put into the cache. -/
  | saved (node : Name) (kind : RecordType) (records : List Record)
  deriving DecidableEq, Repr

/-- The environment of a lookup. -/
structure Env where
  /-- The clock, at every step. -/
  clock : Nat → Nat
  /-- `Instant` does not go back. -/
  mono : ∀ i j, i ≤ j → clock i ≤ clock j
  /-- What the other threads have done to the cache since the last access, at every step. -/
  others : Nat → RecordsCache → RecordsCache
  /-- The random ids. -/
  ids : Nat → UInt16
  /-- The first datagram received on the socket, if any, depending on all that happened before. -/
  net : List Event → Ip4 → List UInt8 → Option (List UInt8)

/-- The state of the world as far as the lookup knows or changes it. -/
structure World where
  cache : RecordsCache
  /-- Steps made. -/
  ticks : Nat
  /-- Everything done so far, oldest first. -/
  log : List Event
  deriving DecidableEq

/-- Computations of the resolver. -/
def M (α : Type) : Type := World → Out LookupErr α × World

namespace M

/-- Return. -/
@[inline] protected def pure {α : Type} (a : α) : M α := fun w => (.ok a, w)

/-- Sequencing; errors (`?`) and panics skip the rest. -/
@[inline] protected def bind {α β : Type} (m : M α) (f : α → M β) : M β := fun w =>
  match m w with
  | (.ok a, w') => f a w'
  | (.err e, w') => (.err e, w')
  | (.panic k, w') => (.panic k, w')
  | (.diverge, w') => (.diverge, w')

instance : Monad M where
  pure := M.pure
  bind := M.bind

/-- A pure computation. -/
def lift {α : Type} (o : Out LookupErr α) : M α := fun w => (o, w)

/-- Return an error. -/
def throw {α : Type} (e : LookupErr) : M α := lift (.err e)

/-- Panic. -/
def panic {α : Type} (k : Panic) : M α := lift (.panic k)

/-- `match` on a `Result`: an error is a value. -/
def attempt {α : Type} (m : M α) : M (LookupErr ⊕ α) := fun w =>
  match m w with
  | (.ok a, w') => (.ok (.inr a), w')
  | (.err e, w') => (.ok (.inl e), w')
  | (.panic k, w') => (.panic k, w')
  | (.diverge, w') => (.diverge, w')

/-- Something observable happens. -/
def emit (e : Event) : M Unit := fun w => (.ok (), { w with log := w.log ++ [e] })

end M

/-! ## utils.rs -/

/-- utils.rs:8-22 `ROOT_SERVERS`. -/
def rootServers : List (String × Ip4) :=
  [("a.root-servers.net.", ⟨198, 41, 0, 4⟩), ("b.root-servers.net.", ⟨199, 9, 14, 201⟩), ("c.root-servers.net.", ⟨192, 33, 4, 12⟩),
   ("d.root-servers.net.", ⟨199, 7, 91, 13⟩), ("e.root-servers.net.", ⟨192, 203, 230, 10⟩), ("f.root-servers.net.", ⟨192, 5, 5, 241⟩),
   ("g.root-servers.net.", ⟨192, 112, 36, 4⟩), ("h.root-servers.net.", ⟨198, 97, 190, 53⟩), ("i.root-servers.net.", ⟨192, 36, 148, 17⟩),
   ("j.root-servers.net.", ⟨192, 58, 128, 30⟩), ("k.root-servers.net.", ⟨193, 0, 14, 129⟩), ("l.root-servers.net.", ⟨199, 7, 83, 42⟩),
   ("m.root-servers.net.", ⟨202, 12, 27, 33⟩)]

/-- utils.rs:25-45 `root_zone_nameservers`. The names are valid, so the `unwrap`s succeed (`rootServers_ok`). -/
def rootZoneNameservers : List NextNs :=
  rootServers.map fun s =>
    { nsRecord := { node := ⟨['.']⟩, cls := .IN, ttl := 100000, dataLen := 0, data := .NS ⟨s.1.toList⟩ }
      aRecords := [{ node := ⟨s.1.toList⟩, cls := .IN, ttl := 10000, dataLen := 0, data := .A s.2 }] }

/-- `Vec::swap_remove(i)`, the vector after it, for `i` in range. -/
def swapRemove {α : Type} (l : List α) (i : Nat) : List α :=
  match l.getLast? with
  | none => l
  | some x => (l.set i x).dropLast

/-- utils.rs:58-63, 76-81: the record searched for. -/
def isWanted (kind : RecordType) (node : Name) (r : Record) : Bool := r.node == node && r.recordType == kind

/-- utils.rs:49-73 `extract_records`, the loop: what is extracted and what is left. Every round but the last removes a
record: there are at most `records.length + 1`. -/
def extractLoop (kind : RecordType) (node : Name) : Nat → List Record → Nat → List Record → List Record × List Record
  | 0, records, _, found => (found, records)
  | fuel + 1, records, startFrom, found =>
    if startFrom ≥ records.length then (found, records)
    else match (records.drop startFrom).findIdx? (isWanted kind node) with
      | none => (found, records)
      | some i =>
        match records[i + startFrom]? with
        | none => (found, records)
        | some r => extractLoop kind node fuel (swapRemove records (i + startFrom)) (i + startFrom) (found ++ [r])

/-- utils.rs:49-73 `extract_records`. -/
def extractRecords (records : List Record) (kind : RecordType) (node : Name) : List Record × List Record :=
  extractLoop kind node (records.length + 1) records 0 []

/-- utils.rs:77-86 `extract_record`. -/
def extractRecord (records : List Record) (kind : RecordType) (node : Name) : Option Record × List Record :=
  match records.findIdx? (isWanted kind node) with
  | none => (none, records)
  | some i => (records[i]?, swapRemove records i)

/-- requests.rs:54-56 `NextSubzoneNs::node`. -/
def NextNs.node {ε : Type} (n : NextNs) : Out ε Name := n.nsRecord.nsData

/-- requests.rs:57-59 `NextSubzoneNs::zone`. -/
def NextNs.zone (n : NextNs) : Name := n.nsRecord.node

/-- The addresses of a list of records; `a_data` panics for records of other types. -/
def addrsOf {ε : Type} : List Record → Out ε (List Ip4)
  | [] => .ok []
  | r :: rs => do
    let a ← r.aData
    let as ← addrsOf rs
    .ok (a :: as)

/-- requests.rs:60-66 `NextSubzoneNs::addrs`. -/
def NextNs.addrs {ε : Type} (n : NextNs) : Out ε (List Ip4) := addrsOf n.aRecords

/-- utils.rs:90-94: the comparison (`Less` or `Equal`). -/
def nsLe (a b : NextNs) : Bool :=
  match !a.aRecords.isEmpty, !b.aRecords.isEmpty with
  | false, true => false
  | _, _ => true

/-- Insertion into a sorted list, before the first element that is not smaller. -/
def insertNs (n : NextNs) : List NextNs → List NextNs
  | [] => [n]
  | m :: ms => if nsLe n m then n :: m :: ms else m :: insertNs n ms

/-- utils.rs:89-95 `sort_nameservers`; `sort_by` is a stable sort, so its result is that of insertion sort. Simplification: `addrs()` is empty if and only if `a_records` is; that all of
these are A records (or `addrs` would panic) is checked where the addresses are used. -/
def sortNameservers (nss : List NextNs) : List NextNs := nss.foldr insertNs []

/-- utils.rs:99-107 `detect_cname_loops`. -/
def detectCnameLoops (target : Name) (previous : List Record) : Out LookupErr Unit :=
  if previous.any fun r => r.node == target then .err .cnamesLoop else .ok ()

/-- utils.rs:111-119 `detect_zones_loop`. -/
def detectZonesLoop (next : Name) (previous : List Name) : Out LookupErr Unit :=
  if previous.any fun z => z == next then .err .zonesLoop else .ok ()

/-! ## requests.rs -/

/-- requests.rs:25-44 `NsResponse`. The header is only used for tracing and dropped. -/
inductive NsResponse
  | noDomain (soa : Option Record)
  | answer (answers additionals : List Record)
  | alias (cname : Record) (nextNss : List NextNs)
  | delegation (nextNss : List NextNs)

/-- requests.rs:253-268 `build_dns_request`. -/
def buildDnsRequest (id : UInt16) (node : Name) (kind : RecordType) : Message :=
  { header := { Header.default id with questionsCount := 1 }
    questions := [{ node := node, recordType := kind, cls := .IN }], answers := [], authorities := [], additionals := [] }

/-- `str::ends_with` of one name's text with another's. -/
def endsWith (n suffix : Name) : Bool := suffix.s.isSuffixOf n.s

/-- requests.rs:128-141 and 147-174: pairs the NS records with the A records of their targets, which are taken out of the
additional section. -/
def pairWithAddrs (keep : NextNs → Out LookupErr Bool) : List Record → List Record → Out LookupErr (List NextNs)
  | [], _ => .ok []
  | r :: rs, additionals => do
    let target ← r.nsData
    let (addrs, additionals) := extractRecords additionals .A target
    let ns : NextNs := { nsRecord := r, aRecords := addrs }
    let k ← keep ns
    let rest ← pairWithAddrs keep rs additionals
    .ok (if k then ns :: rest else rest)

/-- requests.rs:127-142 `extract_next_nss_for_cname`. -/
def extractNextNssForCname (resp : Message) (cname : Name) : Out LookupErr (List NextNs) :=
  pairWithAddrs (fun _ => .ok true)
    (resp.authorities.filter fun r => r.recordType == .NS && endsWith cname r.node) resp.additionals

/-- requests.rs:180-186 `is_nameserver_authoritative_over_node`. -/
def isAuthoritativeOver (nsZone searched : Name) : Bool := endsWith searched nsZone

/-- requests.rs:192-198 `is_nameserver_authority_a_subzone`. -/
def isSubzone (nsZone currentZone : Name) : Bool := !decide (strLen nsZone.s ≤ strLen currentZone.s)

/-- requests.rs:203-209 `is_nameserver_in_subzone_without_glue`, negated as in line 168. -/
def hasGlueIfNeeded (ns : NextNs) : Out LookupErr Bool := do
  let n ← ns.node
  let addrs ← ns.addrs
  .ok (!(endsWith n ns.zone && addrs.isEmpty))

/-- requests.rs:146-175 `extract_next_nss_for_subzone`. -/
def extractNextNssForSubzone (resp : Message) (node zone : Name) : Out LookupErr (List NextNs) :=
  pairWithAddrs hasGlueIfNeeded
    (resp.authorities.filter fun r => r.recordType == .NS && (isAuthoritativeOver r.node node && isSubzone r.node zone))
    resp.additionals

/-- requests.rs:76-122: what `perform_request` makes of a response to the query for `node` and `kind` from a server of
`zone`. -/
def interpret (resp : Message) (node : Name) (kind : RecordType) (zone : Name) : Out LookupErr NsResponse :=
  match resp.header.respCode with
  | .NoError =>
    let (answers, others) := extractRecords resp.answers kind node
    if answers.length > 0 then .ok (.answer answers resp.additionals)
    else match extractRecord others .CNAME node with
      | (some cname, _) => do
        let target ← cname.cnameData
        let nextNss ← extractNextNssForCname resp target
        .ok (.alias cname nextNss)
      | (none, _) => do
        let nextNss ← extractNextNssForSubzone resp node zone
        if nextNss.length > 0 then .ok (.delegation nextNss) else .err .unexpectedEmptyResp
  | .NxDomain =>
    if resp.header.authAnswer then .ok (.noDomain (extractRecord resp.authorities .SOA node).1)
    else .err (.unexpectedRespCode .NxDomain)
  | code => .err (.unexpectedRespCode code)

section

variable (env : Env) (p : Profile)

/-- `Instant::now()`. -/
def now : M Nat := fun w => (.ok (env.clock w.ticks), { w with ticks := w.ticks + 1 })

/-- `rand::thread_rng().gen::<u16>()` (header.rs:29). -/
def randomId : M UInt16 := fun w => (.ok (env.ids w.ticks), { w with ticks := w.ticks + 1 })

/-- requests.rs:270-279 `send_udp_packet`: the bytes received, at most 512. Every I/O error is an absent reply. The address
from which the answer comes is not looked at. -/
def sendUdpPacket (ns : NextNs) (bytes : List UInt8) : M (List UInt8) := do
  let addrs ← M.lift ns.addrs
  match addrs.head? with
  | none => M.panic .unwrap
  | some addr => fun w =>
    match env.net w.log addr bytes with
    | none => (.err .io, { w with log := w.log ++ [.exchange addr bytes none] })
    | some reply => (.ok (reply.take Message.MAX_UDP_LEN_BYTES), { w with log := w.log ++ [.exchange addr bytes (some reply)] })

/-- `encode_to_bytes().unwrap()`. -/
def encodeUnwrap (m : Message) : Out LookupErr (List UInt8) :=
  match m.encodeToBytes with
  | .ok bytes => .ok bytes
  | .err _ => .panic .unwrap
  | .panic k => .panic k
  | .diverge => .diverge

/-- requests.rs:233-250: decoding of the response and the check of the id. -/
def acceptResponse (id : UInt16) (bytes : List UInt8) : Out LookupErr Message :=
  match Message.decodeFromBytes p bytes with
  | .ok resp => if resp.header.id ≠ id then .err .malformedResp else .ok resp
  | .err _ => .err .malformedResp
  | .panic k => .panic k
  | .diverge => .diverge

/-- requests.rs:228-251 `send_query`. -/
def sendQuery (ns : NextNs) (node : Name) (kind : RecordType) : M Message := do
  let id ← randomId env
  let bytes ← M.lift (encodeUnwrap (buildDnsRequest id node kind))
  let reply ← sendUdpPacket env ns bytes
  M.lift (acceptResponse p id reply)

/-- requests.rs:213-226 `send_query_with_retries`, from some round on; `retries` rounds are left, `err` is the last error. -/
def sendQueryWithRetries (ns : NextNs) (node : Name) (kind : RecordType) : Nat → Option LookupErr → M Message
  | 0, some e => M.throw e
  | 0, none => M.panic .unwrap
  | retries + 1, _ => do
    match ← M.attempt (sendQuery env p ns node kind) with
    | .inr resp => pure resp
    | .inl e => sendQueryWithRetries ns node kind retries (some e)

/-- requests.rs:72-123 `perform_request`. -/
def performRequest (ns : NextNs) (node : Name) (kind : RecordType) (retries : Nat) : M NsResponse := do
  let resp ← sendQueryWithRetries env p ns node kind retries none
  M.lift (interpret resp node kind ns.zone)

/-! ## recursive.rs: cache -/

/-- The lock of the cache is taken: other threads may have been there before. -/
def lockCache : M Unit := fun w => (.ok (), { w with cache := env.others w.ticks w.cache, ticks := w.ticks + 1 })

/-- Nanoseconds in a second. -/
def NANOS : Nat := 1000000000

/-- cache.rs:111-126. The clock is read even if there is no entry; this cannot be observed. -/
def getClone (node : Name) (kind : RecordType) : M (Option (Nat × List Record)) := do
  lockCache env
  let t ← now env
  fun w =>
    let r := w.cache.getClone (node, kind) t
    (.ok r.2, { w with cache := r.1 })

/-- recursive.rs:340-362: the checks and the correction of the TTLs. -/
def serveCached (before exp : Nat) (records : List Record) : Out LookupErr (List Record) :=
  match records with
  | [] => .ok []
  | r0 :: _ =>
    if !(records.all fun r => r.recordType == r0.recordType && r.ttl == r0.ttl) then .panic .assert
    else if exp ≤ before then .panic .assert
    else
      let ttl := (exp - before) / NANOS
      if ttl ≥ 2 ^ 32 then .panic .unwrap
      else .ok (records.map fun r => r.setTtl (UInt32.ofNat ttl))

/-- recursive.rs:337-363 `search_records_in_cache`. -/
def searchRecordsInCache (node : Name) (kind : RecordType) : M (List Record) := do
  let before ← now env
  let entry ← getClone env node kind
  match entry with
  | none => pure []
  | some (exp, records) => M.lift (serveCached before exp records)

/-- The smallest TTL. -/
def minTtl : UInt32 → List Record → UInt32
  | m, [] => m
  | m, r :: rs => minTtl (if r.ttl < m then r.ttl else m) rs

/-- recursive.rs:367-379 `save_records_in_cache`. -/
def saveRecordsInCache (records : List Record) : M Unit :=
  match records with
  | [] => M.panic .assert
  | r0 :: rs =>
    let ttl := minTtl r0.ttl rs
    if !(records.all fun r => r.recordType == r0.recordType) then M.panic .assert
    else do
      let saved := records.map fun r => r.setTtl ttl
      lockCache env
      let t ← now env
      let t' ← now env
      M.emit (.saved r0.node r0.recordType saved)
      fun w => (.ok (), { w with cache := (w.cache.set (r0.node, r0.recordType) (ttl.toNat * NANOS) saved t t').1 })

/-- recursive.rs:384-389: the A records of the servers. -/
def saveAddrs : List NextNs → M Unit
  | [] => pure ()
  | ns :: nss => do
    if ns.aRecords.length > 0 then saveRecordsInCache env ns.aRecords else pure ()
    saveAddrs nss

/-- recursive.rs:382-391 `save_nss_in_cache`. -/
def saveNssInCache (nss : List NextNs) : M Unit := do
  saveAddrs env nss
  saveRecordsInCache env (nss.map NextNs.nsRecord)

/-- recursive.rs:397-404: the suffixes after each dot but the last. -/
def hierTail : Str → List Str
  | [] => []
  | c :: rest => if c = '.' then (if rest = [] then [] else rest :: hierTail rest) else hierTail rest

/-- recursive.rs:395-406 `generate_domain_hierarchy`. -/
def generateDomainHierarchy (node : Str) : List Str := node :: hierTail node

/-- `Name::from_string(s).unwrap()`. -/
def nameUnwrap (s : Str) : Out LookupErr Name :=
  match Name.fromString s with
  | .ok n => .ok n
  | .err _ => .panic .unwrap
  | .panic k => .panic k
  | .diverge => .diverge

/-- recursive.rs:302-310: the first domain with NS records in the cache. -/
def findNsRecords : List Str → M (List Record)
  | [] => pure []
  | d :: ds => do
    let name ← M.lift (nameUnwrap d)
    let records ← searchRecordsInCache env name .NS
    if records.length > 0 then pure records else findNsRecords ds

/-- recursive.rs:320-326: the A records of the servers found. -/
def findAddrs : List Record → M (List NextNs)
  | [] => pure []
  | r :: rs => do
    let target ← M.lift r.nsData
    let addrs ← searchRecordsInCache env target .A
    let rest ← findAddrs rs
    pure ({ nsRecord := r, aRecords := addrs } :: rest)

/-- recursive.rs:300-331 `search_nss_in_cache_with_trace`. -/
def searchNssInCache (node : Name) : M (List NextNs) := do
  let records ← findNsRecords env (generateDomainHierarchy node.s)
  findAddrs env records

/-! ## recursive.rs: lookups -/

/-- recursive.rs:77-86 `Lookup`. The cache is in the `World`, `next_nss` is passed along. -/
structure Lookup where
  node : Name
  kind : RecordType
  previousZones : List Name
  previousCnames : List Record
  conf : Params

/-- recursive.rs:91-97 `LookupResponse`. -/
structure Response where
  answers : List Record
  authorities : List Record
  additionals : List Record
  noRecords : Bool
  deriving DecidableEq, Repr

/-- recursive.rs:168-179 `handle_cname`. -/
def handleCname (lk : Lookup) (cname : Record) : M Lookup := do
  let target ← M.lift cname.cnameData
  M.lift (detectCnameLoops target lk.previousCnames)
  if lk.conf.noFollowCname then M.throw .unexpectedCname
  else do
    saveRecordsInCache env [cname]
    pure { lk with node := target, previousCnames := lk.previousCnames ++ [cname] }

/-- recursive.rs:243-269 `resolve_ns_subquery`. `sub` performs the lookup of the name server. -/
def resolveNsSubquery (sub : Lookup → M Response) (lk : Lookup) (node zone : Name) : M (List Record) := do
  M.lift (detectZonesLoop zone lk.previousZones)
  let r ← sub { node := node, kind := .A, previousZones := lk.previousZones ++ [zone], previousCnames := [],
                conf := { lk.conf with noFollowCname := true } }
  pure (extractRecords r.answers .A node).1

/-- recursive.rs:193-203: the addresses of a server, looked up if there are none. -/
def resolveAddrs (sub : Lookup → M Response) (lk : Lookup) (ns : NextNs) : M NextNs := do
  let addrs ← M.lift ns.addrs
  if addrs.isEmpty then do
    let node ← M.lift ns.node
    match ← M.attempt (resolveNsSubquery sub lk node ns.zone) with
    | .inr records => pure { ns with aRecords := records }
    | .inl e => M.throw (.subLookupErr e)
  else pure ns

/-- recursive.rs:193-221: one server. -/
def tryServer (sub : Lookup → M Response) (lk : Lookup) (ns : NextNs) : M NsResponse := do
  let ns ← resolveAddrs sub lk ns
  M.emit (.contact lk.previousZones ns lk.node lk.kind)
  performRequest env p ns lk.node lk.kind lk.conf.maxUdpRetries

/-- recursive.rs:190-236: the servers in turn; `err` is the first error. -/
def tryServers (sub : Lookup → M Response) (lk : Lookup) : List NextNs → Option LookupErr → M NsResponse
  | [], some e => M.throw e
  | [], none => M.panic .unwrap
  | ns :: rest, err => do
    match ← M.attempt (tryServer env p sub lk ns) with
    | .inr r => pure r
    | .inl e => tryServers sub lk rest (some (err.getD e))

/-- recursive.rs:184-238 `query_nameservers_iteratively`; every round of `'next_zone` takes one unit of fuel. -/
def queryIteratively (sub : Lookup → M Response) (lk : Lookup) : Nat → List NextNs → M NsResponse
  | 0, _ => M.lift .diverge
  | fuel + 1, nss =>
    if nss.length = 0 then M.panic .assert
    else do
      let r ← tryServers env p sub lk ((sortNameservers nss).take lk.conf.maxNsQueried) none
      match r with
      | .delegation nextNss => do
        saveNssInCache env nextNss
        queryIteratively sub lk fuel nextNss
      | r => pure r

/-- recursive.rs:127-134: where to start. -/
def startingServers (lk : Lookup) (nss : List NextNs) : M (List NextNs) :=
  if nss.isEmpty then do
    let cached ← searchNssInCache env lk.node
    pure (if cached.isEmpty then rootZoneNameservers else cached)
  else pure nss

/-- recursive.rs:111-164 `perform_inner`, `rounds` rounds of the loop are left. `nss` is `next_nss`. -/
def performLoop (sub : Lookup → M Response) (fuel : Nat) : Nat → Lookup → List NextNs → M Response
  | 0, _, _ => M.throw .maxCnameRedir
  | rounds + 1, lk, nss => do
    M.emit (.start lk.previousZones lk.conf.noFollowCname lk.node lk.kind)
    let cachedAnswers ← searchRecordsInCache env lk.node lk.kind
    if cachedAnswers.length > 0 then
      pure { answers := lk.previousCnames ++ cachedAnswers, authorities := [], additionals := [], noRecords := false }
    else do
      let cachedCnames ← searchRecordsInCache env lk.node .CNAME
      match cachedCnames with
      | cname :: _ => do
        let lk ← handleCname env lk cname
        performLoop sub fuel rounds lk []
      | [] => do
        let nss ← startingServers env lk nss
        let r ← queryIteratively env p sub lk fuel nss
        match r with
        | .answer answers additionals => do
          saveRecordsInCache env answers
          pure { answers := lk.previousCnames ++ answers, authorities := [], additionals := additionals, noRecords := false }
        | .alias cname nextNss => do
          let lk ← handleCname env lk cname
          performLoop sub fuel rounds lk nextNss
        | .noDomain soa =>
          pure { answers := lk.previousCnames, authorities := soa.toList, additionals := [], noRecords := true }
        | .delegation _ => M.panic .explicit

/-- recursive.rs:103-106 `perform`. The fuel bounds the depth of nested lookups. -/
def perform : Nat → Lookup → M Response
  | 0, _ => M.lift .diverge
  | fuel + 1, lk => performLoop env p (perform fuel) fuel lk.conf.maxCnameRedir lk []

/-- recursive.rs:59-71 `new_lookup` followed by `perform`. -/
def lookup (conf : Params) (fuel : Nat) (node : Name) (kind : RecordType) : M Response :=
  perform env p fuel { node := node, kind := kind, previousZones := [], previousCnames := [], conf := conf }

end

/-! ## handler.rs -/

/-- handler.rs:139-148 `resp_header_from_req_header`. -/
def respHeader (h : Header) (code : RespCode) : Header :=
  { h with queryResp := true, authAnswer := false, recursionAvailable := true, z := 0, respCode := code }

/-- handler.rs:151-168 `validate_dns_request`. -/
def validate (m : Message) : Bool :=
  m.header.isRequest && m.header.questionsCount == 1 && m.header.answersCount == 0 && m.header.authoritiesCount == 0

/-- handler.rs:110-124 `handle_err`. -/
def errReply (req : Message) (code : RespCode) : Message :=
  { header := { respHeader req.header code with answersCount := 0, authoritiesCount := 0, additionalsCount := 0 }
    questions := req.questions, answers := [], authorities := [], additionals := [] }

/-- handler.rs:88-106 `handle_decode_err`. -/
def decodeErrReply (h : Header) (e : MessageErr) : Message :=
  let code : RespCode := match e.innerErr with
    | .unsupportedOpCode _ => .NotImp
    | .unsupportedClass _ => .NotImp
    | .unsupportedType _ => .NotImp
    | _ => .FormErr
  { header := respHeader h code, questions := [], answers := [], authorities := [], additionals := [] }

/-- handler.rs:54-82: the reply for the result of a lookup. -/
def resultReply (req : Message) (result : LookupErr ⊕ Response) : Message :=
  match result with
  | .inl _ => errReply req .ServFail
  | .inr r =>
    if r.noRecords then errReply req .NxDomain
    else
      { header := { respHeader req.header .NoError with
          answersCount := UInt16.ofNat r.answers.length, authoritiesCount := UInt16.ofNat r.authorities.length,
          additionalsCount := UInt16.ofNat r.additionals.length }
        questions := req.questions, answers := r.answers, authorities := r.authorities, additionals := r.additionals }

/-- handler.rs:14-83 `handle_request`, `handle_query`: the message passed to `DnsWrite::reply`, if any; there is at most one
such call, at the end. -/
def handle (env : Env) (p : Profile) (conf : Params) (fuel : Nat) (read : ReadResult) : M (Option Message) :=
  match read with
  | .fullMessage req =>
    if !validate req then pure (some (errReply req .FormErr))
    else match req.questions with
      | [] => M.panic .index
      | q :: _ => do
        let result ← M.attempt (lookup env p conf fuel q.node q.recordType)
        pure (some (resultReply req result))
  | .headerOnly h e => pure (some (decodeErrReply h e))
  | .parseErr _ _ => pure none
  | .ioErr => pure none

/-- A computation that cannot fail, among those that can. -/
def infallible {α : Type} (o : Out Empty α) : M α := M.lift (o.mapErr Empty.elim)

/-- handler.rs:7-11 with udp_server.rs:88-112: serving one UDP datagram. The datagrams sent, and whether `reply` returned
`Ok`. -/
def serveUdp (env : Env) (p : Profile) (conf : Params) (fuel : Nat) (datagram : List UInt8) (sends : List (Option Nat)) :
    M (List (List UInt8) × Bool) := do
  let read ← infallible (Net.udpRead p datagram)
  let reply ← handle env p conf fuel read
  match reply with
  | none => pure ([], true)
  | some m => infallible (Net.udpReply m sends)

/-- handler.rs:7-11 with tcp_server.rs: serving one TCP connection (one request each). The bytes sent. -/
def serveTcp (env : Env) (p : Profile) (conf : Params) (fuel : Nat) (stream : List UInt8) (room : Nat) :
    M (List UInt8 × Bool) := do
  let read ← infallible (Net.tcpRead p stream)
  let reply ← handle env p conf fuel read.1
  match reply with
  | none => pure ([], true)
  | some m => infallible (Net.tcpReply m room)

end Resolver

end Ariadne
