import Verif.Model.Resolver

/-!
# Lookups in several threads – models src/resolver/handler.rs:49-52 (every request is served by a thread of the pool) and the use of the shared cache in src/resolver/back_end/{recursive,requests,cache}.rs

The functions of `Resolver` again, as sequences of steps between any two of which other threads can make theirs. Accesses to
the cache are single steps: they happen under the lock. That these are the same functions, seen by a single thread, is proved
(`lookupTask_is`).
-/

namespace Ariadne

namespace Resolver

/-- What a thread does next. -/
inductive Task (α : Type) : Type
  /-- It has finished. -/
  | done (o : Out LookupErr α)
  /-- Something observable happens. -/
  | emit (e : Event) (k : Task α)
  /-- The clock is read. -/
  | now (k : Nat → Task α)
  /-- A random number is drawn. -/
  | randomId (k : UInt16 → Task α)
  /-- A query is sent, and a datagram, or none, received (requests.rs:270-279). -/
  | send (addr : Ip4) (bytes : List UInt8) (k : Option (List UInt8) → Task α)
  /-- The cache is locked, and an entry got (cache.rs:111-126). -/
  | get (key : Name × RecordType) (k : Option (Nat × List Record) → Task α)
  /-- The cache is locked, and an entry set, with a TTL in seconds (cache.rs:69-81). -/
  | set (key : Name × RecordType) (ttl : UInt32) (records : List Record) (k : Task α)

namespace Task

variable {α β : Type}

/-- Sequencing; errors (`?`) and panics skip the rest. -/
protected def bind : Task α → (α → Task β) → Task β
  | done (.ok a), f => f a
  | done (.err e), _ => done (.err e)
  | done (.panic k), _ => done (.panic k)
  | done .diverge, _ => done .diverge
  | emit e k, f => emit e (k.bind f)
  | now k, f => now fun t => (k t).bind f
  | randomId k, f => randomId fun i => (k i).bind f
  | send addr bytes k, f => send addr bytes fun r => (k r).bind f
  | get key k, f => get key fun r => (k r).bind f
  | set key ttl records k, f => set key ttl records (k.bind f)

instance : Monad Task where
  pure a := done (.ok a)
  bind := Task.bind

/-- `match` on a `Result`: an error is a value. -/
def attempt : Task α → Task (LookupErr ⊕ α)
  | done (.ok a) => done (.ok (.inr a))
  | done (.err e) => done (.ok (.inl e))
  | done (.panic k) => done (.panic k)
  | done .diverge => done .diverge
  | emit e k => emit e k.attempt
  | now k => now fun t => (k t).attempt
  | randomId k => randomId fun i => (k i).attempt
  | send addr bytes k => send addr bytes fun r => (k r).attempt
  | get key k => get key fun r => (k r).attempt
  | set key ttl records k => set key ttl records k.attempt

end Task

/-- A request to serve: a UDP datagram and what the socket takes at each `send_to` of the reply (udp_server.rs:18-42, 76-104), or a
TCP connection, what the peer sends on it, and how many octets of the reply can be written (tcp_server.rs:18-50, 85-116). -/
inductive Job
  | udp (datagram : List UInt8) (sends : List (Option Nat))
  | tcp (stream : List UInt8) (room : Nat)

namespace Steps

open Task

variable (p : Profile)

/-- requests.rs:270-279 `send_udp_packet`. -/
def sendUdpPacket (ns : NextNs) (bytes : List UInt8) : Task (List UInt8) := do
  let addrs ← done ns.addrs
  match addrs.head? with
  | none => done (.panic .unwrap)
  | some addr => send addr bytes fun
    | none => done (.err .io)
    | some reply => done (.ok (reply.take Message.MAX_UDP_LEN_BYTES))

/-- requests.rs:228-251 `send_query`. -/
def sendQuery (ns : NextNs) (node : Name) (kind : RecordType) : Task Message := do
  let id ← Task.randomId fun i => done (.ok i)
  let bytes ← done (encodeUnwrap (buildDnsRequest id node kind))
  let reply ← sendUdpPacket ns bytes
  done (acceptResponse p id reply)

/-- requests.rs:213-226 `send_query_with_retries`. -/
def sendQueryWithRetries (ns : NextNs) (node : Name) (kind : RecordType) : Nat → Option LookupErr → Task Message
  | 0, some e => done (.err e)
  | 0, none => done (.panic .unwrap)
  | retries + 1, _ => do
    match ← attempt (sendQuery p ns node kind) with
    | .inr resp => pure resp
    | .inl e => sendQueryWithRetries ns node kind retries (some e)

/-- requests.rs:72-123 `perform_request`. -/
def performRequest (ns : NextNs) (node : Name) (kind : RecordType) (retries : Nat) : Task NsResponse := do
  let resp ← sendQueryWithRetries p ns node kind retries none
  done (interpret resp node kind ns.zone)

/-- recursive.rs:337-363 `search_records_in_cache`. -/
def searchRecordsInCache (node : Name) (kind : RecordType) : Task (List Record) := do
  let before ← Task.now fun t => done (.ok t)
  let entry ← Task.get (node, kind) fun r => done (.ok r)
  match entry with
  | none => pure []
  | some (exp, records) => done (serveCached before exp records)

/-- recursive.rs:367-379 `save_records_in_cache`. -/
def saveRecordsInCache (records : List Record) : Task Unit :=
  match records with
  | [] => done (.panic .assert)
  | r0 :: rs =>
    let ttl := minTtl r0.ttl rs
    if !(records.all fun r => r.recordType == r0.recordType) then done (.panic .assert)
    else
      let saved := records.map fun r => r.setTtl ttl
      emit (.saved r0.node r0.recordType saved) (set (r0.node, r0.recordType) ttl saved (done (.ok ())))

/-- recursive.rs:384-389. -/
def saveAddrs : List NextNs → Task Unit
  | [] => pure ()
  | ns :: nss => do
    if ns.aRecords.length > 0 then saveRecordsInCache ns.aRecords else pure ()
    saveAddrs nss

/-- recursive.rs:382-391 `save_nss_in_cache`. -/
def saveNssInCache (nss : List NextNs) : Task Unit := do
  saveAddrs nss
  saveRecordsInCache (nss.map NextNs.nsRecord)

/-- recursive.rs:302-310. -/
def findNsRecords : List Str → Task (List Record)
  | [] => pure []
  | d :: ds => do
    let name ← done (nameUnwrap d)
    let records ← searchRecordsInCache name .NS
    if records.length > 0 then pure records else findNsRecords ds

/-- recursive.rs:320-326. -/
def findAddrs : List Record → Task (List NextNs)
  | [] => pure []
  | r :: rs => do
    let target ← done r.nsData
    let addrs ← searchRecordsInCache target .A
    let rest ← findAddrs rs
    pure ({ nsRecord := r, aRecords := addrs } :: rest)

/-- recursive.rs:300-331 `search_nss_in_cache_with_trace`. -/
def searchNssInCache (node : Name) : Task (List NextNs) := do
  let records ← findNsRecords (generateDomainHierarchy node.s)
  findAddrs records

/-- recursive.rs:168-179 `handle_cname`. -/
def handleCname (lk : Lookup) (cname : Record) : Task Lookup := do
  let target ← done cname.cnameData
  done (detectCnameLoops target lk.previousCnames)
  if lk.conf.noFollowCname then done (.err .unexpectedCname)
  else do
    saveRecordsInCache [cname]
    pure { lk with node := target, previousCnames := lk.previousCnames ++ [cname] }

/-- recursive.rs:243-269 `resolve_ns_subquery`. -/
def resolveNsSubquery (sub : Lookup → Task Response) (lk : Lookup) (node zone : Name) : Task (List Record) := do
  done (detectZonesLoop zone lk.previousZones)
  let r ← sub { node := node, kind := .A, previousZones := lk.previousZones ++ [zone], previousCnames := [],
                conf := { lk.conf with noFollowCname := true } }
  pure (extractRecords r.answers .A node).1

/-- recursive.rs:193-203. -/
def resolveAddrs (sub : Lookup → Task Response) (lk : Lookup) (ns : NextNs) : Task NextNs := do
  let addrs ← done ns.addrs
  if addrs.isEmpty then do
    let node ← done ns.node
    match ← attempt (resolveNsSubquery sub lk node ns.zone) with
    | .inr records => pure { ns with aRecords := records }
    | .inl e => done (.err (.subLookupErr e))
  else pure ns

/-- recursive.rs:193-221. -/
def tryServer (sub : Lookup → Task Response) (lk : Lookup) (ns : NextNs) : Task NsResponse := do
  let ns ← resolveAddrs sub lk ns
  emit (.contact lk.previousZones ns lk.node lk.kind) (done (.ok ()))
  performRequest p ns lk.node lk.kind lk.conf.maxUdpRetries

/-- recursive.rs:190-236. -/
def tryServers (sub : Lookup → Task Response) (lk : Lookup) : List NextNs → Option LookupErr → Task NsResponse
  | [], some e => done (.err e)
  | [], none => done (.panic .unwrap)
  | ns :: rest, err => do
    match ← attempt (tryServer p sub lk ns) with
    | .inr r => pure r
    | .inl e => tryServers sub lk rest (some (err.getD e))

/-- recursive.rs:184-238 `query_nameservers_iteratively`. -/
def queryIteratively (sub : Lookup → Task Response) (lk : Lookup) : Nat → List NextNs → Task NsResponse
  | 0, _ => done .diverge
  | fuel + 1, nss =>
    if nss.length = 0 then done (.panic .assert)
    else do
      let r ← tryServers p sub lk ((sortNameservers nss).take lk.conf.maxNsQueried) none
      match r with
      | .delegation nextNss => do
        saveNssInCache nextNss
        queryIteratively sub lk fuel nextNss
      | r => pure r

/-- recursive.rs:127-134. -/
def startingServers (lk : Lookup) (nss : List NextNs) : Task (List NextNs) :=
  if nss.isEmpty then do
    let cached ← searchNssInCache lk.node
    pure (if cached.isEmpty then rootZoneNameservers else cached)
  else pure nss

/-- recursive.rs:111-164 `perform_inner`. -/
def performLoop (sub : Lookup → Task Response) (fuel : Nat) : Nat → Lookup → List NextNs → Task Response
  | 0, _, _ => done (.err .maxCnameRedir)
  | rounds + 1, lk, nss => do
    emit (.start lk.previousZones lk.conf.noFollowCname lk.node lk.kind) (done (.ok ()))
    let cachedAnswers ← searchRecordsInCache lk.node lk.kind
    if cachedAnswers.length > 0 then
      pure { answers := lk.previousCnames ++ cachedAnswers, authorities := [], additionals := [], noRecords := false }
    else do
      let cachedCnames ← searchRecordsInCache lk.node .CNAME
      match cachedCnames with
      | cname :: _ => do
        let lk ← handleCname lk cname
        performLoop sub fuel rounds lk []
      | [] => do
        let nss ← startingServers lk nss
        let r ← queryIteratively p sub lk fuel nss
        match r with
        | .answer answers additionals => do
          saveRecordsInCache answers
          pure { answers := lk.previousCnames ++ answers, authorities := [], additionals := additionals, noRecords := false }
        | .alias cname nextNss => do
          let lk ← handleCname lk cname
          performLoop sub fuel rounds lk nextNss
        | .noDomain soa =>
          pure { answers := lk.previousCnames, authorities := soa.toList, additionals := [], noRecords := true }
        | .delegation _ => done (.panic .explicit)

/-- recursive.rs:103-106 `perform`. -/
def perform : Nat → Lookup → Task Response
  | 0, _ => done .diverge
  | fuel + 1, lk => performLoop p (perform fuel) fuel lk.conf.maxCnameRedir lk []

/-- recursive.rs:59-71 `new_lookup` followed by `perform`. -/
def lookup (conf : Params) (fuel : Nat) (node : Name) (kind : RecordType) : Task Response :=
  perform p fuel { node := node, kind := kind, previousZones := [], previousCnames := [], conf := conf }

/-- handler.rs:14-83 `handle_request`, `handle_query`. -/
def handle (conf : Params) (fuel : Nat) (read : ReadResult) : Task (Option Message) :=
  match read with
  | .fullMessage req =>
    if !validate req then pure (some (errReply req .FormErr))
    else match req.questions with
      | [] => done (.panic .index)
      | q :: _ => do
        let result ← attempt (lookup p conf fuel q.node q.recordType)
        pure (some (resultReply req result))
  | .headerOnly h e => pure (some (decodeErrReply h e))
  | .parseErr _ _ => pure none
  | .ioErr => pure none

/-- handler.rs:7-11 with udp_server.rs:88-112. -/
def serveUdp (conf : Params) (fuel : Nat) (datagram : List UInt8) (sends : List (Option Nat)) : Task (List (List UInt8) × Bool) := do
  let read ← done ((Net.udpRead p datagram).mapErr Empty.elim)
  let reply ← handle p conf fuel read
  match reply with
  | none => pure ([], true)
  | some m => done ((Net.udpReply m sends).mapErr Empty.elim)

/-- handler.rs:7-11 with tcp_server.rs. -/
def serveTcp (conf : Params) (fuel : Nat) (stream : List UInt8) (room : Nat) : Task (List UInt8 × Bool) := do
  let read ← done ((Net.tcpRead p stream).mapErr Empty.elim)
  let reply ← handle p conf fuel read.1
  match reply with
  | none => pure ([], true)
  | some m => done ((Net.tcpReply m room).mapErr Empty.elim)

/-- handler.rs:7-11. -/
def serve (conf : Params) (fuel : Nat) : Job → Task (List (List UInt8) × Bool)
  | .udp datagram sends => serveUdp p conf fuel datagram sends
  | .tcp stream room => do
    let r ← serveTcp p conf fuel stream room
    pure ([r.1], r.2)

end Steps

/-- handler.rs:7-11: serving a request, in one thread. -/
def serve (env : Env) (p : Profile) (conf : Params) (fuel : Nat) : Job → M (List (List UInt8) × Bool)
  | .udp datagram sends => serveUdp env p conf fuel datagram sends
  | .tcp stream room => do
    let r ← serveTcp env p conf fuel stream room
    pure ([r.1], r.2)

/-- A lookup, or the service of a request, in progress. -/
structure Thread (α : Type) where
  task : Task α
  log : List Event

/-- The threads and the cache they share. -/
structure System (α : Type) where
  cache : RecordsCache
  threads : Nat → Thread α

/-- What happens next: a step of a thread, or the cleaning of the cache (cache.rs:101-109, by the thread of cache.rs:132-140,
with the readings of the clock for each entry). -/
inductive Move
  | step (i : Nat)
  | clean (reading : Name × RecordType → Nat)

/-- An order of events: which, when, and which random numbers are drawn. Every event may read the clock twice; the clock does
not go back. -/
structure Schedule where
  move : Nat → Move
  time : Nat → Nat
  time' : Nat → Nat
  id : Nat → UInt16
  forward : ∀ n, time n ≤ time' n ∧ time' n ≤ time (n + 1)
  readings : ∀ n r, move n = .clean r → ∀ key, time n ≤ r key ∧ r key ≤ time' n

/-- A step of a thread at the time `t`, `t'`; the servers, and the network, may treat every thread in its own way. -/
def Thread.step {α : Type} (net : List Event → Ip4 → List UInt8 → Option (List UInt8)) (t t' : Nat) (id : UInt16) (th : Thread α) (c : RecordsCache) :
    Thread α × RecordsCache :=
  match th.task with
  | .done _ => (th, c)
  | .emit e k => (⟨k, th.log ++ [e]⟩, c)
  | .now k => (⟨k t, th.log⟩, c)
  | .randomId k => (⟨k id, th.log⟩, c)
  | .send addr bytes k => (⟨k (net th.log addr bytes), th.log ++ [.exchange addr bytes (net th.log addr bytes)]⟩, c)
  | .get key k => (⟨k (c.getClone key t).2, th.log⟩, (c.getClone key t).1)
  | .set key ttl records k => (⟨k, th.log⟩, (c.set key (ttl.toNat * NANOS) records t t').1)

/-- The system after an event. -/
def System.next {α : Type} (S : Schedule) (net : Nat → List Event → Ip4 → List UInt8 → Option (List UInt8)) (n : Nat) (s : System α) : System α :=
  match S.move n with
  | .clean reading => { s with cache := s.cache.clean reading }
  | .step i =>
    let r := (s.threads i).step (net i) (S.time n) (S.time' n) (S.id n) s.cache
    ⟨r.2, fun j => if j = i then r.1 else s.threads j⟩

/-- The system after so many events. -/
def System.after {α : Type} (S : Schedule) (net : Nat → List Event → Ip4 → List UInt8 → Option (List UInt8)) (s : System α) : Nat → System α
  | 0 => s
  | n + 1 => System.next S net n (System.after S net s n)

/-- The threads start to look up one name each. (There is no limit to their number; a thread that gets no turn does nothing.) -/
def System.start (p : Profile) (conf : Params) (fuel : Nat) (questions : Nat → Name × RecordType) (c : RecordsCache) :
    System Response :=
  ⟨c, fun i => ⟨Steps.lookup p conf fuel (questions i).1 (questions i).2, []⟩⟩

/-- The threads of the pools start to serve one request each (udp_server.rs:60-104, tcp_server.rs:68-117): there are
as many as requests ever, since a worker of a pool keeps nothing from one job for the next, and one that waits for a job does
nothing. -/
def System.serving (p : Profile) (conf : Params) (fuel : Nat) (jobs : Nat → Job) (c : RecordsCache) : System (List (List UInt8) × Bool) :=
  ⟨c, fun i => ⟨Steps.serve p conf fuel (jobs i), []⟩⟩

end Resolver

end Ariadne
