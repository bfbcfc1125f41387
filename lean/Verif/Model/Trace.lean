import Verif.Model.Resolver

/-!
# Tracing of lookups – models src/resolver/back_end/trace.rs and what recursive.rs, requests.rs and handler.rs do with it

`Model/Resolver.lean` drops the traces. Here is the resolver again, with them: the functions of recursive.rs that write to
the trace, in the same order and with the trace next to the rest of the world. `Props/Trace.lean` shows that they do otherwise
what the functions of `Model/Resolver.lean` do.
-/

namespace Ariadne

namespace Resolver

/-- trace.rs:13-17 `TraceParams`. -/
structure TraceParams where
  verbose : Bool
  silent : Bool
  color : Bool
  deriving DecidableEq, Repr

/-- trace.rs:37-46 `TraceLine`. Simplification: a line has the values its text is made from instead of the text. Hits and
misses of name servers have their own constructors. -/
inductive TraceLine
  | resolutionStart (node : Name) (kind : RecordType)
  | cacheHit (node : Name) (kind : RecordType) (records : List Record)
  | cacheMiss (node : Name) (kind : RecordType)
  | cacheNsHit (node : Name) (nss : List NextNs)
  | cacheNsMiss (node : Name)
  | nameserverStart (node : Name) (kind : RecordType) (server zone : Name)
  | nameserverResp (resp : NsResponse)
  | nameserverErr (err : LookupErr)
  | rawResp (message : Message)
  | subResolution (lines : List TraceLine)

/-- The world and the lines of the trace of the current lookup (trace.rs:32-35). -/
structure TWorld where
  world : World
  lines : List TraceLine

/-- Computations with a trace. -/
def TM (α : Type) : Type := TWorld → Out LookupErr α × TWorld

namespace TM

/-- Return. -/
@[inline] protected def pure {α : Type} (a : α) : TM α := fun w => (.ok a, w)

/-- Sequencing; errors (`?`) and panics skip the rest. -/
@[inline] protected def bind {α β : Type} (m : TM α) (f : α → TM β) : TM β := fun w =>
  match m w with
  | (.ok a, w') => f a w'
  | (.err e, w') => (.err e, w')
  | (.panic k, w') => (.panic k, w')
  | (.diverge, w') => (.diverge, w')

instance : Monad TM where
  pure := TM.pure
  bind := TM.bind

/-- What does not touch the trace. -/
def run {α : Type} (m : M α) : TM α := fun w =>
  match m w.world with
  | (o, w') => (o, ⟨w', w.lines⟩)

/-- `match` on a `Result`: an error is a value. -/
def attempt {α : Type} (m : TM α) : TM (LookupErr ⊕ α) := fun w =>
  match m w with
  | (.ok a, w') => (.ok (.inr a), w')
  | (.err e, w') => (.ok (.inl e), w')
  | (.panic k, w') => (.panic k, w')
  | (.diverge, w') => (.diverge, w')

/-- trace.rs:76-209: `skip_if_silent!`, then a line is pushed. -/
def push (t : TraceParams) (line : TraceLine) : TM Unit := fun w =>
  if t.silent then (.ok (), w) else (.ok (), { w with lines := w.lines ++ [line] })

end TM

section

variable (env : Env) (p : Profile) (t : TraceParams)

/-- trace.rs:124-136 `t_ns_req`: the name of the server is taken from its record (and `ns_data` panics if that is no NS
record), but not if the trace is silent. -/
def traceNsReq (node : Name) (kind : RecordType) (ns : NextNs) : TM Unit :=
  if t.silent then pure () else do
    let server ← TM.run (M.lift ns.node)
    TM.push t (.nameserverStart node kind server ns.zone)

/-- trace.rs:194-212 `t_raw_resp`. -/
def traceRawResp (m : Message) : TM Unit := if t.silent then pure () else if !t.verbose then pure () else TM.push t (.rawResp m)

/-- requests.rs:72-123 `perform_request`. -/
def performRequestT (ns : NextNs) (node : Name) (kind : RecordType) (retries : Nat) : TM NsResponse := do
  let resp ← TM.run (sendQueryWithRetries env p ns node kind retries none)
  traceRawResp t resp
  TM.run (M.lift (interpret resp node kind ns.zone))

/-- recursive.rs:272-285 `perform_request_with_trace`. -/
def performRequestWithTrace (ns : NextNs) (node : Name) (kind : RecordType) (retries : Nat) : TM NsResponse := do
  traceNsReq t node kind ns
  match ← TM.attempt (performRequestT env p t ns node kind retries) with
  | .inl e => do
    TM.push t (.nameserverErr e)
    TM.run (M.throw e)
  | .inr r => do
    TM.push t (.nameserverResp r)
    pure r

/-- recursive.rs:288-297 `search_records_in_cache_with_trace`. -/
def searchRecordsT (node : Name) (kind : RecordType) : TM (List Record) := do
  let results ← TM.run (searchRecordsInCache env node kind)
  if results.isEmpty then TM.push t (.cacheMiss node kind) else TM.push t (.cacheHit node kind results)
  pure results

/-- recursive.rs:300-331 `search_nss_in_cache_with_trace`. -/
def searchNssT (node : Name) : TM (List NextNs) := do
  let records ← TM.run (findNsRecords env (generateDomainHierarchy node.s))
  if records.isEmpty then do
    TM.push t (.cacheNsMiss node)
    pure []
  else do
    let nss ← TM.run (findAddrs env records)
    TM.push t (.cacheNsHit node nss)
    pure nss

/-- recursive.rs:263-264 with trace.rs:58-62 `clone_empty` and trace.rs:214-218 `add_sub_trace`: a lookup with a trace of its
own, which becomes one line of this one; nobody asks here whether the trace is silent. -/
def subTrace {α : Type} (m : TM α) : TM α := fun w =>
  match m ⟨w.world, []⟩ with
  | (.ok a, w') => (.ok a, ⟨w'.world, w.lines ++ [.subResolution w'.lines]⟩)
  | (.err e, w') => (.err e, ⟨w'.world, w.lines ++ [.subResolution w'.lines]⟩)
  | (.panic k, w') => (.panic k, ⟨w'.world, w.lines⟩)
  | (.diverge, w') => (.diverge, ⟨w'.world, w.lines⟩)

/-- recursive.rs:243-269 `resolve_ns_subquery`. -/
def resolveNsSubqueryT (sub : Lookup → TM Response) (lk : Lookup) (node zone : Name) : TM (List Record) := do
  TM.run (M.lift (detectZonesLoop zone lk.previousZones))
  let r ← subTrace (sub { node := node, kind := .A, previousZones := lk.previousZones ++ [zone], previousCnames := [],
                          conf := { lk.conf with noFollowCname := true } })
  pure (extractRecords r.answers .A node).1

/-- recursive.rs:193-203. -/
def resolveAddrsT (sub : Lookup → TM Response) (lk : Lookup) (ns : NextNs) : TM NextNs := do
  let addrs ← TM.run (M.lift ns.addrs)
  if addrs.isEmpty then do
    let node ← TM.run (M.lift ns.node)
    match ← TM.attempt (resolveNsSubqueryT sub lk node ns.zone) with
    | .inr records => pure { ns with aRecords := records }
    | .inl e => TM.run (M.throw (.subLookupErr e))
  else pure ns

/-- recursive.rs:193-221: one server. -/
def tryServerT (sub : Lookup → TM Response) (lk : Lookup) (ns : NextNs) : TM NsResponse := do
  let ns ← resolveAddrsT sub lk ns
  TM.run (M.emit (.contact lk.previousZones ns lk.node lk.kind))
  performRequestWithTrace env p t ns lk.node lk.kind lk.conf.maxUdpRetries

/-- recursive.rs:190-236: the servers in turn. -/
def tryServersT (sub : Lookup → TM Response) (lk : Lookup) : List NextNs → Option LookupErr → TM NsResponse
  | [], some e => TM.run (M.throw e)
  | [], none => TM.run (M.panic .unwrap)
  | ns :: rest, err => do
    match ← TM.attempt (tryServerT env p t sub lk ns) with
    | .inr r => pure r
    | .inl e => tryServersT sub lk rest (some (err.getD e))

/-- recursive.rs:184-238 `query_nameservers_iteratively`. -/
def queryIterativelyT (sub : Lookup → TM Response) (lk : Lookup) : Nat → List NextNs → TM NsResponse
  | 0, _ => TM.run (M.lift .diverge)
  | fuel + 1, nss =>
    if nss.length = 0 then TM.run (M.panic .assert)
    else do
      let r ← tryServersT env p t sub lk ((sortNameservers nss).take lk.conf.maxNsQueried) none
      match r with
      | .delegation nextNss => do
        TM.run (saveNssInCache env nextNss)
        queryIterativelyT sub lk fuel nextNss
      | r => pure r

/-- recursive.rs:127-134: where to start. -/
def startingServersT (lk : Lookup) (nss : List NextNs) : TM (List NextNs) :=
  if nss.isEmpty then do
    let cached ← searchNssT env t lk.node
    pure (if cached.isEmpty then rootZoneNameservers else cached)
  else pure nss

/-- recursive.rs:111-164 `perform_inner`. -/
def performLoopT (sub : Lookup → TM Response) (fuel : Nat) : Nat → Lookup → List NextNs → TM Response
  | 0, _, _ => TM.run (M.throw .maxCnameRedir)
  | rounds + 1, lk, nss => do
    TM.run (M.emit (.start lk.previousZones lk.conf.noFollowCname lk.node lk.kind))
    TM.push t (.resolutionStart lk.node lk.kind)
    let cachedAnswers ← searchRecordsT env t lk.node lk.kind
    if cachedAnswers.length > 0 then
      pure { answers := lk.previousCnames ++ cachedAnswers, authorities := [], additionals := [], noRecords := false }
    else do
      let cachedCnames ← searchRecordsT env t lk.node .CNAME
      match cachedCnames with
      | cname :: _ => do
        let lk ← TM.run (handleCname env lk cname)
        performLoopT sub fuel rounds lk []
      | [] => do
        let nss ← startingServersT env t lk nss
        let r ← queryIterativelyT env p t sub lk fuel nss
        match r with
        | .answer answers additionals => do
          TM.run (saveRecordsInCache env answers)
          pure { answers := lk.previousCnames ++ answers, authorities := [], additionals := additionals, noRecords := false }
        | .alias cname nextNss => do
          let lk ← TM.run (handleCname env lk cname)
          performLoopT sub fuel rounds lk nextNss
        | .noDomain soa =>
          pure { answers := lk.previousCnames, authorities := soa.toList, additionals := [], noRecords := true }
        | .delegation _ => TM.run (M.panic .explicit)

/-- recursive.rs:103-106 `perform`. -/
def performT : Nat → Lookup → TM Response
  | 0, _ => TM.run (M.lift .diverge)
  | fuel + 1, lk => performLoopT env p t (performT fuel) fuel lk.conf.maxCnameRedir lk []

/-- recursive.rs:59-71 `new_lookup` followed by `perform`: the outcome, the trace and the world after it. -/
def tracedLookup (conf : Params) (fuel : Nat) (node : Name) (kind : RecordType) (w : World) :
    Out LookupErr Response × List TraceLine × World :=
  let r := performT env p t fuel { node := node, kind := kind, previousZones := [], previousCnames := [], conf := conf } ⟨w, []⟩
  (r.1, r.2.lines, r.2.world)

end

/-! ## Display -/

/-- `depth + 1` on `u8` (trace.rs:315). -/
def addU8 {ε : Type} (p : Profile) (a b : UInt8) : Out ε UInt8 :=
  if a.toNat + b.toNat < 256 then .ok (a + b)
  else match p with
    | .debug => .panic .overflow
    | .release => .ok (a + b)

mutual

/-- trace.rs:254-318: one line of the trace. Shown is, for every line but those of other traces, its number of tabs and the
line itself (standing for its header and the lines below it, which have the same number of tabs); a sub trace ends with an
empty line. Simplification: colours are dropped. -/
def displayLine {ε : Type} (p : Profile) (depth : UInt8) : TraceLine → Out ε (List (UInt8 × Option TraceLine))
  | .subResolution lines => do
    let d ← addU8 p depth 1
    let shown ← displayLines p d lines
    .ok (shown ++ [(0, none)])
  | l => .ok [(depth, some l)]

/-- trace.rs:251-321 `display_trace_lines`. -/
def displayLines {ε : Type} (p : Profile) (depth : UInt8) : List TraceLine → Out ε (List (UInt8 × Option TraceLine))
  | [] => .ok []
  | l :: ls => do
    let a ← displayLine p depth l
    let b ← displayLines p depth ls
    .ok (a ++ b)

end

/-- trace.rs:235-243 `Display for Trace`. An empty trace is shown as `<no trace>`, which nobody asks for. -/
def display {ε : Type} (p : Profile) (lines : List TraceLine) : Out ε (List (UInt8 × Option TraceLine)) := displayLines p 0 lines

/-- handler.rs:50-52: a trace that is not empty is formatted, if messages of level `info` are logged. -/
def logTrace {ε : Type} (p : Profile) (info : Bool) (lines : List TraceLine) : Out ε (List (UInt8 × Option TraceLine)) :=
  if info && !lines.isEmpty then display p lines else .ok []

/-- handler.rs:46-83 with the log: `info` tells whether messages of this level are logged, in which case a trace that is not
empty is formatted before the reply is made. -/
def handleTraced (env : Env) (p : Profile) (t : TraceParams) (info : Bool) (conf : Params) (fuel : Nat) (read : ReadResult) :
    M (Option Message) :=
  match read with
  | .fullMessage req =>
    if !validate req then pure (some (errReply req .FormErr))
    else match req.questions with
      | [] => M.panic .index
      | q :: _ => fun w =>
        match tracedLookup env p t conf fuel q.node q.recordType w with
        | (.panic k, _, w') => (.panic k, w')
        | (.diverge, _, w') => (.diverge, w')
        | (.ok r, lines, w') => (do
            let _ ← logTrace p info lines
            .ok (some (resultReply req (.inr r))), w')
        | (.err e, lines, w') => (do
            let _ ← logTrace p info lines
            .ok (some (resultReply req (.inl e))), w')
  | .headerOnly h e => pure (some (decodeErrReply h e))
  | .parseErr _ _ => pure none
  | .ioErr => pure none

end Resolver

end Ariadne
