import Verif.Spec.Threads

/-! # The steps of a lookup are the lookup -/

namespace Ariadne.Resolver

namespace Task

variable {α β : Type}

theorem run_done {env : Env} {o : Out LookupErr α} : (done o).run env = M.lift o := rfl

theorem run_pure {env : Env} {a : α} : (Pure.pure a : Task α).run env = Pure.pure a := rfl

theorem run_bind' (env : Env) (t : Task α) (f : α → Task β) : ∀ w, (t.bind f).run env w = M.bind (t.run env) (fun a => (f a).run env) w := by
  induction t with
  | done o => intro w; cases o <;> rfl
  | emit e k ih => exact fun w => ih _
  | now k ih => exact fun w => ih _ _
  | randomId k ih => exact fun w => ih _ _
  | send addr bytes k ih => exact fun w => ih _ _
  | get key k ih => exact fun w => ih _ _
  | set key ttl records k ih => exact fun w => ih _

theorem run_bind (env : Env) (t : Task α) (f : α → Task β) : (t >>= f).run env = (t.run env >>= fun a => (f a).run env) :=
  funext (run_bind' env t f)

theorem run_attempt' (env : Env) (t : Task α) : ∀ w, t.attempt.run env w = M.attempt (t.run env) w := by
  induction t with
  | done o => intro w; cases o <;> rfl
  | emit e k ih => exact fun w => ih _
  | now k ih => exact fun w => ih _ _
  | randomId k ih => exact fun w => ih _ _
  | send addr bytes k ih => exact fun w => ih _ _
  | get key k ih => exact fun w => ih _ _
  | set key ttl records k ih => exact fun w => ih _

theorem run_attempt (env : Env) (t : Task α) : t.attempt.run env = M.attempt (t.run env) := funext (run_attempt' env t)

end Task

namespace Steps

open Task

variable (env : Env) (p : Profile)

theorem sendUdpPacket_run (ns : NextNs) (bytes : List UInt8) : (sendUdpPacket ns bytes).run env = Resolver.sendUdpPacket env ns bytes := by
  unfold sendUdpPacket Resolver.sendUdpPacket
  rw [run_bind, run_done]
  congr 1
  funext addrs
  cases addrs.head? with
  | none => rfl
  | some addr =>
    funext w
    dsimp only [run]
    cases env.net w.log addr bytes <;> rfl

theorem sendQuery_run (ns : NextNs) (node : Name) (kind : RecordType) :
    (sendQuery p ns node kind).run env = Resolver.sendQuery env p ns node kind := by
  unfold sendQuery Resolver.sendQuery
  simp only [run_bind, sendUdpPacket_run, run_done]
  rfl

theorem retries_run (ns : NextNs) (node : Name) (kind : RecordType) : ∀ n e,
    (sendQueryWithRetries p ns node kind n e).run env = Resolver.sendQueryWithRetries env p ns node kind n e
  | 0, some _ => rfl
  | 0, none => rfl
  | n + 1, e => by
    unfold sendQueryWithRetries Resolver.sendQueryWithRetries
    rw [run_bind, run_attempt, sendQuery_run]
    congr 1
    funext x
    cases x with
    | inr r => rfl
    | inl e => exact retries_run ns node kind n (some e)

theorem performRequest_run (ns : NextNs) (node : Name) (kind : RecordType) (n : Nat) :
    (performRequest p ns node kind n).run env = Resolver.performRequest env p ns node kind n := by
  unfold performRequest Resolver.performRequest
  rw [run_bind, retries_run]
  rfl

theorem search_run (node : Name) (kind : RecordType) : (searchRecordsInCache node kind).run env = Resolver.searchRecordsInCache env node kind := by
  unfold searchRecordsInCache Resolver.searchRecordsInCache
  simp only [run_bind]
  funext w
  show _ = (Resolver.now env >>= _) w
  simp only [Bind.bind, M.bind, run, Resolver.now, Resolver.getClone, Resolver.lockCache]
  generalize (((env.others (w.ticks + 1) w.cache).getClone (node, kind) (env.clock (w.ticks + 1 + 1))).2) = o
  cases o <;> rfl

theorem save_run (records : List Record) : (saveRecordsInCache records).run env = Resolver.saveRecordsInCache env records := by
  cases records with
  | nil => rfl
  | cons r0 rs =>
    unfold saveRecordsInCache Resolver.saveRecordsInCache
    dsimp only
    split
    · rfl
    · rfl

theorem saveAddrs_run : ∀ nss, (saveAddrs nss).run env = Resolver.saveAddrs env nss
  | [] => rfl
  | ns :: nss => by
    unfold saveAddrs Resolver.saveAddrs
    split
    · simp only [run_bind, save_run, saveAddrs_run nss]
    · simp only [run_bind, saveAddrs_run nss]

theorem saveNss_run (nss : List NextNs) : (saveNssInCache nss).run env = Resolver.saveNssInCache env nss := by
  unfold saveNssInCache Resolver.saveNssInCache
  simp only [run_bind, saveAddrs_run, save_run]

theorem findNs_run : ∀ ds, (findNsRecords ds).run env = Resolver.findNsRecords env ds
  | [] => rfl
  | d :: ds => by
    unfold findNsRecords Resolver.findNsRecords
    simp only [run_bind, search_run, run_done]
    congr 1; funext n
    congr 1; funext r
    split
    · rfl
    · exact findNs_run ds

theorem findAddrs_run : ∀ rs, (findAddrs rs).run env = Resolver.findAddrs env rs
  | [] => rfl
  | r :: rs => by
    unfold findAddrs Resolver.findAddrs
    simp only [run_bind, search_run, run_done, findAddrs_run rs, run_pure]

theorem searchNss_run (node : Name) : (searchNssInCache node).run env = Resolver.searchNssInCache env node := by
  unfold searchNssInCache Resolver.searchNssInCache
  simp only [run_bind, findNs_run, findAddrs_run]

theorem handleCname_run (lk : Lookup) (cname : Record) : (handleCname lk cname).run env = Resolver.handleCname env lk cname := by
  unfold handleCname Resolver.handleCname
  simp only [run_bind, run_done]
  congr 1; funext t
  congr 1; funext _
  split
  · rfl
  · simp only [run_bind, save_run, run_pure]

variable {sub : Lookup → Task Response} {sub' : Lookup → M Response} (hs : ∀ lk, (sub lk).run env = sub' lk)

include hs in
theorem resolveNs_run (lk : Lookup) (node zone : Name) : (resolveNsSubquery sub lk node zone).run env = Resolver.resolveNsSubquery sub' lk node zone := by
  unfold resolveNsSubquery Resolver.resolveNsSubquery
  simp only [run_bind, run_done, hs, run_pure]

include hs in
theorem resolveAddrs_run (lk : Lookup) (ns : NextNs) : (resolveAddrs sub lk ns).run env = Resolver.resolveAddrs sub' lk ns := by
  unfold resolveAddrs Resolver.resolveAddrs
  simp only [run_bind, run_done]
  congr 1; funext addrs
  split
  · simp only [run_bind, run_done, run_attempt, resolveNs_run env hs]
    congr 1; funext node
    congr 1; funext x
    cases x <;> rfl
  · rfl

include hs in
theorem tryServer_run (lk : Lookup) (ns : NextNs) : (tryServer p sub lk ns).run env = Resolver.tryServer env p sub' lk ns := by
  unfold tryServer Resolver.tryServer
  simp only [run_bind, resolveAddrs_run env hs, performRequest_run]
  rfl

include hs in
theorem tryServers_run (lk : Lookup) : ∀ nss e, (tryServers p sub lk nss e).run env = Resolver.tryServers env p sub' lk nss e
  | [], some _ => rfl
  | [], none => rfl
  | ns :: rest, e => by
    unfold tryServers Resolver.tryServers
    simp only [run_bind, run_attempt, tryServer_run env p hs]
    congr 1; funext x
    cases x with
    | inr r => rfl
    | inl e' => exact tryServers_run lk rest _

include hs in
theorem query_run (lk : Lookup) : ∀ fuel nss, (queryIteratively p sub lk fuel nss).run env = Resolver.queryIteratively env p sub' lk fuel nss
  | 0, _ => rfl
  | fuel + 1, nss => by
    unfold queryIteratively Resolver.queryIteratively
    split
    · rfl
    · simp only [run_bind, tryServers_run env p hs]
      congr 1; funext r
      cases r with
      | delegation next =>
        dsimp only
        simp only [run_bind, saveNss_run, query_run lk fuel next]
      | _ => rfl

theorem starting_run (lk : Lookup) (nss : List NextNs) : (startingServers lk nss).run env = Resolver.startingServers env lk nss := by
  unfold startingServers Resolver.startingServers
  split
  · simp only [run_bind, searchNss_run, run_pure]
  · rfl

include hs in
theorem performLoop_run (fuel : Nat) : ∀ rounds lk nss, (performLoop p sub fuel rounds lk nss).run env = Resolver.performLoop env p sub' fuel rounds lk nss
  | 0, _, _ => rfl
  | rounds + 1, lk, nss => by
    unfold performLoop Resolver.performLoop
    simp only [run_bind, search_run]
    congr 1; funext _
    congr 1; funext cached
    split
    · rfl
    · simp only [run_bind, search_run]
      congr 1; funext cnames
      cases cnames with
      | cons c cs =>
        dsimp only
        simp only [run_bind, handleCname_run, performLoop_run fuel rounds]
      | nil =>
        dsimp only
        simp only [run_bind, starting_run, query_run env p hs]
        congr 1; funext nss'
        congr 1; funext r
        cases r with
        | answer a b => dsimp only; simp only [run_bind, save_run, run_pure]
        | «alias» c n => dsimp only; simp only [run_bind, handleCname_run, performLoop_run fuel rounds]
        | noDomain s => rfl
        | delegation n => rfl

theorem perform_run : ∀ fuel lk, (perform p fuel lk).run env = Resolver.perform env p fuel lk
  | 0, _ => rfl
  | fuel + 1, lk => performLoop_run env p (perform_run fuel) fuel _ _ _

theorem handle_run (conf : Params) (fuel : Nat) (read : ReadResult) : (handle p conf fuel read).run env = Resolver.handle env p conf fuel read := by
  cases read with
  | fullMessage req =>
    unfold handle Resolver.handle
    dsimp only
    by_cases hv : (!validate req) = true
    · rw [if_pos hv, if_pos hv]
      rfl
    · rw [if_neg hv, if_neg hv]
      cases req.questions with
      | nil => rfl
      | cons q qs =>
        dsimp only
        simp only [run_bind, run_attempt, run_pure]
        unfold lookup Resolver.lookup
        rw [perform_run]
  | headerOnly h e => rfl
  | parseErr a b => rfl
  | ioErr => rfl

theorem serveUdp_run (conf : Params) (fuel : Nat) (datagram : List UInt8) (sends : List (Option Nat)) :
    (serveUdp p conf fuel datagram sends).run env = Resolver.serveUdp env p conf fuel datagram sends := by
  unfold serveUdp Resolver.serveUdp
  simp only [run_bind, handle_run, run_done]
  unfold infallible
  congr 1; funext read
  congr 1; funext reply
  cases reply <;> rfl

theorem serveTcp_run (conf : Params) (fuel : Nat) (stream : List UInt8) (room : Nat) :
    (serveTcp p conf fuel stream room).run env = Resolver.serveTcp env p conf fuel stream room := by
  unfold serveTcp Resolver.serveTcp
  simp only [run_bind, handle_run, run_done]
  unfold infallible
  congr 1; funext read
  congr 1; funext reply
  cases reply <;> rfl

theorem serve_run (conf : Params) (fuel : Nat) (job : Job) : (serve p conf fuel job).run env = Resolver.serve env p conf fuel job := by
  cases job with
  | udp datagram sends => exact serveUdp_run env p conf fuel datagram sends
  | tcp stream room =>
    unfold serve Resolver.serve
    simp only [run_bind, serveTcp_run, run_pure]

end Steps

/-- The steps are those of the lookup. -/
theorem lookupTask_is (p : Profile) (conf : Params) (fuel : Nat) (node : Name) (kind : RecordType) :
    (Steps.lookup p conf fuel node kind).Is fun env => lookup env p conf fuel node kind := fun env => Steps.perform_run env p fuel _

end Ariadne.Resolver
