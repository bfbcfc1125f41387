import Verif.Model.Server
import Verif.Model.Tasks

/-!
# The resolver as one program – models src/bin/resolver.rs:35-72 with src/shared/net/{udp_server,tcp_server}.rs, src/shared/thread_pool.rs and src/resolver

Both servers (Model/Server), the workers that serve requests step by step (Model/Tasks), and the cache they share, in every
interleaving. In Model/Server serving a request is one step with any outcome the handler has in some world; here it takes as many steps as the
worker makes, and what comes out is what came out of these steps.

Simplifications: those of Model/Server and Model/Tasks. What ends the process (the main thread, an abort) does not stop the other threads here, so that
there are more executions than in reality. The order of the steps that touch the cache, the clock, the random numbers and the network is given by a `Schedule`
(Model/Tasks): the execution goes on as it says, or not at all.
-/

namespace Ariadne.Daemon

open Server Resolver

/-- The requests that workers are serving or have served: what is served, and how far it is. -/
abbrev Work := Nat → Option (Job × Thread (List (List UInt8) × Bool))

/-- What the closures that the two servers give to their workers do differently. -/
structure Port (R O : Type) where
  /-- udp_server.rs:94-100, see `Server.Kind`. -/
  mayDrop : Bool
  /-- Which number the work for a job of this pool has. -/
  slot : Nat → Nat
  /-- What `handle_request` is called with. -/
  job : R → Job → Prop
  /-- What goes to the client. -/
  result : R → List (List UInt8) × Bool → List O
  /-- `handle_request` is not called at all; with a panic or without. -/
  skip : R → Bool → Prop

/-- udp_server.rs:104-112. The socket takes the datagram or not. -/
def udpPort {Addr : Type} : Port (Packet Addr) (Packet Addr) where
  mayDrop := true
  slot n := 2 * n
  job r j := ∃ sendOk : Bool, j = .udp r.bytes [if sendOk then some Message.MAX_UDP_LEN_BYTES else none]
  result r res := res.1.map fun d => ⟨r.addr, d⟩
  skip _ _ := False

/-- tcp_server.rs:106-117: time-outs cannot be set (107-111); the connection cannot be duplicated (113). -/
def tcpPort {Addr : Type} : Port (Conn Addr) (Packet Addr) where
  mayDrop := false
  slot n := 2 * n + 1
  job r j := r.setupOk = true ∧ r.cloneOk = true ∧ j = .tcp r.stream r.room
  result r res := (res.1.filter fun d => d ≠ []).map fun d => ⟨r.addr, d⟩
  skip r panics := if r.setupOk = false then panics = false else r.cloneOk = false ∧ panics = true

variable {R O : Type}

/-- The steps of Model/Server that do not end a job. -/
def quiet (mayDrop : Bool) : Kind R O := ⟨fun _ _ _ => False, mayDrop⟩

/-- Steps of one server that do not touch the cache, the clock, the random numbers or the network. -/
inductive PortStep (π : Port R O) (p : Profile) (conf : Params) (fuel : Nat) (stop : Bool) : Server.State R O → Work → Server.State R O → Work → Prop
  /-- udp_server.rs:60-104, tcp_server.rs:68-106, thread_pool.rs:36-80. -/
  | listen {s t : Server.State R O} {k : Work} : Server.Step (quiet π.mayDrop) stop s t → PortStep π p conf fuel stop s k t k
  /-- udp_server.rs:105, tcp_server.rs:114: a worker begins to serve its request (resolver/handler.rs:7). -/
  | begin {s : Server.State R O} {k : Work} (i n : Nat) (r : R) (j : Job) : s.pool.workers[i]? = some (.running n) → s.jobs[n]? = some r → π.job r j →
      k (π.slot n) = none →
      PortStep π p conf fuel stop s k s fun m => if m = π.slot n then some (j, ⟨Steps.serve p conf fuel j, []⟩) else k m
  /-- udp_server.rs:106-111, tcp_server.rs:114-116: it has served it. -/
  | finish {s : Server.State R O} {k : Work} (i n : Nat) (r : R) (x : Job × Thread (List (List UInt8) × Bool)) (res : List (List UInt8) × Bool) :
      s.pool.workers[i]? = some (.running n) → s.jobs[n]? = some r → k (π.slot n) = some x → x.2.task = .done (.ok res) →
      PortStep π p conf fuel stop s k
        { s with sent := s.sent ++ π.result r res,
                 pool := { s.pool with workers := s.pool.workers.set i .idle, finished := s.pool.finished ++ [n] } } k
  /-- The same lines when something has panicked: the worker thread ends. -/
  | crash {s : Server.State R O} {k : Work} (i n : Nat) (r : R) (x : Job × Thread (List (List UInt8) × Bool)) (e : Panic) :
      s.pool.workers[i]? = some (.running n) → s.jobs[n]? = some r → k (π.slot n) = some x → x.2.task = .done (.panic e) →
      PortStep π p conf fuel stop s k
        { s with pool := { s.pool with workers := s.pool.workers.set i .dead, crashed := s.pool.crashed ++ [n] } } k
  /-- tcp_server.rs:107-111. -/
  | skip {s : Server.State R O} {k : Work} (i n : Nat) (r : R) : s.pool.workers[i]? = some (.running n) → s.jobs[n]? = some r →
      k (π.slot n) = none → π.skip r false →
      PortStep π p conf fuel stop s k
        { s with pool := { s.pool with workers := s.pool.workers.set i .idle, finished := s.pool.finished ++ [n] } } k
  /-- tcp_server.rs:113. -/
  | skipPanic {s : Server.State R O} {k : Work} (i n : Nat) (r : R) : s.pool.workers[i]? = some (.running n) → s.jobs[n]? = some r →
      k (π.slot n) = none → π.skip r true →
      PortStep π p conf fuel stop s k
        { s with pool := { s.pool with workers := s.pool.workers.set i .dead, crashed := s.pool.crashed ++ [n] } } k

/-- The program. -/
structure State (Addr : Type) where
  udp : Server.State (Packet Addr) (Packet Addr)
  tcp : Server.State (Conn Addr) (Packet Addr)
  stop : Bool
  cache : RecordsCache
  work : Work
  /-- How far the schedule has been followed. -/
  events : Nat

/-- bin/resolver.rs:35-72: nothing has been asked. (`c` is empty at 35.) -/
def init (Addr : Type) (udpThreads tcpThreads : Nat) (c : RecordsCache) : State Addr :=
  { udp := Server.init udpThreads, tcp := Server.init tcpThreads, stop := false, cache := c, work := fun _ => none, events := 0 }

variable {Addr : Type}

/-- Steps of the program, and of its clients. -/
inductive Step (S : Schedule) (net : Nat → List Event → Ip4 → List UInt8 → Option (List UInt8)) (p : Profile) (conf : Params) (fuel : Nat) :
    State Addr → State Addr → Prop
  | udp {d : State Addr} {s : Server.State (Packet Addr) (Packet Addr)} {k : Work} : PortStep udpPort p conf fuel d.stop d.udp d.work s k →
      Step S net p conf fuel d { d with udp := s, work := k }
  | tcp {d : State Addr} {s : Server.State (Conn Addr) (Packet Addr)} {k : Work} : PortStep tcpPort p conf fuel d.stop d.tcp d.work s k →
      Step S net p conf fuel d { d with tcp := s, work := k }
  /-- A worker that is serving a request makes a step (`Thread.step`). -/
  | work {d : State Addr} (j : Nat) (x : Job × Thread (List (List UInt8) × Bool)) : S.move d.events = .step j → d.work j = some x →
      Step S net p conf fuel d
        { d with
          cache := (x.2.step (net j) (S.time d.events) (S.time' d.events) (S.id d.events) d.cache).2
          work := fun m => if m = j then some (x.1, (x.2.step (net j) (S.time d.events) (S.time' d.events) (S.id d.events) d.cache).1) else d.work m
          events := d.events + 1 }
  /-- cache.rs:132-140. -/
  | clean {d : State Addr} (reading : Name × RecordType → Nat) : S.move d.events = .clean reading →
      Step S net p conf fuel d { d with cache := d.cache.clean reading, events := d.events + 1 }
  | udpArrive {d : State Addr} {s : Server.State (Packet Addr) (Packet Addr)} : Server.Arrive d.udp s → Step S net p conf fuel d { d with udp := s }
  | tcpArrive {d : State Addr} {s : Server.State (Conn Addr) (Packet Addr)} : Server.Arrive d.tcp s → Step S net p conf fuel d { d with tcp := s }
  /-- setup.rs:40. -/
  | setStop {d : State Addr} : Step S net p conf fuel d { d with stop := true }

/-- States of the program reachable, with any requests; `guard` holds wherever there is a next step. -/
inductive Reachable (S : Schedule) (net : Nat → List Event → Ip4 → List UInt8 → Option (List UInt8)) (p : Profile) (conf : Params) (fuel : Nat)
    (udpThreads tcpThreads : Nat) (c : RecordsCache) (guard : State Addr → Prop) : State Addr → Prop
  | init : Reachable S net p conf fuel udpThreads tcpThreads c guard (init Addr udpThreads tcpThreads c)
  | step {d e : State Addr} : Reachable S net p conf fuel udpThreads tcpThreads c guard d → guard d → Step S net p conf fuel d e →
      Reachable S net p conf fuel udpThreads tcpThreads c guard e

end Ariadne.Daemon
