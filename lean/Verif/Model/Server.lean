import Verif.Model.Pool
import Verif.Model.Nameserver
import Verif.Model.Resolver

/-!
# Server loops and program life cycle – models src/shared/net/{udp_server,tcp_server,setup}.rs

One transition system for `start_udp_server` and `start_tcp_server`: the listening thread, its thread pool (Model/Pool)
and the requests that arrive, in every interleaving. A second one for `start_servers`: both servers and the main thread.

Simplifications: a job's effect on the network happens in one step, at the end of the job; logging is left out; time is
left out, so that `recv_timeout` may give up at any time as long as no message is there.
-/

namespace Ariadne.Server

/-- What the two servers differ in. `R`: what is taken from the socket (a datagram with its source, a connection). `O`:
something sent to a client. -/
structure Kind (R O : Type) where
  /-- `serves r outs panics`: the job for `r` may send `outs` and end, normally or by a panic. A job that never ends is
  related to nothing. -/
  serves : R → List O → Bool → Prop
  /-- udp_server.rs:94-100: `try_clone` may fail and the request is dropped. There is no such step in tcp_server.rs. -/
  mayDrop : Bool

/-- Where the thread in `start_udp_server` / `start_tcp_server` is. -/
inductive Phase (R : Type)
  | starting        -- udp_server.rs:63-64, tcp_server.rs:72-74: before `bind`
  | receiving       -- in `recv_from` (79) / `accept` (89)
  | received (r : R)  -- before reading the stop flag (88 / 98)
  | cleared (r : R)   -- after the flag was seen to be unset
  | dropping        -- in `drop(threads_pool)` (89 / 99), or leaving the function after a failed `bind` (69-72 / 79-82)
  | returned
  | panicked        -- unwound: a join or send failed in `drop`; `tx_clone.send` (setup.rs:24, 35) is not reached
  | aborted         -- the process is gone, see `Step.abort`
  deriving DecidableEq, Repr

/-- A server. -/
structure State (R O : Type) where
  phase : Phase R
  pool : Pool.State
  /-- What has arrived at the socket and has not been taken from it. -/
  inbox : List R
  /-- Everything taken from the socket, oldest first. -/
  seen : List R
  /-- What the closures passed to `execute` captured; job number `n` is about `jobs[n]`. -/
  jobs : List R
  /-- Everything sent to clients, oldest first. -/
  sent : List O

variable {R O : Type}

/-- The start of udp_server.rs:59-63 / tcp_server.rs:68-72: the pool has been made. -/
def init (threads : Nat) : State R O :=
  { phase := .starting, pool := Pool.init threads, inbox := [], seen := [], jobs := [], sent := [] }

/-- The socket is open and requests reach it. -/
def Phase.listening : Phase R → Bool
  | .receiving => true
  | .received _ => true
  | .cleared _ => true
  | _ => false

/-- Steps of the listening thread and the workers of one server while the stop flag has the value `stop`. -/
inductive Step (k : Kind R O) (stop : Bool) : State R O → State R O → Prop
  /-- udp_server.rs:64-68, tcp_server.rs:74-78: the socket is ready. -/
  | bound {s : State R O} : s.phase = .starting → Step k stop s { s with phase := .receiving }
  /-- udp_server.rs:69-72, tcp_server.rs:79-82: it cannot be set up; `return` drops the pool. -/
  | bindErr {s : State R O} : s.phase = .starting →
      Step k stop s { s with phase := .dropping, pool := { s.pool with main := .stopping s.pool.workers.length } }
  /-- udp_server.rs:79-80, tcp_server.rs:89-90. -/
  | recv {s : State R O} (r : R) (rest : List R) : s.phase = .receiving → s.inbox = r :: rest →
      Step k stop s { s with phase := .received r, inbox := rest, seen := s.seen ++ [r] }
  /-- udp_server.rs:81-84, tcp_server.rs:91-94: an error is logged, the loop goes on. -/
  | recvErr {s : State R O} : s.phase = .receiving → Step k stop s s
  /-- udp_server.rs:88-90, tcp_server.rs:98-100: the flag is set. -/
  | seeStop {s : State R O} (r : R) : s.phase = .received r → stop = true →
      Step k stop s { s with phase := .dropping, pool := { s.pool with main := .stopping s.pool.workers.length } }
  /-- udp_server.rs:88, tcp_server.rs:98: it is not. -/
  | clear {s : State R O} (r : R) : s.phase = .received r → stop = false → Step k stop s { s with phase := .cleared r }
  /-- udp_server.rs:94-100. -/
  | cloneErr {s : State R O} (r : R) : s.phase = .cleared r → k.mayDrop = true →
      Step k stop s { s with phase := .receiving }
  /-- udp_server.rs:104-112, tcp_server.rs:106-117: `execute`. -/
  | submit {s : State R O} (r : R) : s.phase = .cleared r → s.pool.connected = true →
      Step k stop s
        { s with phase := .receiving, jobs := s.jobs ++ [r],
                 pool := { s.pool with queue := s.pool.queue ++ [.job s.pool.submitted], submitted := s.pool.submitted + 1 } }
  /-- The same lines when no worker is left: the `unwrap` in `execute` (thread_pool.rs:38) panics; unwinding drops
  `threads_pool`, whose `drop` panics again on its first `send` (thread_pool.rs:45; there is at least one worker). A panic
  while unwinding aborts the process. -/
  | abort {s : State R O} (r : R) : s.phase = .cleared r → s.pool.connected = false → Step k stop s { s with phase := .aborted }
  /-- thread_pool.rs:42-56 `drop`. -/
  | drop {s : State R O} {t : Pool.State} : s.phase = .dropping → Pool.MainStep s.pool t → Step k stop s { s with pool := t }
  | dropEnd {s : State R O} : s.phase = .dropping → s.pool.main = .dropped → Step k stop s { s with phase := .returned }
  | dropPanic {s : State R O} : s.phase = .dropping → s.pool.main = .panicked → Step k stop s { s with phase := .panicked }
  /-- thread_pool.rs:75. -/
  | lock {s : State R O} (i : Nat) : s.pool.workers[i]? = some .idle → s.pool.unlocked = true →
      Step k stop s { s with pool := { s.pool with workers := s.pool.workers.set i .holding } }
  /-- thread_pool.rs:76-80: a job starts. -/
  | takeJob {s : State R O} (i n : Nat) (q : List Pool.Msg) : s.pool.workers[i]? = some .holding → s.pool.queue = .job n :: q →
      Step k stop s
        { s with pool := { s.pool with queue := q, workers := s.pool.workers.set i (.running n), started := s.pool.started ++ [n] } }
  /-- thread_pool.rs:76-79. -/
  | takeStop {s : State R O} (i : Nat) (q : List Pool.Msg) : s.pool.workers[i]? = some .holding → s.pool.queue = .stop :: q →
      Step k stop s { s with pool := { s.pool with queue := q, workers := s.pool.workers.set i .stopped } }
  /-- udp_server.rs:105-111, tcp_server.rs:107-116: the job has done its work. -/
  | finish {s : State R O} (i n : Nat) (r : R) (outs : List O) : s.pool.workers[i]? = some (.running n) → s.jobs[n]? = some r →
      k.serves r outs false →
      Step k stop s
        { s with sent := s.sent ++ outs,
                 pool := { s.pool with workers := s.pool.workers.set i .idle, finished := s.pool.finished ++ [n] } }
  /-- The same lines when something panics; nothing catches it, the worker thread ends. -/
  | crash {s : State R O} (i n : Nat) (r : R) (outs : List O) : s.pool.workers[i]? = some (.running n) → s.jobs[n]? = some r →
      k.serves r outs true →
      Step k stop s
        { s with sent := s.sent ++ outs,
                 pool := { s.pool with workers := s.pool.workers.set i .dead, crashed := s.pool.crashed ++ [n] } }
  /-- thread_pool.rs:75-76 after the sender is gone. -/
  | orphan {s : State R O} (i : Nat) : (s.pool.workers[i]? = some .holding ∨ s.pool.workers[i]? = some .idle) → s.pool.queue = [] →
      s.pool.disconnected = true → Step k stop s { s with pool := { s.pool with workers := s.pool.workers.set i .dead } }

/-- A client sends something to an open socket; the operating system keeps the order. -/
inductive Arrive : State R O → State R O → Prop
  | mk {s : State R O} (r : R) : s.phase.listening = true → Arrive s { s with inbox := s.inbox ++ [r] }

/-- States of one server reachable in any schedule, with any requests, the stop flag being set at any time or never. -/
inductive Reachable (k : Kind R O) (threads : Nat) : Bool → State R O → Prop
  | init : Reachable k threads false (init threads)
  | step {stop : Bool} {s t : State R O} : Reachable k threads stop s → Step k stop s t → Reachable k threads stop t
  | arrive {stop : Bool} {s t : State R O} : Reachable k threads stop s → Arrive s t → Reachable k threads stop t
  | setStop {stop : Bool} {s : State R O} : Reachable k threads stop s → Reachable k threads true s

/-! ## The two kinds of servers -/

/-- A datagram and where it came from or goes to. -/
structure Packet (Addr : Type) where
  addr : Addr
  bytes : List UInt8
  deriving DecidableEq

/-- A TCP connection: the bytes the client will send before it closes the connection, it fails or the read time-out
passes, how many bytes can be written to it before an error or the write time-out, whether its time-outs can be set
(tcp_server.rs:107-111) and whether it can be duplicated (113). -/
structure Conn (Addr : Type) where
  addr : Addr
  stream : List UInt8
  room : Nat
  setupOk : Bool
  cloneOk : Bool
  deriving DecidableEq

/-- udp_server.rs:104-112 for any handler. `serve d n`: the outcome of `handle_request` for the datagram `d` when `send_to`
returns `n`. Replies go to the address of the request. `send_to` sends a datagram as a whole or fails. -/
def udpKind {Addr : Type} (serve : List UInt8 → List (Option Nat) → Out Empty (List (List UInt8) × Bool) → Prop) :
    Kind (Packet Addr) (Packet Addr) where
  serves r outs panics :=
    if panics then outs = [] ∧ ∃ (sendOk : Bool) (e : Panic), serve r.bytes [if sendOk then some Message.MAX_UDP_LEN_BYTES else none] (.panic e)
    else ∃ (sendOk : Bool) (datagrams : List (List UInt8)) (replyOk : Bool), serve r.bytes [if sendOk then some Message.MAX_UDP_LEN_BYTES else none] (.ok (datagrams, replyOk)) ∧
      outs = datagrams.map fun d => ⟨r.addr, d⟩
  mayDrop := true

/-- tcp_server.rs:106-117 for any handler. -/
def tcpKind {Addr : Type} (serve : List UInt8 → Nat → Out Empty (List UInt8 × Bool) → Prop) :
    Kind (Conn Addr) (Packet Addr) where
  serves r outs panics :=
    if r.setupOk = false then outs = [] ∧ panics = false
    else if r.cloneOk = false then outs = [] ∧ panics = true
    else if panics then outs = [] ∧ ∃ e, serve r.stream r.room (.panic e)
    else ∃ bytes replyOk, serve r.stream r.room (.ok (bytes, replyOk)) ∧
      outs = if bytes = [] then [] else [⟨r.addr, bytes⟩]
  mayDrop := false

/-- bin/nameserver.rs:43-45, 60 with udp_server.rs. -/
def nameserverUdp {Addr : Type} (p : Profile) (zones : ManagedZone) : Kind (Packet Addr) (Packet Addr) :=
  udpKind fun d sends o => o = Nameserver.serveUdp p zones d sends

/-- bin/nameserver.rs:43-45, 60 with tcp_server.rs. -/
def nameserverTcp {Addr : Type} (p : Profile) (zones : ManagedZone) : Kind (Conn Addr) (Packet Addr) :=
  tcpKind fun s room o => o = Nameserver.serveTcp p zones s room

/-- The outcome of a request to the resolver, without its errors (there are none, see `Resolver.handle`). -/
def outcome {α : Type} : Out Resolver.LookupErr α → Out Empty α
  | .ok a => .ok a
  | .err _ => .diverge
  | .panic k => .panic k
  | .diverge => .diverge

/-- bin/resolver.rs:53-55, 71 with udp_server.rs. What the servers answer, the other threads and the state of the cache are
arbitrary (`env`, `w`) for every request. -/
def resolverUdp {Addr : Type} (p : Profile) (conf : Resolver.Params) : Kind (Packet Addr) (Packet Addr) :=
  udpKind fun d sends o => ∃ env w fuel, o = outcome (Resolver.serveUdp env p conf fuel d sends w).1

/-- bin/resolver.rs:53-55, 71 with tcp_server.rs. -/
def resolverTcp {Addr : Type} (p : Profile) (conf : Resolver.Params) : Kind (Conn Addr) (Packet Addr) :=
  tcpKind fun s room o => ∃ env w fuel, o = outcome (Resolver.serveTcp env p conf fuel s room w).1

/-! ## `start_servers` -/

/-- Where the main thread is in setup.rs:11-43. -/
inductive Main
  | waiting       -- 39: `rx.recv()`
  | flagged       -- 40 is next: `stop.store`
  | wakeUdp       -- 41, 51-55
  | wakeTcp       -- 56-59
  | lastWait      -- 42: `recv_timeout`
  | returned
  | panicked      -- 42: the `unwrap` failed; the process ends
  deriving DecidableEq, Repr

/-- The process. -/
structure Process (R O R' O' : Type) where
  main : Main
  udp : State R O
  tcp : State R' O'
  stop : Bool
  /-- Messages in the channel of setup.rs:12. -/
  notes : Nat
  udpTold : Bool
  tcpTold : Bool

variable {R' O' : Type}

/-- The process still exists: the main thread has not ended and no thread aborted it. -/
def Process.alive (s : Process R O R' O') : Prop :=
  s.main ≠ .returned ∧ s.main ≠ .panicked ∧ s.udp.phase ≠ .aborted ∧ s.tcp.phase ≠ .aborted

/-- setup.rs:11-36. -/
def Process.init (udpThreads tcpThreads : Nat) : Process R O R' O' :=
  { main := .waiting, udp := Server.init udpThreads, tcp := Server.init tcpThreads, stop := false, notes := 0,
    udpTold := false, tcpTold := false }

/-- Steps of the threads of the process; they all end when it does (`alive`). -/
inductive Process.Step (k : Kind R O) (k' : Kind R' O') (wake : R) (wake' : R') : Process R O R' O' → Process R O R' O' → Prop
  | udp {s : Process R O R' O'} {t : State R O} : s.alive → Server.Step k s.stop s.udp t → Process.Step k k' wake wake' s { s with udp := t }
  | tcp {s : Process R O R' O'} {t : State R' O'} : s.alive → Server.Step k' s.stop s.tcp t →
      Process.Step k k' wake wake' s { s with tcp := t }
  /-- 24: the UDP server has returned. -/
  | udpTell {s : Process R O R' O'} : s.alive → s.udp.phase = .returned → s.udpTold = false →
      Process.Step k k' wake wake' s { s with notes := s.notes + 1, udpTold := true }
  /-- 35: the TCP server has returned. -/
  | tcpTell {s : Process R O R' O'} : s.alive → s.tcp.phase = .returned → s.tcpTold = false →
      Process.Step k k' wake wake' s { s with notes := s.notes + 1, tcpTold := true }
  /-- 39. -/
  | heard {s : Process R O R' O'} (n : Nat) : s.alive → s.main = .waiting → s.notes = n + 1 →
      Process.Step k k' wake wake' s { s with main := .flagged, notes := n }
  /-- 40. -/
  | flag {s : Process R O R' O'} : s.alive → s.main = .flagged →
      Process.Step k k' wake wake' s { s with main := .wakeUdp, stop := true }
  /-- 51-53: the datagram reaches the server if its socket is open. -/
  | wakeUdp {s : Process R O R' O'} : s.alive → s.main = .wakeUdp → Process.Step k k' wake wake' s
      { s with main := .wakeTcp, udp := if s.udp.phase.listening then { s.udp with inbox := s.udp.inbox ++ [wake] } else s.udp }
  /-- 53: the datagram is not sent. -/
  | wakeUdpLost {s : Process R O R' O'} : s.alive → s.main = .wakeUdp → Process.Step k k' wake wake' s { s with main := .wakeTcp }
  /-- 54: no local socket: the function returns without waking the TCP server. -/
  | wakeUdpErr {s : Process R O R' O'} : s.alive → s.main = .wakeUdp → Process.Step k k' wake wake' s { s with main := .lastWait }
  /-- 56-58: the connection is made if the server listens. -/
  | wakeTcp {s : Process R O R' O'} : s.alive → s.main = .wakeTcp → Process.Step k k' wake wake' s
      { s with main := .lastWait, tcp := if s.tcp.phase.listening then { s.tcp with inbox := s.tcp.inbox ++ [wake'] } else s.tcp }
  /-- 59: it is not made. -/
  | wakeTcpErr {s : Process R O R' O'} : s.alive → s.main = .wakeTcp → Process.Step k k' wake wake' s { s with main := .lastWait }
  /-- 42: the second message is there. -/
  | done {s : Process R O R' O'} (n : Nat) : s.alive → s.main = .lastWait → s.notes = n + 1 →
      Process.Step k k' wake wake' s { s with main := .returned, notes := n }
  /-- 42: four seconds without a message; `unwrap` panics. -/
  | timeout {s : Process R O R' O'} : s.alive → s.main = .lastWait → s.notes = 0 →
      Process.Step k k' wake wake' s { s with main := .panicked }

/-- Clients send something to one of the servers. -/
inductive Process.Arrive : Process R O R' O' → Process R O R' O' → Prop
  | udp {s : Process R O R' O'} {t : State R O} : s.alive → Server.Arrive s.udp t → Process.Arrive s { s with udp := t }
  | tcp {s : Process R O R' O'} {t : State R' O'} : s.alive → Server.Arrive s.tcp t → Process.Arrive s { s with tcp := t }

/-- States of the process reachable in any schedule, with any requests. -/
inductive Process.Reachable (k : Kind R O) (k' : Kind R' O') (wake : R) (wake' : R') (udpThreads tcpThreads : Nat) :
    Process R O R' O' → Prop
  | init : Process.Reachable k k' wake wake' udpThreads tcpThreads (Process.init udpThreads tcpThreads)
  | step {s t : Process R O R' O'} : Process.Reachable k k' wake wake' udpThreads tcpThreads s →
      Process.Step k k' wake wake' s t → Process.Reachable k k' wake wake' udpThreads tcpThreads t
  | arrive {s t : Process R O R' O'} : Process.Reachable k k' wake wake' udpThreads tcpThreads s →
      Process.Arrive s t → Process.Reachable k k' wake wake' udpThreads tcpThreads t

end Ariadne.Server
