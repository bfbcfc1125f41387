import Verif.Model.Message

/-!
# UDP and TCP readers and writers – models src/shared/net/{traits,udp_server,tcp_server}.rs

The accept/receive loops (`start_udp_server`, `start_tcp_server`, setup.rs) hand every request to the thread pool, see
Model/Pool.lean; socket set-up is not modelled.
-/

namespace Ariadne

/-- traits.rs:13-18 `enum DnsReadResult`; the `io::Error` is dropped. -/
inductive ReadResult
  | fullMessage (m : Message)
  | headerOnly (h : Header) (e : MessageErr)
  | parseErr (e : MessageErr) (eh : ParsingErr)
  | ioErr
  deriving DecidableEq, Repr

namespace Net

/-- udp_server.rs:12-20 and the same code in tcp_server.rs:26-33: classify the bytes of a request. -/
def classify (p : Profile) (bytes : List UInt8) : Out Empty ReadResult :=
  match Message.decodeFromBytes p bytes with
  | .ok m => .ok (.fullMessage m)
  | .panic k => .panic k
  | .diverge => .diverge
  | .err e =>
    match Header.decodeFromBytes bytes with
    | .ok h => .ok (.headerOnly h e)
    | .err eh => .ok (.parseErr e eh)
    | .panic k => .panic k
    | .diverge => .diverge

/-- udp_server.rs:11-21 `UdpRequest::read`, of a datagram received by udp_server.rs:78-86 and cut at 105: `recv_from`
fills a buffer of 512 bytes, the excess of a longer datagram is lost. -/
def udpRead (p : Profile) (datagram : List UInt8) : Out Empty ReadResult :=
  classify p (datagram.take Message.MAX_UDP_LEN_BYTES)

/-- `read_exact` on a stream of which `stream` are all the bytes that will arrive before it is closed, fails or times
out: the bytes and the rest of the stream, or an I/O error. -/
def readExact (n : Nat) (stream : List UInt8) : Option (List UInt8 × List UInt8) :=
  if n ≤ stream.length then some (stream.take n, stream.drop n) else none

/-- tcp_server.rs:14-34 `TcpRequest::read`: the result, and what is left of the stream. -/
def tcpRead (p : Profile) (stream : List UInt8) : Out Empty (ReadResult × List UInt8) :=
  match readExact 2 stream with
  | some ([a, b], rest) =>
    let reqLen : UInt16 := (a.toUInt16 <<< 8) ||| b.toUInt16
    match readExact reqLen.toNat rest with
    | some (buf, rest) => do
      let r ← classify p buf
      .ok (r, rest)
    | none => .ok (.ioErr, [])
  | _ => .ok (.ioErr, [])

/-- `write_all` on a stream that takes `room` bytes before it fails: bytes written, and whether all were. -/
def writeAll (room : Nat) (bytes : List UInt8) : List UInt8 × Bool := (bytes.take room, bytes.length ≤ room)

/-- tcp_server.rs:42-49 `TcpResponse::reply`: the bytes that went out and whether the call returned `Ok`. The
`unwrap` panics when encoding fails. -/
def tcpReply (m : Message) (room : Nat) : Out Empty (List UInt8 × Bool) :=
  match m.encodeToBytes with
  | .ok respBytes =>
    let respLen : UInt16 := UInt16.ofNat respBytes.length
    let buf : List UInt8 := [(respLen >>> 8).toUInt8, respLen.toUInt8]
    let w1 := writeAll room buf
    if w1.2 then
      let w2 := writeAll (room - 2) respBytes
      .ok (w1.1 ++ w2.1, w2.2)
    else .ok (w1.1, false)
  | .err _ => .panic .unwrap
  | .panic k => .panic k
  | .diverge => .diverge

/-- The loop udp_server.rs:36-39: `sends` are the results of the successive `send_to` calls (`none`: error); each call
sends one datagram. Running out of results is `diverge`. -/
def sendLoop (bytes : List UInt8) : List (Option Nat) → Nat → List (List UInt8) → Out Empty (List (List UInt8) × Bool)
  | sends, written, sent =>
    if written < bytes.length then
      match sends with
      | [] => .diverge
      | none :: _ => .ok (sent, false)
      | some n :: sends => sendLoop bytes sends (written + n) (sent ++ [bytes.drop written])
    else .ok (sent, true)

/-- udp_server.rs:33-41 `UdpResponse::reply`: the datagrams sent and whether the call returned `Ok`. -/
def udpReply (m : Message) (sends : List (Option Nat)) : Out Empty (List (List UInt8) × Bool) :=
  match m.encodeToBytesTrunc with
  | .ok respBytes => sendLoop respBytes sends 0 []
  | .err _ => .panic .unwrap
  | .panic k => .panic k
  | .diverge => .diverge

end Net

end Ariadne
