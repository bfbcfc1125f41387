import Verif.Lemmas.UdpTcp
import Verif.Props.Serving
import Verif.Props.EndToEnd
import Verif.Props.LongChain

/-! # C103: one request over UDP and over TCP -/

namespace Ariadne.Props

open Spec BitsBuf

/-! ## C103 -/

/-- What goes out when the connection takes everything. -/
theorem tcpReply_full {m : Message} {room : Nat} {frame : List UInt8} (h : Net.tcpReply m room = .ok (frame, true)) :
    ∃ full, m.encodeToBytes = .ok full ∧ frame = be16 (full.length % 65536) ++ full := by
  have henc : ∃ x, m.encodeToBytes = .ok x := by
    unfold Net.tcpReply at h
    split at h
    · exact ⟨_, by assumption⟩
    · cases h
    · cases h
    · cases h
  obtain ⟨x, hx⟩ := henc
  rw [tcpReply_eq hx] at h
  have h := Prod.mk.inj (Out.ok.inj h)
  refine ⟨x, hx, ?_⟩
  rw [← h.1, List.take_of_length_le (of_decide_eq_true h.2)]

/-- Two ways of sending one reply. -/
theorem both_replies {m : Message} {room : Nat} {frame : List UInt8} (h : Net.tcpReply m room = .ok (frame, true)) :
    ∃ full short, frame = be16 (full.length % 65536) ++ full ∧ Shortened full short ∧
      ∀ n, short.length ≤ n → Net.udpReply m [some n] = .ok ([short], true) := by
  obtain ⟨full, h1, h2⟩ := tcpReply_full h
  obtain ⟨short, h3, h4⟩ := shortened h1
  exact ⟨full, short, h2, h4, fun n hn => udpReply_once h3 h4.size.1 hn⟩

/-- C103, the name server: whenever a request of at most 512 octets is served over TCP, in full, then over UDP the same request
gets no reply if it got none, and otherwise one datagram with what it holds of the same reply: all of it, unless that has more
than 512 octets. -/
theorem C103_nameserver {p : Profile} {zones : ManagedZone} {request rest frame : List UInt8} {room : Nat} (hb : request.length ≤ 512)
    (h : Nameserver.serveTcp p zones (be16 request.length ++ (request ++ rest)) room = .ok (frame, true)) :
    (frame = [] ∧ ∀ sends, Nameserver.serveUdp p zones request sends = .ok ([], true)) ∨
    ∃ full short, frame = be16 (full.length % 65536) ++ full ∧ Shortened full short ∧
      ∀ n, short.length ≤ n → Nameserver.serveUdp p zones request [some n] = .ok ([short], true) := by
  unfold Nameserver.serveTcp at h
  unfold Nameserver.serveUdp
  rw [C30_classification.2.2.1 p request rest hb] at h
  cases hr : Net.udpRead p request with
  | ok read =>
    rw [hr, Out.bind_ok, Out.bind_ok] at h
    simp only at h
    simp only [Out.bind_ok]
    cases hm : Nameserver.handle p zones read with
    | ok mo =>
      rw [hm, Out.bind_ok] at h
      simp only [Out.bind_ok]
      cases mo with
      | none => exact .inl ⟨(Prod.mk.inj (Out.ok.inj h)).1.symm, fun _ => rfl⟩
      | some m => exact .inr (both_replies h)
    | err e => exact nomatch e
    | panic k => rw [hm] at h; cases h
    | diverge => rw [hm] at h; cases h
  | err e => exact nomatch e
  | panic k => rw [hr] at h; cases h
  | diverge => rw [hr] at h; cases h

open Resolver in
theorem infallible_of {α : Type} {o : Out Empty α} {a : α} {w w' : World} (h : infallible o w = (.ok a, w')) : o = .ok a ∧ w' = w := by
  unfold infallible M.lift Out.mapErr at h
  cases o with
  | ok b =>
    have h := Prod.mk.inj h
    exact ⟨congrArg Out.ok (Out.ok.inj h.1), h.2.symm⟩
  | err e => exact nomatch e
  | panic k => exact nomatch (Prod.mk.inj h).1
  | diverge => exact nomatch (Prod.mk.inj h).1

open Resolver in
/-- C103, the resolver: the same, for the same request at the same moment (`w`: cache and history; `env`: what the servers and the
other threads will do). The lookup takes the same course. -/
theorem C103_resolver {env : Env} {p : Profile} {conf : Resolver.Params} {fuel : Nat} {request rest frame : List UInt8} {room : Nat}
    {w w' : World} (hb : request.length ≤ 512)
    (h : Resolver.serveTcp env p conf fuel (be16 request.length ++ (request ++ rest)) room w = (.ok (frame, true), w')) :
    (frame = [] ∧ ∀ sends, Resolver.serveUdp env p conf fuel request sends w = (.ok ([], true), w')) ∨
    ∃ full short, frame = be16 (full.length % 65536) ++ full ∧ Shortened full short ∧
      ∀ n, short.length ≤ n → Resolver.serveUdp env p conf fuel request [some n] w = (.ok ([short], true), w') := by
  unfold Resolver.serveTcp at h
  unfold Resolver.serveUdp
  rw [C30_classification.2.2.1 p request rest hb] at h
  cases hr : Net.udpRead p request with
  | ok read =>
    rw [hr, Out.bind_ok, infallible_ok (a := (read, rest)) rfl] at h
    simp only [infallible_ok (a := read) rfl]
    simp only at h
    rcases hm : Resolver.handle env p conf fuel read w with ⟨o, w1⟩
    cases o with
    | ok mo =>
      rw [M.bind_eq hm] at h
      simp only [M.bind_eq hm]
      cases mo with
      | none =>
        have h := Prod.mk.inj h
        refine .inl ⟨(Prod.mk.inj (Out.ok.inj h.1)).1.symm, fun _ => ?_⟩
        rw [← h.2]
        rfl
      | some m =>
        simp only at h
        obtain ⟨h1, rfl⟩ := infallible_of h
        obtain ⟨full, short, e1, e2, e3⟩ := both_replies h1
        refine .inr ⟨full, short, e1, e2, fun n hn => ?_⟩
        simp only [e3 n hn]
        rfl
    | err e => simp only [bind, M.bind, hm] at h; exact nomatch (Prod.mk.inj h).1
    | panic k => simp only [bind, M.bind, hm] at h; exact nomatch (Prod.mk.inj h).1
    | diverge => simp only [bind, M.bind, hm] at h; exact nomatch (Prod.mk.inj h).1
  | err e => exact nomatch e
  | panic k => rw [hr] at h; exact nomatch (Prod.mk.inj h).1
  | diverge => rw [hr] at h; exact nomatch (Prod.mk.inj h).1

/-- An address of "ns.e.". -/
def anAddr : Record := ⟨⟨"ns.e.".toList⟩, .IN, 100, 4, .A ⟨10, 0, 0, 1⟩⟩

/-- A zone in which this is stated 40 times. -/
def manyAddrs : ManagedZone := ⟨(List.replicate 40 anAddr).foldl Zone.insert (Zone.new ⟨"e.".toList⟩), []⟩

/-- The reply to the query for them. -/
def manyReply : Message :=
  ⟨⟨7, true, .STD, true, false, true, false, 0, .NoError, 1, 40, 0, 0⟩, [⟨⟨"ns.e.".toList⟩, .A, .IN⟩], List.replicate 40 anAddr, [], []⟩

theorem manyReply_encodes : ∃ full, manyReply.encodeToBytes = .ok full ∧ full.length = 822 := by
  have key : Writes (Record.encode anAddr) [2, 110, 115, 1, 101, 0, 0, 1, 0, 1, 0, 0, 0, 100, 0, 4, 10, 0, 0, 1] :=
    Writes.assert (by decide) (Writes.assert (by decide) (Writes.bind (writes_bytes _) (Writes.bind (writes_u16 _)
      (Writes.bind (writes_u16 _) (Writes.bind (writes_u32 _) (Writes.bind (writes_u16 _) (writes_bytes _)))))))
  have kq : Writes (Question.encode ⟨⟨"ns.e.".toList⟩, .A, .IN⟩) [2, 110, 115, 1, 101, 0, 0, 1, 0, 1] :=
    Writes.assert (by decide) (Writes.assert (by decide) (Writes.bind (writes_bytes _) (Writes.bind (writes_u16 _) (writes_u16 _))))
  have he : ∀ n : Nat, Encodings Record.encode (List.replicate n anAddr)
      (List.replicate n [2, 110, 115, 1, 101, 0, 0, 1, 0, 1, 0, 0, 0, 100, 0, 4, 10, 0, 0, 1]) := by
    intro n
    induction n with
    | zero => exact .nil
    | succ n ih => exact .cons key ih
  exact ⟨_, encode_of_encodings (m := manyReply) rfl ⟨rfl, by simp [manyReply], rfl, rfl⟩ (au := []) (ad := []) (.cons kq .nil) (he 40)
    .nil .nil, by
    simp only [List.length_append, headerBytes_length, List.length_flatten, List.map_replicate, List.sum_replicate, List.length_cons, List.length_nil, List.map_cons, List.map_nil, List.sum_cons, List.sum_nil]; rfl⟩

theorem serveTcp_whole {p : Profile} {zones : ManagedZone} {stream rest full : List UInt8} {req m : Message} {room : Nat}
    (hr : Net.tcpRead p stream = .ok (.fullMessage req, rest)) (hm : Nameserver.handle p zones (.fullMessage req) = .ok (some m))
    (h : m.encodeToBytes = .ok full) (hl : 2 + full.length ≤ room) :
    Nameserver.serveTcp p zones stream room = .ok (be16 (full.length % 65536) ++ full, true) := by
  unfold Nameserver.serveTcp
  rw [hr, Out.bind_ok]
  simp only [hm, Out.bind_ok]
  have hl : (be16 (full.length % 65536) ++ full).length ≤ room := by rw [List.length_append, be16_length]; exact hl
  rw [tcpReply_eq h, List.take_of_length_le hl, decide_eq_true hl]

/-- The hypothesis is met where it matters: over TCP this reply has 12 + 10 + 40 * 20 octets. -/
example : ∃ frame, Nameserver.serveTcp .debug manyAddrs (be16 askDatagram.length ++ (askDatagram ++ [])) 1000 = .ok (frame, true) ∧
    frame.length = 2 + 822 := by
  obtain ⟨full, h1, h2⟩ := manyReply_encodes
  have hr : Net.tcpRead .debug (be16 askDatagram.length ++ (askDatagram ++ [])) = .ok (.fullMessage (ask "ns.e." .A), []) := by
    decide +kernel
  have hm : Nameserver.handle .debug manyAddrs (.fullMessage (ask "ns.e." .A)) = .ok (some manyReply) := by decide +kernel
  exact ⟨_, serveTcp_whole hr hm h1 (by omega), by rw [List.length_append, h2, be16_length]⟩

end Ariadne.Props
