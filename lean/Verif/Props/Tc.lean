import Verif.Spec.Tc
import Verif.Props.UdpTcp
import Verif.Props.Told

/-! # C115: the TC flag tells whether a reply is whole -/

namespace Ariadne.Props

open Spec BitsBuf

/-- The name server: whatever the request of at most 512 octets, the reply over TCP does not have TC, and the datagram sent for it over
UDP has TC if and only if it does not hold the whole reply. -/
def NameserverTc (request : List UInt8) : Prop :=
  ∀ {p : Profile} {zones : ManagedZone} {rest full : List UInt8} {room : Nat}, request.length ≤ 512 →
    Nameserver.serveTcp p zones (be16 request.length ++ (request ++ rest)) room = .ok (be16 (full.length % 65536) ++ full, true) →
    ∃ datagram, (∀ n, datagram.length ≤ n → Nameserver.serveUdp p zones request [some n] = .ok ([datagram], true)) ∧
      TcIsTrue full datagram

/-- The resolver, likewise: at the same moment, with the servers behaving the same. -/
def ResolverTc (request : List UInt8) : Prop :=
  ∀ {env : Resolver.Env} {p : Profile} {conf : Resolver.Params} {fuel : Nat} {rest full : List UInt8} {room : Nat} {w w' : Resolver.World},
    request.length ≤ 512 →
    Resolver.serveTcp env p conf fuel (be16 request.length ++ (request ++ rest)) room w =
      (.ok (be16 (full.length % 65536) ++ full, true), w') →
    ∃ datagram, (∀ n, datagram.length ≤ n → Resolver.serveUdp env p conf fuel request [some n] w = (.ok ([datagram], true), w')) ∧
      TcIsTrue full datagram

def C115_statement : Prop := ∀ request, NameserverTc request ∧ ResolverTc request

theorem outBind_inv {ε α β : Type} {x : Out ε α} {f : α → Out ε β} {b : β} (h : (x >>= f) = .ok b) : ∃ a, x = .ok a ∧ f a = .ok b := by
  cases x with
  | ok a => exact ⟨a, rfl, h⟩
  | _ => cases h

theorem header_tc_iff (h : Header) : bitAt (headerBytes h) 22 = h.truncated := by
  cases ht : h.truncated with
  | true => exact header_tc ht
  | false =>
    have h1 := flag_lt h.queryResp
    have h2 := flag_lt h.authAnswer
    have h4 := flag_lt h.recursionDesired
    have h6 := opCode_lt h.opCode
    have e : bitAt (headerBytes h) 22 = (UInt8.ofNat (flag h.queryResp * 128 + h.opCode.toNum.toNat * 8 + flag h.authAnswer * 4 +
      flag h.truncated * 2 + flag h.recursionDesired)).toNat.testBit 1 := rfl
    have hf : flag false = 0 := rfl
    rw [e, ht, hf, UInt8.toNat_ofNat', Nat.mod_eq_of_lt (by omega), Nat.testBit_eq_decide_div_mod_eq]
    apply decide_eq_false
    omega

/-- TC of a message that was encoded. -/
theorem tc_of_encode {m : Message} {full : List UInt8} (h : m.encodeToBytes = .ok full) : bitAt full 22 = m.header.truncated := by
  have h0 : (Ariadne.announced m).header.truncated = m.header.truncated := rfl
  rw [← Ariadne.announced_encode] at h
  rw [← h0]
  have hc := announced_counts (by rwa [Ariadne.announced_encode] at h)
  generalize Ariadne.announced m = m at *
  obtain ⟨hop, h1, h2⟩ := allWrite_of_encode hc h
  obtain ⟨q, hq⟩ := encodings_of_all h1
  obtain ⟨an, han⟩ := encodings_of_all (xs := m.answers) fun r hr => h2 r (by simp [hr])
  obtain ⟨au, hau⟩ := encodings_of_all (xs := m.authorities) fun r hr => h2 r (by simp [hr])
  obtain ⟨ad, had⟩ := encodings_of_all (xs := m.additionals) fun r hr => h2 r (by simp [hr])
  have e1 := encode_of_encodings hop hc hq han hau had
  rw [h] at e1
  rw [Out.ok.inj e1, bitAt_left (by rw [headerBytes_length]; omega), header_tc_iff]

/-- TC of a header that was decoded. -/
theorem tc_of_header {bytes : List UInt8} {h : Header} (hd : Header.decodeFromBytes bytes = .ok h) : h.truncated = bitAt bytes 22 := by
  have h16 := (C16_header (Header.mk 0 false .STD false false false false 0 .NoError 0 0 0 0) rfl).2.1 bytes
  rw [hd] at h16
  simp only [headerFields, Laid] at h16
  have := h16.2.2.2.2.2.1.2 0 (by omega)
  simp only [Nat.add_zero, Nat.sub_zero] at this
  rw [← this]
  cases h.truncated <;> rfl

theorem header_of_message {p : Profile} {bytes : List UInt8} {m : Message} (h : Message.decodeFromBytes p bytes = .ok m) :
    Header.decodeFromBytes bytes = .ok m.header := by
  unfold Message.decodeFromBytes at h
  unfold Header.decodeFromBytes
  obtain ⟨b, h⟩ : ∃ b, Message.decode p (fromRawBytes bytes) = (.ok m, b) := ⟨_, Prod.ext h rfl⟩
  unfold Message.decode at h
  obtain ⟨hd, b1, h1, h⟩ := bufBind_ok_inv h
  obtain ⟨-, b2, -, h⟩ := bufBind_ok_inv h
  obtain ⟨qs, b3, -, h⟩ := bufBind_ok_inv h
  obtain ⟨an, b4, -, h⟩ := bufBind_ok_inv h
  obtain ⟨au, b5, -, h⟩ := bufBind_ok_inv h
  obtain ⟨ad, b6, -, h⟩ := bufBind_ok_inv h
  have e : hd = m.header := by rw [← Out.ok.inj (Prod.mk.inj h).1]
  rw [← e]
  unfold BufM.mapErr at h1
  revert h1
  generalize Header.decode (fromRawBytes bytes) = x
  obtain ⟨o, b'⟩ := x
  cases o with
  | ok a => intro h1; exact congrArg Out.ok (Out.ok.inj (Prod.mk.inj h1).1)
  | err e => intro h1; exact nomatch (Prod.mk.inj h1).1
  | panic k => intro h1; exact nomatch (Prod.mk.inj h1).1
  | diverge => intro h1; exact nomatch (Prod.mk.inj h1).1

/-- The header of what was read. -/
def headerOf : ReadResult → Option Header
  | .fullMessage m => some m.header
  | .headerOnly h _ => some h
  | _ => none

theorem read_tc {p : Profile} {bytes : List UInt8} {read : ReadResult} (hb : bytes.length ≤ 512) (h : Net.udpRead p bytes = .ok read)
    {hd : Header} (e : headerOf read = some hd) : hd.truncated = bitAt bytes 22 := by
  have hc := (C30_classification.1 p bytes _).1 h
  rw [List.take_of_length_le hb] at hc
  cases hc with
  | full hm => cases e; exact tc_of_header (header_of_message hm)
  | header _ hh => cases e; exact tc_of_header hh
  | none => cases e

open Nameserver in
theorem query_tc {p : Profile} {req m : Message} {q : Question} {zones : ManagedZone} (h : query p req q zones = .ok m) :
    m.header.truncated = req.header.truncated := by
  unfold query at h
  split at h
  · rw [← Out.ok.inj h]; rfl
  · split at h
    · unfold referral at h
      obtain ⟨s, h1, h⟩ := outBind_inv h
      cases s with
      | none => cases h
      | some a =>
        dsimp only at h
        split at h
        · cases h
        · obtain ⟨g, h2, h⟩ := outBind_inv h
          rw [← Out.ok.inj h]; rfl
    · unfold authZone at h
      obtain ⟨s, h1, h⟩ := outBind_inv h
      dsimp only at h
      split at h
      · obtain ⟨c, h2, h⟩ := outBind_inv h
        cases c with
        | some c => rw [← Out.ok.inj h]; rfl
        | none =>
          obtain ⟨soa, h3, h⟩ := outBind_inv h
          match soa with
          | none => cases h
          | some [] => cases h
          | some (soa :: _) =>
            dsimp only at h
            unfold nxReply at h
            split at h
            · cases h
            · rw [← Out.ok.inj h]; rfl
      · rw [← Out.ok.inj h]; rfl

theorem nameserver_tc {p : Profile} {zones : ManagedZone} {read : ReadResult} {m : Message} (h : Nameserver.handle p zones read = .ok (some m)) :
    ∃ hd, headerOf read = some hd ∧ m.header.truncated = hd.truncated := by
  unfold Nameserver.handle at h
  cases read with
  | fullMessage req =>
    refine ⟨_, rfl, ?_⟩
    dsimp only at h
    cases hv : Nameserver.validate req with
    | none => rw [hv] at h; rw [← Option.some.inj (Out.ok.inj h)]; rfl
    | some q =>
      rw [hv] at h
      obtain ⟨m', h1, h2⟩ := outBind_inv h
      rw [← Option.some.inj (Out.ok.inj h2)]
      exact query_tc h1
  | headerOnly hd e => exact ⟨_, rfl, by rw [← Option.some.inj (Out.ok.inj h)]; rfl⟩
  | parseErr a b => exact nomatch Out.ok.inj h
  | ioErr => exact nomatch Out.ok.inj h

open Resolver in
theorem resolver_tc {env : Env} {p : Profile} {conf : Resolver.Params} {fuel : Nat} {read : ReadResult} {m : Message} {w w' : World}
    (h : Resolver.handle env p conf fuel read w = (.ok (some m), w')) : ∃ hd, headerOf read = some hd ∧ m.header.truncated = hd.truncated := by
  cases read with
  | fullMessage req =>
    refine ⟨_, rfl, ?_⟩
    unfold Resolver.handle at h
    dsimp only at h
    split at h
    · rw [← Option.some.inj (Out.ok.inj (Prod.mk.inj h).1)]; rfl
    · revert h
      generalize req.questions = qs
      intro h
      cases qs with
      | nil => exact nomatch (Prod.mk.inj h).1
      | cons q qs =>
        obtain ⟨res, w1, -, h2⟩ := mBind_ok_inv h
        rw [← Option.some.inj (Out.ok.inj (Prod.mk.inj h2).1)]
        unfold resultReply
        split
        · rfl
        · split <;> rfl
  | headerOnly hd e => exact ⟨_, rfl, by rw [← Option.some.inj (Out.ok.inj (Prod.mk.inj h).1)]; rfl⟩
  | parseErr a b => exact nomatch Out.ok.inj (Prod.mk.inj h).1
  | ioErr => exact nomatch Out.ok.inj (Prod.mk.inj h).1

theorem frame_inj {x y : List UInt8} (h : be16 (x.length % 65536) ++ x = be16 (y.length % 65536) ++ y) : x = y :=
  (List.append_inj h (by rw [be16_length, be16_length])).2

/-- Both ways of sending one reply, and TC. -/
theorem reply_tc {m : Message} {room : Nat} {full : List UInt8} (h : Net.tcpReply m room = .ok (be16 (full.length % 65536) ++ full, true))
    (ht : m.header.truncated = false) :
    ∃ datagram, (∀ n, datagram.length ≤ n → Net.udpReply m [some n] = .ok ([datagram], true)) ∧ TcIsTrue full datagram := by
  obtain ⟨full', h1, h2⟩ := tcpReply_full h
  cases frame_inj h2
  obtain ⟨short, h3, h4⟩ := shortened h1
  have hf : bitAt full 22 = false := by rw [tc_of_encode h1, ht]
  refine ⟨short, fun n hn => udpReply_once h3 h4.size.1 hn, hf, fun hs => ?_, h4.tc⟩
  apply Classical.byContradiction
  intro hle
  rw [h4.whole (by omega), hf] at hs
  cases hs

theorem not_nil {x : List UInt8} (h : ([] : List UInt8) = be16 (x.length % 65536) ++ x) : False := by
  have := congrArg List.length h
  rw [List.length_append, be16_length, List.length_nil] at this
  omega

/-- C115, for requests without TC. -/
theorem C115_tc_partial (request : List UInt8) (h : bitAt request 22 = false) : NameserverTc request ∧ ResolverTc request := by
  constructor
  · intro p zones rest full room hb hs
    unfold Nameserver.serveTcp at hs
    rw [C30_classification.2.2.1 p request rest hb] at hs
    cases hr : Net.udpRead p request with
    | ok read =>
      rw [hr, Out.bind_ok, Out.bind_ok] at hs
      simp only at hs
      obtain ⟨mo, hm, hs⟩ := outBind_inv hs
      cases mo with
      | none => exact (not_nil (Prod.mk.inj (Out.ok.inj hs)).1).elim
      | some m =>
        obtain ⟨hd, e1, e2⟩ := nameserver_tc hm
        obtain ⟨datagram, e3, e4⟩ := reply_tc hs (by rw [e2, read_tc hb hr e1, h])
        refine ⟨datagram, fun n hn => ?_, e4⟩
        unfold Nameserver.serveUdp
        rw [hr, Out.bind_ok, hm, Out.bind_ok]
        exact e3 n hn
    | err e => exact nomatch e
    | panic k => rw [hr] at hs; cases hs
    | diverge => rw [hr] at hs; cases hs
  · intro env p conf fuel rest full room w w' hb hs
    unfold Resolver.serveTcp at hs
    rw [C30_classification.2.2.1 p request rest hb] at hs
    cases hr : Net.udpRead p request with
    | ok read =>
      rw [hr, Out.bind_ok, infallible_ok (a := (read, rest)) rfl] at hs
      simp only at hs
      rcases hm : Resolver.handle env p conf fuel read w with ⟨o, w1⟩
      cases o with
      | ok mo =>
        rw [Resolver.M.bind_eq hm] at hs
        cases mo with
        | none => exact (not_nil (Prod.mk.inj (Out.ok.inj (Prod.mk.inj hs).1)).1).elim
        | some m =>
          simp only at hs
          obtain ⟨h1, rfl⟩ := infallible_of hs
          obtain ⟨hd, e1, e2⟩ := resolver_tc hm
          obtain ⟨datagram, e3, e4⟩ := reply_tc h1 (by rw [e2, read_tc hb hr e1, h])
          refine ⟨datagram, fun n hn => ?_, e4⟩
          unfold Resolver.serveUdp
          rw [hr, infallible_ok (a := read) rfl]
          simp only [Resolver.M.bind_eq hm, e3 n hn]
          rfl
      | err e => simp only [bind, Resolver.M.bind, hm] at hs; exact nomatch (Prod.mk.inj hs).1
      | panic k => simp only [bind, Resolver.M.bind, hm] at hs; exact nomatch (Prod.mk.inj hs).1
      | diverge => simp only [bind, Resolver.M.bind, hm] at hs; exact nomatch (Prod.mk.inj hs).1
    | err e => exact nomatch e
    | panic k => rw [hr] at hs; exact nomatch (Prod.mk.inj hs).1
    | diverge => rw [hr] at hs; exact nomatch (Prod.mk.inj hs).1

/-- A request with TC, otherwise like `askDatagram`: it gets a reply of 22 octets with TC, in which nothing is missing. -/
def tcDatagram : List UInt8 := [0, 7, 3, 0, 0, 1, 0, 0, 0, 0, 0, 0, 2, 110, 115, 1, 101, 0, 0, 1, 0, 1]

def tcReply : List UInt8 := [0, 7, 135, 5, 0, 1, 0, 0, 0, 0, 0, 0, 2, 110, 115, 1, 101, 0, 0, 1, 0, 1]

theorem C115_violated : ¬ C115_statement := by
  intro h
  have hs : Nameserver.serveTcp .debug ⟨Zone.new ⟨"f.".toList⟩, []⟩ (be16 tcDatagram.length ++ (tcDatagram ++ [])) 100 =
      .ok (be16 (tcReply.length % 65536) ++ tcReply, true) := by decide +kernel
  obtain ⟨d, -, e, -⟩ := (h tcDatagram).1 (by decide) hs
  exact absurd e (by decide)

/-- Requests without TC: the sample of `C103`, whose reply has 822 octets, and so the datagram must have TC. -/
example : ∃ full datagram, full.length = 822 ∧ bitAt full 22 = false ∧ bitAt datagram 22 = true ∧
    Nameserver.serveUdp .debug manyAddrs askDatagram [some datagram.length] = .ok ([datagram], true) := by
  obtain ⟨full, h1, h2⟩ := manyReply_encodes
  have hr : Net.tcpRead .debug (be16 askDatagram.length ++ (askDatagram ++ [])) = .ok (.fullMessage (ask "ns.e." .A), []) := by
    decide +kernel
  have hm : Nameserver.handle .debug manyAddrs (.fullMessage (ask "ns.e." .A)) = .ok (some manyReply) := by decide +kernel
  have hs := serveTcp_whole (room := 1000) hr hm h1 (by omega)
  obtain ⟨d, e1, e2, e3⟩ := (C115_tc_partial askDatagram (by decide)).1 (by decide) hs
  exact ⟨full, d, h2, e2, e3.2 (by omega), e1 _ (Nat.le_refl _)⟩

end Ariadne.Props
