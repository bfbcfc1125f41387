import Verif.Props.Server

/-! # The TCP servers (C73) -/

namespace Ariadne.Props

open Server Spec

variable {Addr : Type}

/-- The full statement of C73, for TCP: no sequence of connections, in any schedule, ends the process. -/
def C73_tcp_statement : Prop :=
  (∀ (p : Profile) (conf : ZoneParser.Params) (zones : ManagedZone) (threads : Nat) (stop : Bool) (s : State (Conn Nat) (Packet Nat)),
    0 < threads → Loaded conf zones → Reachable (nameserverTcp p zones) threads stop s → s.phase ≠ .aborted) ∧
  ∀ (p : Profile) (conf : Resolver.Params) (threads : Nat) (stop : Bool) (s : State (Conn Nat) (Packet Nat)),
    0 < threads → Reachable (resolverTcp p conf) threads stop s → s.phase ≠ .aborted

/-- A connection that cannot be duplicated (no file descriptor is left) makes its worker panic, whatever the handler. -/
theorem clone_panics {serve : List UInt8 → Nat → Out Empty (List UInt8 × Bool) → Prop} {c : Conn Addr} (h1 : c.setupOk = true)
    (h2 : c.cloneOk = false) : (tcpKind serve).serves c [] true := by
  unfold tcpKind
  simp only [h1, h2]
  simp

/-- C73 does not hold over TCP either. Connections that cannot be duplicated, one more than there are threads, abort the name
server and the resolver; so do, for the name server, that many connections that carry a message with a readable header and an
unreadable rest. -/
theorem C73_tcp_violated : ¬ C73_tcp_statement ∧
    (∀ (p : Profile) (zones : ManagedZone) (threads : Nat) (c : Conn Addr), c.setupOk = true → c.cloneOk = false →
      ∃ s : State (Conn Addr) (Packet Addr), Reachable (nameserverTcp p zones) threads false s ∧ s.phase = .aborted ∧
        s.seen = List.replicate (threads + 1) c) ∧
    (∀ (p : Profile) (conf : Resolver.Params) (threads : Nat) (c : Conn Addr), c.setupOk = true → c.cloneOk = false →
      ∃ s : State (Conn Addr) (Packet Addr), Reachable (resolverTcp p conf) threads false s ∧ s.phase = .aborted ∧
        s.seen = List.replicate (threads + 1) c) ∧
    (∀ (p : Profile) (zones : ManagedZone) (threads : Nat) (c : Conn Addr) (h : Header) (e : MessageErr) (rest : List UInt8),
      c.setupOk = true → Net.tcpRead p c.stream = .ok (.headerOnly h e, rest) →
      ∃ s : State (Conn Addr) (Packet Addr), Reachable (nameserverTcp p zones) threads false s ∧ s.phase = .aborted ∧
        s.seen = List.replicate (threads + 1) c) := by
  refine ⟨fun h => ?_, fun p zones threads c h1 h2 => abort_reachable (clone_panics h1 h2) threads,
    fun p conf threads c h1 h2 => abort_reachable (clone_panics h1 h2) threads, fun p zones threads c h e rest h1 h2 => ?_⟩
  · obtain ⟨s, hs, ha, -⟩ := abort_reachable (k := resolverTcp .release ⟨1, 1, 1, false⟩) (r := (⟨0, [], 0, true, false⟩ : Conn Nat))
      (clone_panics rfl rfl) 1
    exact h.2 _ _ 1 _ s (by decide) hs ha
  · refine abort_reachable ?_ threads
    cases h3 : c.cloneOk with
    | false => exact clone_panics h1 h3
    | true =>
      obtain ⟨k, hk⟩ := C51_violated.2.2 p zones c.stream rest h e c.room h2
      unfold nameserverTcp tcpKind
      simp only [h1, h3]
      simp only [if_true, Bool.true_eq_false, if_false]
      exact ⟨trivial, k, hk.symm⟩

/-- Such a connection exists: it carries a query with 64 as a label length. -/
example : ∃ h e, Net.tcpRead .debug (be16 badQuery.length ++ (badQuery ++ [])) = .ok (.headerOnly h e, []) := by
  obtain ⟨r, h1, h2⟩ := ok_of (x := Net.udpRead .debug badQuery) (fun r => match r with
    | .headerOnly _ _ => true
    | _ => false) (by decide +kernel)
  cases r with
  | headerOnly h e =>
    have := (C30_classification.1 .debug badQuery _).1 h1
    rw [show badQuery.take 512 = badQuery from rfl] at this
    exact ⟨h, e, (C29_tcp_framing_partial.2.1 .debug badQuery [] (by decide) _).2 this⟩
  | _ => cases h2

/-- A connection the name server can handle: its time-outs cannot be set, or it can be duplicated and what is read from it is
not a full frame, a message all of whose questions have known types, or a frame without a readable header. -/
def ManageableConn (p : Profile) (c : Conn Addr) : Prop :=
  c.setupOk = false ∨ c.cloneOk = true ∧ ∃ res rest, Net.tcpRead p c.stream = .ok (res, rest) ∧
    ((∃ req, res = .fullMessage req ∧ req.questions.length = req.header.questionsCount.toNat) ∨ res = .ioErr ∨
      ∃ e eh, res = .parseErr e eh)

theorem tcp_manageable {p : Profile} {conf : ZoneParser.Params} {zones : ManagedZone} (hl : Loaded conf zones)
    (hst : ∀ r, Stored zones r → StringsAtMost 255 r) {c : Conn Addr} (hc : ManageableConn p c) :
    (∀ outs, ¬ (nameserverTcp p zones).serves c outs true) ∧ ∃ outs, (nameserverTcp p zones).serves c outs false := by
  rcases hc with h1 | ⟨h2, res, rest, hr, hres⟩
  · unfold nameserverTcp tcpKind
    simp only [h1, if_true]
    exact ⟨(fun outs h => by cases h.2), [], rfl, trivial⟩
  · cases h1 : c.setupOk with
    | false =>
      unfold nameserverTcp tcpKind
      simp only [h1, if_true]
      exact ⟨(fun outs h => by cases h.2), [], rfl, trivial⟩
    | true =>
      have ok : ∃ v, Nameserver.serveTcp p zones c.stream c.room = .ok v := by
        unfold Nameserver.serveTcp
        rw [hr, Out.bind_ok]
        simp only
        rcases hres with ⟨req, rfl, hq⟩ | rfl | ⟨e, eh, rfl⟩
        · have hd : ∃ body, Message.decodeFromBytes p body = .ok req := by
            rcases C29_tcp_framing_partial.2.2.1 p c.stream _ rest hr with e | ⟨body, -, -, hc⟩
            · cases e
            · cases hc with
              | full h => exact ⟨body, h⟩
          obtain ⟨body, hd⟩ := hd
          obtain ⟨m, h1, ⟨x, h2⟩, -⟩ := reply_encodes hl hst hd hq
          unfold Replies at h1
          rw [h1, Out.bind_ok]
          simp only [Net.tcpReply, h2]
          split <;> exact ⟨_, rfl⟩
        · exact ⟨_, rfl⟩
        · exact ⟨_, rfl⟩
      obtain ⟨⟨bytes, b⟩, ok⟩ := ok
      unfold nameserverTcp tcpKind
      simp only [h1, h2, Bool.true_eq_false, if_false, if_true, ok]
      refine ⟨fun outs h => ?_, _, bytes, b, rfl, rfl⟩
      obtain ⟨-, e, he⟩ := h
      cases he

/-- C73 over TCP, part: the name server survives every sequence of manageable connections, in every schedule, with all its
threads, if no loaded string is over 255 octets. Missing: other connections (`C73_tcp_violated`). -/
theorem C73_tcp_survives_partial (p : Profile) (conf : ZoneParser.Params) (zones : ManagedZone) (threads : Nat) (stop : Bool)
    (s : State (Conn Addr) (Packet Addr)) (ht : 0 < threads) (hl : Loaded conf zones) (hst : ∀ r, Stored zones r → StringsAtMost 255 r)
    (h : Reachable (nameserverTcp p zones) threads stop s) (hm : ∀ c ∈ s.seen, ManageableConn p c) :
    s.phase ≠ .aborted ∧ s.phase ≠ .panicked ∧ (s.phase.listening = true → s.pool.liveCount = threads) ∧
    Harmless (nameserverTcp p zones) s.seen := by
  have a := (no_abort ht h).2 fun r hr => (tcp_manageable hl hst (hm r hr)).1
  exact ⟨a.1, a.2.1, a.2.2, fun r hr => tcp_manageable hl hst (hm r hr)⟩

/-- A connection with the sample query (C50) in a frame, and one that is closed after one byte, are manageable. -/
example : ManageableConn .debug (⟨3, be16 sampleQuery.length ++ (sampleQuery ++ []), 100, true, true⟩ : Conn Nat) ∧
    ManageableConn .debug (⟨3, [7], 100, true, true⟩ : Conn Nat) := by
  obtain ⟨r, h1, h2⟩ := ok_of (x := Net.udpRead .debug sampleQuery) (fun r => match r with
    | .fullMessage req => req.questions.length = req.header.questionsCount.toNat ∧ req.questions.length = 1
    | _ => false) (by decide +kernel)
  refine ⟨.inr ⟨rfl, ?_⟩, .inr ⟨rfl, .ioErr, [], rfl, .inr (.inl rfl)⟩⟩
  cases r with
  | fullMessage req =>
    have := (C30_classification.1 .debug sampleQuery _).1 h1
    rw [show sampleQuery.take 512 = sampleQuery from rfl] at this
    exact ⟨_, [], (C29_tcp_framing_partial.2.1 .debug sampleQuery [] (by decide) _).2 this,
      .inl ⟨req, rfl, by simpa using (by simpa using h2 : _ ∧ _).1⟩⟩
  | _ => cases h2

end Ariadne.Props
