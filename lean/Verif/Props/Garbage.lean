import Verif.Spec.Garbage
import Verif.Props.ResolverServer

/-!
# C80, C81: garbage, and replies in parts
-/

namespace Ariadne.Props

open Spec BitsBuf

/-! ## C80 -/

theorem bitAt_take {bytes : List UInt8} {n i : Nat} (h : i < 8 * n) : bitAt (bytes.take n) i = bitAt bytes i := by
  unfold bitAt
  have : i / 8 < n := by omega
  simp [List.getD_eq_getElem?_getD, List.getElem?_take, this]

/-- The header is in the first 12 octets. -/
theorem noHeader_take {bytes : List UInt8} {n : Nat} (hn : 12 ≤ n) : NoHeader (bytes.take n) ↔ NoHeader bytes := by
  have e1 : (bytes.take n).length < 12 ↔ bytes.length < 12 := by simp; omega
  have e2 : ∀ v, FieldAt (bytes.take n) 17 4 v ↔ FieldAt bytes 17 4 v := fun v =>
    ⟨fun h => fieldAt_congr h fun i _ _ => (bitAt_take (by omega)).symm, fun h => fieldAt_congr h fun i _ _ => bitAt_take (by omega)⟩
  have e3 : ∀ v, FieldAt (bytes.take n) 28 4 v ↔ FieldAt bytes 28 4 v := fun v =>
    ⟨fun h => fieldAt_congr h fun i _ _ => (bitAt_take (by omega)).symm, fun h => fieldAt_congr h fun i _ _ => bitAt_take (by omega)⟩
  unfold NoHeader
  simp only [e1, e2, e3]

/-- The header decoder fails exactly on these. -/
theorem noHeader_iff (bytes : List UInt8) : NoHeader bytes ↔ ∃ e, Header.decodeFromBytes bytes = .err e := by
  have h16 := (C16_header (Header.mk 0 false .STD false false false false 0 .NoError 0 0 0 0) rfl).2.1 bytes
  constructor
  · intro hn
    cases hd : Header.decodeFromBytes bytes with
    | err e => exact ⟨e, rfl⟩
    | panic k => rw [hd] at h16; exact h16.elim
    | diverge => rw [hd] at h16; exact h16.elim
    | ok h =>
      rw [hd] at h16
      simp only [headerFields, Laid, and_true] at h16
      obtain ⟨hl, -, -, hop, -, -, -, -, -, hrc, -⟩ := h16
      rcases hn with hn | ⟨n, hf, hn⟩ | ⟨n, hf, hn⟩
      · omega
      · have := fieldAt_unique hf hop
        have hlt : h.opCode.toNum.toNat < 3 := by cases h.opCode <;> decide
        omega
      · have := fieldAt_unique hf hrc
        have hlt : h.respCode.toNum.toNat < 6 := by cases h.respCode <;> decide
        omega
  · rintro ⟨e, he⟩
    rw [he] at h16
    have op : ∀ n : UInt8, (∀ c, (c, n.toNat) ∉ rfcOpCodes) → 3 ≤ n.toNat := by
      intro n h
      simp only [rfcOpCodes, List.mem_cons, Prod.mk.injEq, List.not_mem_nil, or_false] at h
      have h0 := h .STD
      have h1 := h .INV
      have h2 := h .STS
      simp at h0 h1 h2
      omega
    have rc : ∀ n : UInt8, (∀ c, (c, n.toNat) ∉ rfcRespCodes) → 6 ≤ n.toNat := by
      intro n h
      simp only [rfcRespCodes, List.mem_cons, Prod.mk.injEq, List.not_mem_nil, or_false] at h
      have h0 := h .NoError
      have h1 := h .FormErr
      have h2 := h .ServFail
      have h3 := h .NxDomain
      have h4 := h .NotImp
      have h5 := h .Refused
      simp at h0 h1 h2 h3 h4 h5
      omega
    cases e with
    | bytesEnd => exact .inl h16
    | unknownOpCode n => exact .inr (.inl ⟨_, h16.1, op n h16.2⟩)
    | unknownRespCode n => exact .inr (.inr ⟨_, h16.1, rc n h16.2⟩)
    | _ => exact h16.elim

theorem decode_noHeader {p : Profile} {bytes : List UInt8} (h : NoHeader bytes) : ∃ e eh, Net.classify p bytes = .ok (.parseErr e eh) := by
  obtain ⟨eh, he⟩ := (noHeader_iff bytes).1 h
  refine ⟨.headerErr eh, eh, ?_⟩
  have hm : Message.decodeFromBytes p bytes = .err (.headerErr eh) := by
    unfold Header.decodeFromBytes at he
    have hd : Header.decode (fromRawBytes bytes) = (.err eh, (Header.decode (fromRawBytes bytes)).2) := Prod.ext he rfl
    unfold Message.decodeFromBytes Message.decode
    rw [BufM.bind_err (BufM.mapErr_err hd)]
  simp only [Net.classify, hm, he]

theorem _root_.Ariadne.Resolver.handle_parseErr {env : Resolver.Env} {p : Profile} {conf : Resolver.Params} {fuel : Nat} (e : MessageErr)
    (eh : ParsingErr) : Resolver.handle env p conf fuel (.parseErr e eh) = pure none := by rw [Resolver.handle]

theorem _root_.Ariadne.Resolver.handle_ioErr {env : Resolver.Env} {p : Profile} {conf : Resolver.Params} {fuel : Nat} :
    Resolver.handle env p conf fuel .ioErr = pure none := by rw [Resolver.handle]

theorem ignored {env : Resolver.Env} {p : Profile} {conf : Resolver.Params} {fuel : Nat} {d : List UInt8} {sends : List (Option Nat)}
    {w : Resolver.World} {r : ReadResult} (h : Net.udpRead p d = .ok r) (hh : Resolver.handle env p conf fuel r = pure none) :
    Resolver.serveUdp env p conf fuel d sends w = (.ok ([], true), w) := by
  unfold Resolver.serveUdp
  simp only [h, Resolver.infallible, Out.mapErr, bind, Resolver.M.bind, Resolver.M.lift, hh, pure, Resolver.M.pure]

theorem ignored_tcp {env : Resolver.Env} {p : Profile} {conf : Resolver.Params} {fuel : Nat} {d rest : List UInt8} {room : Nat}
    {w : Resolver.World} {r : ReadResult} (h : Net.tcpRead p d = .ok (r, rest)) (hh : Resolver.handle env p conf fuel r = pure none) :
    Resolver.serveTcp env p conf fuel d room w = (.ok ([], true), w) := by
  unfold Resolver.serveTcp
  simp only [h, Resolver.infallible, Out.mapErr, bind, Resolver.M.bind, Resolver.M.lift, hh, pure, Resolver.M.pure]

/-- A reply is never empty. -/
theorem reply_not_nothing (m : Message) (sends : List (Option Nat)) : Net.udpReply m sends ≠ .ok ([], true) := by
  intro h
  unfold Net.udpReply at h
  cases he : m.encodeToBytesTrunc with
  | err e => rw [he] at h; cases h
  | panic e => rw [he] at h; cases h
  | diverge => rw [he] at h; cases h
  | ok x =>
    rw [he] at h
    simp only at h
    have hl := (C25_udp_size m x he).1
    have key : ∀ (sends : List (Option Nat)) (k : Nat) (sent : List (List UInt8)), sent ≠ [] ∨ k < x.length →
        Net.sendLoop x sends k sent ≠ .ok ([], true) := by
      intro sends
      induction sends with
      | nil =>
        intro k sent hs h
        unfold Net.sendLoop at h
        by_cases hk : k < x.length
        · rw [if_pos hk] at h; cases h
        · rw [if_neg hk] at h
          cases h
          exact hs.elim (fun h => h rfl) hk
      | cons s sends ih =>
        intro k sent hs h
        unfold Net.sendLoop at h
        by_cases hk : k < x.length
        · rw [if_pos hk] at h
          cases s with
          | none => cases h
          | some n => exact ih _ _ (.inl (by simp)) h
        · rw [if_neg hk] at h
          cases h
          exact hs.elim (fun h => h rfl) hk
    exact key sends 0 [] (.inr (by omega)) h

/-- Packets without a readable header get no reply from the name server and, what it returns from otherwise, does; the resolver
ignores them too: it sends nothing to anybody, and its cache stays as it is. The same over TCP, and for connections that end
before the announced length is there. -/
theorem C80_garbage_is_ignored (p : Profile) (zones : ManagedZone) (env : Resolver.Env) (conf : Resolver.Params) (fuel : Nat) :
    (∀ (datagram : List UInt8) (sends : List (Option Nat)),
      (Nameserver.serveUdp p zones datagram sends = .ok ([], true) ↔ NoHeader datagram) ∧
      (NoHeader datagram → ∀ w, Resolver.serveUdp env p conf fuel datagram sends w = (.ok ([], true), w))) ∧
    (∀ (body rest : List UInt8) (room : Nat), body.length < 65536 → NoHeader body →
      Nameserver.serveTcp p zones (be16 body.length ++ (body ++ rest)) room = .ok ([], true) ∧
      ∀ w, Resolver.serveTcp env p conf fuel (be16 body.length ++ (body ++ rest)) room w = (.ok ([], true), w)) ∧
    (∀ (stream : List UInt8) (room : Nat),
      (¬ ∃ body rest, body.length < 65536 ∧ stream = be16 body.length ++ (body ++ rest)) →
      Nameserver.serveTcp p zones stream room = .ok ([], true) ∧
      ∀ w, Resolver.serveTcp env p conf fuel stream room w = (.ok ([], true), w)) := by
  have udp : ∀ datagram, NoHeader datagram → ∃ e eh, Net.udpRead p datagram = .ok (.parseErr e eh) := by
    intro d h
    exact decode_noHeader (p := p) ((noHeader_take (n := 512) (by omega)).2 h)
  refine ⟨fun d sends => ⟨⟨?_, ?_⟩, ?_⟩, ?_, ?_⟩
  · intro h
    unfold Nameserver.serveUdp at h
    cases hr : Net.udpRead p d with
    | err e => exact e.elim
    | panic k => rw [hr] at h; cases h
    | diverge => rw [hr] at h; cases h
    | ok r =>
      rw [hr, Out.bind_ok] at h
      cases r with
      | parseErr e eh =>
        have := (C30_classification.1 p d _).1 hr
        cases this with
        | none h1 h2 => exact (noHeader_take (n := 512) (by omega)).1 ((noHeader_iff _).2 ⟨_, h2⟩)
      | ioErr => exact absurd ((C30_classification.1 p d _).1 hr) (C30_classification.2.2.2.1 p _)
      | headerOnly hd e =>
        have hh : Nameserver.handle p zones (.headerOnly hd e) = .ok (some (Nameserver.decodeErrReply hd e)) := by rw [Nameserver.handle]
        rw [hh, Out.bind_ok] at h
        exact absurd h (reply_not_nothing (Nameserver.decodeErrReply hd e) sends)
      | fullMessage req =>
        cases hh : Nameserver.handle p zones (.fullMessage req) with
        | err e => exact e.elim
        | panic k => rw [hh] at h; cases h
        | diverge => rw [hh] at h; cases h
        | ok r =>
          rw [hh, Out.bind_ok] at h
          cases r with
          | some m => exact absurd h (reply_not_nothing m sends)
          | none =>
            exfalso
            unfold Nameserver.handle at hh
            cases hv : Nameserver.validate req with
            | none => simp only [hv] at hh; cases hh
            | some q =>
              simp only [hv] at hh
              cases hq : Nameserver.query p req q zones <;> rw [hq] at hh <;> cases hh
  · intro h
    obtain ⟨e, eh, hr⟩ := udp d h
    unfold Nameserver.serveUdp
    rw [hr, Out.bind_ok, Nameserver.handle, Out.bind_ok]
  · intro h w
    obtain ⟨e, eh, hr⟩ := udp d h
    exact ignored hr (Resolver.handle_parseErr e eh)
  · intro body rest room hb h
    obtain ⟨e, eh, hr⟩ := decode_noHeader (p := p) h
    have ht := (C30_classification.2.1 p body rest (.parseErr e eh) hb).2 ((classify_iff _ _ _).1 hr)
    constructor
    · unfold Nameserver.serveTcp
      rw [ht, Out.bind_ok]; simp only [Nameserver.handle, Out.bind_ok]
    · intro w
      exact ignored_tcp ht (Resolver.handle_parseErr e eh)
  · intro stream room h
    obtain ⟨rest, ht⟩ := C29_tcp_framing_partial.2.2.2 p stream h
    constructor
    · unfold Nameserver.serveTcp
      rw [ht, Out.bind_ok]; simp only [Nameserver.handle, Out.bind_ok]
    · intro w
      exact ignored_tcp ht Resolver.handle_ioErr

/-- Eleven octets, and twelve with op code 15. -/
example : NoHeader (List.replicate 11 0) ∧ NoHeader ([0, 0, 0x78] ++ List.replicate 9 0) ∧ ¬ NoHeader (List.replicate 12 0) := by
  refine ⟨.inl (by decide), .inr (.inl ⟨15, ?_, by decide⟩), fun h => ?_⟩
  · refine ⟨by decide, ?_⟩
    intro j hj
    have : j = 0 ∨ j = 1 ∨ j = 2 ∨ j = 3 := by omega
    rcases this with rfl | rfl | rfl | rfl <;> decide
  · obtain ⟨e, he⟩ := (noHeader_iff _).1 h
    have : Header.decodeFromBytes (List.replicate 12 0) = .ok (Header.mk 0 false .STD false false false false 0 .NoError 0 0 0 0) := by
      decide +kernel
    rw [this] at he
    cases he

/-! ## C81 -/

theorem accepted_succ {s : Option Nat} {sends : List (Option Nat)} {i : Nat} : accepted (s :: sends) (i + 1) = s.getD 0 + accepted sends i := by
  simp [accepted]

theorem sendLoop_parts (x : List UInt8) : ∀ (sends : List (Option Nat)) (k : Nat) (sent ds : List (List UInt8)) (b : Bool),
    Net.sendLoop x sends k sent = .ok (ds, b) → ∃ new, ds = sent ++ new ∧
      (∀ i d, new[i]? = some d → d = x.drop (k + accepted sends i) ∧ k + accepted sends i < x.length) ∧
      new.length ≤ sends.length ∧ (∀ i, i < new.length → sends[i]? ≠ some none) ∧
      (b = true → x.length ≤ k + accepted sends new.length) ∧
      (b = false → k + accepted sends new.length < x.length ∧ sends[new.length]? = some none) := by
  intro sends
  induction sends with
  | nil =>
    intro k sent ds b h
    unfold Net.sendLoop at h
    by_cases hk : k < x.length
    · rw [if_pos hk] at h; cases h
    · rw [if_neg hk] at h
      cases h
      exact ⟨[], by simp, by simp, by simp, by simp, fun _ => by omega, fun h => by cases h⟩
  | cons s sends ih =>
    intro k sent ds b h
    unfold Net.sendLoop at h
    by_cases hk : k < x.length
    · rw [if_pos hk] at h
      cases s with
      | none =>
        cases h
        exact ⟨[], by simp, by simp, by simp, by simp, (fun h => by cases h), fun _ => ⟨by simpa [accepted] using hk, by simp⟩⟩
      | some n =>
        obtain ⟨new, e1, e2, e3, e4, e5, e6⟩ := ih _ _ _ _ h
        refine ⟨x.drop k :: new, by simp [e1], ?_, by simpa using e3, ?_, ?_, ?_⟩
        · intro i d hd
          cases i with
          | zero =>
            rw [List.getElem?_cons_zero] at hd
            cases hd
            exact ⟨by simp [accepted], by simpa [accepted] using hk⟩
          | succ i =>
            rw [List.getElem?_cons_succ] at hd
            have := e2 i d hd
            rw [accepted_succ, Option.getD_some, ← Nat.add_assoc]
            exact this
        · intro i hi
          cases i with
          | zero => simp
          | succ i => simpa using e4 i (by simpa using hi)
        · intro hb
          rw [List.length_cons, accepted_succ, Option.getD_some, ← Nat.add_assoc]
          exact e5 hb
        · intro hb
          rw [List.length_cons, accepted_succ, Option.getD_some, ← Nat.add_assoc]
          exact ⟨(e6 hb).1, by simpa using (e6 hb).2⟩
    · rw [if_neg hk] at h
      cases h
      exact ⟨[], by simp, by simp, by simp, by simp, fun _ => by omega, fun h => by cases h⟩

/-- C81: if the socket takes only some octets of a reply, the next datagram starts with the first octet that it did not take;
`reply` returns `Ok` when it took them all, an error when a call failed before that; no octet is left out and none is sent
again after it was taken. `sends` are the results of the calls (`none`: an error). -/
theorem C81_partial_sends (m : Message) (x : List UInt8) (sends : List (Option Nat)) (ds : List (List UInt8)) (b : Bool)
    (hm : m.encodeToBytesTrunc = .ok x) (h : Net.udpReply m sends = .ok (ds, b)) :
    (∀ i d, ds[i]? = some d → d = x.drop (accepted sends i) ∧ d ≠ []) ∧
    (b = true → x.length ≤ accepted sends ds.length ∧ ∀ i, i < ds.length → sends[i]? ≠ some none) ∧
    (b = false → accepted sends ds.length < x.length ∧ sends[ds.length]? = some none) := by
  unfold Net.udpReply at h
  rw [hm] at h
  obtain ⟨new, e1, e2, e3, e4, e5, e6⟩ := sendLoop_parts x sends 0 [] ds b h
  rw [List.nil_append] at e1
  subst e1
  simp only [Nat.zero_add] at e2 e5 e6
  refine ⟨fun i d hd => ⟨(e2 i d hd).1, fun hn => ?_⟩, fun hb => ⟨e5 hb, e4⟩, e6⟩
  obtain ⟨h1, h2⟩ := e2 i d hd
  rw [hn] at h1
  have := congrArg List.length h1
  simp at this
  omega

/-- Nothing is lost either: enough calls that make progress do it. -/
theorem C81_progress (m : Message) (x : List UInt8) (sends : List (Option Nat)) (hm : m.encodeToBytesTrunc = .ok x)
    (hs : none ∉ sends) (ha : x.length ≤ accepted sends sends.length) : ∃ ds, Net.udpReply m sends = .ok (ds, true) := by
  unfold Net.udpReply
  rw [hm]
  have key : ∀ (sends : List (Option Nat)) (k : Nat) (sent : List (List UInt8)), none ∉ sends → x.length ≤ k + accepted sends sends.length →
      ∃ ds, Net.sendLoop x sends k sent = .ok (ds, true) := by
    intro sends
    induction sends with
    | nil =>
      intro k sent _ h
      unfold Net.sendLoop
      rw [if_neg (by simpa [accepted] using h)]
      exact ⟨_, rfl⟩
    | cons s sends ih =>
      intro k sent hn h
      unfold Net.sendLoop
      by_cases hk : k < x.length
      · rw [if_pos hk]
        cases s with
        | none => simp at hn
        | some n =>
          refine ih _ _ (fun h => hn (by simp [h])) ?_
          rw [List.length_cons, accepted_succ, Option.getD_some] at h
          omega
      · rw [if_neg hk]
        exact ⟨_, rfl⟩
  exact key sends 0 [] hs (by omega)

/-- Three octets in two parts. -/
example : Net.sendLoop [1, 2, 3] [some 1, some 2] 0 [] = .ok ([[1, 2, 3], [2, 3]], true) := by decide

end Ariadne.Props
