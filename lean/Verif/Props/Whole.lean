import Verif.Spec.Whole
import Verif.Props.Expected
import Verif.Props.ServerTcp

/-! # C118: the name server as a whole -/

namespace Ariadne.Props

open Spec ZoneParser Server

variable {Addr : Type}

theorem zip_left {α β : Type} {R : α → β → Prop} : ∀ {l : List α} {l' : List β}, List.Forall₂ R l l' → ∀ a ∈ l, ∃ b ∈ l', R a b
  | _, _, .nil, _, h => nomatch h
  | _, _, .cons e t, a, h => by
    rcases List.mem_cons.1 h with rfl | h
    · exact ⟨_, List.mem_cons_self, e⟩
    · obtain ⟨b, h1, h2⟩ := zip_left t a h
      exact ⟨b, List.mem_cons_of_mem _ h1, h2⟩

theorem strings_stored {p : Profile} {fs : Files} {o : HashOrder} {fuel : Nat} {conf : ZoneParser.Params} {soa : Record} {rs : List Record}
    {subs : List (Name × List Record)} {zones : ManagedZone} (h : FilesSay fs conf soa rs subs)
    (hz : parseZoneFiles p fs o fuel conf = .ok zones) (hs : StringsFit soa rs subs) : ∀ r, Stored zones r → StringsAtMost 255 r := by
  obtain ⟨h1, h2, -⟩ := loaded_say h hz
  rintro r ⟨z, hz, o, hr⟩
  rcases List.mem_cons.1 hz with rfl | hz
  · exact hs.1 r ((h1.mem o _ r).1 hr).1
  · obtain ⟨s, hs', hi⟩ := zip_left h2 z hz
    exact hs.2 s hs' r ((hi.mem o _ r).1 hr).1

theorem udpReply_bytes {m : Message} {x : Option Nat} {out : List UInt8} {b : Bool} (h : Net.udpReply m [x] = .ok ([out], b)) :
    m.encodeToBytesTrunc = .ok out := by
  unfold Net.udpReply at h
  cases e : m.encodeToBytesTrunc with
  | ok bytes =>
    rw [e] at h
    simp only at h
    unfold Net.sendLoop at h
    by_cases h0 : 0 < bytes.length
    · rw [if_pos h0] at h
      cases x with
      | none => cases h
      | some n =>
        simp only at h
        unfold Net.sendLoop at h
        by_cases h1 : 0 + n < bytes.length
        · rw [if_pos h1] at h; cases h
        · rw [if_neg h1] at h; cases h; rfl
    · rw [if_neg h0] at h; cases h
  | err _ => rw [e] at h; cases h
  | panic _ => rw [e] at h; cases h
  | diverge => rw [e] at h; cases h

theorem udp_replies {p p' : Profile} {fs : Files} {o : HashOrder} {fuel : Nat} {conf : ZoneParser.Params} {soa : Record} {rs : List Record}
    {subs : List (Name × List Record)} {zones : ManagedZone} (h : FilesSay fs conf soa rs subs)
    (hz : parseZoneFiles p' fs o fuel conf = .ok zones) {d out : List UInt8} {x : Option Nat} {b : Bool}
    (hs : Nameserver.serveUdp p zones d [x] = .ok ([out], b)) : RepliesAs p conf.zone soa rs subs d out := by
  cases hr : Net.udpRead p d with
  | ok read =>
    cases read with
    | fullMessage req =>
      refine ⟨req, hr, fun q hq => ?_⟩
      rw [(C101_text p' p fs o fuel conf soa rs subs zones h hz req q hq).2.1 d _ hr] at hs
      exact udpReply_bytes hs
    | headerOnly hd e =>
      obtain ⟨k, hk⟩ := C51_violated.2.1 p zones d hd e [x] hr
      rw [hk] at hs
      cases hs
    | parseErr e eh =>
      unfold Nameserver.serveUdp at hs
      rw [hr, Out.bind_ok] at hs
      cases hs
    | ioErr =>
      unfold Nameserver.serveUdp at hs
      rw [hr, Out.bind_ok] at hs
      cases hs
  | err e => exact e.elim
  | panic k =>
    unfold Nameserver.serveUdp at hs
    rw [hr] at hs
    cases hs
  | diverge =>
    unfold Nameserver.serveUdp at hs
    rw [hr] at hs
    cases hs

theorem udp_manageable {p : Profile} {conf : ZoneParser.Params} {zones : ManagedZone} (hl : Loaded conf zones)
    (hst : ∀ r, Stored zones r → StringsAtMost 255 r) {r : Packet Addr} (hd : Manageable p r.bytes) :
    (∀ outs, ¬ (nameserverUdp p zones).serves r outs true) ∧ ∃ outs, (nameserverUdp p zones).serves r outs false := by
  refine ⟨fun outs hs => ?_, ?_⟩
  · obtain ⟨-, ok, e, hs⟩ := hs
    exact manageable_no_panic hl hst hd _ _ hs.symm
  · have : ∃ v, Nameserver.serveUdp p zones r.bytes [none] = .ok v := by
      unfold Nameserver.serveUdp
      rcases hd with ⟨req, hr, hq⟩ | ⟨e, eh, hr⟩
      · have hdec : Message.decodeFromBytes p (r.bytes.take 512) = .ok req := by
          have := (C30_classification.1 p r.bytes _).1 hr
          cases this with
          | full h => exact h
        obtain ⟨m, h1, -, y, h2⟩ := reply_encodes hl hst hdec hq
        unfold Replies at h1
        rw [hr, Out.bind_ok, h1, Out.bind_ok]
        simp only [Net.udpReply, h2]
        unfold Net.sendLoop
        split
        · exact ⟨_, rfl⟩
        · exact ⟨_, rfl⟩
      · rw [hr, Out.bind_ok]
        exact ⟨_, rfl⟩
    obtain ⟨⟨ds, b⟩, hv⟩ := this
    exact ⟨_, false, ds, b, hv.symm, rfl⟩

theorem none_crashed {R O : Type} {k : Kind R O} {threads : Nat} {stop : Bool} {s : State R O} (h : Server.Reachable k threads stop s)
    (hp : ∀ r ∈ s.seen, ∀ outs, ¬ k.serves r outs true) : s.pool.crashed = [] := by
  obtain ⟨runs, hi⟩ := inv_reachable h
  rw [hi.crash]
  apply List.map_eq_nil_iff.2
  apply List.filter_eq_nil_iff.2
  intro run hr hpan
  obtain ⟨r, h1, h2⟩ := hi.real run hr
  rw [hpan] at h2
  exact hp r (((List.sublist_append_left _ _).trans hi.sub).subset (List.mem_of_getElem? h1)) _ h2

/-- **C118**, UDP. Whatever the clients send and however the threads are scheduled: every datagram sent goes to a client that has sent a message, and if that is
a standard query with one question, then it is the reply the zone files stand for; no client is sent more datagrams than it has sent. If all datagrams are
manageable (messages whose questions have known types, or no messages at all), and no string is too long, then the server keeps all its threads, and when it
comes to rest each request it has accepted has been handled exactly once: its reply was sent, unless `send_to` failed. -/
theorem C118_whole_udp [DecidableEq Addr] (p p' : Profile) (fs : Files) (o : HashOrder) (fuel : Nat) (conf : ZoneParser.Params) (soa : Record)
    (rs : List Record) (subs : List (Name × List Record)) (zones : ManagedZone) (hf : FilesSay fs conf soa rs subs)
    (hz : parseZoneFiles p' fs o fuel conf = .ok zones) (threads : Nat) (ht : 0 < threads) (stop : Bool)
    (s : State (Packet Addr) (Packet Addr)) (h : Server.Reachable (nameserverUdp p zones) threads stop s) :
    (∀ sent ∈ s.sent, ∃ r ∈ s.seen, r.addr = sent.addr ∧ RepliesAs p conf.zone soa rs subs r.bytes sent.bytes) ∧
    (∀ a, s.sent.countP (fun sent => sent.addr = a) ≤ s.seen.countP fun r => r.addr = a) ∧
    ((∀ r ∈ s.seen, Manageable p r.bytes) → StringsFit soa rs subs →
      s.phase ≠ .aborted ∧ s.phase ≠ .panicked ∧ (s.phase.listening = true → s.pool.liveCount = threads) ∧
      (Idle (nameserverUdp p zones) stop s →
        ∃ runs, Explains (nameserverUdp p zones) s runs ∧ (runs.map (·.number)).Perm (List.range s.jobs.length) ∧
          ∀ run ∈ runs, ∃ r, s.jobs[run.number]? = some r ∧ run.panics = false ∧
            (run.outs = [] ∨ ∃ out, run.outs = [⟨r.addr, out⟩] ∧ RepliesAs p conf.zone soa rs subs r.bytes out)) ∧
      ∀ r ∈ s.seen, ∀ req q, Net.udpRead p r.bytes = .ok (.fullMessage req) → Asks req q →
        ∃ out, ∀ n, out.length ≤ n → Nameserver.serveUdp p zones r.bytes [some n] = .ok ([out], true)) := by
  have hl : Loaded conf zones := ⟨hf.valid, _, _, _, _, hz⟩
  obtain ⟨h1, h2⟩ := C72_nameserver p zones threads ht stop s h
  refine ⟨fun sent hs => ?_, h2, fun hm hst => ?_⟩
  · obtain ⟨r, a, b, x, ok, c⟩ := h1 sent hs
    exact ⟨r, a, b, udp_replies hf hz c⟩
  · have hst' := strings_stored hf hz hst
    have hno : ∀ r ∈ s.seen, ∀ outs, ¬ (nameserverUdp p zones).serves r outs true := fun r hr => (udp_manageable hl hst' (hm r hr)).1
    obtain ⟨a, b, c⟩ := (no_abort ht h).2 hno
    obtain ⟨-, -, hsub, -⟩ := C72_served_once _ threads ht stop s h
    refine ⟨a, b, c, fun hid => ?_, fun r hr req q hrd hq => ?_⟩
    · obtain ⟨runs, he, hperm, -⟩ := (C74_drains _ threads ht stop s h).2
        (fun r hr => by
          obtain ⟨outs, ho⟩ := (udp_manageable hl hst' (hm r (hsub.subset hr))).2
          exact ⟨outs, false, ho⟩)
        (by rw [none_crashed h hno]; exact ht) hid
      refine ⟨runs, he, hperm, fun run hrun => ?_⟩
      obtain ⟨r, g1, g2⟩ := he.real run hrun
      have hp : run.panics = false := by
        cases hpan : run.panics with
        | false => rfl
        | true => rw [hpan] at g2; exact absurd g2 (hno r (hsub.subset (List.mem_of_getElem? g1)) _)
      rw [hp] at g2
      refine ⟨r, g1, hp, ?_⟩
      obtain ⟨ok, ds, b', g3, g4⟩ := g2
      have g3 := g3.symm
      have hone : ds.length ≤ 1 := by
        have hs := g3
        unfold Nameserver.serveUdp at hs
        obtain ⟨read, e1, hs⟩ := out_bind_ok hs
        obtain ⟨reply, e2, hs⟩ := out_bind_ok hs
        cases reply with
        | none => cases hs; simp
        | some m => exact udpReply_one hs
      match ds, hone, g3, g4 with
      | [], _, _, g4 => exact .inl g4
      | [out], _, g3, g4 => exact .inr ⟨out, g4, udp_replies hf hz g3⟩
    · have hdec : Message.decodeFromBytes p (r.bytes.take 512) = .ok req := by
        have := (C30_classification.1 p r.bytes _).1 hrd
        cases this with
        | full h => exact h
      obtain ⟨m, e1, -, y, e2⟩ := reply_encodes hl hst' hdec (by rw [hq.one, hq.count]; rfl)
      refine ⟨y, fun n hn => ?_⟩
      unfold Nameserver.serveUdp
      unfold Replies at e1
      rw [hrd, Out.bind_ok, e1, Out.bind_ok]
      have := C25_udp_size _ _ e2
      simp only [Net.udpReply, e2]
      unfold Net.sendLoop
      rw [if_pos (by omega)]
      simp only
      unfold Net.sendLoop
      rw [if_neg (by omega)]
      rfl

theorem tcp_replies {p p' : Profile} {fs : Files} {o : HashOrder} {fuel : Nat} {conf : ZoneParser.Params} {soa : Record} {rs : List Record}
    {subs : List (Name × List Record)} {zones : ManagedZone} (h : FilesSay fs conf soa rs subs)
    (hz : parseZoneFiles p' fs o fuel conf = .ok zones) {stream out : List UInt8} {room : Nat} {b : Bool}
    (hs : Nameserver.serveTcp p zones stream room = .ok (out, b)) : out = [] ∨ RepliesOver p conf.zone soa rs subs stream room out := by
  cases hr : Net.tcpRead p stream with
  | ok read =>
    obtain ⟨read, rest⟩ := read
    cases read with
    | fullMessage req =>
      refine .inr ⟨req, rest, hr, fun q hq => ?_⟩
      rw [(C101_text p' p fs o fuel conf soa rs subs zones h hz req q hq).2.2 stream rest _ hr] at hs
      cases e : (expectedReply conf.zone soa rs subs req q).encodeToBytes with
      | ok x =>
        refine ⟨x, rfl, fun hx => ?_⟩
        obtain ⟨h1, h2⟩ := C29_tcp_framing_partial.1 _ x e hx
        by_cases hroom : 2 + x.length ≤ room
        · rw [h1 room hroom] at hs
          rw [List.take_of_length_le (by rw [List.length_append, be16_length]; exact hroom)]
          exact (Prod.mk.inj (Out.ok.inj hs)).1.symm
        · rw [h2 room (by omega)] at hs
          exact (Prod.mk.inj (Out.ok.inj hs)).1.symm
      | err _ => simp only [Net.tcpReply, e] at hs; cases hs
      | panic _ => simp only [Net.tcpReply, e] at hs; cases hs
      | diverge => simp only [Net.tcpReply, e] at hs; cases hs
    | headerOnly hd e =>
      obtain ⟨k, hk⟩ := C51_violated.2.2 p zones stream rest hd e room hr
      rw [hk] at hs
      cases hs
    | parseErr e eh =>
      unfold Nameserver.serveTcp at hs
      rw [hr, Out.bind_ok] at hs
      exact .inl (Prod.mk.inj (Out.ok.inj hs)).1.symm
    | ioErr =>
      unfold Nameserver.serveTcp at hs
      rw [hr, Out.bind_ok] at hs
      exact .inl (Prod.mk.inj (Out.ok.inj hs)).1.symm
  | err e => exact e.elim
  | panic k =>
    unfold Nameserver.serveTcp at hs
    rw [hr] at hs
    cases hs
  | diverge =>
    unfold Nameserver.serveTcp at hs
    rw [hr] at hs
    cases hs

/-- A reply into a stream with room writes something. -/
theorem tcpReply_nonempty {m : Message} {room : Nat} {out : List UInt8} {b : Bool} (h0 : 0 < room)
    (h : Net.tcpReply m room = .ok (out, b)) : out ≠ [] := by
  obtain ⟨n, rfl⟩ : ∃ n, room = n + 1 := ⟨room - 1, by omega⟩
  unfold Net.tcpReply at h
  cases he : m.encodeToBytes with
  | ok bs =>
    rw [he] at h
    by_cases hx : 2 ≤ n + 1
    · simp only [Net.writeAll, List.length_cons, List.length_nil, Nat.zero_add, Nat.reduceAdd, hx, decide_true,
        if_true] at h
      obtain ⟨h, -⟩ := Prod.mk.inj (Out.ok.inj h)
      subst h; simp
    · simp only [Net.writeAll, List.length_cons, List.length_nil, Nat.zero_add, Nat.reduceAdd, hx, decide_false,
        Bool.false_eq_true, if_false] at h
      obtain ⟨h, -⟩ := Prod.mk.inj (Out.ok.inj h)
      subst h; simp
  | err e => rw [he] at h; cases h
  | panic k => rw [he] at h; cases h
  | diverge => rw [he] at h; cases h

/-- **C118**, TCP. Likewise for connections: whatever is written to a connection, it is a reply to the message read from it, at most one; if all connections are
manageable, and no string is too long, the server keeps all its threads, accepts every connection it has taken from the socket, and when it comes to rest each
has been handled exactly once: the reply was written, as far as the connection took it, to every one that is in order and from which a message was read. -/
theorem C118_whole_tcp (p p' : Profile) (fs : Files) (o : HashOrder) (fuel : Nat) (conf : ZoneParser.Params) (soa : Record)
    (rs : List Record) (subs : List (Name × List Record)) (zones : ManagedZone) (hf : FilesSay fs conf soa rs subs)
    (hz : parseZoneFiles p' fs o fuel conf = .ok zones) (threads : Nat) (ht : 0 < threads) (stop : Bool)
    (s : State (Conn Addr) (Packet Addr)) (h : Server.Reachable (nameserverTcp p zones) threads stop s) :
    (∃ runs, Explains (nameserverTcp p zones) s runs ∧ ∀ run ∈ runs, ∃ r, s.jobs[run.number]? = some r ∧
      (run.outs = [] ∨ ∃ out, run.outs = [⟨r.addr, out⟩] ∧ RepliesOver p conf.zone soa rs subs r.stream r.room out)) ∧
    ((∀ r ∈ s.seen, ManageableConn p r) → StringsFit soa rs subs →
      s.phase ≠ .aborted ∧ s.phase ≠ .panicked ∧ (s.phase.listening = true → s.pool.liveCount = threads) ∧
      (Idle (nameserverTcp p zones) stop s → s.jobs = s.seen ∧
        ∃ runs, Explains (nameserverTcp p zones) s runs ∧ (runs.map (·.number)).Perm (List.range s.jobs.length) ∧
          ∀ run ∈ runs, ∃ r, s.jobs[run.number]? = some r ∧ run.panics = false ∧
            ∀ req rest q, r.setupOk = true → 0 < r.room → Net.tcpRead p r.stream = .ok (.fullMessage req, rest) → Asks req q →
              ∃ out, run.outs = [⟨r.addr, out⟩] ∧ RepliesOver p conf.zone soa rs subs r.stream r.room out)) := by
  have hl : Loaded conf zones := ⟨hf.valid, _, _, _, _, hz⟩
  refine ⟨?_, fun hm hst => ?_⟩
  · obtain ⟨runs, he, h1⟩ := C72_nameserver_tcp p zones threads ht stop s h
    refine ⟨runs, he, fun run hr => ?_⟩
    obtain ⟨r, g1, g2⟩ := h1 run hr
    refine ⟨r, g1, ?_⟩
    rcases g2 with g2 | ⟨bytes, b, g3, g4⟩
    · exact .inl g2
    · obtain ⟨r', i1, i2⟩ := he.real run hr
      obtain rfl := Option.some.inj (g1.symm.trans i1)
      rcases tcp_replies hf hz g3 with e | e
      · subst e
        unfold nameserverTcp tcpKind at i2
        simp only at i2
        split at i2
        · exact .inl i2.1
        · split at i2
          · exact .inl i2.1
          · split at i2
            · exact .inl i2.1
            · obtain ⟨bytes, b', i3, i4⟩ := i2
              rw [g3] at i3
              obtain rfl := (Prod.mk.inj (Out.ok.inj i3)).1
              rw [if_pos rfl] at i4
              exact .inl i4
      · exact .inr ⟨bytes, g4, e⟩
  · have hst' := strings_stored hf hz hst
    obtain ⟨a, b, c, hh⟩ := C73_tcp_survives_partial p conf zones threads stop s ht hl hst' h hm
    have hno : ∀ r ∈ s.seen, ∀ outs, ¬ (nameserverTcp p zones).serves r outs true := fun r hr => (hh r hr).1
    refine ⟨a, b, c, fun hid => ?_⟩
    obtain ⟨-, -, hsub, -⟩ := C72_served_once _ threads ht stop s h
    obtain ⟨runs, he, hperm, hall⟩ := (C74_drains _ threads ht stop s h).2
      (fun r hr => by
        obtain ⟨outs, ho⟩ := (hh r (hsub.subset hr)).2
        exact ⟨outs, false, ho⟩)
      (by rw [none_crashed h hno]; exact ht) hid
    refine ⟨hall rfl, runs, he, hperm, fun run hrun => ?_⟩
    obtain ⟨r, g1, g2⟩ := he.real run hrun
    have hmem := hsub.subset (List.mem_of_getElem? g1)
    have hp : run.panics = false := by
      cases hpan : run.panics with
      | false => rfl
      | true => rw [hpan] at g2; exact absurd g2 (hno r hmem _)
    rw [hp] at g2
    refine ⟨r, g1, hp, fun req rest q hset hroom hrd hq => ?_⟩
    have hclone : r.cloneOk = true := by
      rcases hm r hmem with e | e
      · rw [hset] at e; cases e
      · exact e.1
    unfold nameserverTcp tcpKind at g2
    simp only [hset, hclone, Bool.true_eq_false, Bool.false_eq_true, if_false] at g2
    obtain ⟨bytes, b', g3, g4⟩ := g2
    have g3 := g3.symm
    have hne : bytes ≠ [] := by
      rw [(C101_text p' p fs o fuel conf soa rs subs zones hf hz req q hq).2.2 r.stream rest _ hrd] at g3
      exact tcpReply_nonempty hroom g3
    rw [if_neg hne] at g4
    rcases tcp_replies hf hz g3 with e | e
    · exact absurd e hne
    · exact ⟨bytes, g4, e⟩

theorem sample_strings : StringsFit sampleSoaRec [sampleApexNs, sampleAddr, sampleIncA, sampleCname, sampleTxtRec]
    [(⟨"s.e.".toList⟩, sampleSubRecs)] := by
  constructor
  · intro r hr
    simp only [List.cons_append, List.nil_append, List.mem_cons, List.not_mem_nil, or_false] at hr
    have ht : ∀ t ∈ ["a \"b".toList, "c".toList], (strBytes t).length ≤ 255 := by decide +kernel
    rcases hr with rfl | rfl | rfl | rfl | rfl | rfl
    · trivial
    · trivial
    · trivial
    · trivial
    · exact ht
    · trivial
  · intro t ht r hr
    obtain rfl := List.mem_singleton.1 ht
    simp only [sampleSubRecs, List.mem_cons, List.not_mem_nil, or_false] at hr
    rcases hr with rfl | rfl | rfl
    · trivial
    · trivial
    · trivial

/-- C118 applies to the name server of the sample zone (C50) when it has answered a query and come to rest: what it has sent is the reply of the zone files. -/
example : ∃ (zones : ManagedZone) (out : List UInt8) (s : State (Packet Nat) (Packet Nat)),
    parseZoneFiles .release sampleFiles forwards 20 sampleConf = .ok zones ∧ Server.Reachable (nameserverUdp .debug zones) 1 false s ∧
    s.seen = [⟨3, sampleQuery⟩] ∧ s.sent = [⟨3, out⟩] ∧ Idle (nameserverUdp .debug zones) false s ∧ (∀ r ∈ s.seen, Manageable .debug r.bytes) ∧
    RepliesAs .debug sampleConf.zone sampleSoaRec [sampleApexNs, sampleAddr, sampleIncA, sampleCname, sampleTxtRec]
      [(⟨"s.e.".toList⟩, sampleSubRecs)] sampleQuery out := by
  obtain ⟨zones, hz, hst⟩ := ok_of (x := ZoneParser.parseZoneFiles .release sampleFiles forwards 20 sampleConf) (fun z => match
    Nameserver.serveUdp .debug z sampleQuery [some Message.MAX_UDP_LEN_BYTES] with
    | .ok ([_], true) => true
    | _ => false) (by decide +kernel)
  have hs : ∃ out, Nameserver.serveUdp .debug zones sampleQuery [some Message.MAX_UDP_LEN_BYTES] = .ok ([out], true) := by
    generalize Nameserver.serveUdp .debug zones sampleQuery [some Message.MAX_UDP_LEN_BYTES] = o at hst
    split at hst
    · exact ⟨_, rfl⟩
    · cases hst
  obtain ⟨out, hs⟩ := hs
  have hserve : (nameserverUdp .debug zones).serves (⟨3, sampleQuery⟩ : Packet Nat) [⟨3, out⟩] false :=
    ⟨true, [out], true, hs.symm, rfl⟩
  have hm : Manageable .debug sampleQuery := by
    refine .inl ?_
    obtain ⟨r, h1, h2⟩ := ok_of (x := Net.udpRead .debug sampleQuery) (fun r => match r with
      | .fullMessage req => req.questions.length = req.header.questionsCount.toNat ∧ req.questions.length = 1
      | _ => false) (by decide +kernel)
    cases r with
    | fullMessage req => exact ⟨req, h1, by simpa using (by simpa using h2 : _ ∧ _).1⟩
    | _ => cases h2
  have hreach := one_request hserve
  refine ⟨zones, out, _, hz, hreach, rfl, rfl, idle_after, ?_, ?_⟩
  · intro r hr
    rw [List.mem_singleton] at hr
    subst hr
    exact hm
  · obtain ⟨r, h1, -, h3⟩ := (C118_whole_udp .debug .release _ _ _ _ _ _ _ _ sample_says hz 1 Nat.zero_lt_one false _ hreach).1 ⟨3, out⟩
      (List.mem_singleton.2 rfl)
    rw [List.mem_singleton] at h1
    subst h1
    exact h3

end Ariadne.Props
