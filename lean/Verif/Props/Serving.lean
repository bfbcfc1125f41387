import Verif.Props.Threads
import Verif.Props.Client

/-! # C93, C94: requests served by several threads that share the cache

There is no limit to the number of requests, nor to the orders in which the threads make their steps. -/

namespace Ariadne.Props

open Spec Resolver BitsBuf NameSpace

/-! ## What serving a request does to the world -/

theorem _root_.Ariadne.Resolver.M.bind_world {α β : Type} {m : M α} {f : α → M β} {w : World} (hf : ∀ a w1, (f a w1).2 = w1) :
    ((m >>= f) w).2 = (m w).2 := by
  show ((M.bind m f) w).2 = _
  unfold M.bind
  generalize m w = x
  obtain ⟨o, w1⟩ := x
  cases o with
  | ok a => exact hf a w1
  | err e => rfl
  | panic k => rfl
  | diverge => rfl

theorem attempt_world {α : Type} (m : M α) (w : World) : (M.attempt m w).2 = (m w).2 := by
  unfold M.attempt
  generalize m w = x
  obtain ⟨o, w1⟩ := x
  cases o <;> rfl

/-- The handler does nothing to the world but what the lookup of the first question does. -/
theorem handle_world (env : Env) (p : Profile) (conf : Params) (fuel : Nat) (read : ReadResult) (w : World) :
    (handle env p conf fuel read w).2 = w ∨
    ∃ req q, read = .fullMessage req ∧ q ∈ req.questions ∧ (handle env p conf fuel read w).2 = (lookup env p conf fuel q.node q.recordType w).2 := by
  cases read with
  | fullMessage req =>
    unfold handle
    dsimp only
    by_cases hv : (!validate req) = true
    · rw [if_pos hv]
      exact .inl rfl
    · rw [if_neg hv]
      cases hq : req.questions with
      | nil => exact .inl rfl
      | cons q qs =>
        refine .inr ⟨req, q, rfl, by rw [hq]; exact List.mem_cons_self .., ?_⟩
        dsimp only
        rw [M.bind_world (fun _ _ => rfl), attempt_world]
  | headerOnly h e => exact .inl rfl
  | parseErr a b => exact .inl rfl
  | ioErr => exact .inl rfl

theorem serveUdp_world (env : Env) (p : Profile) (conf : Params) (fuel : Nat) (datagram : List UInt8) (sends : List (Option Nat)) (w : World) :
    (serveUdp env p conf fuel datagram sends w).2 = w ∨
    ∃ read, Net.udpRead p datagram = .ok read ∧ (serveUdp env p conf fuel datagram sends w).2 = (handle env p conf fuel read w).2 := by
  unfold serveUdp
  rw [infallible_bind]
  generalize Net.udpRead p datagram = o
  cases o with
  | ok read =>
    refine .inr ⟨read, rfl, M.bind_world fun reply w1 => ?_⟩
    cases reply <;> rfl
  | err e => exact nomatch e
  | panic k => exact .inl rfl
  | diverge => exact .inl rfl

theorem serveTcp_world (env : Env) (p : Profile) (conf : Params) (fuel : Nat) (stream : List UInt8) (room : Nat) (w : World) :
    (serveTcp env p conf fuel stream room w).2 = w ∨
    ∃ read rest, Net.tcpRead p stream = .ok (read, rest) ∧ (serveTcp env p conf fuel stream room w).2 = (handle env p conf fuel read w).2 := by
  unfold serveTcp
  rw [infallible_bind]
  generalize Net.tcpRead p stream = o
  cases o with
  | ok read =>
    refine .inr ⟨read.1, read.2, rfl, M.bind_world fun reply w1 => ?_⟩
    cases reply <;> rfl
  | err e => exact nomatch e
  | panic k => exact .inl rfl
  | diverge => exact .inl rfl

theorem decoded_of_udp {p : Profile} {datagram : List UInt8} {req : Message} (h : Net.udpRead p datagram = .ok (.fullMessage req)) :
    Message.decodeFromBytes p (datagram.take 512) = .ok req := by
  have := (C30_classification.1 p datagram _).1 h
  cases this with
  | full h => exact h

theorem decoded_of_tcp {p : Profile} {stream rest : List UInt8} {req : Message} (h : Net.tcpRead p stream = .ok (.fullMessage req, rest)) :
    ∃ body, Message.decodeFromBytes p body = .ok req := by
  rcases C29_tcp_framing_partial.2.2.1 p stream _ rest h with e | ⟨body, -, -, hc⟩
  · cases e
  · cases hc with
    | full h => exact ⟨body, h⟩

/-- Serving a request does nothing to the world but what the lookup of a question of a decoded message does. -/
theorem serve_world (env : Env) (p : Profile) (conf : Params) (fuel : Nat) (job : Job) (w : World) :
    (serve env p conf fuel job w).2 = w ∨
    ∃ bytes req q, Message.decodeFromBytes p bytes = .ok req ∧ q ∈ req.questions ∧
      (serve env p conf fuel job w).2 = (lookup env p conf fuel q.node q.recordType w).2 := by
  cases job with
  | udp datagram sends =>
    rcases serveUdp_world env p conf fuel datagram sends w with h | ⟨read, h1, h2⟩
    · exact .inl h
    · rcases handle_world env p conf fuel read w with h3 | ⟨req, q, rfl, h4, h5⟩
      · exact .inl (h2.trans h3)
      · exact .inr ⟨_, req, q, decoded_of_udp h1, h4, h2.trans h5⟩
  | tcp stream room =>
    have e : (serve env p conf fuel (.tcp stream room) w).2 = (serveTcp env p conf fuel stream room w).2 := M.bind_world fun _ _ => rfl
    rw [e]
    rcases serveTcp_world env p conf fuel stream room w with h | ⟨read, rest, h1, h2⟩
    · exact .inl h
    · rcases handle_world env p conf fuel read w with h3 | ⟨req, q, rfl, h4, h5⟩
      · exact .inl (h2.trans h3)
      · obtain ⟨body, hb⟩ := decoded_of_tcp h1
        exact .inr ⟨_, req, q, hb, h4, h2.trans h5⟩

/-! ## C93 -/

/-- Threads that serve requests, in any order of steps, for less than 2³² seconds, with a good cache at the start, not too long
TTLs, and limits that are not 0. -/
structure Service (S : Schedule) (net : Nat → List Event → Ip4 → List UInt8 → Option (List UInt8)) (p : Profile) (conf : Params) (fuel : Nat)
    (jobs : Nat → Job) (c : RecordsCache) (lo n : Nat) : Prop where
  times : ∀ m, lo < S.time m ∧ S.time' m < lo + 2 ^ 32 * NANOS
  good : GoodCache (S.time 0) c
  distinct : c.Distinct
  expires : ExpiresBy lo c
  modest : ∀ m < n, Modest S lo m (System.after S net (.serving p conf fuel jobs c) m)
  nsq : conf.maxNsQueried ≠ 0
  retries : conf.maxUdpRetries ≠ 0

/-- The setting of C93. -/
def Service.setting {S : Schedule} {net : Nat → List Event → Ip4 → List UInt8 → Option (List UInt8)} {p : Profile} {conf : Params} {fuel : Nat}
    {jobs : Nat → Job} {c : RecordsCache} {lo n : Nat} (h : Service S net p conf fuel jobs c lo n) :
    (usualTheory lo).Setting (List (List UInt8) × Bool) where
  S := S
  net := net
  s := .serving p conf fuel jobs c
  Post i o log := ∃ env w', env.net = net i ∧ Up env conf ⟨c, 0, []⟩ ∧ serve env p conf fuel (jobs i) ⟨c, 0, []⟩ = (o, w') ∧ w'.log = log
  times m := ⟨⟨(h.times m).1, Nat.lt_of_le_of_lt (S.forward m).1 (h.times m).2⟩, ⟨Nat.lt_of_lt_of_le (h.times m).1 (S.forward m).1, (h.times m).2⟩⟩
  allowed := h.good
  logs _ := rfl
  single i env o w' hn hR hm hI hL hr := by
    have hup : Up env conf ⟨c, 0, []⟩ := ⟨usual_friendly hR hm, hI, rfl, h.nsq, h.retries⟩
    have e : serve env p conf fuel (jobs i) ⟨c, 0, []⟩ = (o, w') := by
      rw [← hr]
      exact (congrFun (Steps.serve_run env p conf fuel (jobs i)) _).symm
    refine ⟨?_, env, w', hn, hup, e, rfl⟩
    have ew : (serve env p conf fuel (jobs i) ⟨c, 0, []⟩).2 = w' := by rw [e]
    rcases serve_world env p conf fuel (jobs i) ⟨c, 0, []⟩ with h1 | ⟨bytes, req, q, h1, h2, h3⟩
    · rw [← ew, h1]
      exact hI
    · obtain ⟨hdec, hnames⟩ := decoded_message h1
      have hready : Spec.Ready env conf q.node q.recordType ⟨c, 0, []⟩ :=
        ⟨hup.friendly, hI, rfl, hnames.qs q h2, (hdec.qs q h2).2, h.nsq, h.retries⟩
      obtain ⟨o1, w1, new, e1, -, h4, -⟩ := lookup_tri (p := p) hready fuel
      rw [← ew, h3, e1]
      exact h4

/-- C93: whatever the clients send, whatever the servers do, and in whatever order the threads go on, the cache stays good, and
every request that has been served has been served as by a single thread in a world in which its companions keep the cache
good: all that is said of such (C67–C69, C87) holds of it. -/
theorem C93_service_in_threads {S : Schedule} {net : Nat → List Event → Ip4 → List UInt8 → Option (List UInt8)} {p : Profile} {conf : Params}
    {fuel : Nat} {jobs : Nat → Job} {c : RecordsCache} {lo n : Nat} (h : Service S net p conf fuel jobs c lo n) :
    GoodCache (S.time n) (System.after S net (.serving p conf fuel jobs c) n).cache ∧
    ∀ i o, ((System.after S net (.serving p conf fuel jobs c) n).threads i).task = .done o →
      ∃ env w', env.net = net i ∧ Up env conf ⟨c, 0, []⟩ ∧ serve env p conf fuel (jobs i) ⟨c, 0, []⟩ = (o, w') ∧
        w'.log = ((System.after S net (.serving p conf fuel jobs c) n).threads i).log := by
  have hL : ∀ m ≤ n, (usualTheory lo).L (S.time m) (h.setting.after m).cache := fun m hm =>
    limited_after ⟨good_fresh h.good, h.expires, h.distinct⟩ m fun k hk => h.modest k (by omega)
  exact ⟨(h.setting.all n hL).1, fun i o ho => h.setting.result n hL ho⟩

/-- The job brings this message; over UDP, the socket takes whole datagrams. -/
def Brings (p : Profile) (req : Message) : Job → Prop
  | .udp datagram sends => Net.udpRead p datagram = .ok (.fullMessage req) ∧ ∃ n, sends = [some n] ∧ 512 ≤ n
  | .tcp stream _ => ∃ rest, Net.tcpRead p stream = .ok (.fullMessage req, rest)

/-- The message has been sent: over UDP in a single datagram, truncated if need be; over TCP with its length before it, as far
as the connection allows. -/
def Sent (m : Message) (o : Out LookupErr (List (List UInt8) × Bool)) : Job → Prop
  | .udp _ _ => ∃ out, m.encodeToBytesTrunc = .ok out ∧ out.length ≤ 512 ∧ o = .ok ([out], true)
  | .tcp _ room => ∃ out, m.encodeToBytes = .ok out ∧
      o = .ok ([(be16 (out.length % 65536) ++ out).take room], decide ((be16 (out.length % 65536) ++ out).length ≤ room))

theorem tcpReply_eq {m : Message} {x : List UInt8} (h : m.encodeToBytes = .ok x) (room : Nat) :
    Net.tcpReply m room = .ok ((be16 (x.length % 65536) ++ x).take room, decide ((be16 (x.length % 65536) ++ x).length ≤ room)) := by
  have hb : [((UInt16.ofNat x.length) >>> 8).toUInt8, (UInt16.ofNat x.length).toUInt8] = be16 (x.length % 65536) := by
    rw [be16_eq_bytes, UInt16.toNat_ofNat']
  simp only [Net.tcpReply, h, hb, Net.writeAll]
  have hl : (be16 (x.length % 65536)).length = 2 := rfl
  by_cases hr : 2 ≤ room
  · rw [if_pos (decide_eq_true (by rw [hl]; exact hr))]
    rw [List.take_append, hl, List.length_append, hl]
    congr 2
    simp only [decide_eq_decide]
    omega
  · rw [if_neg (by rw [hl]; simpa using hr)]
    rw [List.take_append_of_le_length (by rw [hl]; omega), List.length_append, hl]
    congr 2
    symm
    rw [decide_eq_false_iff_not]
    omega

theorem serve_udp_eq {env : Env} {p : Profile} {conf : Params} {fuel : Nat} {datagram : List UInt8} {req m : Message} {w w' : World}
    {sends : List (Option Nat)} (h : Net.udpRead p datagram = .ok (.fullMessage req))
    (hm : handle env p conf fuel (.fullMessage req) w = (.ok (some m), w')) :
    serveUdp env p conf fuel datagram sends w = infallible (Net.udpReply m sends) w' := by
  have e : serveUdp env p conf fuel datagram sends w = (handle env p conf fuel (.fullMessage req) >>= fun reply =>
      match reply with
      | none => pure ([], true)
      | some m => infallible (Net.udpReply m sends)) w := infallible_ok h _ w
  rw [e, M.bind_eq hm]

theorem serve_tcp_eq {env : Env} {p : Profile} {conf : Params} {fuel : Nat} {stream rest : List UInt8} {req m : Message} {w w' : World}
    {room : Nat} (h : Net.tcpRead p stream = .ok (.fullMessage req, rest))
    (hm : handle env p conf fuel (.fullMessage req) w = (.ok (some m), w')) :
    serveTcp env p conf fuel stream room w = infallible (Net.tcpReply m room) w' := by
  have e : serveTcp env p conf fuel stream room w = (handle env p conf fuel (.fullMessage req) >>= fun reply =>
      match reply with
      | none => pure ([], true)
      | some m => infallible (Net.tcpReply m room)) w := infallible_ok h _ w
  rw [e, M.bind_eq hm]

/-- What has been served, in the ways of C68. -/
theorem serve_brings {env : Env} {p : Profile} {conf : Params} {fuel : Nat} {w : World} {req : Message} {job : Job}
    (hf : validCount + 258 ≤ fuel) (hu : Up env conf w) (hq : req.questions.length = req.header.questionsCount.toNat) (hb : Brings p req job)
    {o : Out LookupErr (List (List UInt8) × Bool)} {w' : World} (h : serve env p conf fuel job w = (o, w')) :
    (∃ m, Mirrors req.header m ∧ m.questions = req.questions ∧ Sent m o job) ∨ PoisonedBy p w'.log ∨ AddrDenied p w'.log ∨ HungBy p w'.log := by
  cases job with
  | udp datagram sends =>
    obtain ⟨hr, n, rfl, hn⟩ := hb
    have hd := decoded_of_udp hr
    rcases handle_replies hf hu hq hd with ⟨m, w1, hm⟩ | ⟨hbad, hlog⟩
    · left
      obtain ⟨e1, e2, -⟩ := C67_reply_partial env p conf fuel req m w w1 hm
      obtain ⟨-, x, hx⟩ := resolver_reply_encodes hu hd hq hm
      have hs := C25_udp_size m x hx
      refine ⟨m, e1, e2, x, hx, hs.2, ?_⟩
      have h' : serveUdp env p conf fuel datagram [some n] w = (o, w') := h
      rw [serve_udp_eq hr hm, udpReply_once hx hs.1 (hs.2.trans hn)] at h'
      exact (Prod.mk.inj h').1.symm
    · right
      have h' : serveUdp env p conf fuel datagram [some n] w = (o, w') := h
      have e : (serveUdp env p conf fuel datagram [some n] w).2 = (handle env p conf fuel (.fullMessage req) w).2 := by
        rw [show serveUdp env p conf fuel datagram [some n] w = _ from infallible_ok hr _ w]
        exact M.bind_world fun reply w1 => by cases reply <;> rfl
      rw [h'] at e
      rw [← e] at hlog
      exact hlog
  | tcp stream room =>
    obtain ⟨rest, hr⟩ := hb
    obtain ⟨body, hd⟩ := decoded_of_tcp hr
    have ht : (serve env p conf fuel (.tcp stream room) w).2 = (serveTcp env p conf fuel stream room w).2 := M.bind_world fun _ _ => rfl
    rcases handle_replies hf hu hq hd with ⟨m, w1, hm⟩ | ⟨hbad, hlog⟩
    · left
      obtain ⟨e1, e2, -⟩ := C67_reply_partial env p conf fuel req m w w1 hm
      obtain ⟨⟨x, hx⟩, -⟩ := resolver_reply_encodes hu hd hq hm
      refine ⟨m, e1, e2, x, hx, ?_⟩
      have h' : serveTcp env p conf fuel stream room w =
          (.ok ((be16 (x.length % 65536) ++ x).take room, decide ((be16 (x.length % 65536) ++ x).length ≤ room)), w1) := by
        rw [serve_tcp_eq hr hm, tcpReply_eq hx]
        rfl
      have h'' : (serveTcp env p conf fuel stream room >>= fun r => pure ([r.1], r.2)) w = (o, w') := h
      rw [M.bind_eq h'] at h''
      exact (Prod.mk.inj h'').1.symm
    · right
      have e : (serveTcp env p conf fuel stream room w).2 = (handle env p conf fuel (.fullMessage req) w).2 := by
        rw [show serveTcp env p conf fuel stream room w = _ from infallible_ok hr _ w]
        exact M.bind_world fun reply w1 => by cases reply <;> rfl
      rw [h] at ht
      rw [← e, ← ht] at hlog
      exact hlog

/-- C93: a request all of whose questions are of known types is, if its thread is given one turn after another, answered with one
response, unless the thread has received a datagram on which the decoder panics (C22) or hangs (C60), or a server has answered
its query for an address with NXDOMAIN (C64): what other clients ask, and what the servers answer to other threads, makes no
difference. -/
theorem C93_all_served : ∃ N, ∀ {S : Schedule} {net : Nat → List Event → Ip4 → List UInt8 → Option (List UInt8)} {p : Profile} {conf : Params}
    {fuel : Nat} {jobs : Nat → Job} {c : RecordsCache} {lo : Nat}, (∀ n, Service S net p conf fuel jobs c lo n) → N ≤ fuel →
    ∀ (i : Nat) (req : Message), Fair S i → Brings p req (jobs i) → req.questions.length = req.header.questionsCount.toNat →
    ∃ n o, ((System.after S net (.serving p conf fuel jobs c) n).threads i).task = .done o ∧
      ((∃ m, Mirrors req.header m ∧ m.questions = req.questions ∧ Sent m o (jobs i)) ∨
       PoisonedBy p ((System.after S net (.serving p conf fuel jobs c) n).threads i).log ∨
       AddrDenied p ((System.after S net (.serving p conf fuel jobs c) n).threads i).log ∨
       HungBy p ((System.after S net (.serving p conf fuel jobs c) n).threads i).log) := by
  refine ⟨validCount + 258, fun {S net p conf fuel jobs c lo} h hf i req hi hb hq => ?_⟩
  obtain ⟨n, o, ho⟩ := System.finishes (net := net) (s := .serving p conf fuel jobs c) hi
  refine ⟨n, o, ho, ?_⟩
  obtain ⟨env, w', -, h1, h2, h3⟩ := (C93_service_in_threads (h n)).2 i _ ho
  rw [← h3]
  exact serve_brings hf h1 hq hb h2

/-! ## C94 -/

/-- Caches of at most 45 records at each key, all of which are of some kind. -/
def smallTheory (P : Record → Prop) (bad : Record) (hb : ¬ P bad) : Theory where
  I _ c := SmallCache P c
  L _ c := c.Distinct
  K _ _ := True
  R _ := True
  k₁ := (⟨['a', '.']⟩, .A)
  k₂ := (⟨['b', '.']⟩, .A)
  junk := [bad]
  apart := by decide
  spoils _ _ h hI := by
    rcases h with h | h
    · exact hb ((hI _ _ _ h).2 _ (List.mem_singleton.2 rfl))
    · exact hb ((hI _ _ _ h).2 _ (List.mem_singleton.2 rfl))
  monoI _ _ _ hI := hI
  monoL _ _ _ hL := hL
  refl _ := trivial
  trans _ _ := trivial
  get _ hI _ := ⟨fun k e v hk => hI k e v (mem_getClone hk), trivial⟩
  clean _ _ _ _ hI hL := ⟨fun k e v hk => hI k e v (mem_clean hL hk), trivial⟩
  set _ _ _ _ _ _ := trivial

/-- What serving requests leaves in the cache. -/
theorem small_after {P : Record → Prop} {bad : Record} (hb : ¬ P bad) (httl : ∀ r t, P r → P (r.setTtl t)) {S : Schedule}
    {net : Nat → List Event → Ip4 → List UInt8 → Option (List UInt8)} {p : Profile} {conf : Params} {fuel : Nat} {jobs : Nat → Job} {c : RecordsCache}
    (hnet : ∀ i hist addr query raw m, net i hist addr query = some raw → Message.decodeFromBytes p (raw.take 512) = .ok m →
      m.answers.length + m.authorities.length + m.additionals.length ≤ 45 ∧ ∀ r ∈ m.answers ++ m.authorities ++ m.additionals, P r)
    (hd : c.Distinct) (hc : SmallCache P c) (n : Nat) : SmallCache P (System.after S net (.serving p conf fuel jobs c) n).cache := by
  let A : (smallTheory P bad hb).Setting (List (List UInt8) × Bool) := {
    S := S, net := net, s := .serving p conf fuel jobs c
    Post := fun _ _ _ => True
    times := fun _ => ⟨trivial, trivial⟩
    allowed := hc
    logs := fun _ => rfl
    single := by
      intro i env o w' hn _ hm hI _ hr
      refine ⟨?_, trivial⟩
      have e : serve env p conf fuel (jobs i) ⟨c, 0, []⟩ = (o, w') := by
        rw [← hr]
        exact (congrFun (Steps.serve_run env p conf fuel (jobs i)) _).symm
      have ew : (serve env p conf fuel (jobs i) ⟨c, 0, []⟩).2 = w' := by rw [e]
      have hbd : Bounding P env p := by
        refine ⟨httl, fun hist addr query raw m h1 h2 => hnet i hist addr query raw m (by rw [← hn]; exact h1) h2, fun k c hc => ?_⟩
        rcases hm k c with h1 | h1 | h1
        · rw [h1]; exact hc
        · exact h1.1
        · exact absurd hc h1.1
      show SmallCache P w'.cache
      rcases serve_world env p conf fuel (jobs i) ⟨c, 0, []⟩ with h1 | ⟨bytes, req, q, h1, h2, h3⟩
      · rw [← ew, h1]
        exact hc
      · rw [← ew, h3]
        exact (perform_small hbd fuel ⟨q.node, q.recordType, [], [], conf⟩ (by simp) ⟨c, 0, []⟩ hc).1 }
  exact (A.all n fun m _ => distinct_after hd m).1

/-- What the cache is like while a name space that is in order is served. -/
def serviceTheory (N : NameSpace) (p : Profile) (start stop : Nat) : Theory where
  __ := orderTheory N start stop
  L t c := Limited start t c ∧ PlainCache c ∧ ReceivedCache p c
  monoL h _ _ hL := ⟨⟨fresh_mono h hL.1.1, hL.1.2⟩, hL.2⟩
  get hR hI hL := (orderTheory N start stop).get hR hI hL.1
  clean hR hR' h hr hI hL := (orderTheory N start stop).clean hR hR' h hr hI hL.1
  set hR hR' h hI hL := (orderTheory N start stop).set hR hR' h hI hL.1

theorem service_order {N : NameSpace} {p : Profile} {start stop : Nat} {env : Env} (h : (serviceTheory N p start stop).Meddles env) :
    (orderTheory N start stop).Meddles env := by
  intro k c
  rcases h k c with h1 | h1 | h1
  · exact .inl h1
  · exact .inr (.inl ⟨h1.1, h1.2.1, h1.2.2.1⟩)
  · exact .inr (.inr h1)

theorem service_bad {N : NameSpace} {p : Profile} {start stop t : Nat} {key : Name × RecordType} {e : Nat} {v : List Record}
    (h : ((serviceTheory N p start stop).bad t).find key = some (e, v)) : v = junkRecords := by
  unfold Theory.bad at h
  rw [Cache.find_put, Cache.find_put] at h
  split at h
  · injection h with h; injection h with h1 h2; exact h2.symm
  · split at h
    · injection h with h; injection h with h1 h2; exact h2.symm
    · cases h

/-- A name that does not belong to the examples. -/
theorem junk_encodable : Encodable ⟨['a', '.']⟩ := encodable_of [['a']] (by decide) (by decide) (by decide) (by decide) (by decide)

theorem junk_plain : ∀ r ∈ junkRecords, Plain r := by
  intro r hr
  rw [junkRecords, List.mem_singleton] at hr
  subst hr
  exact ⟨junk_encodable, rfl, junk_encodable⟩

/-- A message with the record in it. -/
def junkBytes : List UInt8 := [0, 0, 0, 0, 0, 0, 0, 1, 0, 0, 0, 0, 1, 97, 0, 0, 5, 0, 1, 0, 0, 0, 0, 0, 3, 1, 97, 0]

theorem junk_received (p : Profile) : ∀ r ∈ junkRecords, Received p r := by
  intro r hr
  rw [junkRecords, List.mem_singleton] at hr
  subst hr
  have h : Message.decodeFromBytes p junkBytes = .ok ⟨⟨0, false, .STD, false, false, false, false, 0, .NoError, 0, 1, 0, 0⟩, [],
      [⟨⟨['a', '.']⟩, .IN, 0, 3, .CNAME ⟨['a', '.']⟩⟩], [], []⟩ := by cases p <;> decide +kernel
  exact ⟨junkBytes, _, _, 0, by decide, h, List.mem_singleton.2 rfl, rfl⟩

theorem service_plain {N : NameSpace} {p : Profile} {start stop : Nat} {env : Env} (h : (serviceTheory N p start stop).Meddles env) :
    (∀ i c, PlainCache c → PlainCache (env.others i c)) ∧ ∀ i c, ReceivedCache p c → ReceivedCache p (env.others i c) := by
  constructor
  · intro i c hc
    rcases h i c with h1 | h1 | h1
    · rw [h1]; exact hc
    · exact h1.2.2.2.1
    · rw [h1.2]
      intro k e v hk
      rw [service_bad hk]
      exact ⟨by decide, junk_plain⟩
  · intro i c hc
    rcases h i c with h1 | h1 | h1
    · rw [h1]; exact hc
    · exact h1.2.2.2.2
    · rw [h1.2]
      intro k e v hk
      rw [service_bad hk]
      exact ⟨by decide, junk_received p⟩

/-- The job brings a request the name space has an answer to, by following fewer than so many aliases; the reply can be sent. -/
def AnswerableJob (N : NameSpace) (p : Profile) (n : Nat) : Job → Prop
  | .udp datagram sends => Answerable N p n datagram ∧ ∃ k, sends = [some k] ∧ 512 ≤ k
  | .tcp stream room => 65538 ≤ room ∧ ∃ req node kind rest, Net.tcpRead p stream = .ok (.fullMessage req, rest) ∧ Poses req node kind ∧
      Encodable node ∧ Resolvable N n (node, kind)

/-- A response has been sent, over UDP as in C89; over TCP, complete, with its length before it. -/
def AnsweredJob (N : NameSpace) (p p' : Profile) (o : Out LookupErr (List (List UInt8) × Bool)) : Job → Prop
  | .udp datagram _ => Answered N p p' datagram o
  | .tcp stream _ => ∃ req node kind rest cnames fate body m, Net.tcpRead p stream = .ok (.fullMessage req, rest) ∧ Poses req node kind ∧
      N.Fares kind node cnames fate ∧ body.length < 65536 ∧ o = .ok ([be16 body.length ++ body], true) ∧
      Message.decodeFromBytes p' body = .ok m ∧ RespondsTo req m ∧ Informs m.header.respCode m.answers cnames fate

/-- The job does not bring a request with one question. -/
def Harmless (p : Profile) : Job → Prop
  | .udp datagram _ => ∀ req, Net.udpRead p datagram = .ok (.fullMessage req) → ¬ WellPosed req
  | .tcp stream _ => ∀ req rest, Net.tcpRead p stream = .ok (.fullMessage req, rest) → ¬ WellPosed req

/-- Threads that serve requests for names of a name space that is in order, and has plain records only, in any order of steps,
for a period of time shorter than the TTLs of NS records and of server addresses, with a cache that is in order at the start.
There may be requests among them that are none. -/
structure OrderlyService (N : NameSpace) (S : Schedule) (net : Nat → List Event → Ip4 → List UInt8 → Option (List UInt8)) (p : Profile)
    (conf : Params) (fuel : Nat) (jobs : Nat → Job) (c : RecordsCache) (start stop : Nat) (n : Nat) : Prop where
  times : ∀ m, start < S.time m ∧ S.time' m ≤ stop
  period : stop < start + 2 ^ 32 * NANOS
  run : ∀ i env, env.net = net i → N.WellRun env p conf.maxUdpRetries conf.maxNsQueried (stop - start)
  plainNet : ∀ i hist addr query raw m, net i hist addr query = some raw → Message.decodeFromBytes p (raw.take 512) = .ok m →
    ∀ r ∈ m.answers ++ m.authorities ++ m.additionals, Plain r
  follow : conf.noFollowCname = false
  retries : conf.maxUdpRetries ≠ 0
  redir : conf.maxCnameRedir ≤ 52
  enough : 256 + N.depth < fuel
  coherent : N.Coherent start stop c
  plain : PlainCache c
  received : ReceivedCache p c
  distinct : c.Distinct
  fresh : Fresh (S.time 0) c
  expires : ExpiresBy start c
  modest : ∀ m < n, Modest S start m (System.after S net (.serving p conf fuel jobs c) m)
  jobs : ∀ i, AnswerableJob N p conf.maxCnameRedir (jobs i) ∨ Harmless p (jobs i)

theorem handle_harmless {env : Env} {p : Profile} {conf : Params} {fuel : Nat} {req : Message} (w : World) (h : ¬ WellPosed req) :
    (handle env p conf fuel (.fullMessage req) w).2 = w := by
  unfold handle
  dsimp only
  rw [if_pos (by
    rw [Bool.not_eq_true']
    cases hv : validate req with
    | false => rfl
    | true => exact absurd ((validate_iff req).1 hv) h)]
  rfl

/-- A job that brings no request changes nothing. -/
theorem serve_harmless {env : Env} {p : Profile} {conf : Params} {fuel : Nat} {job : Job} (w : World) (h : Harmless p job) :
    (serve env p conf fuel job w).2 = w := by
  cases job with
  | udp datagram sends =>
    show (serveUdp env p conf fuel datagram sends w).2 = w
    rcases serveUdp_world env p conf fuel datagram sends w with h1 | ⟨read, h1, h2⟩
    · exact h1
    · rw [h2]
      cases read with
      | fullMessage req => exact handle_harmless w (h req h1)
      | headerOnly x e => rfl
      | parseErr a b => rfl
      | ioErr => rfl
  | tcp stream room =>
    have e : (serve env p conf fuel (.tcp stream room) w).2 = (serveTcp env p conf fuel stream room w).2 := M.bind_world fun _ _ => rfl
    rw [e]
    rcases serveTcp_world env p conf fuel stream room w with h1 | ⟨read, rest, h1, h2⟩
    · exact h1
    · rw [h2]
      cases read with
      | fullMessage req => exact handle_harmless w (h req rest h1)
      | headerOnly x e => rfl
      | parseErr a b => rfl
      | ioErr => rfl

/-- One thread, as in C89. -/
theorem serve_answerable {N : NameSpace} {env : Env} {p : Profile} (p' : Profile) {conf : Params} {start stop fuel : Nat} {w w' : World} {job : Job}
    {o : Out LookupErr (List (List UInt8) × Bool)} (hs : Serving N env p conf start stop w) (hc : conf.maxCnameRedir ≤ 52)
    (hfuel : 256 + N.depth < fuel) (hj : AnswerableJob N p conf.maxCnameRedir job) (h : serve env p conf fuel job w = (o, w')) :
    AnsweredJob N p p' o job ∧ Serving N env p conf start stop w' := by
  cases job with
  | udp datagram sends =>
    obtain ⟨⟨req, node, kind, h1, h2, h3, h4, cs, f, h5, h6⟩, k, rfl, hk⟩ := hj
    obtain ⟨out, w1, m, all, g1, g2, g3, g4, g5, g6, g7, g8⟩ := C89_udp p' hs h1 h2 h3 h4 h5 h6 (by omega) hfuel
    have h' : serveUdp env p conf fuel datagram [some k] w = (o, w') := h
    rw [g1 k (g2.trans hk)] at h'
    injection h' with e1 e2
    subst e1 e2
    exact ⟨⟨req, node, kind, cs, f, out, m, all, h1, h2, h5, rfl, g2, g3, g4, g5, g6, g7⟩, g8⟩
  | tcp stream room =>
    obtain ⟨hroom, req, node, kind, rest, h1, h2, h3, h4, cs, f, h5, h6⟩ := hj
    obtain ⟨body, w1, m, g0, g1, g2, g3, g4, g5⟩ := C89_tcp p' hs h1 h2 h3 h4 h5 h6 hc hfuel
    have h' : (serveTcp env p conf fuel stream room >>= fun r => pure ([r.1], r.2)) w = (o, w') := h
    rw [M.bind_eq (g1 room (by omega))] at h'
    have e := Prod.mk.inj h'
    obtain ⟨e1, e2⟩ := e
    subst e1 e2
    exact ⟨⟨req, node, kind, rest, cs, f, body, m, h1, h2, h5, g0, rfl, g2, g3, g4⟩, g5⟩

/-- C94: the cache stays in order, and every answerable request that has been served has been answered. -/
theorem C94_answers {N : NameSpace} {S : Schedule} {net : Nat → List Event → Ip4 → List UInt8 → Option (List UInt8)} {p : Profile} (p' : Profile)
    {conf : Params} {fuel : Nat} {jobs : Nat → Job} {c : RecordsCache} {start stop n : Nat}
    (h : OrderlyService N S net p conf fuel jobs c start stop n) :
    N.Coherent start stop (System.after S net (.serving p conf fuel jobs c) n).cache ∧
    ∀ i o, AnswerableJob N p conf.maxCnameRedir (jobs i) → ((System.after S net (.serving p conf fuel jobs c) n).threads i).task = .done o →
      AnsweredJob N p p' o (jobs i) := by
  let A : (serviceTheory N p start stop).Setting (List (List UInt8) × Bool) := {
    S := S, net := net, s := .serving p conf fuel jobs c
    Post := fun i o _ => AnswerableJob N p conf.maxCnameRedir (jobs i) → AnsweredJob N p p' o (jobs i)
    times := fun m => ⟨⟨(h.times m).1, (S.forward m).1.trans (h.times m).2⟩, ⟨Nat.lt_of_lt_of_le (h.times m).1 (S.forward m).1, (h.times m).2⟩⟩
    allowed := h.coherent
    logs := fun _ => rfl
    single := by
      intro i env o w' hn hR hm hI hL hr
      have e : serve env p conf fuel (jobs i) ⟨c, 0, []⟩ = (o, w') := by
        rw [← hr]
        exact (congrFun (Steps.serve_run env p conf fuel (jobs i)) _).symm
      have ho : InOrder N env p conf start stop 0 :=
        ⟨fun k _ => ⟨Nat.le_of_lt (hR k).1, (hR k).2⟩, h.run i env hn, order_companions h.period hR (service_order hm), h.follow, h.retries⟩
      have hs : Serving N env p conf start stop ⟨c, 0, []⟩ :=
        ⟨ho, h.coherent, hL.1.1, ⟨fun hist addr query raw m h1 => h.plainNet i hist addr query raw m (by rw [← hn]; exact h1), h.plain,
          (service_plain hm).1⟩, ⟨h.received, (service_plain hm).2⟩⟩
      refine ⟨?_, fun hj => (serve_answerable p' hs h.redir h.enough hj e).1⟩
      rcases h.jobs i with hj | hj
      · exact (serve_answerable p' hs h.redir h.enough hj e).2.coherent
      · have := serve_harmless (env := env) (p := p) (conf := conf) (fuel := fuel) ⟨c, 0, []⟩ hj
        rw [e] at this
        subst this
        exact h.coherent }
  have hplain : ∀ m, SmallCache Plain (System.after S net (.serving p conf fuel jobs c) m).cache :=
    small_after (bad := ⟨⟨[]⟩, .CH, 0, 0, .CNAME ⟨[]⟩⟩) (fun hp => nomatch hp.2.1) (fun _ _ h => h) (fun i hist addr query raw m h1 h2 => ⟨by
      have hl : (raw.take 512).length ≤ 512 := by rw [List.length_take]; omega
      have := size_records h2
      omega, h.plainNet i hist addr query raw m h1 h2⟩) h.distinct h.plain
  have hreceived : ∀ m, SmallCache (Received p) (System.after S net (.serving p conf fuel jobs c) m).cache :=
    small_after (bad := ⟨⟨[]⟩, .CH, 0, 0, .CNAME ⟨[]⟩⟩) (by
      rintro ⟨bytes, m, r₀, t, -, hd, hm, hr⟩
      obtain ⟨hdec, -⟩ := decoded_message hd
      have hi : r₀.cls = .IN := by
        rcases List.mem_append.1 hm with hm | hm
        · rcases List.mem_append.1 hm with hm | hm
          · exact hdec.an _ hm
          · exact hdec.au _ hm
        · exact hdec.ad _ hm
      have hc : (Record.setTtl r₀ t).cls = .CH := by rw [← hr]
      rw [show (Record.setTtl r₀ t).cls = r₀.cls from rfl, hi] at hc
      cases hc)
      (by rintro r t ⟨bytes, m, r₀, t', hl, hd, hm, rfl⟩; exact ⟨bytes, m, r₀, t, hl, hd, hm, rfl⟩) (fun i hist addr query raw m h1 h2 => by
      have hl : (raw.take 512).length ≤ 512 := by rw [List.length_take]; omega
      have := size_records h2
      exact ⟨by omega, fun r hr => ⟨raw.take 512, m, r, r.ttl, hl, h2, hr, rfl⟩⟩) h.distinct h.received
  have hL : ∀ m ≤ n, (serviceTheory N p start stop).L (S.time m) (A.after m).cache := fun m hm =>
    ⟨limited_after ⟨h.fresh, h.expires, h.distinct⟩ m fun k hk => h.modest k (by omega), hplain m, hreceived m⟩
  exact ⟨(A.all n hL).1, fun i o hj ho => A.result n hL ho hj⟩

/-- C94: and every answerable request whose thread is given one turn after another is answered. -/
theorem C94_all_answered {N : NameSpace} {S : Schedule} {net : Nat → List Event → Ip4 → List UInt8 → Option (List UInt8)} {p : Profile} (p' : Profile)
    {conf : Params} {fuel : Nat} {jobs : Nat → Job} {c : RecordsCache} {start stop : Nat}
    (h : ∀ n, OrderlyService N S net p conf fuel jobs c start stop n) (i : Nat) (hi : Fair S i)
    (hj : AnswerableJob N p conf.maxCnameRedir (jobs i)) :
    ∃ n o, ((System.after S net (.serving p conf fuel jobs c) n).threads i).task = .done o ∧ AnsweredJob N p p' o (jobs i) := by
  obtain ⟨n, o, ho⟩ := System.finishes (net := net) (s := .serving p conf fuel jobs c) hi
  exact ⟨n, o, ho, (C94_answers p' (h n)).2 i o hj ho⟩

/-! ## Examples -/

/-- The requests: one for b.com. (an alias of a.com.) over UDP, one for a.com. over TCP, and garbage. -/
def turnJobs (i : Nat) : Job :=
  if i = 0 then .udp (addressQuery 6 nB) [some 512] else if i = 1 then .tcp (be16 (addressQuery 7 nA).length ++ addressQuery 7 nA) 70000
  else .udp [1, 2, 3] []

/-- The service after so many steps. -/
def turnService (n : Nat) : System (List (List UInt8) × Bool) :=
  System.after turns (fun _ _ a q => orderNet a q) (.serving .release ⟨2, 3, 2, false⟩ 259 turnJobs .empty) n

/-- What was sent. -/
def sentBy : Resolver.Task (List (List UInt8) × Bool) → Option (List (List UInt8))
  | .done (.ok (x, true)) => some x
  | _ => none

theorem sentBy_some {t : Resolver.Task (List (List UInt8) × Bool)} {l : List (List UInt8)} (h : sentBy t = some l) : t = .done (.ok (l, true)) := by
  unfold sentBy at h
  split at h
  · injection h with h
    subst h
    rfl
  · cases h

/-- What the first client gets. -/
def turnReply₀ : List UInt8 := [0, 6, 128, 128, 0, 1, 0, 2, 0, 0, 0, 0, 1, 98, 3, 99, 111, 109, 0, 0, 1, 0, 1, 1, 98, 3, 99, 111, 109, 0, 0, 5, 0, 1, 0,
  0, 0, 9, 0, 7, 1, 97, 3, 99, 111, 109, 0, 1, 97, 3, 99, 111, 109, 0, 0, 1, 0, 1, 0, 0, 0, 9, 0, 4, 5, 6, 7, 8]

/-- What the second client gets. -/
def turnReply : List UInt8 := [0, 44, 0, 7, 128, 128, 0, 1, 0, 1, 0, 0, 0, 0, 1, 97, 3, 99, 111, 109, 0, 0, 1, 0, 1, 1, 97, 3, 99, 111, 109, 0, 0,
  1, 0, 1, 0, 0, 0, 9, 0, 4, 5, 6, 7, 8]

set_option maxRecDepth 100000 in
theorem service_modest_first : ∀ m < 168, modestNow turns 0 m (turnService m) = true := by
  have : (List.range 168).all (fun m => modestNow turns 0 m (turnService m)) = true := by decide +kernel
  exact fun m hm => List.all_eq_true.1 this m (List.mem_range.2 hm)

set_option maxRecDepth 100000 in
theorem service_sent : sentBy ((turnService 168).threads 0).task = some [turnReply₀] ∧
    sentBy ((turnService 168).threads 1).task = some [turnReply] := by decide +kernel

theorem service_done : ((turnService 168).threads 0).task = .done (.ok ([turnReply₀], true)) ∧
    ((turnService 168).threads 1).task = .done (.ok ([turnReply], true)) := ⟨sentBy_some service_sent.1, sentBy_some service_sent.2⟩

theorem service_modest (m : Nat) : Modest turns 0 m (turnService m) := by
  by_cases hm : m < 168
  · exact modest_of_now (service_modest_first m hm)
  · intro i key ttl records k hmv ht
    exfalso
    have hi : i = 0 ∨ i = 1 := by
      have hmv' : (if m % 8 = 7 then Move.clean (fun _ => turnTime m) else Move.step (m % 2)) = .step i := hmv
      split at hmv'
      · cases hmv'
      · injection hmv' with h
        omega
    obtain ⟨d, rfl⟩ := Nat.le.dest (Nat.le_of_not_lt hm)
    rcases hi with rfl | rfl
    · have := done_stays service_done.1 d
      exact Resolver.Task.noConfusion rfl (heq_of_eq (this.symm.trans ht))
    · have := done_stays service_done.2 d
      exact Resolver.Task.noConfusion rfl (heq_of_eq (this.symm.trans ht))

theorem turnJobs_answerable {i : Nat} (hi : i = 0 ∨ i = 1) : AnswerableJob orderSpace .release 2 (turnJobs i) := by
  rcases hi with rfl | rfl
  · exact ⟨⟨_, nB, .A, addressQuery_read .release 6 nB_encodable, ⟨⟨rfl, rfl, rfl, rfl⟩, rfl⟩, nB_encodable, ⟨rfl, .inr (.inl rfl)⟩, _, _,
      .follow (order_fateB _) rfl (.last (order_fateA _) (by simp)), by decide⟩, 512, rfl, Nat.le_refl _⟩
  · have hl : (addressQuery 7 nA).length < 65536 := by decide +kernel
    have hl' : (addressQuery 7 nA).length ≤ 512 := by decide +kernel
    refine ⟨(by decide), queryMessage 7 nA .A, nA, .A, [], ?_, ⟨⟨rfl, rfl, rfl, rfl⟩, rfl⟩, nA_encodable, ⟨rfl, .inl rfl⟩, _, _,
      .last (order_fateA _) (by simp), by decide⟩
    have h1 := (C30_classification.1 .release _ _).1 (addressQuery_read .release 7 nA_encodable)
    rw [List.take_of_length_le hl'] at h1
    have h2 := (C29_tcp_framing_partial.2.1 .release _ [] hl _).2 h1
    rw [List.append_nil] at h2
    exact h2

/-- The hypotheses of C94 are met. -/
theorem service_orderly (n : Nat) :
    OrderlyService orderSpace turns (fun _ _ a q => orderNet a q) .release ⟨2, 3, 2, false⟩ 259 turnJobs .empty 0 span n where
  times := turns_times
  period := by decide
  run i env h := wellRun_congr (env := orderEnv) h (order_wellRun .release)
  plainNet i := (order_serving .release 0).plain.net
  follow := rfl
  retries := by decide
  redir := by decide
  enough := by decide
  coherent := empty_coherent ..
  plain := fun _ _ _ h => nomatch h
  received := fun _ _ _ h => nomatch h
  distinct := Cache.distinct_empty
  fresh := (empty_limited 0 _).1
  expires := (empty_limited 0 0).2.1
  modest m _ := service_modest m
  jobs i := by
    by_cases h0 : i = 0
    · exact .inl (turnJobs_answerable (.inl h0))
    by_cases h1 : i = 1
    · exact .inl (turnJobs_answerable (.inr h1))
    · right
      unfold turnJobs
      rw [if_neg h0, if_neg h1]
      intro req h
      have : Net.udpRead .release [1, 2, 3] = .ok (.parseErr (.headerErr .bytesEnd) .bytesEnd) := by decide +kernel
      rw [this] at h
      cases h

/-- Those of C93 are, too. -/
theorem service_service (n : Nat) : Service turns (fun _ _ a q => orderNet a q) .release ⟨2, 3, 2, false⟩ 259 turnJobs .empty 0 n where
  times m := ⟨(turns_times m).1, Nat.lt_of_le_of_lt (turns_times m).2 (by decide)⟩
  good := fun _ _ _ h => nomatch h
  distinct := Cache.distinct_empty
  expires := fun _ _ _ h => nomatch h
  modest m _ := service_modest m
  nsq := by decide
  retries := by decide

/-- Both clients are answered; this is what they get. -/
example : (∀ i, i = 0 ∨ i = 1 → ∃ n o, ((turnService n).threads i).task = .done o ∧ AnsweredJob orderSpace .release .debug o (turnJobs i)) ∧
    ((turnService 168).threads 0).task = .done (.ok ([turnReply₀], true)) ∧ ((turnService 168).threads 1).task = .done (.ok ([turnReply], true)) :=
  ⟨fun i hi => C94_all_answered .debug service_orderly i (turns_fair hi) (turnJobs_answerable hi), service_done⟩

/-! The hypotheses of `C93_all_served`, which hold for any fuel: a client asks for a record that is in the cache. -/

/-- A cache that knows the address of a.com. -/
def knowsA : RecordsCache := Cache.empty.put (nA, .A) (9 * NANOS, [addrRecord nA ⟨5, 6, 7, 8⟩])

theorem knowsA_find {key : Name × RecordType} {e : Nat} {v : List Record} (h : knowsA.find key = some (e, v)) :
    key = (nA, .A) ∧ e = 9 * NANOS ∧ v = [addrRecord nA ⟨5, 6, 7, 8⟩] := by
  unfold knowsA at h
  rw [Cache.find_put] at h
  split at h
  · injection h with h
    injection h with h1 h2
    exact ⟨Eq.symm ‹_›, h1.symm, h2.symm⟩
  · cases h

/-- The service of the requests, whatever the servers do. -/
def cachedService (net : Nat → List Event → Ip4 → List UInt8 → Option (List UInt8)) (fuel n : Nat) : System (List (List UInt8) × Bool) :=
  System.after turns net (.serving .release ⟨2, 3, 2, false⟩ (fuel + 1)
    (fun i => if i = 0 then .udp (addressQuery 6 nA) [some 512] else .udp [1, 2, 3] []) knowsA) n

set_option maxRecDepth 100000 in
theorem cached_modest_first (net : Nat → List Event → Ip4 → List UInt8 → Option (List UInt8)) (fuel : Nat) :
    (List.range 20).all (fun m => modestNow turns 0 m (cachedService net fuel m)) = true := by kernel_rfl

set_option maxRecDepth 100000 in
theorem cached_sent (net : Nat → List Event → Ip4 → List UInt8 → Option (List UInt8)) (fuel : Nat) :
    ((sentBy ((cachedService net fuel 20).threads 0).task).isSome && (sentBy ((cachedService net fuel 20).threads 1).task).isSome) = true := by kernel_rfl

theorem sentBy_isSome {t : Resolver.Task (List (List UInt8) × Bool)} (h : (sentBy t).isSome = true) : ∃ l, t = .done (.ok (l, true)) := by
  obtain ⟨l, hl⟩ := Option.isSome_iff_exists.1 h
  exact ⟨l, sentBy_some hl⟩

theorem cached_modest (net : Nat → List Event → Ip4 → List UInt8 → Option (List UInt8)) (fuel m : Nat) :
    Modest turns 0 m (cachedService net fuel m) := by
  by_cases hm : m < 20
  · exact modest_of_now (List.all_eq_true.1 (cached_modest_first net fuel) m (List.mem_range.2 hm))
  · intro i key ttl records k hmv ht
    exfalso
    have hi : i = 0 ∨ i = 1 := by
      have hmv' : (if m % 8 = 7 then Move.clean (fun _ => turnTime m) else Move.step (m % 2)) = .step i := hmv
      split at hmv'
      · cases hmv'
      · injection hmv' with h
        omega
    obtain ⟨d, rfl⟩ := Nat.le.dest (Nat.le_of_not_lt hm)
    have hs := cached_sent net fuel
    rw [Bool.and_eq_true] at hs
    obtain ⟨l0, h0⟩ := sentBy_isSome hs.1
    obtain ⟨l1, h1⟩ := sentBy_isSome hs.2
    rcases hi with rfl | rfl
    · have := done_stays h0 d
      exact Resolver.Task.noConfusion rfl (heq_of_eq (this.symm.trans ht))
    · have := done_stays h1 d
      exact Resolver.Task.noConfusion rfl (heq_of_eq (this.symm.trans ht))

theorem cached_service (net : Nat → List Event → Ip4 → List UInt8 → Option (List UInt8)) (fuel n : Nat) :
    Service turns net .release ⟨2, 3, 2, false⟩ (fuel + 1) (fun i => if i = 0 then .udp (addressQuery 6 nA) [some 512] else .udp [1, 2, 3] []) knowsA 0 n where
  times m := ⟨(turns_times m).1, Nat.lt_of_le_of_lt (turns_times m).2 (by decide)⟩
  good := by
    intro key e v h
    obtain ⟨rfl, rfl, rfl⟩ := knowsA_find h
    refine ⟨?_, ?_, ?_, 0, 9, Nat.zero_le _, by decide, by decide, ?_⟩
    · exact fun r hr => by rw [List.mem_singleton.1 hr]; rfl
    · exact fun _ r hr => by rw [List.mem_singleton.1 hr]; rfl
    · exact fun r hr => by rw [List.mem_singleton.1 hr]; exact ⟨⟨by decide, _, nA_encodable.2.choose_spec.1⟩, (fun n hn => nomatch hn), rfl, trivial⟩
    · exact fun r hr => by rw [List.mem_singleton.1 hr]; rfl
  distinct := by
    have h := Cache.step_distinct Cache.distinct_empty (.set (nA, RecordType.A) (9 * NANOS) [addrRecord nA ⟨5, 6, 7, 8⟩] 0 0)
    exact h
  expires := by
    intro key e v h
    rw [(knowsA_find h).2.1]
    decide
  modest m _ := cached_modest net fuel m
  nsq := by decide
  retries := by decide

/-- With enough fuel, and whatever the servers do. -/
example : ∃ N, ∀ net fuel, N ≤ fuel → ∃ n o, ((cachedService net fuel n).threads 0).task = .done o ∧
    ((∃ m, Mirrors (queryMessage 6 nA .A).header m ∧ m.questions = (queryMessage 6 nA .A).questions ∧ Sent m o (.udp (addressQuery 6 nA) [some 512])) ∨
      PoisonedBy .release ((cachedService net fuel n).threads 0).log ∨ AddrDenied .release ((cachedService net fuel n).threads 0).log ∨
      HungBy .release ((cachedService net fuel n).threads 0).log) := by
  obtain ⟨N, h⟩ := C93_all_served
  exact ⟨N, fun net fuel hf => h (cached_service net fuel) (Nat.le_succ_of_le hf) 0 (queryMessage 6 nA .A) (turns_fair (.inl rfl))
    ⟨addressQuery_read .release 6 nA_encodable, 512, rfl, Nat.le_refl _⟩ rfl⟩

/-- The same without requests, for `C90_ends`. -/
def cachedLookups (net : Nat → List Event → Ip4 → List UInt8 → Option (List UInt8)) (fuel n : Nat) : System Response :=
  System.after turns net (.start .release ⟨2, 3, 2, false⟩ (fuel + 1) (fun _ => (nA, .A)) knowsA) n

set_option maxRecDepth 100000 in
theorem cachedLookups_first (net : Nat → List Event → Ip4 → List UInt8 → Option (List UInt8)) (fuel : Nat) :
    ((List.range 20).all (fun m => modestNow turns 0 m (cachedLookups net fuel m)) && ((doneWith ((cachedLookups net fuel 20).threads 0).task).isSome &&
      (doneWith ((cachedLookups net fuel 20).threads 1).task).isSome)) = true := by kernel_rfl

theorem cachedLookups_modest (net : Nat → List Event → Ip4 → List UInt8 → Option (List UInt8)) (fuel m : Nat) :
    Modest turns 0 m (cachedLookups net fuel m) := by
  have hs := cachedLookups_first net fuel
  rw [Bool.and_eq_true, Bool.and_eq_true] at hs
  by_cases hm : m < 20
  · exact modest_of_now (List.all_eq_true.1 hs.1 m (List.mem_range.2 hm))
  · intro i key ttl records k hmv ht
    exfalso
    have hi : i = 0 ∨ i = 1 := by
      have hmv' : (if m % 8 = 7 then Move.clean (fun _ => turnTime m) else Move.step (m % 2)) = .step i := hmv
      split at hmv'
      · cases hmv'
      · injection hmv' with h
        omega
    obtain ⟨d, rfl⟩ := Nat.le.dest (Nat.le_of_not_lt hm)
    obtain ⟨l0, h0⟩ := Option.isSome_iff_exists.1 hs.2.1
    obtain ⟨l1, h1⟩ := Option.isSome_iff_exists.1 hs.2.2
    obtain ⟨r0, h0, -⟩ := doneWith_some h0
    obtain ⟨r1, h1, -⟩ := doneWith_some h1
    rcases hi with rfl | rfl
    · have := done_stays h0 d
      exact Resolver.Task.noConfusion rfl (heq_of_eq (this.symm.trans ht))
    · have := done_stays h1 d
      exact Resolver.Task.noConfusion rfl (heq_of_eq (this.symm.trans ht))

/-- The hypotheses of `C90_ends` are met, whatever the servers do. -/
example (net : Nat → List Event → Ip4 → List UInt8 → Option (List UInt8)) (fuel n : Nat) :
    Concurrent turns net .release ⟨2, 3, 2, false⟩ (fuel + 1) (fun _ => (nA, .A)) knowsA 0 n ∧ Fair turns 0 ∧ Fair turns 1 :=
  ⟨⟨(cached_service net fuel n).times, (cached_service net fuel n).good, (cached_service net fuel n).distinct, (cached_service net fuel n).expires,
    fun m _ => cachedLookups_modest net fuel m, fun _ => ⟨⟨by decide, _, nA_encodable.2.choose_spec.1⟩, rfl⟩, by decide, by decide⟩,
    turns_fair (.inl rfl), turns_fair (.inr rfl)⟩

end Ariadne.Props
