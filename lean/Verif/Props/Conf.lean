import Verif.Spec.Conf
import Verif.Props.ResolverServer

/-! # C71: configurations -/

namespace Ariadne.Props

open Spec Conf

/-- The full statement of C71. -/
def C71_statement : Prop :=
  (∀ (isIp : Str → Bool) (c : NsConf), c.validate isIp = .ok () → NsUsable c) ∧
  (∀ (isIp : Str → Bool) (c : ResConf), c.validate isIp = .ok () → ResUsable c)

/-- A configuration with read time-out `t` for TCP. -/
def sampleTcp (t : UInt64) : Tcp := ⟨"127.0.0.1".toList, 53, t, 5, 4⟩

/-- A configuration for UDP. -/
def sampleUdp : Udp := ⟨"127.0.0.1".toList, 53, 5, 4⟩

/-- A configuration of the resolver. -/
def sampleRes (t : UInt64) : ResConf := ⟨sampleUdp, sampleTcp t, ⟨5, 2, 10, 5, 5, 60, 100⟩⟩

/-- A configuration of the name server. -/
def sampleNs (t : UInt64) : NsConf := ⟨sampleUdp, sampleTcp t, ⟨60, "e.".toList, "f".toList, [⟨60, 60, "s.e.".toList, "g".toList⟩]⟩⟩

/-- C71 does not hold: the read time-out for TCP may be zero. -/
theorem C71_violated : ¬ C71_statement := by
  intro h
  exact (h.2 (fun _ => true) (sampleRes 0) (by decide)).servers.tcpRead rfl

/-- With such a configuration no TCP connection is ever served, although both programs accept it. -/
theorem C71_tcp_dead : (sampleNs 0).validate (fun _ => true) = .ok () ∧ (sampleRes 0).validate (fun _ => true) = .ok () ∧
    ∀ (c : Tcp), c.readTimeout = 0 → setupConnection c = false := by
  refine ⟨by decide, by decide, fun c h => ?_⟩
  unfold setupConnection setTimeout
  rw [h]
  rfl

theorem validateServers_ok {isIp : Str → Bool} {udp : Udp} {tcp : Tcp} :
    validateServers isIp udp tcp = .ok () ↔ isIp udp.address = true ∧ udp.writeTimeout ≠ 0 ∧ udp.threads ≠ 0 ∧
      isIp tcp.address = true ∧ tcp.writeTimeout ≠ 0 ∧ tcp.threads ≠ 0 := by
  unfold validateServers
  simp only [Bool.not_eq_true', beq_iff_eq]
  by_cases h1 : isIp udp.address = false
  · simp [h1]
  · rw [if_neg h1]
    by_cases h2 : udp.writeTimeout = 0
    · simp [h2]
    · rw [if_neg h2]
      by_cases h3 : udp.threads = 0
      · simp [h3]
      · rw [if_neg h3]
        by_cases h4 : isIp tcp.address = false
        · simp [h4]
        · rw [if_neg h4]
          by_cases h5 : tcp.writeTimeout = 0
          · simp [h5]
          · rw [if_neg h5]
            by_cases h6 : tcp.threads = 0
            · simp [h6]
            · rw [if_neg h6]
              simp_all

theorem fromString_ok {s : Str} : (∃ n : Name, (Name.fromString s : Out NameErr Name) = .ok n) ↔ ValidName s := by
  rw [← validateName_iff]
  unfold Name.fromString
  cases h : Name.validateName s with
  | ok u => simp only [Out.bind_ok]; exact ⟨fun _ => trivial, fun _ => ⟨_, rfl⟩⟩
  | err e => exact ⟨fun ⟨_, h⟩ => (by cases h), fun h => (by cases h)⟩
  | panic e => exact ⟨fun ⟨_, h⟩ => (by cases h), fun h => (by cases h)⟩
  | diverge => exact ⟨fun ⟨_, h⟩ => (by cases h), fun h => (by cases h)⟩

theorem fromString_eq {s : Str} (h : ValidName s) : (Name.fromString s : Out NameErr Name) = .ok ⟨s⟩ := by
  unfold Name.fromString
  rw [(validateName_iff s).2 h]
  rfl

theorem validateSubZones_ok : ∀ {l : List SubZone}, validateSubZones l = .ok () ↔ ∀ s ∈ l, ValidName s.zone
  | [] => by simp [validateSubZones]
  | c :: cs => by
    unfold validateSubZones
    by_cases hv : ValidName c.zone
    · rw [fromString_eq hv]
      simp only [List.mem_cons, forall_eq_or_imp, validateSubZones_ok, hv, true_and]
    · have hn : ∀ n, (Name.fromString c.zone : Out NameErr Name) ≠ .ok n := fun n h => hv (fromString_ok.1 ⟨n, h⟩)
      refine ⟨fun h => ?_, fun h => absurd (h c (by simp)) hv⟩
      cases hf : (Name.fromString c.zone : Out NameErr Name) with
      | ok n => exact absurd hf (hn n)
      | err e => rw [hf] at h; cases h
      | panic e => rw [hf] at h; cases h
      | diverge => rw [hf] at h; cases h

/-- C71, part, name server: the configuration is accepted exactly if the addresses are IP addresses, all of the name server's
needs except that of the TCP read time-out are met; and then the program gets past `process_zones_confs` with valid zone
names, both servers start, and TCP connections are served if the read time-out is not zero. Missing: that time-out
(`C71_violated`). -/
theorem C71_nameserver_partial (isIp : Str → Bool) (c : NsConf) :
    (c.validate isIp = .ok () ∧ c.tcp.readTimeout ≠ 0 ↔ isIp c.udp.address = true ∧ isIp c.tcp.address = true ∧ NsUsable c) ∧
    (c.validate isIp = .ok () → ∃ params, processZones c.zone = .ok params ∧ ValidConf params ∧ params.zone.s = c.zone.zone ∧
      params.subZones.map (fun s => s.zone.s) = c.zone.subZones.map SubZone.zone ∧
      startUdp c.udp = .ok true ∧ startTcp c.tcp = .ok true ∧ (setupConnection c.tcp = true ↔ c.tcp.readTimeout ≠ 0)) := by
  have key : c.validate isIp = .ok () ↔ validateServers isIp c.udp c.tcp = .ok () ∧ ValidName c.zone.zone ∧
      ∀ s ∈ c.zone.subZones, ValidName s.zone := by
    unfold NsConf.validate
    cases hs : validateServers isIp c.udp c.tcp with
    | ok u =>
      simp only [Out.bind_ok, true_and]
      by_cases hv : ValidName c.zone.zone
      · rw [fromString_eq hv]
        simp only [hv, true_and, validateSubZones_ok]
      · have hn : ∀ n, (Name.fromString c.zone.zone : Out NameErr Name) ≠ .ok n := fun n h => hv (fromString_ok.1 ⟨n, h⟩)
        refine ⟨fun h => ?_, fun h => absurd h.1 hv⟩
        cases hf : (Name.fromString c.zone.zone : Out NameErr Name) with
        | ok n => exact absurd hf (hn n)
        | err e => rw [hf] at h; cases h
        | panic e => rw [hf] at h; cases h
        | diverge => rw [hf] at h; cases h
    | err e => exact ⟨fun h => (by cases h), fun h => (by cases h.1)⟩
    | panic e => exact ⟨fun h => (by cases h), fun h => (by cases h.1)⟩
    | diverge => exact ⟨fun h => (by cases h), fun h => (by cases h.1)⟩
  rw [validateServers_ok] at key
  refine ⟨⟨fun ⟨h, hr⟩ => ?_, fun ⟨h1, h2, h3⟩ => ?_⟩, fun h => ?_⟩
  · obtain ⟨⟨a, b, c, d, e, f⟩, g, i⟩ := key.1 h
    exact ⟨a, d, ⟨c, b, f, hr, e⟩, g, i⟩
  · exact ⟨key.2 ⟨⟨h1, h3.servers.udpWrite, h3.servers.udpThreads, h2, h3.servers.tcpWrite, h3.servers.tcpThreads⟩,
      h3.zone, h3.subZones⟩, h3.servers.tcpRead⟩
  · obtain ⟨⟨a, b, c', d, e, f⟩, g, i⟩ := key.1 h
    have nu : ∀ {s : Str}, ValidName s → nameUnwrap s = .ok ⟨s⟩ := fun h => by unfold nameUnwrap; rw [fromString_eq h]
    have subs : ∀ l : List SubZone, (∀ s ∈ l, ValidName s.zone) →
        processSubZones l = .ok (l.map fun s => ⟨s.file, ⟨s.zone⟩, s.startingTtl, s.minTtl⟩) := by
      intro l
      induction l with
      | nil => intro _; rfl
      | cons s l ih =>
        intro hl
        unfold processSubZones
        rw [nu (hl s (by simp)), Out.bind_ok, ih (fun x hx => hl x (by simp [hx])), Out.bind_ok]
        rfl
    refine ⟨_, by unfold processZones; rw [subs _ i, Out.bind_ok, nu g, Out.bind_ok], ⟨g, ?_⟩, rfl, ?_, ?_, ?_, ?_⟩
    · intro s hs
      obtain ⟨x, hx, rfl⟩ := List.mem_map.1 hs
      exact i x hx
    · simp [Function.comp_def]
    · unfold startUdp poolNew setTimeout
      rw [if_pos (Nat.pos_of_ne_zero c'), Out.bind_ok]
      simp [b]
    · unfold startTcp poolNew
      rw [if_pos (Nat.pos_of_ne_zero f), Out.bind_ok]
    · unfold setupConnection setTimeout
      simp [e]

/-- C71, part, resolver: the same; and lookups can start with the limits (`Ready` in C59–C66 and `Up` in C68 need them). -/
theorem C71_resolver_partial (isIp : Str → Bool) (c : ResConf) :
    (c.validate isIp = .ok () ∧ c.tcp.readTimeout ≠ 0 ↔ isIp c.udp.address = true ∧ isIp c.tcp.address = true ∧ ResUsable c) ∧
    (c.validate isIp = .ok () → startUdp c.udp = .ok true ∧ startTcp c.tcp = .ok true ∧
      (setupConnection c.tcp = true ↔ c.tcp.readTimeout ≠ 0) ∧ setupQuery c = true ∧
      ∀ env : Resolver.Env, Friendly env → Up env c.params ⟨.empty, 0, []⟩) := by
  have key : c.validate isIp = .ok () ↔ validateServers isIp c.udp c.tcp = .ok () ∧ c.resolver.maxNsQueried ≠ 0 ∧
      c.resolver.maxNsRetries ≠ 0 ∧ c.resolver.maxCnameRedir ≠ 0 ∧ c.resolver.readTimeout ≠ 0 ∧ c.resolver.writeTimeout ≠ 0 ∧
      c.resolver.cleanPeriod ≠ 0 ∧ c.resolver.entriesCleaned ≠ 0 := by
    unfold ResConf.validate
    cases hs : validateServers isIp c.udp c.tcp with
    | ok u =>
      simp only [Out.bind_ok, true_and]
      unfold ResolverPart.validate
      simp only [beq_iff_eq, Bool.or_eq_true]
      by_cases h1 : c.resolver.maxNsQueried = 0
      · simp [h1]
      · rw [if_neg h1]
        by_cases h2 : c.resolver.maxNsRetries = 0
        · simp [h2]
        · rw [if_neg h2]
          by_cases h3 : c.resolver.maxCnameRedir = 0
          · simp [h3]
          · rw [if_neg h3]
            by_cases h4 : c.resolver.readTimeout = 0 ∨ c.resolver.writeTimeout = 0
            · rw [if_pos h4]
              refine ⟨fun h => (by cases h), fun h => ?_⟩
              rcases h4 with h4 | h4
              · exact absurd h4 h.2.2.2.1
              · exact absurd h4 h.2.2.2.2.1
            · rw [if_neg h4]
              by_cases h5 : c.resolver.cleanPeriod = 0
              · simp [h5]
              · rw [if_neg h5]
                by_cases h6 : c.resolver.entriesCleaned = 0
                · simp [h6]
                · rw [if_neg h6]
                  simp only [not_or] at h4
                  exact ⟨fun _ => ⟨h1, h2, h3, h4.1, h4.2, h5, h6⟩, fun _ => rfl⟩
    | err e => exact ⟨fun h => (by cases h), fun h => (by cases h.1)⟩
    | panic e => exact ⟨fun h => (by cases h), fun h => (by cases h.1)⟩
    | diverge => exact ⟨fun h => (by cases h), fun h => (by cases h.1)⟩
  rw [validateServers_ok] at key
  refine ⟨⟨fun ⟨h, hr⟩ => ?_, fun ⟨h1, h2, h3⟩ => ?_⟩, fun h => ?_⟩
  · obtain ⟨⟨a, b, c, d, e, f⟩, g1, g2, g3, g4, g5, g6, g7⟩ := key.1 h
    exact ⟨a, d, ⟨c, b, f, hr, e⟩, g1, g2, g3, g4, g5, g6, g7⟩
  · exact ⟨key.2 ⟨⟨h1, h3.servers.udpWrite, h3.servers.udpThreads, h2, h3.servers.tcpWrite, h3.servers.tcpThreads⟩,
      h3.nsQueried, h3.nsRetries, h3.cnameRedir, h3.read, h3.write, h3.period, h3.cleaned⟩, h3.servers.tcpRead⟩
  · obtain ⟨⟨a, b, c', d, e, f⟩, g1, g2, g3, g4, g5, g6, g7⟩ := key.1 h
    refine ⟨?_, ?_, ?_, ?_, fun env hf => ⟨hf, (by intro k e r hf; cases hf), rfl, g1, g2⟩⟩
    · unfold startUdp poolNew setTimeout
      rw [if_pos (Nat.pos_of_ne_zero c'), Out.bind_ok]
      simp [b]
    · unfold startTcp poolNew
      rw [if_pos (Nat.pos_of_ne_zero f), Out.bind_ok]
    · unfold setupConnection setTimeout
      simp [e]
    · unfold setupQuery setTimeout
      simp [g4, g5]

/-- The samples are accepted, and the name server's with read time-out 5 is usable. -/
example : (sampleNs 5).validate (fun _ => true) = .ok () ∧ (sampleRes 5).validate (fun _ => true) = .ok () ∧ NsUsable (sampleNs 5) ∧
    ResUsable (sampleRes 5) := by
  have h1 : (sampleNs 5).validate (fun _ => true) = .ok () := by decide
  have h2 : (sampleRes 5).validate (fun _ => true) = .ok () := by decide
  exact ⟨h1, h2, ((C71_nameserver_partial _ _).1.1 ⟨h1, by decide⟩).2.2, ((C71_resolver_partial _ _).1.1 ⟨h2, by decide⟩).2.2⟩

/-- What the limits are for: without retries a lookup panics. -/
example : panicked (Resolver.lookup chainEnv .release ⟨1, 0, 3, false⟩ 5 ⟨"a.com.".toList⟩ .A ⟨.empty, 0, []⟩).1 = true := by decide +kernel

end Ariadne.Props
