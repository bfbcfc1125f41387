import Verif.Spec.OnlyQuestion
import Verif.Spec.Bounce
import Verif.Props.Serving

/-!
# C113: only the name and the type asked for matter to the name server
-/

namespace Ariadne.Props

open Spec Nameserver

/-- Both fail in the same way, or give messages with the same contents and AA flag, each for its own request. -/
def SameReply (req req' : Message) (o o' : Out Empty Message) : Prop :=
  match o, o' with
  | .ok m, .ok m' => SameContents m m' ∧ m.header.authAnswer = m'.header.authAnswer ∧ m.header.id = req.header.id ∧ m'.header.id = req'.header.id ∧
      m.questions = req.questions ∧ m'.questions = req'.questions
  | .panic k, .panic k' => k = k'
  | .diverge, .diverge => True
  | _, _ => False

theorem authZone_same (p : Profile) (req req' : Message) {q q' : Question} (h1 : q.node = q'.node) (h2 : q.recordType = q'.recordType) (z : Zone) :
    SameReply req req' (authZone p req q z) (authZone p req' q' z) := by
  unfold authZone
  rw [h1, h2]
  cases z.get p q'.node q'.recordType with
  | err e => exact nomatch e
  | panic k => exact rfl
  | diverge => trivial
  | ok s =>
    rw [Out.bind_ok, Out.bind_ok]
    dsimp only
    by_cases hs : (s.getD []).isEmpty = true
    · rw [if_pos hs, if_pos hs]
      cases z.get p q'.node .CNAME with
      | err e => exact nomatch e
      | panic k => exact rfl
      | diverge => trivial
      | ok c =>
        rw [Out.bind_ok, Out.bind_ok]
        cases c with
        | some c => exact ⟨⟨rfl, rfl, rfl, rfl⟩, rfl, rfl, rfl, rfl, rfl⟩
        | none =>
          dsimp only
          cases z.get p z.zone .SOA with
          | err e => exact nomatch e
          | panic k => exact rfl
          | diverge => trivial
          | ok soa =>
            rw [Out.bind_ok, Out.bind_ok]
            match soa with
            | none => exact rfl
            | some [] => exact rfl
            | some (soa :: _) =>
              dsimp only
              unfold nxReply
              by_cases ht : soa.recordType ≠ .SOA
              · rw [if_pos ht, if_pos ht]; exact rfl
              · rw [if_neg ht, if_neg ht]; exact ⟨⟨rfl, rfl, rfl, rfl⟩, rfl, rfl, rfl, rfl, rfl⟩
    · rw [if_neg hs, if_neg hs]
      exact ⟨⟨rfl, rfl, rfl, rfl⟩, rfl, rfl, rfl, rfl, rfl⟩

theorem referral_same (p : Profile) (req req' : Message) (sub : Zone) (zones : ManagedZone) :
    SameReply req req' (referral p req sub zones) (referral p req' sub zones) := by
  unfold referral
  cases sub.get p sub.zone .NS with
  | err e => exact nomatch e
  | panic k => exact rfl
  | diverge => trivial
  | ok ns =>
    rw [Out.bind_ok, Out.bind_ok]
    cases ns with
    | none => exact rfl
    | some ns =>
      dsimp only
      by_cases hn : ns.length = 0
      · rw [if_pos hn, if_pos hn]; exact rfl
      · rw [if_neg hn, if_neg hn]
        cases allGlue p zones.subZones ns with
        | err e => exact nomatch e
        | panic k => exact rfl
        | diverge => trivial
        | ok g => exact ⟨⟨rfl, rfl, rfl, rfl⟩, rfl, rfl, rfl, rfl, rfl⟩

theorem query_same (p : Profile) (req req' : Message) {q q' : Question} (h1 : q.node = q'.node) (h2 : q.recordType = q'.recordType) (zones : ManagedZone) :
    SameReply req req' (query p req q zones) (query p req' q' zones) := by
  unfold query
  rw [h1]
  by_cases hz : (!q'.node.isInZone zones.authZone.zone) = true
  · rw [if_pos hz, if_pos hz]; exact ⟨⟨rfl, rfl, rfl, rfl⟩, rfl, rfl, rfl, rfl, rfl⟩
  · rw [if_neg hz, if_neg hz]
    cases zones.subZones.find? fun sub => q'.node.isInZone sub.zone with
    | some sub => exact referral_same p req req' sub zones
    | none => exact authZone_same p req req' h1 h2 zones.authZone

theorem handle_asked {p : Profile} {zones : ManagedZone} {req : Message} {q : Question} (h : WellPosed req) (hq : req.questions = [q]) :
    handle p zones (.fullMessage req) = (do let m ← query p req q zones; .ok (some m)) := by
  unfold handle validate Header.isRequest
  obtain ⟨h1, -, h3, h4⟩ := h
  simp only [h1, h3, h4, hq]
  rfl

/-- C113: two requests to the name server, over UDP or TCP, with whatever ids, flags, and further records, that ask for the same name and type: if one of them is answered (and the octets
are sent, as far as the network takes them), then the other, if it is answered at all, is answered with the same code, AA flag and records; each reply has the id and question of its own request. And one of them is given no reply to
send only if the other is not. -/
theorem C113_only_the_question (p : Profile) (zones : ManagedZone) (job job' : Resolver.Job) (req req' : Message) (q q' : Question)
    (hd : Delivers p req job) (hd' : Delivers p req' job') (hw : WellPosed req) (hw' : WellPosed req') (hq : req.questions = [q])
    (hq' : req'.questions = [q']) (h1 : q.node = q'.node) (h2 : q.recordType = q'.recordType) :
    ((∃ m, Replies p zones req m) ↔ ∃ m, Replies p zones req' m) ∧
    ∀ result result', NameserverSends p zones result job → NameserverSends p zones result' job' →
      ∃ m m', IsSendingOf m result job ∧ IsSendingOf m' result' job' ∧ SameContents m m' ∧ m.header.authAnswer = m'.header.authAnswer ∧
        m.header.id = req.header.id ∧ m'.header.id = req'.header.id ∧ m.questions = [q] ∧ m'.questions = [q'] := by
  have hs := query_same p req req' h1 h2 zones
  have e := handle_asked (p := p) (zones := zones) hw hq
  have e' := handle_asked (p := p) (zones := zones) hw' hq'
  have key : ∀ {job : Resolver.Job} {req : Message} {result : List (List UInt8) × Bool}, Delivers p req job → NameserverSends p zones result job →
      ∃ reply, handle p zones (.fullMessage req) = .ok reply ∧ ∀ m, reply = some m → IsSendingOf m result job := by
    intro job req result hd hn
    cases job with
    | udp datagram sends =>
      have hd : Net.udpRead p datagram = .ok (.fullMessage req) := hd
      have hn : serveUdp p zones datagram sends = .ok result := hn
      unfold serveUdp at hn
      rw [hd, Out.bind_ok] at hn
      cases hh : handle p zones (.fullMessage req) with
      | ok reply =>
        rw [hh, Out.bind_ok] at hn
        refine ⟨reply, rfl, fun m hm => ?_⟩
        subst hm
        exact hn
      | err e => exact nomatch e
      | panic k => rw [hh] at hn; cases hn
      | diverge => rw [hh] at hn; cases hn
    | tcp stream room =>
      obtain ⟨rest, hd⟩ := hd
      obtain ⟨out, hn, eo⟩ := hn
      unfold serveTcp at hn
      rw [hd, Out.bind_ok] at hn
      dsimp only at hn
      cases hh : handle p zones (.fullMessage req) with
      | ok reply =>
        rw [hh, Out.bind_ok] at hn
        refine ⟨reply, rfl, fun m hm => ?_⟩
        subst hm
        exact ⟨out, hn, eo⟩
      | err e => exact nomatch e
      | panic k => rw [hh] at hn; cases hn
      | diverge => rw [hh] at hn; cases hn
  unfold Replies
  cases ho : query p req q zones with
  | ok m =>
    cases ho' : query p req' q' zones with
    | ok m' =>
      rw [ho, Out.bind_ok] at e
      rw [ho', Out.bind_ok] at e'
      rw [ho, ho'] at hs
      refine ⟨⟨fun _ => ⟨m', e'⟩, fun _ => ⟨m, e⟩⟩, fun result result' hr hr' => ?_⟩
      obtain ⟨reply, g1, g2⟩ := key hd hr
      obtain ⟨reply', g1', g2'⟩ := key hd' hr'
      obtain ⟨s1, s2, s3, s4, s5, s6⟩ := hs
      exact ⟨m, m', g2 m (Out.ok.inj (g1.symm.trans e)), g2' m' (Out.ok.inj (g1'.symm.trans e')), s1, s2, s3, s4, s5.trans hq, s6.trans hq'⟩
    | err e => exact nomatch e
    | panic k => rw [ho, ho'] at hs; exact hs.elim
    | diverge => rw [ho, ho'] at hs; exact hs.elim
  | err e => exact nomatch e
  | panic k =>
    cases ho' : query p req' q' zones with
    | ok m' => rw [ho, ho'] at hs; exact hs.elim
    | err e => exact nomatch e
    | panic k' =>
      rw [ho] at e
      rw [ho'] at e'
      refine ⟨⟨fun ⟨m, hm⟩ => by (rw [e] at hm; cases hm), fun ⟨m, hm⟩ => by (rw [e'] at hm; cases hm)⟩, fun result result' hr _ => ?_⟩
      obtain ⟨reply, g1, -⟩ := key hd hr
      rw [e] at g1; cases g1
    | diverge => rw [ho, ho'] at hs; exact hs.elim
  | diverge =>
    cases ho' : query p req' q' zones with
    | ok m' => rw [ho, ho'] at hs; exact hs.elim
    | err e => exact nomatch e
    | panic k' => rw [ho, ho'] at hs; exact hs.elim
    | diverge =>
      rw [ho] at e
      rw [ho'] at e'
      refine ⟨⟨fun ⟨m, hm⟩ => by (rw [e] at hm; cases hm), fun ⟨m, hm⟩ => by (rw [e'] at hm; cases hm)⟩, fun result result' hr _ => ?_⟩
      obtain ⟨reply, g1, -⟩ := key hd hr
      rw [e] at g1; cases g1

/-- A name server for c.com. refuses both of two requests for the address of b.com., and sends the same but for the id. -/
example : Replies .release ⟨⟨[], nC⟩, []⟩ (queryMessage 6 nB .A) (errReply (queryMessage 6 nB .A) .Refused) ∧
    ∃ m', Replies .release ⟨⟨[], nC⟩, []⟩ (queryMessage 7 nB .A) m' := by
  have h : Replies .release ⟨⟨[], nC⟩, []⟩ (queryMessage 6 nB .A) (errReply (queryMessage 6 nB .A) .Refused) := by unfold Replies; decide +kernel
  exact ⟨h, (C113_only_the_question .release _ (.udp (addressQuery 6 nB) [some 512]) (.udp (addressQuery 7 nB) [some 512]) _ _ _ _
    (addressQuery_read .release 6 nB_encodable) (addressQuery_read .release 7 nB_encodable) ⟨rfl, rfl, rfl, rfl⟩ ⟨rfl, rfl, rfl, rfl⟩ rfl rfl rfl rfl).1.1 ⟨_, h⟩⟩

end Ariadne.Props
