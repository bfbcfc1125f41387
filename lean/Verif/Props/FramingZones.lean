import Verif.Props.Framing
import Verif.Props.Together

/-! # C87, the name server: replies over TCP are framed, if the zones have no answer that is too long -/

namespace Ariadne.Props

open Spec BitsBuf Nameserver ZoneParser

theorem toBytes_length_upper {n : Name} (h : ValidName n.s) : n.toBytes.length ≤ n.s.length + 1 := by
  obtain ⟨h1, labels, h2⟩ := h
  by_cases hl : labels = []
  · subst hl
    obtain ⟨s⟩ := n
    have : s = ['.'] := h2.2
    subst this
    decide
  · rw [toBytes_rfc h2 hl, rfcEncode]
    have h3 := h2.2
    rw [render, if_neg hl] at h3
    rw [h3]
    have : ∀ L : List (List Char), (L.flatMap fun l => UInt8.ofNat l.length :: l.map fun c => UInt8.ofNat c.toNat).length =
        (L.flatMap fun l => l ++ ['.']).length := by
      intro L
      induction L with
      | nil => rfl
      | cons a L ih => rw [List.flatMap_cons, List.flatMap_cons, List.length_append, List.length_append, ih]; simp
    rw [List.length_append, this]
    simp only [List.length_cons, List.length_nil]
    omega

theorem strings_size (l : List Str) : (l.flatMap charString).length = (l.map fun t => (strBytes t).length + 1).sum := by
  induction l with
  | nil => rfl
  | cons s l ih =>
    rw [List.flatMap_cons, List.length_append, ih, List.map_cons, List.sum_cons]
    simp [charString]

/-- The size of the data of a record from a zone file. -/
theorem stored_data_size {d : RData} (hd : DataOk d) (hs : ∀ cpu os, d = .HINFO cpu os → (strBytes cpu).length ≤ 255 ∧
    (strBytes os).length ≤ 255) {y : List UInt8} (h : Writes (Record.encodeData d) y) : y.length ≤ 2 + rdLength d := by
  suffices hw : ∃ x, Writes (Record.encodeData d) x ∧ x.length ≤ 2 + rdLength d by
    obtain ⟨x, h1, h2⟩ := hw
    rw [Writes.unique h h1]; exact h2
  cases d with
  | A ip => exact ⟨_, Writes.bind (writes_u16 4) (writes_bytes _), by simp [be16, Ip4.bytes, rdLength]⟩
  | NS n | CNAME n | PTR n =>
    have := toBytes_length_upper (n := n) hd
    exact ⟨_, Writes.bind (writes_u16 _) (writes_bytes _), by rw [List.length_append, be16_length, rdLength]; omega⟩
  | SOA a b s rf rt e m =>
    have h1 := toBytes_length_upper hd.1
    have h2 := toBytes_length_upper hd.2
    exact ⟨_, .bind (writes_u16 _) (.bind (writes_bytes _) (.bind (writes_bytes _) (.bind (writes_u32 _)
        (.bind (writes_u32 _) (.bind (writes_u32 _) (.bind (writes_u32 _) (writes_u32 _))))))),
        by simp only [List.length_append, be16_length, be32_length, rdLength]; omega⟩
  | WKS ip pr ports =>
    have hp : ports = [] := hd
    subst hp
    exact ⟨_, .bind (writes_u16 _) (.bind (writes_bytes _) (.bind (writes_u8 _) (writes_ports _))),
      by simp [be16, Ip4.bytes, rdLength]⟩
  | HINFO c o =>
    have f1 : encodeCharacterString c = .ok (charString c) := encodeCharacterString_ok (hs c o rfl).1
    have f2 : encodeCharacterString o = .ok (charString o) := encodeCharacterString_ok (hs c o rfl).2
    exact ⟨_, .lift f1 (.lift f2 (.bind (writes_u16 _) (.bind (writes_bytes _) (writes_bytes _)))),
      by simp [charString, be16_length, rdLength]; omega⟩
  | MX pr n =>
    have := toBytes_length_upper (n := n) hd
    exact ⟨_, .bind (writes_u16 _) (.bind (writes_u16 _) (writes_bytes _)),
      by simp only [List.length_append, be16_length, rdLength]; omega⟩
  | TXT l =>
    rcases encodeStrings_cases l with ⟨bufs, hb⟩ | ⟨e, he⟩
    · have hf := encodeStrings_flatten hb
      refine ⟨_, Writes.lift hb (.bind (writes_u16 _) (writes_all _)), ?_⟩
      rw [List.length_append, be16_length, hf, strings_size, rdLength]
    · have := h []
      have e' : Record.encodeData (.TXT l) (app []) = (.err e, app []) := by
        show (BufM.lift (Record.encodeStrings l) >>= fun bufs => (do
          writeU16 (UInt16.ofNat bufs.flatten.length)
          Record.writeAllBytes bufs)) (app []) = _
        rw [he]; rfl
      rw [e'] at this; cases this

theorem stored_size {conf : ZoneParser.Params} {zones : ManagedZone} (hl : Loaded conf zones)
    (hst : ∀ r, Stored zones r → StringsAtMost 255 r) {r : Record} (hr : Stored zones r) {x : List UInt8}
    (h : Writes (Record.encode r) x) : x.length ≤ recordSize r := by
  obtain ⟨y, h1, rfl⟩ := record_writes h
  obtain ⟨-, hd, hv⟩ := loaded_stored hl hr
  have h2 := stored_data_size hd (fun c o e => by have := hst r hr; unfold StringsAtMost at this; rw [e] at this; exact this) h1
  have h3 := toBytes_length_upper hv
  simp only [List.length_append, be16_length, be32_length, recordSize]
  omega

theorem stored_sizes {conf : ZoneParser.Params} {zones : ManagedZone} (hl : Loaded conf zones)
    (hst : ∀ r, Stored zones r → StringsAtMost 255 r) {rs : List Record} (hr : ∀ r ∈ rs, Stored zones r) :
    ∃ ws, Encodings Record.encode rs ws ∧ ws.flatten.length ≤ (rs.map recordSize).sum := by
  induction rs with
  | nil => exact ⟨[], .nil, by simp⟩
  | cons r rs ih =>
    obtain ⟨ws, h1, h2⟩ := ih fun r h => hr r (List.mem_cons_of_mem _ h)
    have hr := hr r (List.mem_cons_self ..)
    obtain ⟨w, hw⟩ := writes_short (loaded_stored hl hr).1 (hst r hr)
    have := stored_size hl hst hr hw
    refine ⟨w :: ws, .cons hw h1, ?_⟩
    rw [List.flatten_cons, List.length_append, List.map_cons, List.sum_cons]
    omega

theorem glue_sum {p : Profile} {n : Name} {o : HashOrder} (hn : ValidName n.s) : ∀ {zs : List Zone},
    (∀ z ∈ zs, (∃ log, Holds z log) ∧ ValidName z.zone.s) → ∀ {g : List Record}, Nameserver.glue p n zs = .ok g → (g.map recordSize).sum ≤
      ((zs.flatMap fun z => open Classical in if Within n z.zone then setAt o z n .A else []).map recordSize).sum
  | [], _, g, hg => by cases hg; simp
  | z :: zs, h, g, hg => by
    obtain ⟨⟨log, hl⟩, hv⟩ := h z (by simp)
    unfold Nameserver.glue at hg
    rw [List.flatMap_cons, List.map_append, List.sum_append]
    by_cases hw : n.isInZone z.zone = true
    · rw [if_pos hw] at hg
      rw [if_pos (within_of_isInZone hn hv hw)]
      obtain ⟨r, h1, h2⟩ := get_getD (p := p) (n := n) (k := .A) hl
      rw [h1, Out.bind_ok] at hg
      cases hr : Nameserver.glue p n zs with
      | ok g' =>
        have ih := glue_sum (p := p) (o := o) hn (zs := zs) (fun z hz => h z (by simp [hz])) hr
        rw [hr, Out.bind_ok, h2] at hg
        rw [← Out.ok.inj hg, setAt_eq hl, List.map_append, List.sum_append]
        omega
      | err e => exact nomatch e
      | panic k => rw [hr] at hg; cases hg
      | diverge => rw [hr] at hg; cases hg
    · rw [if_neg hw] at hg
      have ih := glue_sum (p := p) (o := o) hn (zs := zs) (fun z hz => h z (by simp [hz])) hg
      omega

theorem allGlue_sum {p : Profile} {o : HashOrder} {zs : List Zone} (h : ∀ z ∈ zs, (∃ log, Holds z log) ∧ ValidName z.zone.s) :
    ∀ {ns : List Record}, (∀ r ∈ ns, ∃ n, r.data = .NS n ∧ ValidName n.s) → ∀ {g : List Record}, allGlue p zs ns = .ok g →
      (g.map recordSize).sum ≤ ((glueFor o zs ns).map recordSize).sum
  | [], _, g, hg => by cases hg; simp
  | r :: ns, hr, g, hg => by
    obtain ⟨n, hd, hv⟩ := hr r (by simp)
    unfold allGlue at hg
    rw [hd] at hg
    simp only at hg
    unfold glueFor
    rw [List.flatMap_cons, hd, List.map_append, List.sum_append]
    simp only
    cases h1 : Nameserver.glue p n zs with
    | ok g1 =>
      rw [h1, Out.bind_ok] at hg
      have e1 := glue_sum (o := o) hv h h1
      cases h2 : allGlue p zs ns with
      | ok g2 =>
        rw [h2, Out.bind_ok] at hg
        have e2 := allGlue_sum (o := o) h (ns := ns) (fun r h => hr r (by simp [h])) h2
        rw [← Out.ok.inj hg, List.map_append, List.sum_append]
        unfold glueFor at e2
        omega
      | err e => exact nomatch e
      | panic k => rw [h2] at hg; cases hg
      | diverge => rw [h2] at hg; cases hg
    | err e => exact nomatch e
    | panic k => rw [h1] at hg; cases hg
    | diverge => rw [h1] at hg; cases hg

theorem sub_facts {conf : ZoneParser.Params} {zones : ManagedZone} (hl : Loaded conf zones) :
    ∀ z ∈ zones.subZones, (∃ log, Holds z log) ∧ ValidName z.zone.s := by
  intro z hz
  obtain ⟨log, h1, h2, h3, -⟩ := hl.ready.sub z hz
  exact ⟨⟨log, h1⟩, h3⟩

/-- All the records of a reply together are small. -/
theorem reply_small {conf : ZoneParser.Params} {zones : ManagedZone} (hl : Loaded conf zones) (hsm : SmallAnswers zones) {p : Profile}
    {req : Message} {q : Question} {m : Message} (h : Kind conf zones p req q m) :
    SmallSet (m.answers ++ m.authorities ++ m.additionals) := by
  cases h with
  | refused _ => unfold SmallSet; simp [errReply]
  | @referral sub log g _ hf hh _ hg _ =>
    have hs := List.mem_of_find?_eq_some hf
    have hns : ∀ r ∈ recordsAt log sub.zone .NS, ∃ n, r.data = .NS n ∧ ValidName n.s := by
      intro r hr
      obtain ⟨n, hn⟩ := ns_data (recordsAt_spec hr).2
      have hst : Stored zones r := ⟨_, List.mem_cons_of_mem _ hs, forwards, (mem_all hh _ _ _).2 ⟨(List.mem_filter.1 hr).1, rfl⟩⟩
      have := (loaded_stored hl hst).2.1
      rw [hn] at this
      exact ⟨n, hn, this⟩
    have e := allGlue_sum (p := p) (o := forwards) (sub_facts hl) hns hg
    have := hsm.referrals forwards sub hs
    unfold SmallSet at this ⊢
    rw [setAt_eq hh, List.map_append, List.sum_append] at this
    simp only [referralReply, List.nil_append, List.map_append, List.sum_append]
    omega
  | @found log _ _ hh _ =>
    have := hsm.sets forwards q.node q.recordType
    rw [setAt_eq hh] at this
    simpa [answerReply] using this
  | @cname log _ _ hh _ _ =>
    have := hsm.sets forwards q.node .CNAME
    rw [setAt_eq hh] at this
    simpa [answerReply] using this
  | @nx log soa m _ _ hh _ _ h4 hsoa hn _ =>
    have := hsm.sets forwards soa.node .SOA
    unfold setAt at this
    rw [h4] at this
    unfold nxReply at hn
    split at hn
    · cases hn
    · cases hn
      simpa using this

theorem ns_reply_size {conf : ZoneParser.Params} {zones : ManagedZone} (hl : Loaded conf zones) (hsm : SmallAnswers zones)
    (hst : ∀ r, Stored zones r → StringsAtMost 255 r) {p : Profile} {bytes x : List UInt8} {req m : Message}
    (hd : Message.decodeFromBytes p bytes = .ok req) (hq : req.questions.length ≤ 252) (h : Replies p zones req m)
    (hx : m.encodeToBytes = .ok x) : x.length < 65536 := by
  obtain ⟨e, e1, e2, e3, e4, e5, -⟩ := C49_echo_partial p conf zones req m hl h
  obtain ⟨m', h1, h2⟩ := handle_kind hl.ready p req
  have em := replies_unique h1 h
  subst em
  obtain ⟨hdec, hnames⟩ := decoded_message hd
  have hcq : m'.header.questionsCount.toNat = m'.questions.length := by
    rcases e5 with ⟨a, b⟩ | a
    · rw [a, b]; rfl
    · have h1 := encode_questions hx
      have h2 := hdec.nq
      rw [e1, a] at *
      omega
  have hqs : ∀ q ∈ m'.questions, q.recordType.isSupportedForQuestion = true ∧ q.cls = .IN := by
    intro q hm
    rw [e1] at hm
    exact ⟨(hdec.qs q hm).2, (hdec.qs q hm).1⟩
  obtain ⟨qw, hqw⟩ := encodings_of_all (xs := m'.questions) fun q hm => writes_query (hqs q hm)
  have sq : qw.flatten.length ≤ 260 * m'.questions.length := encodings_within hqw fun q hm w hw =>
    question_size (by rw [e1] at hm; exact hnames.qs q hm) (hqs q hm) hw
  have hop : m'.header.opCode = .STD := by rw [e.2.2.2.2.1]; exact hdec.opCode
  rcases h2 with ⟨-, rfl⟩ | ⟨q, hv, h2⟩
  · have := encode_of_encodings hop ⟨hcq, rfl, rfl, rfl⟩ hqw (an := []) .nil (au := []) .nil (ad := []) .nil
    rw [hx] at this
    rw [Out.ok.inj this]
    rw [e1] at sq
    simp only [List.length_append, headerBytes_length, List.flatten_nil, List.length_nil]
    omega
  · have hss := reply_small hl hsm h2
    have hstored := kind_stored hl.ready h2
    have hge := sum_ge (m'.answers ++ m'.authorities ++ m'.additionals)
    unfold SmallSet at hss
    obtain ⟨wa, a1, a2⟩ := stored_sizes hl hst (rs := m'.answers) fun r hr => hstored r (by simp [hr])
    obtain ⟨wb, b1, b2⟩ := stored_sizes hl hst (rs := m'.authorities) fun r hr => hstored r (by simp [hr])
    obtain ⟨wc, c1, c2⟩ := stored_sizes hl hst (rs := m'.additionals) fun r hr => hstored r (by simp [hr])
    simp only [List.length_append, List.map_append, List.sum_append] at hss hge
    have hq1 : m'.questions.length = 1 := by rw [e1, validate_some hv]; rfl
    have := encode_of_encodings hop ⟨hcq, by rw [e2]; exact u16_of_len (by omega), by rw [e3]; exact u16_of_len (by omega),
      by rw [e4]; exact u16_of_len (by omega)⟩ hqw a1 b1 c1
    rw [hx] at this
    rw [Out.ok.inj this]
    simp only [List.length_append, headerBytes_length]
    omega

/-- C87, part: the name server. What it sends over TCP is framed, if requests repeat at most 252 questions and its zones have
no answer and no referral of more than 65535 octets. Missing: other requests (`C87_violated`) and zones. -/
theorem C87_nameserver_partial {p : Profile} {conf : ZoneParser.Params} {zones : ManagedZone} {stream rest out : List UInt8} {room : Nat}
    {read : ReadResult} (hl : Loaded conf zones) (hst : ∀ r, Stored zones r → StringsAtMost 255 r) (hsm : SmallAnswers zones)
    (hr : Net.tcpRead p stream = .ok (read, rest)) (hq : ∀ req, read = .fullMessage req → req.questions.length ≤ 252)
    (h : Nameserver.serveTcp p zones stream room = .ok (out, true)) : Framed out := by
  unfold Nameserver.serveTcp at h
  rw [hr, Out.bind_ok] at h
  simp only at h
  cases hm : Nameserver.handle p zones read with
  | ok mo =>
    rw [hm, Out.bind_ok] at h
    cases mo with
    | none => exact .inl (Prod.mk.inj (Out.ok.inj h)).1.symm
    | some m =>
      simp only at h
      have henc : ∃ x, m.encodeToBytes = .ok x := by
        unfold Net.tcpReply at h
        split at h
        · exact ⟨_, by assumption⟩
        · cases h
        · cases h
        · cases h
      obtain ⟨x, hx⟩ := henc
      have hlen : x.length < 65536 := by
        rcases C29_tcp_framing_partial.2.2.1 p stream read rest hr with rfl | ⟨body, -, -, hcl⟩
        · cases hm
        · cases hcl with
          | full hd => exact ns_reply_size hl hsm hst hd (hq _ rfl) hm hx
          | @header hd e h1 h2 =>
            have hm' := Option.some.inj (Out.ok.inj hm)
            subst hm'
            have hde := Message.decode_err_header h1 h2
            obtain ⟨⟨k, hk⟩, -⟩ := Message.empty_panics (m := Nameserver.decodeErrReply hd e) rfl rfl rfl rfl hde
            rw [hk] at hx
            cases hx
          | none => cases hm
      have := C29_tcp_framing_partial.1 m x hx hlen
      by_cases hroom : 2 + x.length ≤ room
      · rw [this.1 room hroom] at h
        exact .inr ⟨x, hlen, (Prod.mk.inj (Out.ok.inj h)).1.symm⟩
      · rw [this.2 room (by omega)] at h
        have := (Prod.mk.inj (Out.ok.inj h)).2
        cases this
  | err e => exact nomatch e
  | panic k => rw [hm] at h; cases h
  | diverge => rw [hm] at h; cases h

theorem sublist_sum {a b : List Record} (h : a.Sublist b) : (a.map recordSize).sum ≤ (b.map recordSize).sum := by
  induction h with
  | slnil => simp
  | cons x _ ih => simp only [List.map_cons, List.sum_cons]; omega
  | cons_cons x _ ih => simp only [List.map_cons, List.sum_cons]; omega

/-- How to see that answers are small: by looking at the records of each type, and at the referral to each sub zone. -/
theorem smallAnswers_of {conf : ZoneParser.Params} {zones : ManagedZone} (hl : Loaded conf zones)
    (hs : ∀ k, SmallSet (zones.authZone.getAllOfType forwards k)) (hz : ∀ c ∈ conf.subZones, c.zone.s ≠ ['.'])
    (hr : ∀ sub ∈ zones.subZones, ∃ g, allGlue .debug zones.subZones (setAt forwards sub sub.zone .NS) = .ok g ∧
      SmallSet (setAt forwards sub sub.zone .NS ++ g)) : SmallAnswers zones := by
  constructor
  · intro o n k
    obtain ⟨log, soa, h1, -⟩ := hl.ready.auth
    rw [setAt_eq h1, ← setAt_eq h1 forwards]
    have := hs k
    have h2 := sublist_sum (List.filter_sublist (l := zones.authZone.getAllOfType forwards k) (p := fun r => r.node == n))
    unfold SmallSet setAt at *
    omega
  · intro o sub hsub
    obtain ⟨log, h1, h2, -⟩ := hl.ready.sub sub hsub
    obtain ⟨g, h3, h4⟩ := hr sub hsub
    have hns : ∀ r ∈ setAt forwards sub sub.zone .NS, ∃ n, r.data = .NS n ∧ ValidName n.s := by
      intro r hr
      rw [setAt_eq h1] at hr
      obtain ⟨n, hn⟩ := ns_data (recordsAt_spec hr).2
      have hst : Stored zones r := ⟨_, List.mem_cons_of_mem _ hsub, forwards, (mem_all h1 _ _ _).2 ⟨(List.mem_filter.1 hr).1, rfl⟩⟩
      have := (loaded_stored hl hst).2.1
      rw [hn] at this
      exact ⟨n, hn, this⟩
    have hroot : ∀ z ∈ zones.subZones, (∃ log, Holds z log) ∧ ValidName z.zone.s ∧ z.zone.s ≠ ['.'] := by
      intro z hz'
      have : z.zone ∈ conf.subZones.map (·.zone) := by rw [← hl.ready.names]; exact List.mem_map.2 ⟨z, hz', rfl⟩
      obtain ⟨c, hc, e⟩ := List.mem_map.1 this
      exact ⟨(sub_facts hl z hz').1, (sub_facts hl z hz').2, by rw [← e]; exact hz c hc⟩
    have e := allGlue_eq (p := .debug) (o := o) hroot hns
    have e' := Out.ok.inj (h3.symm.trans e)
    rw [setAt_eq h1 o, ← setAt_eq h1 forwards, ← e']
    exact h4

/-- All the types. -/
def everyType : List RecordType :=
  [.A, .NS, .MD, .MF, .CNAME, .SOA, .MB, .MG, .MR, .NULL, .WKS, .PTR, .HINFO, .MINFO, .MX, .TXT, .AXFR, .MAILB, .MAILA, .WC]

/-- A check of `SmallAnswers` by computation. -/
def checkSmall (zones : ManagedZone) : Bool :=
  (everyType.all fun k => decide (SmallSet (zones.authZone.getAllOfType forwards k))) &&
  zones.subZones.all fun sub => match allGlue .debug zones.subZones (setAt forwards sub sub.zone .NS) with
    | .ok g => decide (SmallSet (setAt forwards sub sub.zone .NS ++ g))
    | _ => false

theorem checkSmall_spec {conf : ZoneParser.Params} {zones : ManagedZone} (hl : Loaded conf zones)
    (hz : ∀ c ∈ conf.subZones, c.zone.s ≠ ['.']) (h : checkSmall zones = true) : SmallAnswers zones := by
  unfold checkSmall at h
  rw [Bool.and_eq_true] at h
  refine smallAnswers_of hl (fun k => ?_) hz fun sub hs => ?_
  · have := List.all_eq_true.1 h.1 k (by cases k <;> decide)
    exact of_decide_eq_true this
  · have := List.all_eq_true.1 h.2 sub hs
    generalize allGlue .debug zones.subZones (setAt forwards sub sub.zone .NS) = x at this
    cases x with
    | ok g => exact ⟨g, rfl, of_decide_eq_true this⟩
    | err e => exact nomatch e
    | panic k => cases this
    | diverge => cases this

/-- How many octets are sent. -/
def sentOver : Out Empty (List UInt8 × Bool) → Option Nat
  | .ok (l, true) => some l.length
  | _ => none

theorem sentOver_spec {x : Out Empty (List UInt8 × Bool)} {n : Nat} (h : sentOver x = some n) : ∃ out, x = .ok (out, true) ∧ out.length = n := by
  cases x with
  | ok v =>
    obtain ⟨out, b⟩ := v
    cases b with
    | true => exact ⟨out, rfl, Option.some.inj h⟩
    | false => cases h
  | err e => exact nomatch e
  | panic k => cases h
  | diverge => cases h

/-- A query for the address of "ns.e.". -/
def nsQuery : List UInt8 := [0, 7, 1, 0, 0, 1, 0, 0, 0, 0, 0, 0, 2, 110, 115, 1, 101, 0, 0, 1, 0, 1]

/-- The hypotheses hold of the sample zones, and a query for an address in them, over TCP, is answered with one frame. -/
example : ∃ zones, Loaded sampleConf zones ∧ SmallAnswers zones ∧ (∀ r, Stored zones r → StringsAtMost 255 r) ∧
    (∃ req, Net.tcpRead .debug (be16 nsQuery.length ++ nsQuery) = .ok (.fullMessage req, []) ∧ req.questions.length ≤ 252) ∧
    ∃ out, Nameserver.serveTcp .debug zones (be16 nsQuery.length ++ nsQuery) 500 = .ok (out, true) ∧ out.length = 44 := by
  obtain ⟨zones, h1, h2⟩ := ok_of (x := parseZoneFiles .debug sampleFiles forwards 20 sampleConf) (fun zones =>
    ((zones.authZone :: zones.subZones).all fun z => z.records.all fun e => e.2.all fun e' => e'.2.all fun r =>
      match r.data with
      | .HINFO cpu os => (strBytes cpu).length ≤ 255 && (strBytes os).length ≤ 255
      | .TXT txts => txts.all fun s => (strBytes s).length ≤ 255
      | _ => true) &&
    (checkSmall zones &&
    decide (sentOver (Nameserver.serveTcp .debug zones (be16 nsQuery.length ++ nsQuery) 500) = some 44))) (by decide +kernel)
  rw [Bool.and_eq_true, Bool.and_eq_true] at h2
  obtain ⟨h2, h3, h4⟩ := h2
  have hl : Loaded sampleConf zones := ⟨sample_valid, _, _, _, _, h1⟩
  refine ⟨zones, hl, checkSmall_spec hl (by decide +kernel) h3, fun r hr => ?_, ?_, sentOver_spec (of_decide_eq_true h4)⟩
  · refine stored_everywhere (P := StringsAtMost 255) (fun z hz e he e' he' r hr => ?_) hr
    have h3 := List.all_eq_true.1 (List.all_eq_true.1 (List.all_eq_true.1 (List.all_eq_true.1 h2 z hz) e he) e' he') r hr
    unfold StringsAtMost
    cases hd : r.data <;> rw [hd] at h3 <;> simp_all
  · obtain ⟨r, h1, h2⟩ := ok_of (x := Net.tcpRead .debug (be16 nsQuery.length ++ nsQuery)) (fun r => match r with
      | (.fullMessage req, rest) => req.questions.length ≤ 252 ∧ rest = []
      | _ => false) (by decide +kernel)
    obtain ⟨r, rest⟩ := r
    cases r with
    | fullMessage req => simp only [decide_eq_true_eq] at h2; exact ⟨req, by rw [h1, h2.2], h2.1⟩
    | _ => cases h2

end Ariadne.Props
