import Verif.Lemmas.Small
import Verif.Lemmas.Sizes
import Verif.Spec.Framing
import Verif.Props.Bounded
import Verif.Props.ResolverServer

/-! # C67 (the counts) and C87: replies over TCP are framed -/

namespace Ariadne.Props

open Spec BitsBuf Resolver

/-! ## What is received is small -/

theorem received_ok {p : Profile} {r : Record} (h : Received p r) : WellFormed r ∧ SmallData r.data := by
  obtain ⟨bytes, m, r₀, t, hl, hd, hm, rfl⟩ := h
  obtain ⟨-, hn⟩ := decoded_message hd
  refine ⟨?_, decoded_small hl hd r₀ hm⟩
  have h : WellFormed r₀ := by
    simp only [List.mem_append] at hm
    rcases hm with (h | h) | h
    · exact hn.an _ h
    · exact hn.au _ h
    · exact hn.ad _ h
  exact h

theorem bounding {env : Env} {p : Profile} {w : World} (h : OnlyReceived env p w) : Bounding (Received p) env p := by
  refine ⟨?_, ?_, h.others⟩
  · rintro r t ⟨bytes, m, r₀, t', hl, hd, hm, rfl⟩
    exact ⟨bytes, m, r₀, t, hl, hd, hm, rfl⟩
  · intro hist addr query raw m _ hd
    have hl : (raw.take 512).length ≤ 512 := by rw [List.length_take]; omega
    have := size_records hd
    exact ⟨by omega, fun r hr => ⟨raw.take 512, m, r, r.ttl, hl, hd, hr, rfl⟩⟩

/-- What a lookup returns: received records; at most as many aliases as the limit on redirections allows, then at most 45
records. -/
theorem lookup_small {env : Env} {p : Profile} {w : World} (h : OnlyReceived env p w) (conf : Params) (fuel : Nat) (node : Name)
    (kind : RecordType) {r : Response} (hl : (lookup env p conf fuel node kind w).1 = .ok r) :
    (∀ x ∈ r.answers ++ r.authorities ++ r.additionals, Received p x) ∧
    ∃ cnames recs, r.answers = cnames ++ recs ∧ (∀ x ∈ cnames, x.recordType = .CNAME) ∧ cnames.length < conf.maxCnameRedir ∧
      recs.length + r.additionals.length + r.authorities.length ≤ 45 ∧ (r.noRecords = false → r.authorities = []) := by
  have := (perform_small (bounding h) fuel
    { node := node, kind := kind, previousZones := [], previousCnames := [], conf := conf } (by simp) w h.cache).2 r hl
  obtain ⟨h1, cn, rs, h2, h3⟩ := this
  exact ⟨h1, cn, rs, by simpa using h2, h3⟩

/-- C67, the counts: the sections of the replies have as many records as the header says, if the limit on redirections is at
most 65490. -/
theorem C67_counts_partial {env : Env} {p : Profile} {conf : Params} {fuel : Nat} {req m : Message} {w w' : World}
    (hh : OnlyReceived env p w) (hc : conf.maxCnameRedir ≤ 65490)
    (h : handle env p conf fuel (.fullMessage req) w = (.ok (some m), w')) :
    m.header.answersCount.toNat = m.answers.length ∧ m.header.authoritiesCount.toNat = m.authorities.length ∧
    m.header.additionalsCount.toNat = m.additionals.length ∧ m.authorities = [] ∧ m.additionals.length ≤ 45 ∧
    m.answers.length < conf.maxCnameRedir + 45 + 1 := by
  obtain ⟨-, -, -, e4, e5, e6, e7, e8⟩ := C67_reply_partial env p conf fuel req m w w' h
  rw [e4, e5, e6]
  have none : NoRecords m → m.authorities = [] ∧ m.additionals.length ≤ 45 ∧ m.answers.length < conf.maxCnameRedir + 45 + 1 :=
    fun ⟨a, b, c⟩ => by rw [a, b, c]; simp
  suffices hs : m.authorities = [] ∧ m.additionals.length ≤ 45 ∧ m.answers.length < conf.maxCnameRedir + 45 + 1 by
    obtain ⟨h1, h2, h3⟩ := hs
    exact ⟨u16_of_len (by omega), by rw [h1]; rfl, u16_of_len (by omega), h1, h2, h3⟩
  by_cases hw : WellPosed req
  · obtain ⟨q, qs, -, -, ⟨r, hl, hn, -, a, b, c⟩ | ⟨-, -, -, -, x⟩ | ⟨-, -, -, x⟩⟩ := e8 hw
    · obtain ⟨-, cn, rs, h2, -, h4, h5, h6⟩ := lookup_small hh conf fuel q.node q.recordType hl
      rw [a, b, c, h2, List.length_append]
      exact ⟨h6 hn, by omega, by omega⟩
    · exact none x
    · exact none x
  · exact none (e7 hw).2.1

/-! ## How long encodings are -/

theorem data_size {d : RData} {y : List UInt8} (hn : ∀ n ∈ dataNames d, ValidName n.s) (hs : SmallData d)
    (h : Writes (Record.encodeData d) y) : y.length ≤ 590 := by
  suffices hw : ∀ (x : List UInt8), Writes (Record.encodeData d) x → ∃ x, Writes (Record.encodeData d) x ∧ x.length ≤ 590 by
    obtain ⟨x, h1, h2⟩ := hw y h
    rw [Writes.unique h h1]; exact h2
  intro y h
  cases d with
  | A ip => exact ⟨_, Writes.bind (writes_u16 4) (writes_bytes _), by simp [be16, Ip4.bytes]⟩
  | NS n | CNAME n | PTR n =>
    have := toBytes_length_valid (hn n (by simp [dataNames]))
    exact ⟨_, Writes.bind (writes_u16 _) (writes_bytes _), by rw [List.length_append, be16_length]; omega⟩
  | SOA a b s rf rt e m =>
    have h1 := toBytes_length_valid (hn a (by simp [dataNames]))
    have h2 := toBytes_length_valid (hn b (by simp [dataNames]))
    exact ⟨_, .bind (writes_u16 _) (.bind (writes_bytes _) (.bind (writes_bytes _) (.bind (writes_u32 _)
        (.bind (writes_u32 _) (.bind (writes_u32 _) (.bind (writes_u32 _) (writes_u32 _))))))),
        by simp only [List.length_append, be16_length, be32_length]; omega⟩
  | WKS ip pr ports =>
    obtain rfl := hs.2 ip pr ports rfl
    exact ⟨_, .bind (writes_u16 _) (.bind (writes_bytes _) (.bind (writes_u8 _) (writes_ports _))), by simp [be16, Ip4.bytes]⟩
  | HINFO c o =>
    obtain ⟨e1, e2⟩ : strLen c ≤ 255 ∧ strLen o ≤ 255 := by
      have := h []
      by_cases hc : strLen c > 255
      · have e : Record.encodeData (.HINFO c o) (app []) = (.err .stringCharErr, app []) := by
          unfold Record.encodeData encodeCharacterString
          simp only [if_pos hc]; rfl
        rw [e] at this; cases this
      · by_cases ho : strLen o > 255
        · have e : Record.encodeData (.HINFO c o) (app []) = (.err .stringCharErr, app []) := by
            unfold Record.encodeData encodeCharacterString
            simp only [if_pos ho, if_neg hc]; rfl
          rw [e] at this; cases this
        · omega
    have f1 : encodeCharacterString c = .ok (charString c) := encodeCharacterString_ok e1
    have f2 : encodeCharacterString o = .ok (charString o) := encodeCharacterString_ok e2
    unfold strLen at e1 e2
    exact ⟨_, .lift f1 (.lift f2 (.bind (writes_u16 _) (.bind (writes_bytes _) (writes_bytes _)))),
      by simp [charString, be16_length]; omega⟩
  | MX pr n =>
    have := toBytes_length_valid (hn n (by simp [dataNames]))
    exact ⟨_, .bind (writes_u16 _) (.bind (writes_u16 _) (writes_bytes _)),
      by simp only [List.length_append, be16_length]; omega⟩
  | TXT l =>
    have hl := hs.1 l rfl
    rcases encodeStrings_cases l with ⟨bufs, hb⟩ | ⟨e, he⟩
    · have hf := encodeStrings_flatten hb
      refine ⟨_, Writes.lift hb (.bind (writes_u16 _) (writes_all _)), ?_⟩
      rw [List.length_append, be16_length, hf]
      unfold textSize at hl
      omega
    · have := h []
      have e' : Record.encodeData (.TXT l) (app []) = (.err e, app []) := by
        show (BufM.lift (Record.encodeStrings l) >>= fun bufs => (do
          writeU16 (UInt16.ofNat bufs.flatten.length)
          Record.writeAllBytes bufs)) (app []) = _
        rw [he]; rfl
      rw [e'] at this; cases this

theorem record_size {r : Record} {x : List UInt8} (hw : WellFormed r) (hs : SmallData r.data) (h : Writes (Record.encode r) x) :
    x.length ≤ 854 := by
  obtain ⟨y, h1, rfl⟩ := record_writes h
  have := data_size hw.2.1 hs h1
  have := toBytes_length_valid hw.1
  simp only [List.length_append, be16_length, be32_length]
  omega

theorem alias_size {r : Record} {x : List UInt8} (hw : WellFormed r) (ht : r.recordType = .CNAME) (h : Writes (Record.encode r) x) :
    x.length ≤ 522 := by
  obtain ⟨y, h1, rfl⟩ := record_writes h
  obtain ⟨node, cls, ttl, len, d⟩ := r
  cases d with
  | CNAME n =>
    have h2 := toBytes_length_valid (hw.2.1 n (by simp [dataNames]))
    have h3 := toBytes_length_valid hw.1
    have h4 : y = _ := Writes.unique h1 (.bind (writes_u16 _) (writes_bytes n.toBytes))
    rw [h4]
    simp only [List.length_append, be16_length, be32_length] at h3 ⊢
    omega
  | _ => cases ht

theorem question_writes {q : Question} (h : q.recordType.isSupportedForQuestion = true ∧ q.cls = .IN) :
    Writes (Question.encode q) (q.node.toBytes ++ (be16 q.recordType.toNum.toNat ++ be16 q.cls.toNum.toNat)) :=
  .assert h.1 (.assert (by rw [h.2]; rfl) (.bind (writes_bytes _) (.bind (writes_u16 _) (writes_u16 _))))

theorem question_size {q : Question} {x : List UInt8} (hv : ValidName q.node.s)
    (hq : q.recordType.isSupportedForQuestion = true ∧ q.cls = .IN) (h : Writes (Question.encode q) x) : x.length ≤ 260 := by
  have := Writes.unique h (question_writes hq)
  have := toBytes_length_valid hv
  simp_all only [List.length_append, be16_length]
  omega

theorem encodings_within {α : Type} {e : α → BufM ParsingErr Unit} {n : Nat} {xs : List α} {ws : List (List UInt8)}
    (h : Encodings e xs ws) (hn : ∀ x ∈ xs, ∀ w, Writes (e x) w → w.length ≤ n) : ws.flatten.length ≤ n * xs.length := by
  induction h with
  | nil => simp
  | @cons x w xs ws h1 _ ih =>
    have h2 := hn x (by simp) w h1
    have h3 := ih fun y hy => hn y (by simp [hy])
    rw [List.flatten_cons, List.length_append, List.length_cons, Nat.mul_add]
    omega


theorem _root_.Ariadne.BufM.bind_inv {ε α β : Type} {m : BufM ε α} {f : α → BufM ε β} {b b' : BitsBuf} {v : β}
    (h : (m >>= f) b = (.ok v, b')) : ∃ a b1, m b = (.ok a, b1) ∧ f a b1 = (.ok v, b') := by
  rcases hm : m b with ⟨o, b1⟩
  cases o with
  | ok a => rw [BufM.bind_ok hm] at h; exact ⟨a, b1, rfl, h⟩
  | err e => rw [BufM.bind_err hm] at h; cases h
  | panic k => rw [BufM.bind_panic hm] at h; cases h
  | diverge => rw [BufM.bind_apply, hm] at h; cases h

/-- Encoding fails if the counts announce more than there is. -/
theorem encodeItems_short {α : Type} {e : α → BufM ParsingErr Unit} {sec : Section} {xs : List α} :
    ∀ (n i : Nat) (b : BitsBuf), xs.length < i + n → i ≤ xs.length → ∀ b', Message.encodeItems e sec xs n i b ≠ (.ok (), b')
  | 0, i, b, h, hi, b', _ => by omega
  | n + 1, i, b, h, hi, b', e' => by
    unfold Message.encodeItems at e'
    by_cases hl : i < xs.length
    · rw [List.getElem?_eq_getElem hl] at e'
      simp only at e'
      obtain ⟨u, b1, h1, h2⟩ := BufM.bind_inv e'
      exact encodeItems_short n (i + 1) b1 (by omega) (by omega) b' h2
    · rw [List.getElem?_eq_none (by omega)] at e'
      cases e'

theorem encode_questions {m : Message} {x : List UInt8} (h : m.encodeToBytes = .ok x) :
    m.header.questionsCount.toNat ≤ m.questions.length := by
  unfold Message.encodeToBytes at h
  obtain ⟨u, b1, h1, h2⟩ := BufM.bind_inv (Prod.ext h rfl)
  obtain ⟨u2, b2, h3, h4⟩ := BufM.bind_inv h2
  by_contra hc
  exact encodeItems_short _ 0 b1 (by omega) (by omega) b2 h3

/-! ## C87 -/

theorem _root_.Ariadne.Resolver.M.bind_err' {α β : Type} {m : M α} {f : α → M β} {w w' : World} {e : LookupErr} (h : m w = (.err e, w')) :
    (m >>= f) w = (.err e, w') := by
  show M.bind m f w = _
  unfold M.bind
  rw [h]

theorem reply_size {env : Env} {p : Profile} {conf : Params} {fuel : Nat} {req m : Message} {w w' : World} {bytes x : List UInt8}
    (hh : OnlyReceived env p w) (hc : conf.maxCnameRedir ≤ 52) (hd : Message.decodeFromBytes p bytes = .ok req)
    (hq : req.questions.length ≤ 252) (h : handle env p conf fuel (.fullMessage req) w = (.ok (some m), w'))
    (hx : m.encodeToBytes = .ok x) : x.length < 65536 := by
  obtain ⟨e1, e2, e3, -, -, -, e7, e8⟩ := C67_reply_partial env p conf fuel req m w w' h
  obtain ⟨c1, c2, c3, -⟩ := C67_counts_partial hh (by omega) h
  obtain ⟨hdec, hnames⟩ := decoded_message hd
  have hcq : m.header.questionsCount.toNat = m.questions.length := by
    have h1 := encode_questions hx
    have h2 := hdec.nq
    rw [e2, e3] at *
    omega
  have hqs : ∀ q ∈ m.questions, q.recordType.isSupportedForQuestion = true ∧ q.cls = .IN := by
    intro q hm
    rw [e2] at hm
    exact ⟨(hdec.qs q hm).2, (hdec.qs q hm).1⟩
  obtain ⟨qw, hqw⟩ := encodings_of_all (xs := m.questions) fun q hm => writes_query (hqs q hm)
  have sq : qw.flatten.length ≤ 260 * m.questions.length := encodings_within hqw fun q hm w hw =>
    question_size (by rw [e2] at hm; exact hnames.qs q hm) (hqs q hm) hw
  have hop : m.header.opCode = .STD := by rw [e1.2.2.2.2.2.1]; exact hdec.opCode
  have none : NoRecords m → x.length < 65536 := by
    rintro ⟨a, b, c⟩
    have := encode_of_encodings hop ⟨hcq, c1, c2, c3⟩ hqw (an := []) (by rw [a]; exact .nil) (au := []) (by rw [b]; exact .nil) (ad := [])
      (by rw [c]; exact .nil)
    rw [hx] at this
    injection this with this
    rw [this]
    rw [e2] at sq
    simp only [List.length_append, headerBytes_length, List.flatten_nil, List.length_nil]
    omega
  by_cases hw : WellPosed req
  · obtain ⟨q, qs, hqe, -, ⟨r, hl, hn, -, a, b, c⟩ | ⟨-, -, -, -, y⟩ | ⟨-, -, -, y⟩⟩ := e8 hw
    · obtain ⟨hr, cn, rs, h2, h3, h4, h5, h6⟩ := lookup_small hh conf fuel q.node q.recordType hl
      have h6 := h6 hn
      rw [h6] at b
      have small : ∀ l : List Record, (∀ y ∈ l, Received p y) → ∃ ws, Encodings Record.encode l ws ∧ ws.flatten.length ≤ 854 * l.length := by
        intro l hl
        obtain ⟨ws, hws⟩ := encodings_of_all (xs := l) fun y hy => writes_short (received_ok (hl y hy)).1.2.2.1 (received_ok (hl y hy)).1.2.2.2
        exact ⟨ws, hws, encodings_within hws fun y hy w hw => record_size (received_ok (hl y hy)).1 (received_ok (hl y hy)).2 hw⟩
      have hcn : ∀ y ∈ cn, Received p y := fun y hy => hr y (by rw [h2]; simp [hy])
      obtain ⟨cw, hcw⟩ := encodings_of_all (xs := cn) fun y hy => writes_short (received_ok (hcn y hy)).1.2.2.1 (received_ok (hcn y hy)).1.2.2.2
      have sc : cw.flatten.length ≤ 522 * cn.length := encodings_within hcw fun y hy w hw => alias_size (received_ok (hcn y hy)).1 (h3 y hy) hw
      obtain ⟨rw', hrw, sr⟩ := small rs fun y hy => hr y (by rw [h2]; simp [hy])
      obtain ⟨aw, haw, sa⟩ := small r.additionals fun y hy => hr y (by simp [hy])
      have := encode_of_encodings hop ⟨hcq, c1, c2, c3⟩ hqw (an := cw ++ rw') (by rw [a, h2]; exact List.rel_append hcw hrw)
        (au := []) (by rw [b]; exact .nil) (ad := aw) (by rw [c]; exact haw)
      rw [hx] at this
      injection this with this
      rw [this]
      have hq1 : m.questions.length ≤ 1 := by
        rw [← hcq, e3, hw.2.1]; decide
      simp only [List.length_append, headerBytes_length, List.flatten_nil, List.length_nil, List.flatten_append]
      omega
    · exact none y
    · exact none y
  · exact none (e7 hw).2.1

/-- C87, part: the resolver. What it sends over TCP is framed, if requests repeat at most 252 questions (those it serves have
one) and the limit on redirections is at most 52, since the records of an answer, and the aliases, come from datagrams.
Missing: other requests and limits (`C87_violated`), and the name server, where it is the zone that must be small
enough (C29). -/
theorem C87_resolver_partial {env : Env} {p : Profile} {conf : Params} {fuel : Nat} {w w' : World} {stream rest out : List UInt8}
    {room : Nat} {read : ReadResult} (hh : OnlyReceived env p w) (hc : conf.maxCnameRedir ≤ 52)
    (hr : Net.tcpRead p stream = .ok (read, rest)) (hq : ∀ req, read = .fullMessage req → req.questions.length ≤ 252)
    (h : serveTcp env p conf fuel stream room w = (.ok (out, true), w')) : Framed out := by
  unfold serveTcp at h
  rw [infallible_ok hr] at h
  simp only at h
  rcases hm : handle env p conf fuel read w with ⟨o, w1⟩
  cases o with
  | ok mo =>
    rw [M.bind_eq hm] at h
    cases mo with
    | none =>
      injection h with h _
      injection h with h
      injection h with h _
      exact .inl h.symm
    | some m =>
      simp only at h
      have h' : Net.tcpReply m room = .ok (out, true) := by
        revert h
        unfold infallible M.lift Out.mapErr
        generalize Net.tcpReply m room = y
        intro h
        cases y with
        | ok v => injection h with h _; injection h with h; rw [h]
        | err e => exact e.elim
        | panic k => cases h
        | diverge => cases h
      have henc : ∃ x, m.encodeToBytes = .ok x := by
        unfold Net.tcpReply at h'
        split at h'
        · exact ⟨_, by assumption⟩
        · cases h'
        · cases h'
        · cases h'
      obtain ⟨x, hx⟩ := henc
      have hlen : x.length < 65536 := by
        have hcl := C29_tcp_framing_partial.2.2.1 p stream read rest hr
        rcases hcl with rfl | ⟨body, -, -, hcl⟩
        · cases hm
        · cases hcl with
          | full hd => exact reply_size hh hc hd (hq _ rfl) hm hx
          | @header hd e h1 h2 =>
            injection hm with hm _
            injection hm with hm
            injection hm with hm
            subst hm
            have hde := Message.decode_err_header h1 h2
            obtain ⟨⟨k, hk⟩, -⟩ := Message.empty_panics (m := Resolver.decodeErrReply hd e) rfl rfl rfl rfl hde
            rw [hk] at hx
            cases hx
          | none => cases hm
      have := C29_tcp_framing_partial.1 m x hx hlen
      by_cases hroom : 2 + x.length ≤ room
      · rw [this.1 room hroom] at h'
        injection h' with h'
        injection h' with h' _
        exact .inr ⟨x, hlen, h'.symm⟩
      · rw [this.2 room (by omega)] at h'
        injection h' with h'
        injection h' with _ h'
        cases h'
  | err e => rw [M.bind_err' hm] at h; cases h
  | panic k => rw [M.bind_panic hm] at h; cases h
  | diverge => rw [M.bind_diverge hm] at h; cases h

/-- The question for the address of the root. -/
def rootQuestion : Question := ⟨⟨['.']⟩, .A, .IN⟩

/-- It takes five octets. -/
def rootAsked : List UInt8 := rfcEncode [] ++ (be16 1 ++ be16 1)

/-- A request with `n` questions for the address of the root. -/
def manyRoots (n : Nat) : Message :=
  ⟨⟨7, false, .STD, false, false, true, false, 0, .NoError, UInt16.ofNat n, 0, 0, 0⟩, List.replicate n rootQuestion, [], [], []⟩

/-- Its wire form. -/
def manyRootsBytes (n : Nat) : List UInt8 := headerBytes (manyRoots n).header ++ (List.replicate n rootAsked).flatten

theorem flatten_replicate_length {α : Type} (n : Nat) (l : List α) : (List.replicate n l).flatten.length = n * l.length := by
  induction n with
  | zero => simp
  | succ n ih => rw [List.replicate_succ, List.flatten_cons, List.length_append, ih, Nat.add_mul]; omega

theorem decodes_root (p : Profile) : Decodes (Question.decode p) rootAsked rootQuestion := by
  have hcls : Question.decodeClass Class.IN.toNum = .ok .IN := rfl
  have hn : NameWire ⟨['.']⟩ (rfcEncode []) := ⟨[], ⟨by simp, rfl⟩, by simp, rfl⟩
  refine Decodes.bind (decodes_name p (n := ⟨['.']⟩) (by decide) hn) ?_
  refine Decodes.bind (decodes_questionType (t := .A) rfl) ?_
  exact Decodes.bind (y := []) (decodes_u16 Class.IN.toNum).check (Decodes.map (Decodes.lift hcls))

theorem decodes_roots (p : Profile) : ∀ n i, Decodes (Message.decodeItems (Question.decode p) .question n i)
    (List.replicate n rootAsked).flatten (List.replicate n rootQuestion)
  | 0, i => Decodes.pure _
  | n + 1, i => by
    intro pre post
    have e1 := decodes_root p pre ((List.replicate n rootAsked).flatten ++ post)
    have e2 := decodes_roots p n (i + 1) (pre ++ rootAsked) post
    rw [List.replicate_succ, List.replicate_succ, List.flatten_cons]
    simp only [List.append_assoc, List.length_append] at e1 e2 ⊢
    unfold Message.decodeItems
    simp only [e1]
    rw [BufM.bind_ok e2, Nat.add_assoc]
    rfl

theorem manyRoots_decoded (p : Profile) {n : Nat} (hn : n < 65536) : Message.decodeFromBytes p (manyRootsBytes n) = .ok (manyRoots n) := by
  have hd : Decodes (Message.decode p) (manyRootsBytes n) (manyRoots n) := by
    unfold Message.decode
    have hh : IsHeader (headerBytes (manyRoots n).header) (manyRoots n).header := isHeader_headerBytes (show (0 : UInt8).toNat < 8 by decide)
    refine Decodes.bind (decodes_header hh).mapErr ?_
    refine Decodes.bind (x := []) (Decodes.lift (a := ()) rfl) ?_
    have e : (manyRoots n).header.questionsCount.toNat = n := u16_of_len hn
    rw [e, ← List.append_nil (List.replicate n rootAsked).flatten]
    refine Decodes.bind (decodes_roots p n 0) ?_
    refine Decodes.bind (x := []) (Decodes.pure []) ?_
    refine Decodes.bind (x := []) (Decodes.pure []) ?_
    exact Decodes.bind (x := []) (y := []) (Decodes.pure []) (Decodes.pure _)
  have := hd [] []
  unfold Message.decodeFromBytes
  rw [rd_zero]
  simp only [List.nil_append, List.append_nil, List.length_nil] at this
  rw [this]

/-- The reply to it, with an error code, has six octets for every question. -/
theorem rootsReply_encoded {n : Nat} (hn : n < 65536) {m : Message} (h1 : m.header.opCode = .STD)
    (h2 : m.header.questionsCount = UInt16.ofNat n) (h3 : m.header.answersCount = 0) (h4 : m.header.authoritiesCount = 0)
    (h5 : m.header.additionalsCount = 0) (h6 : m.questions = List.replicate n rootQuestion) (h7 : NoRecords m) :
    ∃ x, m.encodeToBytes = .ok x ∧ x.length = 12 + 6 * n := by
  obtain ⟨a, b, c⟩ := h7
  have hq : Encodings Question.encode m.questions (List.replicate n ([0, 0] ++ (be16 1 ++ be16 1))) := by
    rw [h6]
    have hw : Writes (Question.encode rootQuestion) ([0, 0] ++ (be16 1 ++ be16 1)) := question_writes (q := rootQuestion) ⟨rfl, rfl⟩
    clear hn h2 h6
    induction n with
    | zero => exact .nil
    | succ n ih => rw [List.replicate_succ, List.replicate_succ]; exact .cons hw ih
  have := encode_of_encodings h1 ⟨by rw [h2, h6, u16_of_len hn, List.length_replicate], by rw [h3, a]; rfl, by rw [h4, b]; rfl,
    by rw [h5, c]; rfl⟩ hq (an := []) (by rw [a]; exact .nil) (au := []) (by rw [b]; exact .nil) (ad := []) (by rw [c]; exact .nil)
  refine ⟨_, this, ?_⟩
  simp only [List.length_append, headerBytes_length, List.flatten_nil, List.length_nil, flatten_replicate_length]
  simp only [be16, List.length_cons, List.length_nil]
  omega

/-- A reply of more than 65535 octets is not framed. -/
theorem long_reply {m : Message} {x : List UInt8} (hx : m.encodeToBytes = .ok x) (hl : 65536 ≤ x.length) :
    ∃ out, Net.tcpReply m (2 + x.length) = .ok (out, true) ∧ ¬ Framed out := by
  have h : ∃ a b, Net.tcpReply m (2 + x.length) = .ok ([a, b] ++ x, true) := by
    refine ⟨(UInt16.ofNat x.length >>> 8).toUInt8, (UInt16.ofNat x.length).toUInt8, ?_⟩
    have e1 : ∀ (room : Nat) (l : List UInt8), l.length ≤ room → Net.writeAll room l = (l, true) := fun room l h => by
      unfold Net.writeAll
      rw [List.take_of_length_le h, decide_eq_true h]
    simp only [Net.tcpReply, hx]
    rw [e1 _ _ (by simp), if_pos rfl, e1 _ _ (by omega)]
  obtain ⟨a, b, h⟩ := h
  refine ⟨_, h, ?_⟩
  rintro (h | ⟨body, h1, h2⟩)
  · cases h
  · have := congrArg List.length h2
    simp only [List.length_append, be16_length, List.length_cons, List.length_nil] at this
    omega

/-- C87, in full: whatever is asked over TCP, what is sent back is nothing or one message with its length before it. -/
def C87_statement : Prop :=
  (∀ (p : Profile) (zones : ManagedZone) (stream out : List UInt8) (room : Nat),
    Nameserver.serveTcp p zones stream room = .ok (out, true) → Framed out) ∧
  ∀ (env : Env) (p : Profile) (conf : Params) (fuel : Nat) (stream out : List UInt8) (room : Nat) (w w' : World),
    Up env conf w → OnlyReceived env p w → Resolver.serveTcp env p conf fuel stream room w = (.ok (out, true), w') → Framed out

/-- C87 does not hold of either server: from 10921 to 13104 questions for the root fit in a request; the reply, which repeats
them, is longer than the two octets can say. -/
theorem C87_violated : ¬ C87_statement ∧ ∀ n, 10921 ≤ n → n ≤ 13104 → ∃ stream : List UInt8, stream.length = 14 + 5 * n ∧
    (∀ p zones, ∃ out, Nameserver.serveTcp p zones stream (14 + 6 * n) = .ok (out, true) ∧ ¬ Framed out) ∧
    ∀ env p conf fuel w, ∃ out, Resolver.serveTcp env p conf fuel stream (14 + 6 * n) w = (.ok (out, true), w) ∧ ¬ Framed out := by
  have key : ∀ n, 10921 ≤ n → n ≤ 13104 → ∃ stream : List UInt8, stream.length = 14 + 5 * n ∧
    (∀ p zones, ∃ out, Nameserver.serveTcp p zones stream (14 + 6 * n) = .ok (out, true) ∧ ¬ Framed out) ∧
    ∀ env p conf fuel w, ∃ out, Resolver.serveTcp env p conf fuel stream (14 + 6 * n) w = (.ok (out, true), w) ∧ ¬ Framed out := by
    intro n h1 h2
    have hlen : (manyRootsBytes n).length = 12 + 5 * n := by
      unfold manyRootsBytes
      rw [List.length_append, headerBytes_length, flatten_replicate_length]
      simp only [rootAsked, rfcEncode, be16, List.length_append, List.length_cons, List.length_nil, List.flatMap_nil]
      omega
    have hread : ∀ p, Net.tcpRead p (be16 (manyRootsBytes n).length ++ (manyRootsBytes n ++ [])) = .ok (.fullMessage (manyRoots n), []) :=
      fun p => (C29_tcp_framing_partial.2.1 p (manyRootsBytes n) [] (by omega) _).2 (.full (manyRoots_decoded p (by omega)))
    have hone : (UInt16.ofNat n == 1) = false := by
      rw [beq_eq_false_iff_ne]
      intro h
      have := congrArg UInt16.toNat h
      rw [u16_of_len (by omega)] at this
      have h3 : (1 : UInt16).toNat = 1 := rfl
      omega
    refine ⟨be16 (manyRootsBytes n).length ++ (manyRootsBytes n ++ []), ?_, fun p zones => ?_, fun env p conf fuel w => ?_⟩
    · simp only [List.length_append, be16_length, List.length_nil, hlen]; omega
    · obtain ⟨x, hx, hl⟩ := rootsReply_encoded (n := n) (by omega) (m := Nameserver.errReply (manyRoots n) .FormErr) rfl rfl rfl rfl rfl rfl ⟨rfl, rfl, rfl⟩
      obtain ⟨out, ho, hf⟩ := long_reply hx (by omega)
      refine ⟨out, ?_, hf⟩
      have hh : Nameserver.handle p zones (.fullMessage (manyRoots n)) = .ok (some (Nameserver.errReply (manyRoots n) .FormErr)) := by
        have hv : Nameserver.validate (manyRoots n) = none := by
          obtain ⟨k, rfl⟩ : ∃ k, n = k + 2 := ⟨n - 2, by omega⟩
          rfl
        simp only [Nameserver.handle, hv]
      unfold Nameserver.serveTcp
      rw [hread, Out.bind_ok]
      simp only
      rw [hh, Out.bind_ok]
      simp only
      rw [show 14 + 6 * n = 2 + x.length by omega]
      exact ho
    · obtain ⟨x, hx, hl⟩ := rootsReply_encoded (n := n) (by omega) (m := Resolver.errReply (manyRoots n) .FormErr) rfl rfl rfl rfl rfl rfl ⟨rfl, rfl, rfl⟩
      obtain ⟨out, ho, hf⟩ := long_reply hx (by omega)
      refine ⟨out, ?_, hf⟩
      have hh : Resolver.handle env p conf fuel (.fullMessage (manyRoots n)) w = (.ok (some (Resolver.errReply (manyRoots n) .FormErr)), w) := by
        have hv : Resolver.validate (manyRoots n) = false := by
          unfold Resolver.validate
          rw [show (manyRoots n).header.questionsCount = UInt16.ofNat n from rfl, hone]
          rfl
        unfold Resolver.handle
        simp only [hv, Bool.not_false, if_true]
        rfl
      unfold Resolver.serveTcp
      rw [infallible_ok (hread p), M.bind_eq hh]
      simp only
      rw [show 14 + 6 * n = 2 + x.length by omega, ho]
      rfl
  refine ⟨fun h => ?_, key⟩
  obtain ⟨stream, -, hn, -⟩ := key 10921 (le_refl _) (by omega)
  obtain ⟨out, h1, h2⟩ := hn .release ⟨Zone.new ⟨['.']⟩, []⟩
  exact h2 (h.1 _ _ _ _ _ h1)

/-- And the cache still holds received records only, after every lookup. -/
theorem C87_cache_stays {env : Env} {p : Profile} {w : World} (hh : OnlyReceived env p w) (conf : Params) (fuel : Nat) (node : Name)
    (kind : RecordType) : OnlyReceived env p (lookup env p conf fuel node kind w).2 :=
  ⟨(perform_small (bounding hh) fuel
    { node := node, kind := kind, previousZones := [], previousCnames := [], conf := conf } (by simp) w hh.cache).1, hh.others⟩

/-- How many octets are sent over TCP. -/
def sentTcp : Out LookupErr (List UInt8 × Bool) → Option (Nat × List UInt8)
  | .ok (l, true) => some (l.length, l.take 2)
  | _ => none

/-- The wire form of `askA`. -/
def askABytes : List UInt8 := [0, 9, 1, 0, 0, 1, 0, 0, 0, 0, 0, 0] ++ [1, 97, 3, 99, 111, 109, 0] ++ [0, 1, 0, 1]

/-- The hypotheses hold of a fresh resolver in the world of the chain of aliases (C59): one frame of 94 octets goes out. -/
example : OnlyReceived chainEnv .release ⟨.empty, 0, []⟩ ∧
    (∃ req, Net.tcpRead .release (be16 askABytes.length ++ askABytes) = .ok (.fullMessage req, []) ∧ req.questions.length ≤ 252) ∧
    sentTcp (serveTcp chainEnv .release ⟨1, 1, 3, false⟩ 5 (be16 askABytes.length ++ askABytes) 500 ⟨.empty, 0, []⟩).1 =
      some (94, be16 92) := by
  refine ⟨⟨(by intro k e r hf; cases hf), fun _ _ h => h⟩, ?_, by decide +kernel⟩
  obtain ⟨r, h1, h2⟩ := ok_of (x := Net.tcpRead .release (be16 askABytes.length ++ askABytes)) (fun r => match r with
    | (.fullMessage req, rest) => req.questions.length ≤ 252 ∧ rest = []
    | _ => false) (by decide +kernel)
  obtain ⟨r, rest⟩ := r
  cases r with
  | fullMessage req => simp only [decide_eq_true_eq] at h2; exact ⟨req, by rw [h1, h2.2], h2.1⟩
  | _ => cases h2

end Ariadne.Props
