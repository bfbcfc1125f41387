import Verif.Lemmas.Valid
import Verif.Lemmas.NameRound
import Verif.Spec.Queries

/-! # Decoded names can be put on the wire -/

namespace Ariadne

open Spec BitsBuf

theorem Run.wireName (p : Profile) {msg : List UInt8} {r : Nat} (hr : r ≤ 8 * msg.length) :
    Run msg r (nameP p) True (fun n _ => Wireable n) := by
  apply mapErr
  obtain ⟨o, r', e, hr', h⟩ := Name.fromBytes_spec p msg r hr
  refine ⟨o, r', e, hr', ?_, fun _ => trivial⟩
  rintro n rfl
  obtain ⟨hv, ls, k, hw, -, hs⟩ := h
  obtain ⟨hl, labels, hn⟩ := hv
  exact ⟨hl, labels, hn, decoded_labels_le hn hs fun l hl => ((WireName_next hw).2.2.2 l hl).2⟩

theorem run_question_wire (p : Profile) {msg : List UInt8} {r : Nat} (hr : r ≤ 8 * msg.length) :
    Run msg r (Question.decode p) True (fun q _ => Wireable q.node) := by
  unfold Question.decode
  refine (Run.wireName p hr).bind fun node r1 hr1 hv => ?_
  have ht : Run msg r1 Question.decodeRecordType True (fun _ _ => True) := by
    unfold Question.decodeRecordType
    refine (Run.u16 hr1).bind fun n r2 hr2 _ => ?_
    cases ht : RecordType.fromNum n with
    | none => exact (Run.u16 hr2).bind fun _ r3 hr3 _ => Run.throw hr3
    | some t =>
      simp only
      split
      · exact Run.throw hr2
      · exact Run.pure hr2 trivial
  exact ht.bind fun t r2 hr2 _ => (Run.u16 hr2).bind fun cn r3 hr3 _ =>
    (Run.lift hr3 fun _ => trivial).bind fun c r4 hr4 _ => Run.pure hr4 hv

theorem run_nameData_wire (p : Profile) {msg : List UInt8} {r : Nat} {len : UInt16} (f : Name → RData)
    (hf : ∀ n, dataNames (f n) = [n]) (hr : r ≤ 8 * msg.length) :
    Run msg r (do let x ← Record.decodeNameData p len; pure (f x) : BufM ParsingErr RData) True
      (fun d _ => ∀ n ∈ dataNames d, Wireable n) := by
  refine Run.bind (Q := fun n _ => Wireable n) ?_ fun n r1 hr1 hv => Run.pure hr1 (by rw [hf]; simpa using hv)
  unfold Record.decodeNameData
  exact (Run.readPos hr).bind fun b r1 hr1 _ => (Run.wireName p hr1).bind fun n r2 hr2 hv =>
    (Run.readPos hr2).bind fun a r3 hr3 _ => Run.checkLen' p hr3 hv

theorem run_soa_wire (p : Profile) {msg : List UInt8} {r : Nat} {len : UInt16} (hr : r ≤ 8 * msg.length) :
    Run msg r (Record.decodeSoa p len) True (fun d _ => ∀ n ∈ dataNames d, Wireable n) := by
  unfold Record.decodeSoa
  refine (Run.readPos hr).bind fun b r1 hr1 _ => (Run.wireName p hr1).bind fun a r2 hr2 h1 =>
    (Run.wireName p hr2).bind fun b r3 hr3 h2 => (Run.u32 hr3).bind fun _ r4 hr4 _ => (Run.u32 hr4).bind fun _ r5 hr5 _ =>
    (Run.u32 hr5).bind fun _ r6 hr6 _ => (Run.u32 hr6).bind fun _ r7 hr7 _ => (Run.u32 hr7).bind fun _ r8 hr8 _ =>
    (Run.readPos hr8).bind fun _ r9 hr9 _ => Run.checkLen' p hr9 ?_
  simp only [dataNames, List.mem_cons, List.not_mem_nil, or_false, forall_eq_or_imp, forall_eq]
  exact ⟨h1, h2⟩

theorem run_mx_wire (p : Profile) {msg : List UInt8} {r : Nat} {len : UInt16} (hr : r ≤ 8 * msg.length) :
    Run msg r (Record.decodeMx p len) True (fun d _ => ∀ n ∈ dataNames d, Wireable n) := by
  unfold Record.decodeMx
  refine (Run.readPos hr).bind fun b r1 hr1 _ => (Run.u16 hr1).bind fun _ r2 hr2 _ =>
    (Run.wireName p hr2).bind fun b r3 hr3 h2 => (Run.readPos hr3).bind fun _ r9 hr9 _ => Run.checkLen' p hr9 ?_
  simpa [dataNames] using h2

theorem run_data_wire (p : Profile) {msg : List UInt8} {r : Nat} {t : RecordType} {len : UInt16} (hr : r ≤ 8 * msg.length)
    (ht : t.isSupportedForRecords = true) :
    Run msg r (Record.decodeData p t len) True (fun d _ => ∀ n ∈ dataNames d, Wireable n) := by
  have hn : (t = .A ∨ t = .WKS ∨ t = .HINFO ∨ t = .TXT) →
      Run msg r (Record.decodeData p t len) True (fun d _ => ∀ n ∈ dataNames d, Wireable n) := fun h =>
    (run_data p hr ht).mono (fun _ => trivial) fun d r' hd => by
      rw [dataNames_nil (by rw [hd.2.1]; exact h)]; simp
  have h1 : t = .NS → Run msg r (Record.decodeData p t len) True (fun d _ => ∀ n ∈ dataNames d, Wireable n) := by
    rintro rfl; exact run_nameData_wire p RData.NS (fun _ => rfl) hr
  have h2 : t = .CNAME → Run msg r (Record.decodeData p t len) True (fun d _ => ∀ n ∈ dataNames d, Wireable n) := by
    rintro rfl; exact run_nameData_wire p RData.CNAME (fun _ => rfl) hr
  have h3 : t = .PTR → Run msg r (Record.decodeData p t len) True (fun d _ => ∀ n ∈ dataNames d, Wireable n) := by
    rintro rfl; exact run_nameData_wire p RData.PTR (fun _ => rfl) hr
  have h4 : t = .SOA → Run msg r (Record.decodeData p t len) True (fun d _ => ∀ n ∈ dataNames d, Wireable n) := by
    rintro rfl; exact run_soa_wire p hr
  have h5 : t = .MX → Run msg r (Record.decodeData p t len) True (fun d _ => ∀ n ∈ dataNames d, Wireable n) := by
    rintro rfl; exact run_mx_wire p hr
  have hc : (t = .A ∨ t = .WKS ∨ t = .HINFO ∨ t = .TXT) ∨ t = .NS ∨ t = .CNAME ∨ t = .PTR ∨ t = .SOA ∨ t = .MX := by
    clear hn h1 h2 h3 h4 h5
    revert ht
    cases t <;> decide
  rcases hc with h | h | h | h | h | h
  · exact hn h
  · exact h1 h
  · exact h2 h
  · exact h3 h
  · exact h4 h
  · exact h5 h

theorem run_record_wire (p : Profile) {msg : List UInt8} {r : Nat} (hr : r ≤ 8 * msg.length) :
    Run msg r (Record.decode p) True (fun rec _ => ∀ n ∈ rec.node :: dataNames rec.data, Wireable n) := by
  unfold Record.decode
  exact (Run.wireName p hr).bind fun node r1 hr1 hv => (run_recordType hr1).bind fun t r2 hr2 ⟨_, _, hs⟩ =>
    (Run.u16 hr2).bind fun cn r3 hr3 _ => (run_class cn hr3).bind fun c r4 hr4 hc =>
    (Run.u32 hr4).bind fun ttl r5 hr5 _ => (Run.u16 hr5).bind fun len r6 hr6 _ =>
    (run_data_wire p hr6 hs).bind fun d r7 hr7 h7 =>
      Run.pure hr7 (List.forall_mem_cons.2 ⟨hv, h7⟩)

theorem run_message_wire (p : Profile) (msg : List UInt8) :
    Run msg 0 (Message.decode p) True (fun m _ => (∀ q ∈ m.questions, Wireable q.node) ∧
      ∀ r ∈ m.answers ++ m.authorities ++ m.additionals, ∀ n ∈ r.node :: dataNames r.data, Wireable n) := by
  unfold Message.decode
  exact (Run.mapErr (run_header (Nat.zero_le _))).bind fun h r1 hr1 _ => (Run.lift hr1 fun _ => trivial).bind fun _ r2 hr2 _ =>
    (run_items_all (fun r hr => run_question_wire p hr) _ _ _ hr2).bind fun qs r3 hr3 c3 =>
    (run_items_all (fun r hr => run_record_wire p hr) _ _ _ hr3).bind fun an r4 hr4 c4 =>
    (run_items_all (fun r hr => run_record_wire p hr) _ _ _ hr4).bind fun au r5 hr5 c5 =>
    (run_items_all (fun r hr => run_record_wire p hr) _ _ _ hr5).bind fun ad r6 hr6 c6 =>
    Run.pure hr6 ⟨c3, fun r hr => by
      rcases List.mem_append.1 hr with hr | hr
      · rcases List.mem_append.1 hr with hr | hr
        · exact c4 r hr
        · exact c5 r hr
      · exact c6 r hr⟩

theorem decoded_wire {p : Profile} {bytes : List UInt8} {m : Message} (h : Message.decodeFromBytes p bytes = .ok m) :
    (∀ q ∈ m.questions, Wireable q.node) ∧
      ∀ r ∈ m.answers ++ m.authorities ++ m.additionals, ∀ n ∈ r.node :: dataNames r.data, Wireable n := by
  obtain ⟨o, r', e, -, hq, -⟩ := run_message_wire p bytes
  unfold Message.decodeFromBytes at h
  have e' : Message.decode p (fromRawBytes bytes) = (o, rdBit bytes r') := e
  rw [e'] at h
  exact hq m h

end Ariadne
