import Verif.Lemmas.Wireable
import Verif.Spec.Queries
import Verif.Props.Asks

/-! # C104: the queries of the resolver on the wire -/

namespace Ariadne.Props

open Spec BitsBuf Resolver

/-! ## C104 -/

/-- The octets of a query. -/
theorem query_octets {id : UInt16} {node : Name} {kind : RecordType} {bytes : List UInt8} (h : QueryFor id node kind bytes) :
    bytes = be16 id.toNat ++ [0, 0] ++ be16 1 ++ be16 0 ++ be16 0 ++ be16 0 ++ (node.toBytes ++ (be16 kind.toNum.toNat ++ be16 1)) := by
  unfold QueryFor at h
  have hc : CountsMatch ⟨⟨id, false, .STD, false, false, false, false, 0, .NoError, 1, 0, 0, 0⟩, [⟨node, kind, .IN⟩], [], [], []⟩ :=
    ⟨rfl, rfl, rfl, rfl⟩
  obtain ⟨hop, h1, -⟩ := allWrite_of_encode hc h
  obtain ⟨w, hw⟩ := h1 ⟨node, kind, .IN⟩ (List.mem_singleton.2 rfl)
  have hk : kind.isSupportedForQuestion = true := by
    cases hk : kind.isSupportedForQuestion with
    | true => rfl
    | false =>
      have := hw []
      unfold Question.encode at this
      simp only [hk] at this
      cases this
  have hw' : Writes (Question.encode ⟨node, kind, .IN⟩) (node.toBytes ++ (be16 kind.toNum.toNat ++ be16 Class.IN.toNum.toNat)) := by
    unfold Question.encode
    exact Writes.assert hk (Writes.assert rfl (Writes.bind (writes_bytes _) (Writes.bind (writes_u16 _) (writes_u16 _))))
  have e := encode_of_encodings hop hc (.cons hw' .nil) .nil .nil .nil
  rw [h] at e
  have e := Out.ok.inj e
  rw [e]
  simp only [headerBytes, flag, List.flatten_cons, List.flatten_nil, List.append_nil, List.append_assoc]
  rfl

theorem rfcEncode_length {labels : List (List Char)} (h : labels ≠ []) : (rfcEncode labels).length = (render labels).length + 1 := by
  unfold rfcEncode render
  rw [if_neg h]
  have : ∀ L : List (List Char), (L.flatMap fun l => UInt8.ofNat l.length :: l.map fun c => UInt8.ofNat c.toNat).length =
      (L.flatMap fun l => l ++ ['.']).length := by
    intro L
    induction L with
    | nil => rfl
    | cons l L ih => simp only [List.flatMap_cons, List.length_append, ih, List.length_cons, List.length_map, List.length_nil]
  simp only [List.length_append, this, List.length_cons, List.length_nil]

/-- The octets of a query for a name within the limits. -/
theorem query_form {id : UInt16} {node : Name} {kind : RecordType} {bytes : List UInt8} (h : QueryFor id node kind bytes) (hn : Wireable node) :
    ProperQuery 256 bytes ∨ RootQuery bytes := by
  obtain ⟨hl, labels, h1, h2⟩ := hn
  have e := query_octets h
  by_cases hr : labels = []
  · right
    refine ⟨id, kind, ?_⟩
    have : node = ⟨['.']⟩ := by
      have := h1.2
      rw [hr] at this
      obtain ⟨s⟩ := node
      exact congrArg Name.mk this
    rw [e, this]
    rfl
  · left
    refine ⟨id, labels, kind, ?_, fun l hl => ⟨h1.1 l hl, h2 l hl⟩, ?_⟩
    · unfold StandardQuery
      rw [e, toBytes_rfc h1 hr]
    · rw [rfcEncode_length hr, ← h1.2]
      omega

theorem received_wire {p : Profile} : ∀ {log : List Event} {r : Record}, r ∈ receivedBy p log → ∀ n ∈ r.node :: dataNames r.data, Wireable n
  | [], r, h => by cases h
  | e :: log, r, h => by
    cases e with
    | exchange a q reply =>
      cases reply with
      | none => exact received_wire (log := log) h
      | some reply =>
        rcases List.mem_append.1 h with h | h
        · cases hd : Message.decodeFromBytes p (reply.take 512) with
          | ok m =>
            rw [hd] at h
            exact (decoded_wire hd).2 r h
          | _ => rw [hd] at h; cases h
        · exact received_wire h
    | _ => exact received_wire (log := log) h

theorem heard_wire {α : Type} {S : Schedule} {net : Nat → List Event → Ip4 → List UInt8 → Option (List UInt8)} {p : Profile} {s : System α} {n : Nat}
    {P : Record → Prop} (h : Heard S net p s n P) : ∃ r, P r ∧ ∀ n ∈ r.node :: dataNames r.data, Wireable n := by
  obtain ⟨m, r, ⟨-, j, -, h1⟩, h2⟩ := h
  exact ⟨r, h2, received_wire h1⟩

/-- Only names within the limits are asked for. -/
theorem subject_wire {α : Type} {S : Schedule} {net : Nat → List Event → Ip4 → List UInt8 → Option (List UInt8)} {p : Profile} {s : System α} {n : Nat}
    {question : Name × RecordType} {name : Name} {kind : RecordType} (hq : Wireable question.1) (h : KnownSubject S net p s n question name kind) :
    Wireable name := by
  rcases h with ⟨-, h⟩ | ⟨-, h⟩
  · cases h with
    | refl => exact hq
    | tail _ h =>
      obtain ⟨r, ⟨-, e⟩, hr⟩ := heard_wire h
      exact hr _ (by rw [e]; simp [dataNames])
  · obtain ⟨r, e, hr⟩ := heard_wire h
    exact hr _ (by rw [e]; simp [dataNames])

theorem jobAsks_wire {p : Profile} {question : Name × RecordType} {job : Job} (h : JobAsks p question job) : Wireable question.1 := by
  cases job with
  | udp datagram sends =>
    obtain ⟨req, q, rest, h1, h2, rfl⟩ := h
    have := (C30_classification.1 p datagram _).1 h1
    cases this with
    | full h => exact (decoded_wire h).1 q (by rw [h2]; simp)
  | tcp stream room =>
    obtain ⟨req, q, rest, unread, h1, h2, rfl⟩ := h
    rcases C29_tcp_framing_partial.2.2.1 p stream _ _ h1 with h | ⟨body, -, -, h⟩
    · cases h
    · cases h with
      | full h => exact (decoded_wire h).1 q (by rw [h2]; simp)

/-- The full statement of C104: whatever the clients and the servers send, and in whatever order the threads go on, every datagram
the resolver sends to a server is a standard query as RFC 1035 has it. -/
def C104_statement : Prop :=
  ∀ (S : Schedule) (net : Nat → List Event → Ip4 → List UInt8 → Option (List UInt8)) (p : Profile) (conf : Params) (fuel : Nat)
    (jobs : Nat → Job) (n i : Nat) (addr : Ip4) (bytes : List UInt8) (k : Option (List UInt8) → Resolver.Task (List (List UInt8) × Bool)),
    ((System.after S net (.serving p conf fuel jobs .empty) n).threads i).task = .send addr bytes k → ProperQuery 255 bytes

/-- C104, part: every datagram is a standard query for a name of at most 256 octets, or what this program sends in place of a query
for the root. Missing: the root, and the limit of 255 octets (`C104_violated`). -/
theorem C104_queries_partial (S : Schedule) (net : Nat → List Event → Ip4 → List UInt8 → Option (List UInt8)) (p : Profile) (conf : Params)
    (fuel : Nat) (jobs : Nat → Job) (n i : Nat) (addr : Ip4) (bytes : List UInt8)
    (k : Option (List UInt8) → Resolver.Task (List (List UInt8) × Bool))
    (h : ((System.after S net (.serving p conf fuel jobs .empty) n).threads i).task = .send addr bytes k) :
    ProperQuery 256 bytes ∨ RootQuery bytes := by
  obtain ⟨question, h1, -, id, name, kind, h2, h3⟩ := C99_queries_for_clients S net p conf fuel jobs n i addr bytes k h
  exact query_form h3 (subject_wire (jobAsks_wire h1) h2)

/-- One thread goes on. -/
def alone : Schedule where
  move _ := .step 0
  time _ := 0
  time' _ := 0
  id _ := 0
  forward _ := ⟨Nat.le_refl _, Nat.le_refl _⟩
  readings _ _ h := by cases h

/-- A client asks, nobody else answers. -/
def oneClient (datagram : List UInt8) (n : Nat) : System (List (List UInt8) × Bool) :=
  System.after alone (fun _ _ _ _ => none) (.serving .release ⟨1, 1, 3, false⟩ 5 (fun _ => .udp datagram [some 512]) .empty) n

/-- A query for the name servers of the root. -/
def askRoot : List UInt8 := [0, 7, 1, 0, 0, 1, 0, 0, 0, 0, 0, 0, 0, 0, 2, 0, 1]

theorem root_not_proper {limit : Nat} {bytes : List UInt8} (h : RootQuery bytes) : ¬ ProperQuery limit bytes := by
  obtain ⟨id, kind, rfl⟩ := h
  rintro ⟨id', labels, kind', h1, h2, -⟩
  unfold StandardQuery at h1
  have h1 := List.append_inj_right h1 rfl
  cases labels with
  | nil =>
    have := congrArg List.length h1
    simp [rfcEncode, be16] at this
  | cons l L =>
    obtain ⟨hv, hl⟩ := h2 l (by simp)
    obtain ⟨-, a, z, ha, -⟩ := hv
    have h0 : l ≠ [] := by rintro rfl; cases ha
    have hpos := List.length_pos_iff.2 h0
    have h1 := (List.cons.inj h1).1
    have := congrArg UInt8.toNat h1
    rw [UInt8.toNat_ofNat'] at this
    simp at this
    omega

theorem long_not_proper {limit : Nat} {bytes : List UInt8} (h : limit + 16 < bytes.length) : ¬ ProperQuery limit bytes := by
  rintro ⟨id', labels, kind', h1, -, h2⟩
  unfold StandardQuery at h1
  rw [h1] at h
  simp only [List.length_append, be16_length, List.length_cons, List.length_nil] at h
  omega

theorem oneClient_sends {datagram bytes : List UInt8} {addr : Ip4} {n : Nat}
    (h : nextQuery ((oneClient datagram n).threads 0).task = some (addr, bytes)) (hs : C104_statement) : ProperQuery 255 bytes := by
  obtain ⟨k, h⟩ := nextQuery_some h
  exact hs _ _ _ _ _ _ n 0 addr bytes k h

set_option maxRecDepth 100000 in
theorem asked_root : nextQuery ((oneClient askRoot 9).threads 0).task =
    some (⟨198, 41, 0, 4⟩, [0, 0, 0, 0, 0, 1, 0, 0, 0, 0, 0, 0, 0, 0, 0, 2, 0, 1]) := by decide +kernel

/-- A query for a name of 255 characters. -/
theorem long_query {id : UInt16} {node : Name} {kind : RecordType} {bytes : List UInt8} {labels : List (List Char)} (h : QueryFor id node kind bytes)
    (hn : NameOf node.s labels) (h0 : labels ≠ []) (hl : node.s.length = 255) : ¬ ProperQuery 255 bytes := by
  apply long_not_proper
  rw [query_octets h, toBytes_rfc hn h0]
  simp only [List.length_append, be16_length, List.length_cons, List.length_nil, rfcEncode_length h0, ← hn.2, hl]
  omega

/-- Three labels of 63 letters, one of 62. -/
def longLabels : List (List Char) := [63, 63, 63, 62].map fun n => List.replicate n 'a'

theorem longLabels_name : NameOf (render longLabels) longLabels ∧ ∀ l ∈ longLabels, l.length ≤ 63 := by
  have hd : LetDig 'a' := .inl (by decide)
  refine ⟨⟨fun l hl => ?_, rfl⟩, fun l hl => ?_⟩
  · obtain ⟨n, hn, rfl⟩ := List.mem_map.1 hl
    have : ∃ m, n = m + 1 := ⟨n - 1, by simp at hn; omega⟩
    obtain ⟨m, rfl⟩ := this
    refine ⟨fun c hc => .inl (by rw [(List.mem_replicate.1 hc).2]; exact hd), 'a', 'a', rfl, ?_, hd, hd⟩
    rw [List.replicate_succ', List.getLast?_append]
    rfl
  · obtain ⟨n, hn, rfl⟩ := List.mem_map.1 hl
    rw [List.length_replicate]
    simp at hn
    omega

/-- C104 does not hold: for a client that asks for the root, a message with an octet too many is sent to a root server, in which a
reader finds a question of another type and class; and names of 256 octets, one more than there may be, are taken from clients and servers, and
queries for them sent. -/
theorem C104_violated : ¬ C104_statement ∧
    (∃ addr bytes, nextQuery ((oneClient askRoot 9).threads 0).task = some (addr, bytes) ∧ ¬ ProperQuery 256 bytes) ∧
    ∃ node, Wireable node ∧ ∀ id kind bytes, QueryFor id node kind bytes → ¬ ProperQuery 255 bytes := by
  have hr : ¬ ProperQuery 256 [0, 0, 0, 0, 0, 1, 0, 0, 0, 0, 0, 0, 0, 0, 0, 2, 0, 1] := root_not_proper ⟨0, .NS, rfl⟩
  have hr' : ¬ ProperQuery 255 [0, 0, 0, 0, 0, 1, 0, 0, 0, 0, 0, 0, 0, 0, 0, 2, 0, 1] := root_not_proper ⟨0, .NS, rfl⟩
  refine ⟨fun hs => hr' (oneClient_sends asked_root hs), ⟨_, _, asked_root, hr⟩, ?_⟩
  have hl : (render longLabels).length = 255 := by decide +kernel
  exact ⟨⟨render longLabels⟩, ⟨Nat.le_of_eq hl, _, longLabels_name.1, longLabels_name.2⟩,
    fun id kind bytes h => long_query h longLabels_name.1 (by decide) hl⟩

theorem oneClient_form {datagram bytes : List UInt8} {addr : Ip4} {n : Nat}
    (h : nextQuery ((oneClient datagram n).threads 0).task = some (addr, bytes)) : ProperQuery 256 bytes ∨ RootQuery bytes := by
  obtain ⟨k, h⟩ := nextQuery_some h
  exact C104_queries_partial _ _ _ _ _ _ n 0 addr bytes k h

/-- A query for the address of "a.com.". -/
def askACom : List UInt8 := [0, 7, 1, 0, 0, 1, 0, 0, 0, 0, 0, 0, 1, 97, 3, 99, 111, 109, 0, 0, 1, 0, 1]

set_option maxRecDepth 100000 in
theorem asked_aCom : nextQuery ((oneClient askACom 11).threads 0).task =
    some (⟨198, 41, 0, 4⟩, [0, 0, 0, 0, 0, 1, 0, 0, 0, 0, 0, 0, 1, 97, 3, 99, 111, 109, 0, 0, 1, 0, 1]) := by decide +kernel

/-- The hypothesis is met: for a client that asks for the address of "a.com.", that query goes to a root server. -/
example : ProperQuery 256 [0, 0, 0, 0, 0, 1, 0, 0, 0, 0, 0, 0, 1, 97, 3, 99, 111, 109, 0, 0, 1, 0, 1] := by
  rcases oneClient_form asked_aCom with h | ⟨_, _, h⟩
  · exact h
  · have := congrArg List.length h
    simp only [List.length_append, be16_length, List.length_cons, List.length_nil] at this
    omega

end Ariadne.Props
