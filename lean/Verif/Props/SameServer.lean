import Verif.Spec.SameServer
import Verif.Props.Loader
import Verif.Lemmas.Accepts
import Verif.Lemmas.ZoneSame
import Verif.Props.Zone

/-!
# C114: every start of the name server on the same files makes the same server

Rust iterates over hash maps in an order that differs from run to run. The files may be any files: well-formed, malformed,
missing, including each other for ever.
-/

namespace Ariadne.Props

open Spec ZoneParser

/-- Two stores with the same name that hold the same records. -/
def Twins (z z' : Zone) : Prop := z.zone = z'.zone ∧ ∃ log log', Holds z log ∧ Holds z' log' ∧ ∀ n k, recordsAt log n k = recordsAt log' n k

theorem Twins.new (n : Name) : Twins (Zone.new n) (Zone.new n) := ⟨rfl, [], [], Holds.new n, Holds.new n, fun _ _ => rfl⟩

theorem Twins.insert {z z' : Zone} (h : Twins z z') (r : Record) : Twins (z.insert r) (z'.insert r) := by
  obtain ⟨e, l, l', a, b, c⟩ := h
  exact ⟨e, _, _, a.insert r, b.insert r, fun n k => by rw [recordsAt_append, recordsAt_append, c]⟩

theorem insertAll_zone : ∀ (rs : List Record) (z : Zone), (rs.foldl Zone.insert z).zone = z.zone
  | [], _ => rfl
  | r :: rs, z => by rw [List.foldl_cons, insertAll_zone rs]; rfl

theorem Twins.extend {z z' w w' : Zone} (h : Twins z z') (hw : Twins w w') (o o' : HashOrder) : Twins (z.extend o w) (z'.extend o' w') := by
  obtain ⟨e, l, l', a, b, c⟩ := h
  obtain ⟨-, m, m', x, y, c'⟩ := hw
  refine ⟨?_, _, _, a.extend x o, b.extend y o', fun n k => by rw [recordsAt_append, recordsAt_append, c, c']⟩
  unfold Zone.extend
  rw [insertAll_zone, insertAll_zone, e]

theorem Twins.get {z z' : Zone} (h : Twins z z') {ε : Type} (p : Profile) (n : Name) (k : RecordType) : (z.get p n k : Out ε _) = z'.get p n k := by
  obtain ⟨-, l, l', a, b, c⟩ := h
  rw [a.get, b.get, c]

theorem Twins.all {z z' : Zone} (h : Twins z z') (o o' : HashOrder) (k : RecordType) (r : Record) :
    r ∈ z.getAllOfType o k ↔ r ∈ z'.getAllOfType o' k := by
  obtain ⟨-, l, l', a, b, c⟩ := h
  have key : ∀ (w : Zone) (lg : List Record) (q : HashOrder), Holds w lg → (r ∈ w.getAllOfType q k ↔ r ∈ recordsAt lg r.node k) := fun w lg q hh => by
    rw [← hh.all_at q, List.mem_filter]
    simp
  rw [key z l o a, key z' l' o' b, c]

theorem entries_twins (fs : Files) (o o' : HashOrder) : ∀ (fuel : Nat) (st : AuthState) (t : Tokenizer) {z z' : Zone}, Twins z z' →
    ZoneParser.Agree Twins (parseEntries fs o fuel st t z) (parseEntries fs o' fuel st t z')
  | 0, _, _, _, _, _ => trivial
  | fuel + 1, st, t, z, z', h => by
    rw [parseEntries, parseEntries]
    refine Agree.pre fun x => ?_
    obtain ⟨next, t1⟩ := x
    have onRecord : ZoneParser.Agree Twins
        (parseRecord fuel t1 st >>= fun x => parseEntries fs o fuel { st with currentTtl := x.1.ttl } x.2 (z.insert x.1))
        (parseRecord fuel t1 st >>= fun x => parseEntries fs o' fuel { st with currentTtl := x.1.ttl } x.2 (z'.insert x.1)) :=
      Agree.pre fun x => entries_twins fs o o' fuel _ _ (h.insert x.1)
    cases next with
    | «end» => exact h
    | originDir => exact Agree.pre fun x => entries_twins fs o o' fuel _ _ h
    | includeDir =>
      refine Agree.pre fun x => ?_
      obtain ⟨path, origin, t2⟩ := x
      dsimp only
      cases fs path with
      | none => rfl
      | some file =>
        exact ZoneParser.Agree.bind (entries_twins fs o o' fuel { st with currentOrig := origin } (Tokenizer.start file) (Twins.new st.zone))
          fun a b hab => entries_twins fs o o' fuel _ _ (h.extend hab o o')
    | string s => exact onRecord
    | «at» => exact onRecord
    | blank => exact onRecord
    | _ => rfl

theorem auth_twins (fs : Files) (o o' : HashOrder) (fuel : Nat) (conf : Params) :
    ZoneParser.Agree (fun z z' => Twins z z' ) (parseAuthZoneFile fs o fuel conf) (parseAuthZoneFile fs o' fuel conf) := by
  unfold parseAuthZoneFile
  cases fs conf.filePath with
  | none => rfl
  | some file =>
    refine Agree.pre fun x => ?_
    obtain ⟨soa, minimum, t⟩ := x
    exact ZoneParser.Agree.bind (entries_twins fs o o' fuel _ t (Twins.new conf.zone)) fun a b h => h.insert soa

/-- Either passes or is refused. -/
def Settles {ε : Type} (x : Out ε Unit) : Prop := x = .ok () ∨ ∃ e, x = .err e

theorem forAll_settles {ε α : Type} {f : α → Out ε Unit} : ∀ {l : List α}, (∀ x ∈ l, Settles (f x)) →
    (forAll f l = .ok () ∧ ∀ x ∈ l, f x = .ok ()) ∨ ((∃ e, forAll f l = .err e) ∧ ¬ ∀ x ∈ l, f x = .ok ())
  | [], _ => .inl ⟨rfl, fun _ h => nomatch h⟩
  | x :: l, h => by
    rw [forAll]
    rcases h x (List.mem_cons_self ..) with e | ⟨e, he⟩
    · rw [e, Out.bind_ok]
      rcases forAll_settles (l := l) fun y hy => h y (List.mem_cons_of_mem _ hy) with ⟨a, b⟩ | ⟨a, b⟩
      · exact .inl ⟨a, fun y hy => by rcases List.mem_cons.1 hy with rfl | hy; exacts [e, b y hy]⟩
      · exact .inr ⟨a, fun c => b fun y hy => c y (List.mem_cons_of_mem _ hy)⟩
    · rw [he]
      exact .inr ⟨⟨e, rfl⟩, fun c => by have := c x (List.mem_cons_self ..); rw [he] at this; cases this⟩

/-- Two checks with the same verdict. -/
def Verdicts {ε : Type} (x y : Out ε Unit) : Prop := (x = .ok () ∧ y = .ok ()) ∨ ((∃ e, x = .err e) ∧ ∃ e, y = .err e)

theorem Verdicts.settles {ε : Type} {x y : Out ε Unit} (h : Verdicts x y) : Settles x ∧ Settles y := by
  rcases h with ⟨a, b⟩ | ⟨a, b⟩
  · exact ⟨.inl a, .inl b⟩
  · exact ⟨.inr a, .inr b⟩

theorem Verdicts.self {ε : Type} {x : Out ε Unit} (h : Settles x) : Verdicts x x := by
  rcases h with a | a
  · exact .inl ⟨a, a⟩
  · exact .inr ⟨a, a⟩

theorem Verdicts.seq {ε : Type} {x y x' y' : Out ε Unit} (h : Verdicts x y) (h' : Verdicts x' y') :
    Verdicts (x >>= fun _ => x') (y >>= fun _ => y') := by
  rcases h with ⟨rfl, rfl⟩ | ⟨⟨e, rfl⟩, ⟨e', rfl⟩⟩
  · exact h'
  · exact .inr ⟨⟨e, rfl⟩, ⟨e', rfl⟩⟩

theorem forAll_verdicts {ε α : Type} {f g : α → Out ε Unit} {l l' : List α} (hm : ∀ x, x ∈ l ↔ x ∈ l') (h : ∀ x ∈ l, Verdicts (f x) (g x)) :
    Verdicts (forAll f l) (forAll g l') := by
  have iff : (∀ x ∈ l, f x = .ok ()) ↔ ∀ x ∈ l', g x = .ok () := by
    constructor
    · intro a x hx
      rcases h x ((hm x).2 hx) with ⟨-, b⟩ | ⟨⟨e, c⟩, -⟩
      · exact b
      · have := a x ((hm x).2 hx); rw [c] at this; cases this
    · intro a x hx
      rcases h x hx with ⟨b, -⟩ | ⟨-, ⟨e, c⟩⟩
      · exact b
      · have := a x ((hm x).1 hx); rw [c] at this; cases this
  rcases forAll_settles (f := f) (l := l) fun x hx => (h x hx).settles.1 with ⟨a, b⟩ | ⟨a, b⟩ <;>
    rcases forAll_settles (f := g) (l := l') fun x hx => (h x ((hm x).2 hx)).settles.2 with ⟨a', b'⟩ | ⟨a', b'⟩
  · exact .inl ⟨a, a'⟩
  · exact absurd (iff.1 b) b'
  · exact absurd (iff.2 b') b
  · exact .inr ⟨a, a'⟩

theorem isEmpty_of_mem {α : Type} {l l' : List α} (h : ∀ x, x ∈ l ↔ x ∈ l') : l.isEmpty = l'.isEmpty := by
  cases l with
  | nil =>
    cases l' with
    | nil => rfl
    | cons a t => exact nomatch (h a).2 (List.mem_cons_self ..)
  | cons a t =>
    cases l' with
    | nil => exact nomatch (h a).1 (List.mem_cons_self ..)
    | cons => rfl

theorem auth_verdicts {o o' : HashOrder} {z z' : Zone} (h : Twins z z') (subs : List Zone) :
    Verdicts (validateAuthZone o ⟨z, subs⟩) (validateAuthZone o' ⟨z', subs⟩) := by
  unfold validateAuthZone
  dsimp only
  rw [isEmpty_of_mem (h.all o o' .NS), h.1]
  cases (z'.getAllOfType o' .NS).isEmpty with
  | true => exact .inr ⟨⟨_, rfl⟩, ⟨_, rfl⟩⟩
  | false =>
    refine forAll_verdicts (h.all o o' .NS) fun r _ => Verdicts.self ?_
    cases r.node.isInZoneRoot z'.zone with
    | true => exact .inl rfl
    | false => exact .inr ⟨_, rfl⟩

theorem searchGlue_total {z : Zone} {log : List Record} (h : Holds z log) (p : Profile) (n : Name) : ∃ b, searchGlue p n z = .ok b := by
  unfold searchGlue
  rw [h.get]
  by_cases e : recordsAt log n .A = []
  · rw [if_pos e]; exact ⟨_, rfl⟩
  · rw [if_neg e]; exact ⟨_, rfl⟩

theorem forAll_settled {ε α : Type} {f : α → Out ε Unit} {l : List α} (h : ∀ x ∈ l, Settles (f x)) : Settles (forAll f l) := by
  rcases forAll_settles h with ⟨a, -⟩ | ⟨a, -⟩
  · exact .inl a
  · exact .inr a

theorem subNs_settles {p : Profile} {z z' sub : Zone} {subs : List Zone} (hz : z.zone = z'.zone) (hs : ∀ s ∈ subs, ∃ log, Holds s log) {r : Record} (hr : r.recordType = .NS) :
    validateSubNs p sub ⟨z, subs⟩ r = validateSubNs p sub ⟨z', subs⟩ r ∧ Settles (validateSubNs p sub ⟨z, subs⟩ r) := by
  unfold validateSubNs
  dsimp only
  rw [hz]
  refine ⟨rfl, ?_⟩
  split
  · exact .inr ⟨_, rfl⟩
  · obtain ⟨n, -, e⟩ := nsData_of hr
    rw [e, Out.bind_ok]
    split
    · exact .inl rfl
    · refine forAll_settled fun s hm => ?_
      obtain ⟨log, hl⟩ := hs s hm
      split
      · obtain ⟨b, hb⟩ := searchGlue_total hl p n
        rw [hb, Out.bind_ok]
        cases b with
        | true => exact .inl rfl
        | false => exact .inr ⟨_, rfl⟩
      · exact .inl rfl

theorem subA_settles {p : Profile} {z z' : Zone} {subs : List Zone} (hs : ∀ s ∈ subs, ∃ log, Holds s log) (r : Record) :
    validateSubA p ⟨z, subs⟩ r = validateSubA p ⟨z', subs⟩ r ∧ Settles (validateSubA p ⟨z, subs⟩ r) := by
  unfold validateSubA
  refine ⟨rfl, ?_⟩
  dsimp only
  have h : ∃ b, anyM (fun sub => searchReferredNs p r.node sub) subs = .ok b := by
    clear z z'
    induction subs with
    | nil => exact ⟨false, rfl⟩
    | cons s l ih =>
      obtain ⟨log, hl⟩ := hs s (List.mem_cons_self ..)
      obtain ⟨b, hb, -⟩ := searchReferred_total hl p r.node
      rw [anyM, hb, Out.bind_ok]
      cases b with
      | true => exact ⟨true, rfl⟩
      | false => exact ih fun s hs' => hs s (List.mem_cons_of_mem _ hs')
  obtain ⟨b, hb⟩ := h
  rw [hb, Out.bind_ok]
  cases b with
  | true => exact .inl rfl
  | false => exact .inr ⟨_, rfl⟩

theorem subzone_verdicts {p : Profile} {o o' : HashOrder} {z z' : Zone} {subs : List Zone} (hz : z.zone = z'.zone)
    (hs : ∀ s ∈ subs, ∃ log, Holds s log) {s : Zone} (hm : s ∈ subs) :
    Verdicts (validateSubzone p o ⟨z, subs⟩ s) (validateSubzone p o' ⟨z', subs⟩ s) := by
  obtain ⟨log, hl⟩ := hs s hm
  have tw : Twins s s := ⟨rfl, log, log, hl, hl, fun _ _ => rfl⟩
  unfold validateSubzone
  dsimp only
  rw [isEmpty_of_mem (tw.all o o' .NS)]
  cases (s.getAllOfType o' .NS).isEmpty with
  | true => exact .inr ⟨⟨_, rfl⟩, ⟨_, rfl⟩⟩
  | false =>
    refine Verdicts.seq (forAll_verdicts (tw.all o o' .NS) fun r hr => ?_) (forAll_verdicts (tw.all o o' .A) fun r _ => ?_)
    · have := subNs_settles (p := p) (sub := s) hz hs (hl.all_type o .NS r hr)
      rw [← this.1]
      exact .self this.2
    · have := subA_settles (p := p) (z := z) (z' := z') hs r
      rw [← this.1]
      exact .self this.2

theorem subs_hold {fs : Files} {fuel : Nat} {confs : List SubParams} {subs : List Zone} (h : parseSubZones fs fuel confs = .ok subs) :
    ∀ s ∈ subs, ∃ log, Holds s log := by
  have := parseSubZones_sat (np := False) (nd := False) (fs := fs) (fun x => x.elim) fuel confs (fun x => x.elim)
  rw [h] at this
  intro s hs
  obtain ⟨c, -, log, hl⟩ := SubsLoaded.mem this s hs
  exact ⟨log, hl.holds⟩

theorem twins_query {p : Profile} {z z' : Zone} {subs : List Zone} (h : Twins z z') (req : Message) (q : Question) :
    Nameserver.query p req q ⟨z, subs⟩ = Nameserver.query p req q ⟨z', subs⟩ := by
  unfold Nameserver.query
  dsimp only
  rw [h.1]
  have e : Nameserver.authZone p req q z = Nameserver.authZone p req q z' := by
    unfold Nameserver.authZone
    rw [h.get, h.get, h.1, h.get]
  have e' : ∀ sub, Nameserver.referral p req sub ⟨z, subs⟩ = Nameserver.referral p req sub ⟨z', subs⟩ := fun _ => rfl
  rw [e]
  split
  · rfl
  · cases subs.find? fun sub => q.node.isInZone sub.zone with
    | none => rfl
    | some sub => exact e' sub

theorem twins_handle {p : Profile} {z z' : Zone} {subs : List Zone} (h : Twins z z') (read : ReadResult) :
    Nameserver.handle p ⟨z, subs⟩ read = Nameserver.handle p ⟨z', subs⟩ read := by
  unfold Nameserver.handle
  cases read with
  | fullMessage req =>
    dsimp only
    cases Nameserver.validate req with
    | none => rfl
    | some q => dsimp only; rw [twins_query h]
  | _ => rfl

theorem twins_serve {p : Profile} {z z' : Zone} {subs : List Zone} (h : Twins z z') : SameServer p ⟨z, subs⟩ ⟨z', subs⟩ := by
  refine ⟨fun datagram sends => ?_, fun stream room => ?_⟩
  · unfold Nameserver.serveUdp
    cases Net.udpRead p datagram with
    | ok read => rw [Out.bind_ok, Out.bind_ok, twins_handle h]
    | _ => rfl
  · unfold Nameserver.serveTcp
    cases Net.tcpRead p stream with
    | ok x =>
      obtain ⟨read, rest⟩ := x
      rw [Out.bind_ok, Out.bind_ok]
      simp only
      rw [twins_handle h]
    | _ => rfl

theorem start_of {p : Profile} {x y x' y' : Out ParseErr Unit} {zones zones' : ManagedZone} (h : Verdicts x y) (h' : Verdicts x' y')
    (hs : SameServer p zones zones') :
    SameStart p (x >>= fun _ => x' >>= fun _ => .ok zones) (y >>= fun _ => y' >>= fun _ => .ok zones') := by
  rcases h with ⟨rfl, rfl⟩ | ⟨⟨e, rfl⟩, ⟨e', rfl⟩⟩
  · rcases h' with ⟨rfl, rfl⟩ | ⟨⟨e, rfl⟩, ⟨e', rfl⟩⟩
    · exact .serves hs
    · exact .refuses e e'
  · exact .refuses e e'

theorem C114_same_server (p : Profile) (fs : Files) (o o' : HashOrder) (fuel : Nat) (conf : Params) :
    SameStart p (parseZoneFiles p fs o fuel conf) (parseZoneFiles p fs o' fuel conf) := by
  have ha := auth_twins fs o o' fuel conf
  unfold parseZoneFiles
  generalize parseAuthZoneFile fs o fuel conf = x at ha ⊢
  generalize parseAuthZoneFile fs o' fuel conf = y at ha ⊢
  cases x with
  | err e => cases y with
    | err e' => exact .refuses e e'
    | _ => exact ha.elim
  | panic k => cases y with
    | panic k' => cases ha; exact .panics k
    | _ => exact ha.elim
  | diverge => cases y with
    | diverge => exact .hangs
    | _ => exact ha.elim
  | ok z => cases y with
    | ok z' =>
      rw [Out.bind_ok, Out.bind_ok]
      have ht : Twins z z' := ha
      cases hs : parseSubZones fs fuel conf.subZones with
      | err e => exact .refuses e e
      | panic k => exact .panics k
      | diverge => exact .hangs
      | ok subs =>
        rw [Out.bind_ok, Out.bind_ok]
        dsimp only
        have hh := subs_hold hs
        exact start_of (auth_verdicts ht subs) (forAll_verdicts (fun _ => Iff.rfl) fun s hm => subzone_verdicts ht.1 hh hm) (twins_serve ht)
    | _ => exact ha.elim

/-- The maps of the sample zone (with an included file) are laid out differently in two starts; the servers are the same. -/
example : parseZoneFiles .debug sampleFiles forwards 20 sampleConf ≠ parseZoneFiles .debug sampleFiles backwards 20 sampleConf ∧
    ∃ zones zones', parseZoneFiles .debug sampleFiles forwards 20 sampleConf = .ok zones ∧
      parseZoneFiles .debug sampleFiles backwards 20 sampleConf = .ok zones' ∧ SameServer .debug zones zones' := by
  refine ⟨by decide +kernel, ?_⟩
  obtain ⟨zones, h, -⟩ := sample_loads
  have := C114_same_server .debug sampleFiles forwards backwards 20 sampleConf
  rw [h] at this
  generalize parseZoneFiles .debug sampleFiles backwards 20 sampleConf = y at this
  cases this with
  | serves hs => exact ⟨zones, _, h, rfl, hs⟩

end Ariadne.Props
