import Verif.Spec.Threads
import Verif.Spec.Server
import Verif.Model.Daemon

/-! # The resolver as a program: what it does is what its servers do and what its threads do -/

namespace Ariadne.Daemon

open Server Resolver Spec

variable {Addr R O : Type} {S : Schedule} {net : Nat → List Event → Ip4 → List UInt8 → Option (List UInt8)} {p : Profile} {conf : Params} {fuel : Nat}
  {ut tt : Nat} {c : RecordsCache} {guard : State Addr → Prop}

/-! ## Work only grows -/

/-- What has been begun stays, and what has been done stays as it is. -/
structure Work.Le (k k' : Work) : Prop where
  begun : ∀ m x, k m = some x → ∃ x', k' m = some x' ∧ x'.1 = x.1
  ended : ∀ m x o, k m = some x → x.2.task = .done o → k' m = some x

theorem Work.Le.refl (k : Work) : k.Le k := ⟨fun _ x h => ⟨x, h, rfl⟩, fun _ _ _ h _ => h⟩

theorem Work.Le.trans {k k' k'' : Work} (h : k.Le k') (h' : k'.Le k'') : k.Le k'' where
  begun m x hx := by
    obtain ⟨x', h1, h2⟩ := h.begun m x hx
    obtain ⟨x'', h3, h4⟩ := h'.begun m x' h1
    exact ⟨x'', h3, h4.trans h2⟩
  ended m x o hx ho := h'.ended m x o (h.ended m x o hx ho) ho

/-- The work for a number is new. -/
theorem Work.le_new {k : Work} {n : Nat} {y : Job × Thread (List (List UInt8) × Bool)} (h : k n = none) : k.Le fun m => if m = n then some y else k m where
  begun m x hx := by
    by_cases hm : m = n
    · rw [hm, h] at hx; cases hx
    · exact ⟨x, (if_neg hm).trans hx, rfl⟩
  ended m x o hx _ := by
    by_cases hm : m = n
    · rw [hm, h] at hx; cases hx
    · exact (if_neg hm).trans hx

/-- A step of what is being worked at. -/
theorem Work.le_step {k : Work} {j : Nat} {x : Job × Thread (List (List UInt8) × Bool)} (h : k j = some x)
    {f : List Event → Ip4 → List UInt8 → Option (List UInt8)} {t t' : Nat} {id : UInt16} {c : RecordsCache} :
    k.Le fun m => if m = j then some (x.1, (x.2.step f t t' id c).1) else k m where
  begun m y hy := by
    by_cases hm : m = j
    · subst hm
      obtain rfl := Option.some.inj (h.symm.trans hy)
      exact ⟨_, if_pos rfl, rfl⟩
    · exact ⟨y, (if_neg hm).trans hy, rfl⟩
  ended m y o hy ho := by
    by_cases hm : m = j
    · subst hm
      obtain rfl := Option.some.inj (h.symm.trans hy)
      have e : (x.2.step f t t' id c).1 = x.2 := by unfold Thread.step; rw [ho]
      refine (if_pos rfl).trans ?_
      rw [e]
    · exact (if_neg hm).trans hy

theorem port_work {π : Port R O} {stop : Bool} {s t : Server.State R O} {k k' : Work} (h : PortStep π p conf fuel stop s k t k') :
    k.Le k' ∧ s.jobs <+: t.jobs ∧ ∀ m x, k' m = some x → k m = some x ∨ ∃ n r j, m = π.slot n ∧ s.jobs[n]? = some r ∧ π.job r j ∧
      k m = none ∧ x = (j, ⟨Steps.serve p conf fuel j, []⟩) := by
  cases h with
  | listen h =>
    refine ⟨.refl k, ?_, fun m x hx => .inl hx⟩
    cases h <;> first | exact List.prefix_refl _ | exact List.prefix_append _ _
  | «begin» i n r j h1 h2 h3 h4 =>
    refine ⟨Work.le_new h4, List.prefix_refl _, fun m x hx => ?_⟩
    dsimp only at hx
    by_cases hm : m = π.slot n
    · rw [if_pos hm] at hx
      exact .inr ⟨n, r, j, hm, h2, h3, hm ▸ h4, (Option.some.inj hx).symm⟩
    · rw [if_neg hm] at hx
      exact .inl hx
  | _ => exact ⟨.refl k, List.prefix_refl _, fun m x hx => .inl hx⟩

/-- A later state. -/
structure Le (d e : State Addr) : Prop where
  work : d.work.Le e.work
  udp : d.udp.jobs <+: e.udp.jobs
  tcp : d.tcp.jobs <+: e.tcp.jobs

theorem Le.refl (d : State Addr) : Le d d := ⟨.refl _, List.prefix_refl _, List.prefix_refl _⟩

theorem Le.trans {d e f : State Addr} (h : Le d e) (h' : Le e f) : Le d f := ⟨h.work.trans h'.work, h.udp.trans h'.udp, h.tcp.trans h'.tcp⟩

theorem step_le {d e : State Addr} (h : Step S net p conf fuel d e) : Le d e := by
  cases h with
  | udp h => have := port_work h; exact ⟨this.1, this.2.1, List.prefix_refl _⟩
  | tcp h => have := port_work h; exact ⟨this.1, List.prefix_refl _, this.2.1⟩
  | work j x h1 h2 => exact ⟨Work.le_step h2, List.prefix_refl _, List.prefix_refl _⟩
  | clean r h => exact ⟨.refl _, List.prefix_refl _, List.prefix_refl _⟩
  | udpArrive h => cases h; exact ⟨.refl _, List.prefix_refl _, List.prefix_refl _⟩
  | tcpArrive h => cases h; exact ⟨.refl _, List.prefix_refl _, List.prefix_refl _⟩
  | setStop => exact ⟨.refl _, List.prefix_refl _, List.prefix_refl _⟩

/-! ## Whose work it is -/

/-- All work is for a job of one of the servers. -/
structure Owned (d : State Addr) : Prop where
  owner : ∀ m x, d.work m = some x → (∃ n r, m = 2 * n ∧ d.udp.jobs[n]? = some r ∧ (udpPort (Addr := Addr)).job r x.1) ∨
    ∃ n r, m = 2 * n + 1 ∧ d.tcp.jobs[n]? = some r ∧ (tcpPort (Addr := Addr)).job r x.1

theorem get_prefix {α : Type} {l l' : List α} {n : Nat} {a : α} (h : l <+: l') (hn : l[n]? = some a) : l'[n]? = some a := by
  obtain ⟨t, rfl⟩ := h
  rw [List.getElem?_append_left (List.getElem?_eq_some_iff.1 hn).1]
  exact hn

theorem owned {d : State Addr} (h : Reachable S net p conf fuel ut tt c guard d) : Owned d := by
  induction h with
  | init => exact ⟨fun m x h => by cases h⟩
  | @step d e h hg hs ih =>
    have hle := step_le hs
    have old : ∀ m (x x' : Job × Thread (List (List UInt8) × Bool)), d.work m = some x → x'.1 = x.1 →
        (∃ n r, m = 2 * n ∧ e.udp.jobs[n]? = some r ∧ (udpPort (Addr := Addr)).job r x'.1) ∨
        ∃ n r, m = 2 * n + 1 ∧ e.tcp.jobs[n]? = some r ∧ (tcpPort (Addr := Addr)).job r x'.1 := by
      intro m x x' hx he
      rw [he]
      exact (ih.owner m x hx).imp (fun ⟨n, r, h1, h2, h3⟩ => ⟨n, r, h1, get_prefix hle.udp h2, h3⟩)
        fun ⟨n, r, h1, h2, h3⟩ => ⟨n, r, h1, get_prefix hle.tcp h2, h3⟩
    refine ⟨fun m x hx => ?_⟩
    cases hs with
    | udp hp =>
      rcases (port_work hp).2.2 m x hx with h1 | ⟨n, r, j, h1, h2, h3, -, rfl⟩
      · exact old m x x h1 rfl
      · exact .inl ⟨n, r, h1, get_prefix hle.udp h2, h3⟩
    | tcp hp =>
      rcases (port_work hp).2.2 m x hx with h1 | ⟨n, r, j, h1, h2, h3, -, rfl⟩
      · exact old m x x h1 rfl
      · exact .inr ⟨n, r, h1, get_prefix hle.tcp h2, h3⟩
    | work j y h1 h2 =>
      dsimp only at hx
      by_cases hm : m = j
      · rw [if_pos hm] at hx
        obtain rfl := Option.some.inj hx
        exact old m y _ (hm ▸ h2) rfl
      · rw [if_neg hm] at hx
        exact old m x x hx rfl
    | clean r h => exact old m x x hx rfl
    | udpArrive h => exact old m x x hx rfl
    | tcpArrive h => exact old m x x hx rfl
    | setStop => exact old m x x hx rfl

/-! ## The threads -/

/-- The program has gone as the threads that serve these jobs go. -/
structure Follows (S : Schedule) (net : Nat → List Event → Ip4 → List UInt8 → Option (List UInt8)) (p : Profile) (conf : Params) (fuel : Nat)
    (c : RecordsCache) (jobs : Nat → Job) (d : State Addr) : Prop where
  cache : d.cache = (System.after S net (.serving p conf fuel jobs c) d.events).cache
  threads : ∀ m x, d.work m = some x → (System.after S net (.serving p conf fuel jobs c) d.events).threads m = x.2
  waiting : ∀ m, d.work m = none → ∀ n < d.events, S.move n ≠ .step m

theorem unmoved {s : System (List (List UInt8) × Bool)} {j : Nat} : ∀ n, (∀ m < n, S.move m ≠ .step j) → (System.after S net s n).threads j = s.threads j
  | 0, _ => rfl
  | n + 1, h => by
    have ih := unmoved (s := s) n fun m hm => h m (by omega)
    show (System.next S net n (System.after S net s n)).threads j = _
    unfold System.next
    cases hm : S.move n with
    | clean r => exact ih
    | step i =>
      dsimp only
      rw [if_neg (fun e => h n (Nat.lt_succ_self n) (by rw [hm, e]))]
      exact ih

theorem follows_port {jobs : Nat → Job} {π : Port R O} {stop : Bool} {s t : Server.State R O} {k k' : Work} (h : PortStep π p conf fuel stop s k t k')
    (hj : ∀ m x, k' m = some x → x.1 = jobs m) {d e : State Addr} (hd : d.work = k) (he : e.work = k') (h1 : e.cache = d.cache)
    (h2 : e.events = d.events) (hf : Follows S net p conf fuel c jobs d) : Follows S net p conf fuel c jobs e := by
  have hp := port_work h
  refine ⟨by rw [h1, h2]; exact hf.cache, fun m x hx => ?_, fun m hm n hn => ?_⟩
  · rw [he] at hx
    rw [h2]
    rcases hp.2.2 m x hx with h3 | ⟨n, r, j, rfl, h3, h4, h5, rfl⟩
    · exact hf.threads m x (hd ▸ h3)
    · rw [unmoved _ (hf.waiting _ (hd ▸ h5))]
      have := hj _ _ hx
      show Thread.mk _ _ = Thread.mk _ _
      rw [← this]
  · rw [h2] at hn
    refine hf.waiting m ?_ n hn
    cases hk : d.work m with
    | none => rfl
    | some x =>
      obtain ⟨x', h3, -⟩ := hp.1.begun m x (hd ▸ hk)
      rw [← he, hm] at h3
      cases h3

/-- The work under way is part of what the threads do that serve the jobs in question, with the same cache, after the same events. -/
theorem follows {jobs : Nat → Job} {d : State Addr} (h : Reachable S net p conf fuel ut tt c guard d) (hj : ∀ m x, d.work m = some x → x.1 = jobs m) :
    Follows S net p conf fuel c jobs d := by
  induction h with
  | init => exact ⟨rfl, fun m x h => (by cases h), fun m _ n hn => absurd hn (Nat.not_lt_zero n)⟩
  | @step d e h hg hs ih =>
    have hle := step_le hs
    have ih := ih fun m x hx => by
      obtain ⟨x', h1, h2⟩ := hle.work.begun m x hx
      rw [← h2]
      exact hj m x' h1
    cases hs with
    | udp hp => exact follows_port hp hj rfl rfl rfl rfl ih
    | tcp hp => exact follows_port hp hj rfl rfl rfl rfl ih
    | work j x h1 h2 =>
      have e : System.after S net (.serving p conf fuel jobs c) (d.events + 1) =
          System.next S net d.events (System.after S net (.serving p conf fuel jobs c) d.events) := rfl
      have e2 := ih.threads j x h2
      refine ⟨?_, fun m y hy => ?_, fun m hm n hn => ?_⟩
      · dsimp only
        rw [e]
        unfold System.next
        rw [h1]
        dsimp only
        rw [e2, ← ih.cache]
      · dsimp only at hy ⊢
        rw [e]
        unfold System.next
        rw [h1]
        dsimp only
        by_cases hmj : m = j
        · rw [if_pos hmj] at hy ⊢
          obtain rfl := Option.some.inj hy
          rw [e2, ← ih.cache]
        · rw [if_neg hmj] at hy ⊢
          exact ih.threads m y hy
      · dsimp only at hm hn
        have hmj : m ≠ j := fun hmj => by rw [if_pos hmj] at hm; cases hm
        rw [if_neg hmj] at hm
        rcases Nat.lt_succ_iff_lt_or_eq.1 hn with hn | rfl
        · exact ih.waiting m hm n hn
        · rw [h1]
          intro he
          injection he with he
          exact hmj he.symm
    | clean r h1 =>
      have e : System.after S net (.serving p conf fuel jobs c) (d.events + 1) =
          System.next S net d.events (System.after S net (.serving p conf fuel jobs c) d.events) := rfl
      have e3 : System.next S net d.events (System.after S net (.serving p conf fuel jobs c) d.events) =
          { System.after S net (.serving p conf fuel jobs c) d.events with
            cache := (System.after S net (.serving p conf fuel jobs c) d.events).cache.clean r } := by
        unfold System.next
        rw [h1]
      refine ⟨?_, fun m y hy => ?_, fun m hm n hn => ?_⟩
      · dsimp only
        rw [e, e3, ih.cache]
      · dsimp only
        rw [e, e3]
        exact ih.threads m y hy
      · rcases Nat.lt_succ_iff_lt_or_eq.1 hn with hn | rfl
        · exact ih.waiting m hm n hn
        · rw [h1]
          intro he
          cases he
    | udpArrive h1 => exact ⟨ih.cache, ih.threads, ih.waiting⟩
    | tcpArrive h1 => exact ⟨ih.cache, ih.threads, ih.waiting⟩
    | setStop => exact ⟨ih.cache, ih.threads, ih.waiting⟩

/-- What the workers are serving, and, as there is nothing to say of the others, something else. -/
def State.jobs (d : State Addr) (m : Nat) : Job :=
  match d.work m with
  | some x => x.1
  | none => .udp [] []

theorem jobs_work (d : State Addr) (m : Nat) (x : Job × Thread (List (List UInt8) × Bool)) (h : d.work m = some x) : x.1 = d.jobs m := by
  unfold State.jobs
  rw [h]

/-- The same in all states along the way, with the guard. -/
theorem guarded {jobs : Nat → Job} {d : State Addr} {G : Nat → System (List (List UInt8) × Bool) → Prop}
    (h : Reachable S net p conf fuel ut tt c guard d) (hj : ∀ m x, d.work m = some x → x.1 = jobs m)
    (hG : ∀ d : State Addr, guard d → Follows S net p conf fuel c jobs d → (∀ j, S.move d.events = .step j → ∃ x, d.work j = some x) →
      G d.events (System.after S net (.serving p conf fuel jobs c) d.events)) :
    ∀ m < d.events, G m (System.after S net (.serving p conf fuel jobs c) m) := by
  induction h with
  | init => exact fun m hm => absurd hm (Nat.not_lt_zero m)
  | @step d e h hg hs ih =>
    have hle := step_le hs
    have hj' : ∀ m x, d.work m = some x → x.1 = jobs m := fun m x hx => by
      obtain ⟨x', h1, h2⟩ := hle.work.begun m x hx
      rw [← h2]
      exact hj m x' h1
    have ih := ih hj'
    have hf := follows h hj'
    cases hs with
    | work j x h1 h2 =>
      intro m hm
      rcases Nat.lt_succ_iff_lt_or_eq.1 hm with hm | rfl
      · exact ih m hm
      · refine hG _ hg hf fun j' hj' => ?_
        rw [h1] at hj'
        cases hj'
        exact ⟨x, h2⟩
    | clean r h1 =>
      intro m hm
      rcases Nat.lt_succ_iff_lt_or_eq.1 hm with hm | rfl
      · exact ih m hm
      · refine hG _ hg hf fun j' hj' => ?_
        rw [h1] at hj'
        cases hj'
    | _ => exact ih

/-! ## The servers -/

/-- What the work `k` for the jobs in `js` allows the server to do. -/
def kind (π : Port R O) (js : List R) (k : Work) : Kind R O where
  serves r outs panics := (π.skip r panics ∧ outs = []) ∨ ∃ n x, js[n]? = some r ∧ k (π.slot n) = some x ∧
    ((∃ res, x.2.task = .done (.ok res) ∧ outs = π.result r res ∧ panics = false) ∨ ∃ e, x.2.task = .done (.panic e) ∧ outs = [] ∧ panics = true)
  mayDrop := π.mayDrop

theorem quiet_step {K : Kind R O} {stop : Bool} {s t : Server.State R O} (h : Server.Step (quiet K.mayDrop) stop s t) : Server.Step K stop s t := by
  cases h with
  | bound h => exact .bound h
  | bindErr h => exact .bindErr h
  | recv r rest h h' => exact .recv r rest h h'
  | recvErr h => exact .recvErr h
  | seeStop r h h' => exact .seeStop r h h'
  | clear r h h' => exact .clear r h h'
  | cloneErr r h h' => exact .cloneErr r h h'
  | submit r h h' => exact .submit r h h'
  | abort r h h' => exact .abort r h h'
  | drop h h' => exact .drop h h'
  | dropEnd h h' => exact .dropEnd h h'
  | dropPanic h h' => exact .dropPanic h h'
  | lock i h h' => exact .lock i h h'
  | takeJob i n q h h' => exact .takeJob i n q h h'
  | takeStop i q h h' => exact .takeStop i q h h'
  | finish i n r outs h h' h'' => exact h''.elim
  | crash i n r outs h h' h'' => exact h''.elim
  | orphan i h h' h'' => exact .orphan i h h' h''

theorem port_server {π : Port R O} {stop : Bool} {s t : Server.State R O} {k k' K : Work} {js : List R} (h : PortStep π p conf fuel stop s k t k')
    (hjs : s.jobs <+: js) (hK : k.Le K) : Server.Step (kind π js K) stop s t ∨ t = s := by
  have hnil : ∀ {s : Server.State R O}, s.sent = s.sent ++ [] := fun {s} => (List.append_nil s.sent).symm
  cases h with
  | listen h => exact .inl (quiet_step (K := kind π js K) h)
  | «begin» i n r j h1 h2 h3 h4 => exact .inr rfl
  | finish i n r x res h1 h2 h3 h4 =>
    exact .inl (.finish i n r _ h1 h2 (.inr ⟨n, x, get_prefix hjs h2, hK.ended _ _ _ h3 h4, .inl ⟨res, h4, rfl, rfl⟩⟩))
  | crash i n r x e h1 h2 h3 h4 =>
    have := Server.Step.crash (k := kind π js K) (stop := stop) i n r [] h1 h2
      (.inr ⟨n, x, get_prefix hjs h2, hK.ended _ _ _ h3 h4, .inr ⟨e, h4, rfl, rfl⟩⟩)
    rw [List.append_nil] at this
    exact .inl this
  | skip i n r h1 h2 h3 h4 =>
    have := Server.Step.finish (k := kind π js K) (stop := stop) i n r [] h1 h2 (.inl ⟨h4, rfl⟩)
    rw [List.append_nil] at this
    exact .inl this
  | skipPanic i n r h1 h2 h3 h4 =>
    have := Server.Step.crash (k := kind π js K) (stop := stop) i n r [] h1 h2 (.inl ⟨h4, rfl⟩)
    rw [List.append_nil] at this
    exact .inl this

/-- Each of the servers has done what Model/Server lets it do, if it is taken into account what the workers did. -/
theorem servers {d f : State Addr} (h : Reachable S net p conf fuel ut tt c guard d) (hle : Le d f) :
    Server.Reachable (kind udpPort f.udp.jobs f.work) ut d.stop d.udp ∧ Server.Reachable (kind tcpPort f.tcp.jobs f.work) tt d.stop d.tcp := by
  induction h with
  | init => exact ⟨.init, .init⟩
  | @step d e h hg hs ih =>
    have hd := (step_le hs).trans hle
    have ih := ih hd
    cases hs with
    | udp hp =>
      refine ⟨?_, ih.2⟩
      rcases port_server hp hd.udp hd.work with h1 | h1
      · exact .step ih.1 h1
      · dsimp only
        rw [h1]
        exact ih.1
    | tcp hp =>
      refine ⟨ih.1, ?_⟩
      rcases port_server hp hd.tcp hd.work with h1 | h1
      · exact .step ih.2 h1
      · dsimp only
        rw [h1]
        exact ih.2
    | udpArrive h1 => exact ⟨.arrive ih.1 h1, ih.2⟩
    | tcpArrive h1 => exact ⟨ih.1, .arrive ih.2 h1⟩
    | setStop => exact ⟨.setStop ih.1, .setStop ih.2⟩
    | _ => exact ih

end Ariadne.Daemon
