import Verif.Lemmas.WellFound
import Verif.Props.Delegation

/-! # C88: what earlier lookups leave in the cache -/

namespace Ariadne.Props

open Spec Resolver BitsBuf NameSpace

/-! ## C88 -/

/-- C88: a name that is found if the cache is empty is also found with what an earlier successful lookup left in the cache (no
other thread being there, and servers answering the same question always in the same way). -/
def C88_statement : Prop :=
  ∀ (env : Env) (p : Profile) (conf : Params) (fuel : Nat) (node node' : Name) (kind kind' : RecordType) (r r' : Response) (w : World),
    (∀ i c, env.others i c = c) → (∀ h h' a q, env.net h a q = env.net h' a q) →
    lookup env p conf fuel node kind ⟨.empty, 0, []⟩ = (.ok r, w) →
    (lookup env p conf fuel node' kind' { w with cache := .empty }).1 = .ok r' →
    ∃ r'', (lookup env p conf fuel node' kind' w).1 = .ok r''

/-- A referral that gives the address of the server of com. with a shorter TTL than that of the NS record. -/
def staleReferral (id : UInt16) : Message :=
  ⟨⟨id, true, .STD, false, false, false, false, 0, .NoError, 0, 0, 1, 1⟩, [], [], [⟨⟨"com.".toList⟩, .IN, 9, 7, .NS ⟨"y.com.".toList⟩⟩],
    [⟨⟨"y.com.".toList⟩, .IN, 3, 4, .A ⟨2, 2, 2, 2⟩⟩]⟩

/-- The answers of that server. -/
def staleAnswer (id : UInt16) : Message :=
  ⟨⟨id, true, .STD, true, false, false, false, 0, .NoError, 0, 2, 0, 0⟩, [],
    [⟨⟨"a.com.".toList⟩, .IN, 9, 4, .A ⟨5, 6, 7, 8⟩⟩, ⟨⟨"b.com.".toList⟩, .IN, 9, 4, .A ⟨5, 6, 7, 9⟩⟩], [], []⟩

/-- Between the two lookups five seconds pass. -/
def staleEnv : Env where
  clock n := if n < 23 then 0 else 5 * NANOS
  mono i j h := by
    show (if i < 23 then 0 else 5 * NANOS) ≤ if j < 23 then 0 else 5 * NANOS
    split <;> split <;> omega
  others _ c := c
  ids n := UInt16.ofNat n
  net _ addr q :=
    match (if addr = ⟨2, 2, 2, 2⟩ then staleAnswer (queryId q) else staleReferral (queryId q)).encodeToBytes with
    | .ok b => some b
    | _ => none

/-- The result of a lookup succeeded. -/
def succeeded (o : Out LookupErr Response) : Bool := match o with
  | .ok _ => true
  | _ => false

theorem succeeded_iff {o : Out LookupErr Response} : succeeded o = true ↔ ∃ r, o = .ok r := by
  cases o <;> simp [succeeded]

theorem C88_counterexample {env : Env} {p : Profile} {conf : Params} {fuel : Nat} {node node' : Name} {kind : RecordType}
    (ho : ∀ i c, env.others i c = c) (hn : ∀ h h' a q, env.net h a q = env.net h' a q)
    (h1 : succeeded (lookup env p conf fuel node kind ⟨.empty, 0, []⟩).1 = true)
    (h2 : succeeded (lookup env p conf fuel node' kind { (lookup env p conf fuel node kind ⟨.empty, 0, []⟩).2 with cache := .empty }).1 = true)
    (h3 : succeeded (lookup env p conf fuel node' kind (lookup env p conf fuel node kind ⟨.empty, 0, []⟩).2).1 = false) : ¬ C88_statement := by
  intro h
  obtain ⟨r, h1⟩ := succeeded_iff.1 h1
  obtain ⟨r', h2⟩ := succeeded_iff.1 h2
  have h4 := h env p conf fuel node node' kind kind r r' _ ho hn (Prod.ext h1 rfl) h2
  rw [succeeded_iff.2 h4] at h3
  cases h3

/-- C88 is violated: the NS records of a zone are kept when the addresses of its servers have expired. The resolver then
looks for these addresses with the servers of that very zone, and gives up. -/
theorem C88_violated : ¬ C88_statement :=
  C88_counterexample (env := staleEnv) (p := .release) (conf := ⟨2, 3, 2, false⟩) (fuel := 9) (node := ⟨"a.com.".toList⟩)
    (node' := ⟨"b.com.".toList⟩) (kind := .A) (fun _ _ => rfl) (fun _ _ _ _ => rfl) (by decide +kernel) (by decide +kernel) (by decide +kernel)

/-- What is assumed of the world for a period of time: the clock is in it from now on, the name space is in order, and what
other threads do to the cache is. -/
structure InOrder (N : NameSpace) (env : Env) (p : Profile) (conf : Params) (start stop now : Nat) : Prop where
  span : ∀ i, now ≤ i → start ≤ env.clock i ∧ env.clock i ≤ stop
  run : N.WellRun env p conf.maxUdpRetries conf.maxNsQueried (stop - start)
  others : N.Companions env start stop
  follow : conf.noFollowCname = false
  retries : conf.maxUdpRetries ≠ 0

/-- C88, the part that holds: in a name space that is in order, for a period of time shorter than the TTLs of NS records and of
server addresses, a cache that is in order stays so, and the lookup of every name of interest returns what the servers say,
aliases followed, be it from the cache or from the servers; also if some servers are down and if the addresses of some
servers have to be looked up. -/
theorem C88_partial (N : NameSpace) (env : Env) (p : Profile) (conf : Params) (start stop : Nat) (w : World) (node : Name) (kind : RecordType)
    (cnames : List Record) (fate : Fate) (fuel : Nat) (ho : InOrder N env p conf start stop w.ticks) (hc : N.Coherent start stop w.cache)
    (hf : Fresh (env.clock w.ticks) w.cache) (ha : N.asked node kind) (hfares : N.Fares kind node cnames fate)
    (hn : cnames.length < conf.maxCnameRedir) (hfuel : 256 + N.depth < fuel) :
    ∃ r w', lookup env p conf fuel node kind w = (.ok r, w') ∧ Response.Reports r cnames fate ∧
      InOrder N env p conf start stop w'.ticks ∧ N.Coherent start stop w'.cache ∧ Fresh (env.clock w'.ticks) w'.cache := by
  obtain ⟨r, w', e, hw', hr⟩ := perform_works ho.run ho.others (R := N.depth) (lk := ⟨node, kind, [], [], conf⟩) hfuel ha hfares hn
    (fun _ => ho.follow) ⟨rfl, ho.retries⟩ rfl rfl (by simp) (fun m z _ hz _ => ho.run.ranks hz) w ⟨ho.span, hc, hf, by simp⟩
  exact ⟨r, w', e, hr, ⟨hw'.span, ho.run, ho.others, ho.follow, ho.retries⟩, hw'.cache, hw'.fresh⟩

/-- The empty cache is in order. -/
theorem empty_coherent (N : NameSpace) (start stop : Nat) : N.Coherent start stop .empty :=
  ⟨fun h => absurd h (by simp [Cache.empty, Cache.find, assocGet]), fun _ h => absurd h (by simp [Cache.empty, Cache.find, assocGet]),
    fun _ h => absurd h (by simp [Cache.empty, Cache.find, assocGet]), fun _ h => absurd h (by simp [Cache.empty, Cache.find, assocGet]),
    fun _ _ h => absurd h (by simp [Cache.empty, Cache.find, assocGet])⟩

/-- One lookup after the other: their results. -/
def session (env : Env) (p : Profile) (conf : Params) (fuel : Nat) : List (Name × RecordType) → World → List (Out LookupErr Response)
  | [], _ => []
  | q :: qs, w => (lookup env p conf fuel q.1 q.2 w).1 :: session env p conf fuel qs (lookup env p conf fuel q.1 q.2 w).2

/-- The name is found, or found not to exist, by following fewer than so many aliases. -/
def Resolvable (N : NameSpace) (n : Nat) (q : Name × RecordType) : Prop :=
  N.asked q.1 q.2 ∧ ∃ cnames fate, N.Fares q.2 q.1 cnames fate ∧ cnames.length < n

/-- The result is what the servers say. -/
def Resolved (N : NameSpace) (q : Name × RecordType) (o : Out LookupErr Response) : Prop :=
  ∃ r cnames fate, o = .ok r ∧ N.Fares q.2 q.1 cnames fate ∧ Response.Reports r cnames fate

/-- C88 for any number of lookups, one after the other, that start with the empty cache. -/
theorem C88_session_partial (N : NameSpace) (env : Env) (p : Profile) (conf : Params) (start stop : Nat) (fuel ticks : Nat) (log : List Event)
    (ho : InOrder N env p conf start stop ticks) (hfuel : 256 + N.depth < fuel) (questions : List (Name × RecordType))
    (hq : ∀ q ∈ questions, Resolvable N conf.maxCnameRedir q) :
    List.Forall₂ (Resolved N) questions (session env p conf fuel questions ⟨.empty, ticks, log⟩) := by
  have key : ∀ (qs : List (Name × RecordType)) (w : World), (∀ q ∈ qs, Resolvable N conf.maxCnameRedir q) → InOrder N env p conf start stop w.ticks →
      N.Coherent start stop w.cache → Fresh (env.clock w.ticks) w.cache → List.Forall₂ (Resolved N) qs (session env p conf fuel qs w) := by
    intro qs
    induction qs with
    | nil => exact fun _ _ _ _ _ => .nil
    | cons q qs ih =>
      intro w hq ho hc hf
      obtain ⟨ha, cs, f, h1, h2⟩ := hq q (List.mem_cons_self ..)
      obtain ⟨r, w', e, hr, ho', hc', hf'⟩ := C88_partial N env p conf start stop w q.1 q.2 cs f fuel ho hc hf ha h1 h2 hfuel
      unfold session
      rw [e]
      exact .cons ⟨r, cs, f, rfl, h1, hr⟩ (ih w' (fun q hx => hq q (List.mem_cons_of_mem _ hx)) ho' hc' hf')
  exact key questions _ hq ho (empty_coherent ..) (fun _ _ _ h => nomatch h)

/-! A name space with two zones. One root server does not answer. The zone com. has two servers: x.com. always reports a
failure; the address of n.net. is not given by the root servers and has to be asked for with the server of net. Of the names
of com., a.com. has an address, b.com. is an alias of it, c.com. does not exist. -/

/-- Names. -/
def nCom : Name := ⟨"com.".toList⟩
@[inherit_doc nCom] def nNet : Name := ⟨"net.".toList⟩
@[inherit_doc nCom] def nX : Name := ⟨"x.com.".toList⟩
@[inherit_doc nCom] def nN : Name := ⟨"n.net.".toList⟩
@[inherit_doc nCom] def nM : Name := ⟨"m.net.".toList⟩
@[inherit_doc nCom] def nA : Name := ⟨"a.com.".toList⟩
@[inherit_doc nCom] def nB : Name := ⟨"b.com.".toList⟩
@[inherit_doc nCom] def nC : Name := ⟨"c.com.".toList⟩

/-- An address record. -/
def addrRecord (n : Name) (a : Ip4) : Record := ⟨n, .IN, 9, 4, .A a⟩

/-- A response of that kind. -/
def orderMessage (aa : Bool) (code : RespCode) (an au ad : List Record) : Message :=
  ⟨⟨0, true, .STD, aa, false, false, false, 0, code, 0, UInt16.ofNat an.length, UInt16.ofNat au.length, UInt16.ofNat ad.length⟩, [], an, au, ad⟩

/-- The referral to the servers of com. -/
def mCom : Message := orderMessage false .NoError [] [⟨nCom, .IN, 9, 7, .NS nX⟩, ⟨nCom, .IN, 9, 7, .NS nN⟩] [addrRecord nX ⟨1, 1, 1, 1⟩]
/-- The referral to the server of net. -/
def mNet : Message := orderMessage false .NoError [] [⟨nNet, .IN, 9, 7, .NS nM⟩] [addrRecord nM ⟨3, 3, 3, 3⟩]
/-- The address of n.net. -/
def mN : Message := orderMessage true .NoError [addrRecord nN ⟨2, 2, 2, 2⟩] [] []
/-- The address of a.com. -/
def mA : Message := orderMessage true .NoError [addrRecord nA ⟨5, 6, 7, 8⟩] [] []
/-- The alias b.com. -/
def mB : Message := orderMessage true .NoError [⟨nB, .IN, 9, 7, .CNAME nA⟩] [] []
/-- c.com. does not exist. -/
def mC : Message := orderMessage true .NxDomain [] [] []
/-- A failure. -/
def mFail : Message := orderMessage false .ServFail [] [] []

/-- What the servers answer. -/
def orderReply (addr : Ip4) (n : Name) : Option Message :=
  if addr = ⟨198, 41, 0, 4⟩ then none
  else if addr = ⟨1, 1, 1, 1⟩ then some mFail
  else if addr = ⟨2, 2, 2, 2⟩ then some (if n = nA then mA else if n = nB then mB else mC)
  else if addr = ⟨3, 3, 3, 3⟩ then some mN
  else some (if n = nN then mNet else mCom)

/-- The servers. -/
def orderNet (addr : Ip4) (q : List UInt8) : Option (List UInt8) :=
  match Message.decodeFromBytes .release q with
  | .ok m => match m.questions with
    | [question] => match orderReply addr question.node with
      | some reply => match (withId reply m.header.id).encodeToBytes with
        | .ok b => some b
        | _ => none
      | none => none
    | _ => none
  | _ => none

/-- The world for five seconds. -/
def orderEnv : Env where
  clock n := min n (5 * NANOS)
  mono i j h := by
    show min i (5 * NANOS) ≤ min j (5 * NANOS)
    omega
  others _ c := c
  ids n := UInt16.ofNat n
  net _ addr q := orderNet addr q

/-- The name space. -/
def orderSpace : NameSpace where
  nameservers z := if z = nCom then [nX, nN] else if z = nNet then [nM] else []
  hosts t := if t = nX then [addrRecord nX ⟨1, 1, 1, 1⟩] else if t = nN then [addrRecord nN ⟨2, 2, 2, 2⟩] else [addrRecord nM ⟨3, 3, 3, 3⟩]
  asked n k := k = .A ∧ (n = nA ∨ n = nB ∨ n = nC ∨ n = nN)
  fate n _ := if n = nA then .found [addrRecord nA ⟨5, 6, 7, 8⟩] else if n = nB then .alias ⟨nB, .IN, 9, 7, .CNAME nA⟩
    else if n = nN then .found [addrRecord nN ⟨2, 2, 2, 2⟩] else .absent
  rank z := if z = nCom then 1 else 0
  depth := 2

theorem order_net {id : UInt16} {n : Name} {k : RecordType} {q : List UInt8} (h : QueryFor id n k q) (hk : k.isSupportedForQuestion = true)
    (hv : Encodable n) (addr : Ip4) : orderNet addr q = match orderReply addr n with
      | some reply => match (withId reply id).encodeToBytes with
        | .ok b => some b
        | _ => none
      | none => none := by
  obtain ⟨x, h1, -, h2⟩ := C21_plain_message .release
    ⟨⟨id, false, .STD, false, false, false, false, 0, .NoError, 1, 0, 0, 0⟩, [⟨n, k, .IN⟩], [], [], []⟩
    ⟨rfl, Nat.zero_lt_succ _, rfl, rfl, rfl, rfl, by intro q hq; simp at hq; subst hq; exact ⟨hv, hk, rfl⟩, by simp⟩
  have e : q = x := Out.ok.inj (h.symm.trans h1)
  have h3 := h2 []
  rw [List.append_nil] at h3
  unfold orderNet
  rw [e, h3]

theorem order_answers {p : Profile} {n : Name} {k : RecordType} {m : Message} {addr : Ip4} {P : Message → Prop} (hk : k.isSupportedForQuestion = true)
    (hv : Encodable n) (hr : orderReply addr n = some m) (h : PlainMessage m) (hl : encodedLength (withId m 0) ≤ 512)
    (hP : ∀ id, P (withId m id)) : Answers orderEnv p n k P addr := by
  intro hist id q hq
  obtain ⟨b, e1, e2⟩ := send_of h hl p (d := orderNet addr q) (id := id) (by rw [order_net hq hk hv, hr]; dsimp only; generalize Message.encodeToBytes _ = o; cases o <;> rfl)
  exact ⟨b, _, e1, e2, rfl, hP id⟩

theorem order_useless {p : Profile} {n : Name} {k : RecordType} {addr : Ip4} (hk : k.isSupportedForQuestion = true)
    (hv : Encodable n) (hr : orderReply addr n = none ∨ orderReply addr n = some mFail) : Useless orderEnv p n k addr := by
  intro hist id q reply hq hn
  have e : orderNet addr q = some reply := hn
  rcases hr with hr | hr
  · rw [order_net hq hk hv, hr] at e
    cases e
  · have hp : PlainMessage mFail := ⟨rfl, by decide, rfl, rfl, rfl, rfl, by simp [mFail, orderMessage], by simp [mFail, orderMessage]⟩
    obtain ⟨b, e1, e2⟩ := send_of hp (by decide +kernel) p (d := orderNet addr q) (id := id) (by rw [order_net hq hk hv, hr]; dsimp only; generalize Message.encodeToBytes _ = o; cases o <;> rfl)
    rw [e1] at e
    cases e
    exact .inr ⟨_, e2, .inr (.inl ⟨fun h => RespCode.noConfusion h, fun h => RespCode.noConfusion h⟩)⟩

theorem describes_withId {N : NameSpace} {d : Nat} {m : Message} {z : Name} (h : N.Describes d m z) (id : UInt16) : N.Describes d (withId m id) z :=
  ⟨h.owner, h.whole, h.apart, h.glue, h.lasting⟩

theorem helps_withId {N : NameSpace} {d : Nat} {m : Message} {n z : Name} {k : RecordType} (h : N.Helps d n k z m) (id : UInt16) :
    N.Helps d n k z (withId m id) := by
  rcases h with ⟨h1, h2, next, h3, h4, h5⟩ | h
  · exact .inl ⟨h1, h2, next, h3, describes_withId h4 id, h5⟩
  · refine .inr ?_
    unfold NameSpace.Tells at h ⊢
    split at h
    · exact h
    · obtain ⟨h1, h2, h3, h4⟩ := h
      refine ⟨h1, h2, h3, fun t ht => ?_⟩
      rcases h4 t ht with h5 | ⟨z, h5, h6, h7⟩
      · exact .inl h5
      · exact .inr ⟨z, h5, h6, describes_withId h7 id⟩
    · exact h

theorem nA_encodable : Encodable nA := acom_encodable
theorem nCom_encodable : Encodable nCom := com_encodable
theorem nX_encodable : Encodable nX := xcom_encodable
theorem nB_encodable : Encodable nB := encodable_of ["b".toList, "com".toList] (by decide) (by decide) (by decide) (by decide) (by decide)
theorem nC_encodable : Encodable nC := encodable_of ["c".toList, "com".toList] (by decide) (by decide) (by decide) (by decide) (by decide)
theorem nN_encodable : Encodable nN := encodable_of ["n".toList, "net".toList] (by decide) (by decide) (by decide) (by decide) (by decide)
theorem nM_encodable : Encodable nM := encodable_of ["m".toList, "net".toList] (by decide) (by decide) (by decide) (by decide) (by decide)
theorem nNet_encodable : Encodable nNet := encodable_of ["net".toList] (by decide) (by decide) (by decide) (by decide) (by decide)

theorem order_plain {aa : Bool} {code : RespCode} {an au ad : List Record} (h1 : an.length < 65536) (h2 : au.length < 65536) (h3 : ad.length < 65536)
    (h : ∀ r ∈ an ++ au ++ ad, Plain r ∧ r.dataLen.toNat = rdLength r.data) : PlainMessage (orderMessage aa code an au ad) :=
  ⟨rfl, Nat.zero_lt_succ _, rfl, UInt16.toNat_ofNat_of_lt' (by unfold UInt16.size; omega), UInt16.toNat_ofNat_of_lt' (by unfold UInt16.size; omega),
    UInt16.toNat_ofNat_of_lt' (by unfold UInt16.size; omega), by simp [orderMessage], h⟩

theorem addrRecord_plain {n : Name} (h : Encodable n) (a : Ip4) : Plain (addrRecord n a) ∧ (addrRecord n a).dataLen.toNat = rdLength (addrRecord n a).data :=
  ⟨⟨h, rfl, trivial⟩, rfl⟩

theorem mCom_plain : PlainMessage mCom := by
  refine order_plain (by decide) (by decide) (by decide) fun r hr => ?_
  simp only [List.nil_append, List.cons_append, List.mem_cons, List.not_mem_nil, or_false] at hr
  rcases hr with rfl | rfl | rfl
  · exact ⟨⟨nCom_encodable, rfl, nX_encodable⟩, rfl⟩
  · exact ⟨⟨nCom_encodable, rfl, nN_encodable⟩, rfl⟩
  · exact addrRecord_plain nX_encodable _

theorem mNet_plain : PlainMessage mNet := by
  refine order_plain (by decide) (by decide) (by decide) fun r hr => ?_
  simp only [List.nil_append, List.cons_append, List.mem_cons, List.not_mem_nil, or_false] at hr
  rcases hr with rfl | rfl
  · exact ⟨⟨nNet_encodable, rfl, nM_encodable⟩, rfl⟩
  · exact addrRecord_plain nM_encodable _

theorem mN_plain : PlainMessage mN := order_plain (by decide) (by decide) (by decide) fun r hr => by
  simp only [List.append_nil, List.mem_singleton] at hr
  subst hr
  exact addrRecord_plain nN_encodable _

theorem mA_plain : PlainMessage mA := order_plain (by decide) (by decide) (by decide) fun r hr => by
  simp only [List.append_nil, List.mem_singleton] at hr
  subst hr
  exact addrRecord_plain nA_encodable _

theorem mB_plain : PlainMessage mB := order_plain (by decide) (by decide) (by decide) fun r hr => by
  simp only [List.append_nil, List.mem_singleton] at hr
  subst hr
  exact ⟨⟨nB_encodable, rfl, nA_encodable⟩, rfl⟩

theorem mC_plain : PlainMessage mC := order_plain (by decide) (by decide) (by decide) (by simp)

/-- How long the world is in order: five seconds. -/
abbrev span : Nat := 5 * NANOS

theorem order_free : orderSpace.Free nN nCom := by
  refine ⟨⟨rfl, .inr (.inr (.inr rfl))⟩, fun z hz hu => ?_, by decide⟩
  have he := under_endsWith hu
  have : z ≠ nCom := by
    rintro rfl
    revert he
    decide
  show (if z = nCom then 1 else 0) < (if nCom = nCom then 1 else 0)
  rw [if_neg this, if_pos rfl]
  decide

theorem com_described : orderSpace.Describes span mCom nCom := by
  refine ⟨by decide +kernel, ?_, by decide +kernel, ?_, ⟨?_, ?_⟩⟩
  · exact List.Perm.of_eq (by decide +kernel)
  · intro t ht
    have : t = nX ∨ t = nN := by simpa [orderSpace] using ht
    rcases this with rfl | rfl
    · exact .inl (List.Perm.of_eq (by decide +kernel))
    · exact .inr ⟨by decide +kernel, order_free⟩
  · unfold Lasting
    decide +kernel
  · unfold Lasting
    decide +kernel

theorem net_described : orderSpace.Describes span mNet nNet := by
  refine ⟨by decide +kernel, ?_, by decide +kernel, ?_, ⟨?_, ?_⟩⟩
  · exact List.Perm.of_eq (by decide +kernel)
  · intro t ht
    have : t = nM := by
      have h : nNet ≠ nCom := by decide
      simpa [orderSpace, h] using ht
    subst this
    exact .inl (List.Perm.of_eq (by decide +kernel))
  · unfold Lasting
    decide +kernel
  · unfold Lasting
    decide +kernel

theorem com_zone : orderSpace.Zone nCom := by unfold NameSpace.Zone; decide
theorem net_zone : orderSpace.Zone nNet := by unfold NameSpace.Zone; decide

theorem zone_cases {z : Name} (h : orderSpace.Zone z) : z = nCom ∨ z = nNet := by
  unfold NameSpace.Zone at h
  by_cases h1 : z = nCom
  · exact .inl h1
  · by_cases h2 : z = nNet
    · exact .inr h2
    · simp [orderSpace, h1, h2] at h

theorem nameOf_com : NameOf nCom.s ["com".toList] := nameOf_of (by decide) (by decide)
theorem nameOf_net : NameOf nNet.s ["net".toList] := nameOf_of (by decide) (by decide)
theorem com_below : Below nCom ⟨['.']⟩ := ⟨["com".toList], [], by simp, nameOf_com, by simp, rfl⟩
theorem net_below : Below nNet ⟨['.']⟩ := ⟨["net".toList], [], by simp, nameOf_net, by simp, rfl⟩

theorem com_helps {n : Name} (h : Under n nCom) : orderSpace.Helps span n .A ⟨['.']⟩ mCom :=
  .inl ⟨rfl, rfl, nCom, com_zone, com_described, h, com_below⟩

theorem net_helps : orderSpace.Helps span nN .A ⟨['.']⟩ mNet :=
  .inl ⟨rfl, rfl, nNet, net_zone, net_described, ⟨["n".toList], ["net".toList], nameOf_of (by decide) (by decide), nameOf_net⟩, net_below⟩

/-- Which servers are up. -/
def orderUp (a : Ip4) : Bool := a ≠ ⟨198, 41, 0, 4⟩ && a ≠ ⟨1, 1, 1, 1⟩

theorem order_root (p : Profile) {n : Name} (hv : Encodable n) {m : Message} (hm : (if n = nN then mNet else mCom) = m) (h : PlainMessage m)
    (hl : encodedLength (withId m 0) ≤ 512) (hh : orderSpace.Helps span n .A ⟨['.']⟩ m) :
    Served orderEnv p n .A 3 2 (orderSpace.Helps span n .A ⟨['.']⟩) (rootServers.map fun s => [s.2]) := by
  refine ⟨orderUp, by decide, ?_, ⟨[⟨199, 9, 14, 201⟩], by decide, by decide⟩, by decide⟩
  intro s hs a ha
  refine ⟨fun hu => ?_, fun hd => ?_⟩
  · have h2 : a ≠ ⟨2, 2, 2, 2⟩ ∧ a ≠ ⟨3, 3, 3, 3⟩ := by
      have : ∀ s ∈ (rootServers.map fun s => [s.2]), ∀ a ∈ s, a ≠ ⟨2, 2, 2, 2⟩ ∧ a ≠ ⟨3, 3, 3, 3⟩ := by decide
      exact this s hs a ha
    unfold orderUp at hu
    simp at hu
    refine (order_answers rfl hv ?_ h hl (fun id => helps_withId hh id)).responds (by decide)
    unfold orderReply
    rw [if_neg hu.1, if_neg hu.2, if_neg h2.1, if_neg h2.2, hm]
  · have : ∀ s ∈ (rootServers.map fun s => [s.2]), ∀ a ∈ s, orderUp a = false → a = ⟨198, 41, 0, 4⟩ := by decide
    rw [this s hs a ha hd]
    exact order_useless rfl hv (.inl rfl)

theorem order_com (p : Profile) {n : Name} (hv : Encodable n) {m : Message} (hm : (if n = nA then mA else if n = nB then mB else mC) = m)
    (h : PlainMessage m) (hl : encodedLength (withId m 0) ≤ 512) (hh : orderSpace.Tells span n .A m) :
    Served orderEnv p n .A 3 2 (orderSpace.Helps span n .A nCom) (orderSpace.addresses nCom) := by
  have e : orderSpace.addresses nCom = [[⟨1, 1, 1, 1⟩], [⟨2, 2, 2, 2⟩]] := by decide +kernel
  rw [e]
  refine ⟨orderUp, by decide, ?_, ⟨[⟨2, 2, 2, 2⟩], by decide, by decide⟩, by decide⟩
  intro s hs a ha
  simp only [List.mem_cons, List.not_mem_nil, or_false] at hs
  rcases hs with rfl | rfl
  · rw [List.mem_singleton] at ha
    subst ha
    exact ⟨fun h => absurd h (by decide), fun _ => order_useless rfl hv (.inr rfl)⟩
  · rw [List.mem_singleton] at ha
    subst ha
    refine ⟨fun _ => (order_answers rfl hv ?_ h hl (fun id => helps_withId (.inr hh) id)).responds (by decide), fun h => absurd h (by decide)⟩
    unfold orderReply
    rw [if_neg (by decide), if_neg (by decide), if_pos rfl, hm]

theorem order_net_zone (p : Profile) : Served orderEnv p nN .A 3 2 (orderSpace.Helps span nN .A nNet) (orderSpace.addresses nNet) := by
  have e : orderSpace.addresses nNet = [[⟨3, 3, 3, 3⟩]] := by decide +kernel
  have ht : orderSpace.Tells span nN .A mN := by
    refine ⟨rfl, List.Perm.of_eq (by decide +kernel), fun _ _ _ => ?_⟩
    unfold Lasting
    decide +kernel
  rw [e]
  refine ⟨orderUp, by decide, ?_, ⟨[⟨3, 3, 3, 3⟩], by decide, by decide⟩, by decide⟩
  intro s hs a ha
  rw [List.mem_singleton] at hs
  subst hs
  rw [List.mem_singleton] at ha
  subst ha
  exact ⟨fun _ => (order_answers rfl nN_encodable rfl mN_plain (by decide +kernel) (fun id => helps_withId (.inr ht) id)).responds (by decide), fun h => absurd h (by decide)⟩

theorem nA_tells : orderSpace.Tells span nA .A mA := by
  refine ⟨rfl, List.Perm.of_eq (by decide +kernel), fun _ _ _ => ?_⟩
  unfold Lasting
  decide +kernel

theorem nB_tells : orderSpace.Tells span nB .A mB :=
  ⟨rfl, by decide +kernel, ⟨⟨nB, .IN, 9, 7, .CNAME nA⟩, by decide +kernel, rfl⟩, fun t _ => .inl (by intro r hr; exact absurd hr (by simp [mB, orderMessage, nsRecords]))⟩

theorem nC_tells : orderSpace.Tells span nC .A mC := ⟨rfl, rfl⟩

theorem under_com {l : Str} {n : Name} (h : n.s = render [l, "com".toList]) (hl : Name.validateLabel l = .ok ()) : Under n nCom :=
  ⟨[l], ["com".toList], nameOf_of h (by
    simp only [List.all_cons, List.all_nil, Bool.and_true, Bool.and_eq_true, decide_eq_true_eq, List.singleton_append]
    exact ⟨hl, by decide⟩), nameOf_com⟩

theorem order_fateA : ∀ k, orderSpace.fate nA k = .found [addrRecord nA ⟨5, 6, 7, 8⟩] := fun _ => rfl
theorem order_fateB : ∀ k, orderSpace.fate nB k = .alias ⟨nB, .IN, 9, 7, .CNAME nA⟩ := fun _ => rfl
theorem order_fateC : ∀ k, orderSpace.fate nC k = .absent := fun _ => rfl
theorem order_fateN : ∀ k, orderSpace.fate nN k = .found [addrRecord nN ⟨2, 2, 2, 2⟩] := fun _ => rfl

/-- The name space is in order. -/
theorem order_wellRun (p : Profile) : orderSpace.WellRun orderEnv p 3 2 (span - 0) := by
  have a1 : Under nA nCom := under_com (l := "a".toList) (by decide) (by decide)
  have b1 : Under nB nCom := under_com (l := "b".toList) (by decide) (by decide)
  have c1 : Under nC nCom := under_com (l := "c".toList) (by decide) (by decide)
  refine ⟨?_, ?_, ?_, ?_, ?_, ?_, ?_, ?_, ?_⟩
  · rintro m k ⟨rfl, h⟩
    refine ⟨?_, rfl, by simp, by simp⟩
    rcases h with rfl | rfl | rfl | rfl
    · exact ⟨by decide, _, nA_encodable.2.choose_spec.1⟩
    · exact ⟨by decide, _, nB_encodable.2.choose_spec.1⟩
    · exact ⟨by decide, _, nC_encodable.2.choose_spec.1⟩
    · exact ⟨by decide, _, nN_encodable.2.choose_spec.1⟩
  · rintro m k l ⟨rfl, h⟩ hf
    rcases h with rfl | rfl | rfl | rfl
    · rw [order_fateA] at hf
      injection hf with hf
      subst hf
      exact ⟨by simp, by simp [addrRecord, Record.recordType, RData.recordType]⟩
    · rw [order_fateB] at hf
      cases hf
    · rw [order_fateC] at hf
      cases hf
    · rw [order_fateN] at hf
      injection hf with hf
      subst hf
      exact ⟨by simp, by simp [addrRecord, Record.recordType, RData.recordType]⟩
  · rintro m k c ⟨rfl, h⟩ hf
    rcases h with rfl | rfl | rfl | rfl
    · rw [order_fateA] at hf
      cases hf
    · rw [order_fateB] at hf
      injection hf with hf
      subst hf
      exact ⟨rfl, nA, rfl, rfl, .inl rfl⟩
    · rw [order_fateC] at hf
      cases hf
    · rw [order_fateN] at hf
      cases hf
  · exact fun _ _ h => h
  · intro t z ht
    have hc : t = nX ∨ t = nN ∨ t = nM := by
      by_cases h1 : z = nCom
      · subst h1
        have : t = nX ∨ t = nN := by simpa [orderSpace] using ht
        rcases this with h | h
        · exact .inl h
        · exact .inr (.inl h)
      · by_cases h2 : z = nNet
        · have : t = nM := by
            subst h2
            simpa [orderSpace, h1] using ht
          exact .inr (.inr this)
        · simp [orderSpace, h1, h2] at ht
    rcases hc with rfl | rfl | rfl
    · exact ⟨by decide +kernel, by decide +kernel⟩
    · exact ⟨by decide +kernel, by decide +kernel⟩
    · exact ⟨by decide +kernel, by decide +kernel⟩
  · rintro t z ht ⟨-, h⟩
    rcases h with rfl | rfl | rfl | rfl
    · exact absurd ht (by unfold orderSpace; dsimp only; split; decide; split <;> decide)
    · exact absurd ht (by unfold orderSpace; dsimp only; split; decide; split <;> decide)
    · exact absurd ht (by unfold orderSpace; dsimp only; split; decide; split <;> decide)
    · rfl
  · intro z hz
    rcases zone_cases hz with rfl | rfl
    · decide
    · decide
  · rintro m k ⟨rfl, h⟩
    rcases h with rfl | rfl | rfl | rfl
    · exact order_root p nA_encodable rfl mCom_plain (by decide +kernel) (com_helps a1)
    · exact order_root p nB_encodable rfl mCom_plain (by decide +kernel) (com_helps b1)
    · exact order_root p nC_encodable rfl mCom_plain (by decide +kernel) (com_helps c1)
    · exact order_root p nN_encodable rfl mNet_plain (by decide +kernel) net_helps
  · rintro m k z ⟨rfl, h⟩ hz hu
    have he := under_endsWith hu
    rcases zone_cases hz with rfl | rfl
    · rcases h with rfl | rfl | rfl | rfl
      · exact order_com p nA_encodable rfl mA_plain (by decide +kernel) nA_tells
      · exact order_com p nB_encodable rfl mB_plain (by decide +kernel) nB_tells
      · exact order_com p nC_encodable rfl mC_plain (by decide +kernel) nC_tells
      · exact absurd he (by decide)
    · rcases h with rfl | rfl | rfl | rfl
      · exact absurd he (by decide)
      · exact absurd he (by decide)
      · exact absurd he (by decide)
      · exact order_net_zone p

/-- The world is in order. -/
theorem order_inOrder (p : Profile) (now : Nat) : InOrder orderSpace orderEnv p ⟨2, 3, 2, false⟩ 0 span now where
  span i _ := ⟨Nat.zero_le _, Nat.min_le_right _ _⟩
  run := order_wellRun p
  others := ⟨fun _ _ h => h, fun _ _ _ _ _ _ h => h, fun _ _ h => h, fun _ _ h => h⟩
  follow := rfl
  retries := by decide

/-- The lookups of b.com., a.com., c.com., n.net. and again b.com. all return what they should. -/
example (p : Profile) : List.Forall₂ (Resolved orderSpace) [(nB, .A), (nA, .A), (nC, .A), (nN, .A), (nB, .A)]
    (session orderEnv p ⟨2, 3, 2, false⟩ 300 [(nB, .A), (nA, .A), (nC, .A), (nN, .A), (nB, .A)] ⟨.empty, 0, []⟩) := by
  have hB : Resolvable orderSpace 2 (nB, .A) := ⟨⟨rfl, .inr (.inl rfl)⟩, _, _, .follow (order_fateB _) rfl (.last (order_fateA _) (by simp)), by decide⟩
  have hA : Resolvable orderSpace 2 (nA, .A) := ⟨⟨rfl, .inl rfl⟩, _, _, .last (order_fateA _) (by simp), by decide⟩
  have hC : Resolvable orderSpace 2 (nC, .A) := ⟨⟨rfl, .inr (.inr (.inl rfl))⟩, _, _, .last (order_fateC _) (by simp), by decide⟩
  have hN : Resolvable orderSpace 2 (nN, .A) := ⟨⟨rfl, .inr (.inr (.inr rfl))⟩, _, _, .last (order_fateN _) (by simp), by decide⟩
  refine C88_session_partial orderSpace orderEnv p ⟨2, 3, 2, false⟩ 0 span 300 0 [] (order_inOrder p 0) (by decide) _ ?_
  intro q hq
  simp only [List.mem_cons, List.not_mem_nil, or_false] at hq
  rcases hq with rfl | rfl | rfl | rfl | rfl
  · exact hB
  · exact hA
  · exact hC
  · exact hN
  · exact hB

end Ariadne.Props
