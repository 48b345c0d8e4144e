import Verif.Spec.Deadline
import Verif.Proofs.ManagerIds
import Verif.Proofs.QueueMono
import Verif.Proofs.Managed
import Verif.Props.Metrics
import Verif.Props.QueueDelay
import Verif.Props.Primitives
/-!
# Lemmas for C89
-/
namespace Mixnet
open Spec Props

/-! ### Delays -/

variable {C : Crypto} (F : F64Delays C)

/-- A delay is at most this. -/
def AtMost (d : C.Delay) (b : Rat) : Prop := F.value d ≤ b

theorem exp_le_ten (sec : SharedSecret) : AtMost F (forwardingDelay C sec) 10 := by
  unfold forwardingDelay Crypto.delayExp AtMost
  dsimp only
  split
  · rename_i h
    rw [← F.ten]
    exact (F.le _ _).1 h
  · rw [F.ten]

theorem sum_le_ten (l : List Rat) (h : ∀ x ∈ l, x ≤ 10) : ∀ (j : ℕ) (acc : Rat), acc ≤ 10 * j → j + l.length ≤ 100 →
    l.foldl (fun a b => Binary64.round (a + b)) acc ≤ 10 * ((j + l.length : ℕ) : Rat) := by
  induction l with
  | nil => intro j acc ha _; simpa using ha
  | cons x l ih =>
    intro j acc ha hj
    rw [List.length_cons] at hj
    have hx := h x List.mem_cons_self
    have h1 : Binary64.round (acc + x) ≤ 10 * ((j + 1 : ℕ) : Rat) := by
      have e : ((10 * (j + 1) : ℕ) : Rat) = 10 * ((j + 1 : ℕ) : Rat) := by push_cast; ring
      rw [← e, ← Binary64.round_nat (n := 10 * (j + 1)) (by omega)]
      refine Binary64.round_mono ?_
      push_cast
      linarith
    have := ih (fun y hy => h y (List.mem_cons_of_mem _ hy)) (j + 1) _ h1 (by omega)
    rw [List.foldl_cons, List.length_cons]
    convert this using 3
    omega

theorem value_foldl (l : List C.Delay) : ∀ acc, F.value (l.foldl C.delayAdd acc) =
    (l.map F.value).foldl (fun a b => Binary64.round (a + b)) (F.value acc) := by
  induction l with
  | nil => intro acc; rfl
  | cons x l ih => intro acc; rw [List.foldl_cons, ih, F.add]; rfl

theorem packetDelay_le (eph : Bytes) (theirs : List KxPublic) (h : theirs.length ≤ 6) :
    AtMost F (packetDelay C eph theirs) (10 * ((theirs.length - 1 : ℕ) : Rat)) := by
  unfold packetDelay AtMost
  have hl : ((packetSecrets C eph theirs).dropLast.map (forwardingDelay C)).length = theirs.length - 1 := by
    rw [List.length_map, List.length_dropLast, packetSecrets, sharedSecrets_length]
  generalize (packetSecrets C eph theirs).dropLast = secs at hl
  have hs := sum_le_ten ((secs.map (forwardingDelay C)).map F.value) (by
      intro x hx
      obtain ⟨y, hy, rfl⟩ := List.mem_map.1 hx
      obtain ⟨sec, -, rfl⟩ := List.mem_map.1 hy
      exact exp_le_ten F sec) 0 0 (by simp) (by rw [List.length_map, hl]; omega)
  have e : theirs.length - 1 = 0 + ((secs.map (forwardingDelay C)).map F.value).length := by
    rw [List.length_map, hl]; omega
  rw [value_foldl, F.zero, e]
  exact hs

theorem exp_nonneg (hpos : ∀ seed, 0 ≤ F.value (C.expSample seed)) (sec : SharedSecret) : 0 ≤ F.value (forwardingDelay C sec) := by
  unfold forwardingDelay Crypto.delayExp
  dsimp only
  split
  · exact hpos _
  · rw [F.ten]; norm_num

theorem sum_nonneg' (l : List Rat) (h : ∀ x ∈ l, 0 ≤ x) : ∀ (acc : Rat), 0 ≤ acc →
    0 ≤ l.foldl (fun a b => Binary64.round (a + b)) acc := by
  induction l with
  | nil => intro acc ha; exact ha
  | cons x l ih =>
    intro acc ha
    exact ih (fun y hy => h y (List.mem_cons_of_mem _ hy)) _ (Binary64.round_nonneg (add_nonneg ha (h x List.mem_cons_self)))

theorem packetDelay_nonneg (hpos : ∀ seed, 0 ≤ F.value (C.expSample seed)) (eph : Bytes) (theirs : List KxPublic) :
    0 ≤ F.value (packetDelay C eph theirs) := by
  unfold packetDelay
  rw [value_foldl, F.zero]
  refine sum_nonneg' _ ?_ _ le_rfl
  intro x hx
  obtain ⟨y, hy, rfl⟩ := List.mem_map.1 hx
  obtain ⟨sec, -, rfl⟩ := List.mem_map.1 hy
  exact exp_nonneg F hpos sec

theorem foldl_delayMax_le {b : Rat} (l : List C.Delay) (h : ∀ x ∈ l, AtMost F x b) (a : C.Delay) (ha : AtMost F a b) :
    AtMost F (l.foldl (delayMax C) a) b := by
  rcases List.mem_cons.1 (foldl_delayMax_mem l a) with e | e
  · rw [e]; exact ha
  · exact h _ e

theorem foldl_max_le {b : ℕ} (l : List ℕ) (h : ∀ x ∈ l, x ≤ b) : l.foldl max 0 ≤ b := by
  rcases (foldl_max l 0).2.2 with e | e
  · rw [e]; exact Nat.zero_le _
  · exact h _ e

/-- Routes to and from a mixnode. -/
theorem hops_most {t : Topology} {ns : NetworkStatus} {g : RouteGenerator} (v : View t ns g) {kind : RouteKind} {k : ℕ} (hk : k ≤ 6)
    (hd : ∀ d, otherEnd kind = some d → d < t.mixnodes.length) (hl : kind ≠ .loop)
    {rng rng' : Rng} {route : Route} (h : g.genRoute rng kind k = .ok (.ok (route, rng'))) :
    route.kxPublics.length ≤ max k 2 ∧ route.kxPublics.length ≤ 6 := by
  obtain ⟨⟨least, ⟨h1, h2⟩, h3⟩, h4, -, -, -, h5⟩ := route_shape v hk hd h
  have e := congrArg List.length h5
  rw [List.length_map, List.length_map] at e
  rw [e]
  refine ⟨?_, h4⟩
  have : least ≤ 2 := by
    cases hn : t.localNode with
    | mixnode i => have := h1 i hn; omega
    | nonMixnode gs =>
      have := h2 _ ⟨gs, hn, rfl⟩
      cases kind with
      | loop => exact absurd rfl hl
      | toMixnode d => simpa [startsLocally, endsLocally] using this.le
      | fromMixnode d => simpa [startsLocally, endsLocally] using this.le
  omega

/-- The delays of the packets and SURBs of a request. -/
theorem metrics_delays (hC : CryptoLaws C) {config : Config} {m m' : Node} (hr : Node.Reachable C config m)
    (hk : config.numHops ≤ 6) {rng : Rng} {i : Nat}
    {d d' : Option MixnodeIndex} {mid : MessageId} {data : Scattered Byte} {l : Bytes} {n : Nat} {ns : NetworkStatus}
    {met : RequestMetrics} (hw : (Call.postRequest rng i d mid data n ns).WellTyped) (hd : Denotes data l)
    (h : m.step C (.postRequest rng i d mid data n ns) = .ok (m', .posted d' (.ok met))) :
    met.numHops ≤ 2 * mostHops config ∧ met.perHopNetDelay = config.perHopNetDelay ∧
    met.authoredPacketQueueDelay ≤ queueLimit config ∧
    ∃ there back, met.forwardingDelay = C.delayToDuration (C.delayAdd there back) config.meanForwardingDelay ∧
      AtMost F there (10 * ((mostHops config - 1 : ℕ) : Rat)) ∧ AtMost F back (10 * ((mostHops config - 1 : ℕ) : Rat)) ∧
      ((∀ seed, 0 ≤ F.value (C.expSample seed)) → 0 ≤ F.value there ∧ 0 ≤ F.value back) := by
  obtain ⟨hI, hcfg⟩ := hr.inv hC
  obtain ⟨s, dest, packets, hp, -⟩ := request_posted hC hr hk hw hd h
  have hns : ns.localPeerId.length = PEER_ID_SIZE := hw.2.2.2
  have hk' : m.config.numHops ≤ 6 := by rw [hcfg]; exact hk
  have hmost : max m.config.numHops 2 = mostHops config := by rw [hcfg]; rfl
  have hP : ∀ p ∈ packets, p.route.kxPublics.length ≤ mostHops config ∧
      AtMost F p.delay (10 * ((mostHops config - 1 : ℕ) : Rat)) ∧
      ((∀ seed, 0 ≤ F.value (C.expSample seed)) → 0 ≤ F.value p.delay) := by
    intro p hpm
    have hb := hp.built p hpm
    obtain ⟨g, r, r', hg, hgen⟩ := hb.route
    have v := view_of_inv hI hp.session hg
    have hde : ∀ x, otherEnd (.toMixnode dest) = some x → x < s.topology.mixnodes.length :=
      fun x hx => by cases hx; exact hp.destination.2.1
    obtain ⟨h1, h2⟩ := hops_most v hk' hde (by simp) hgen
    rw [hmost] at h1
    refine ⟨h1, ?_⟩
    obtain ⟨old, rng1, rng2, ho, -, hc⟩ := hb.built
    rw [completeRequestPacket_bytes hC ho rng1 (route_good v hns hk' hde hgen)] at hc
    simp only [Except.ok.injEq, Prod.mk.injEq] at hc
    rw [← hc.2.1]
    refine ⟨le_trans (packetDelay_le F _ _ h2) ?_, fun hpos => packetDelay_nonneg F hpos _ _⟩
    have : ((p.route.kxPublics.length - 1 : ℕ) : Rat) ≤ ((mostHops config - 1 : ℕ) : Rat) := by
      exact_mod_cast Nat.sub_le_sub_right h1 1
    linarith
  have hX : ∀ x ∈ packets.flatMap (·.surbs), x.route.kxPublics.length ≤ mostHops config ∧
      AtMost F x.delay (10 * ((mostHops config - 1 : ℕ) : Rat)) ∧
      ((∀ seed, 0 ≤ F.value (C.expSample seed)) → 0 ≤ F.value x.delay) := by
    intro x hx
    obtain ⟨p, hpm, hx⟩ := List.mem_flatMap.1 hx
    have hb := (hp.built p hpm).surbs x hx
    obtain ⟨g, r, r', hg, hgen⟩ := hb.route
    have v := view_of_inv hI hp.session hg
    have hde : ∀ x, otherEnd (.fromMixnode dest) = some x → x < s.topology.mixnodes.length :=
      fun x hx => by cases hx; exact hp.destination.2.1
    obtain ⟨h1, h2⟩ := hops_most v hk' hde (by simp) hgen
    rw [hmost] at h1
    refine ⟨h1, ?_⟩
    obtain ⟨old, rng1, rng2, ho, hc⟩ := hb.built
    rw [buildSurb_bytes hC ho rng1 _ (route_good v hns hk' hde hgen) hb.id] at hc
    simp only [Except.ok.injEq, Prod.mk.injEq] at hc
    rw [← hc.2.2.1]
    refine ⟨le_trans (packetDelay_le F _ _ h2) ?_, fun hpos => packetDelay_nonneg F hpos _ _⟩
    have : ((x.route.kxPublics.length - 1 : ℕ) : Rat) ≤ ((mostHops config - 1 : ℕ) : Rat) := by
      exact_mod_cast Nat.sub_le_sub_right h1 1
    linarith
  have hq : met.authoredPacketQueueDelay ≤ queueLimit config := by
    obtain ⟨q, hq, hmet⟩ := hp.metrics
    unfold estimateAuthoredPacketQueueDelay at hq
    rw [res_bind_eq_ok] at hq
    obtain ⟨u, -, hq⟩ := hq
    rw [res_bind_eq_ok] at hq
    obtain ⟨v, -, hq⟩ := hq
    cases hq
    rw [hmet]
    obtain ⟨rel, hadd, hslot⟩ := Node.sessionAt_eq.1 hp.session
    obtain ⟨sc, h1, h2, h3⟩ := (hI.sessions rel s hslot).config
    have hfit := hp.fits
    rw [h2] at hfit
    have hle : met.authoredPacketQueueDelay ≤ fullQueueDelay config sc := by
      rw [hmet, ← hcfg]
      show C.queueDelayEstimate _ s.meanAuthoredPacketPeriod (s.authoredPacketQueue.queue ++ packets.map (·.packet)).length _ _ ≤ _
      rw [F.queue, h3, List.length_append, List.length_map]
      exact Binary64.queueDelay_mono hfit (le_refl _)
    rw [hmet] at hle
    refine le_trans hle ?_
    unfold Config.sessionConfig at h1
    rw [hcfg] at h1
    unfold queueLimit
    cases hmx : s.topology.isMixnode with
    | true => rw [hmx] at h1; cases h1; exact le_max_left _ _
    | false =>
      rw [hmx] at h1
      have h1 : config.nonMixnodeSession = some sc := h1
      rw [h1]
      exact le_max_right _ _
  obtain ⟨q, -, hmet⟩ := hp.metrics
  refine ⟨?_, by rw [hmet, hcfg], hq, ?_⟩
  · rw [hmet]
    have h1 := foldl_max_le (b := mostHops config) (packets.map fun p => p.route.kxPublics.length) (by
      intro x hx; obtain ⟨p, hpm, rfl⟩ := List.mem_map.1 hx; exact (hP p hpm).1)
    have h2 := foldl_max_le (b := mostHops config) ((packets.flatMap (·.surbs)).map fun x => x.route.kxPublics.length) (by
      intro x hx; obtain ⟨p, hpm, rfl⟩ := List.mem_map.1 hx; exact (hX p hpm).1)
    dsimp only
    omega
  · have hz : AtMost F C.delayZero (10 * ((mostHops config - 1 : ℕ) : Rat)) := by
      unfold AtMost
      rw [F.zero]
      positivity
    refine ⟨_, _, by rw [hmet, ← hcfg], ?_, ?_, fun hpos => ⟨?_, ?_⟩⟩
    · exact foldl_delayMax_le F (packets.map (·.delay)) (b := 10 * ((mostHops config - 1 : ℕ) : Rat)) (by
        intro x hx; obtain ⟨p, hpm, rfl⟩ := List.mem_map.1 hx; exact (hP p hpm).2.1) _ hz
    · exact foldl_delayMax_le F ((packets.flatMap (·.surbs)).map (·.delay)) (b := 10 * ((mostHops config - 1 : ℕ) : Rat)) (by
        intro x hx; obtain ⟨p, hpm, rfl⟩ := List.mem_map.1 hx; exact (hX p hpm).2.1) _ hz
    · rcases List.mem_cons.1 (foldl_delayMax_mem (packets.map (·.delay)) C.delayZero) with e | e
      · rw [e, F.zero]
      · obtain ⟨p, hpm, e⟩ := List.mem_map.1 e
        rw [← e]; exact (hP p hpm).2.2 hpos
    · rcases List.mem_cons.1 (foldl_delayMax_mem ((packets.flatMap (·.surbs)).map (·.delay)) C.delayZero) with e | e
      · rw [e, F.zero]
      · obtain ⟨p, hpm, e⟩ := List.mem_map.1 e
        rw [← e]; exact (hX p hpm).2.2 hpos

include F in
theorem metrics_limit (hC : CryptoLaws C) {config : Config} {m m' : Node} (hr : Node.Reachable C config m)
    (hk : config.numHops ≤ 6) {rng : Rng} {i : Nat}
    {d d' : Option MixnodeIndex} {mid : MessageId} {data : Scattered Byte} {l : Bytes} {n : Nat} {ns : NetworkStatus}
    {met : RequestMetrics} (hw : (Call.postRequest rng i d mid data n ns).WellTyped) (hd : Denotes data l)
    (h : m.step C (.postRequest rng i d mid data n ns) = .ok (m', .posted d' (.ok met))) :
    met.numHops ≤ 2 * mostHops config ∧ met.perHopNetDelay = config.perHopNetDelay ∧
    met.forwardingDelay ≤ Binary64.mulDuration ((2 * (mostHops config - 1) * 10 : ℕ) : Rat) config.meanForwardingDelay ∧
    met.authoredPacketQueueDelay ≤ queueLimit config := by
  obtain ⟨h1, h2, h3, there, back, e, h4, h5, -⟩ := metrics_delays F hC hr hk hw hd h
  refine ⟨h1, h2, ?_, h3⟩
  have h6 : mostHops config ≤ 6 := by unfold mostHops; omega
  rw [e, F.duration, F.add]
  refine Binary64.mulDuration_mono ?_ _
  rw [← Binary64.round_nat (n := 2 * (mostHops config - 1) * 10) (by omega)]
  refine Binary64.round_mono ?_
  refine le_trans (add_le_add h4 h5) (le_of_eq ?_)
  push_cast
  ring

/-! ### Deadlines -/

section Manager
variable {R Ctx : Type}

/-- The deadlines of all requests in a manager. -/
def Dated (P : Nat → Prop) (S : Multiset (RequestState R)) : Prop := ∀ s ∈ S, P s.retryDeadline

theorem Dated.cons {P : Nat → Prop} {S : Multiset (RequestState R)} {s : RequestState R} (hs : P s.retryDeadline) (h : Dated P S) :
    Dated P (s ::ₘ S) := by
  intro x hx
  rcases Multiset.mem_cons.1 hx with rfl | hx
  · exact hs
  · exact h x hx

theorem Dated.drop {P : Nat → Prop} {S : Multiset (RequestState R)} {s : RequestState R} (h : Dated P (s ::ₘ S)) : Dated P S :=
  fun x hx => h x (Multiset.mem_cons_of_mem hx)

theorem dated_retry {P : Nat → Prop} {m m' : RequestManager R} {s : RequestState R} {l : List (LogEntry R)}
    (h : Retry m s m' l) (hc : P m.createdAt) (hi : Dated P m.states) (hs : s.attemptsRemaining = 0 ∨ P s.retryDeadline) :
    Dated P m'.states := by
  obtain ⟨-, ⟨rfl, -⟩ | ⟨s1, l1, rel, s2, l2, h0, -, h1, h2, -, h3, h4, -⟩⟩ := retry_states h
  · exact hi
  · have hS : m'.states = s2 ::ₘ m.states := by
      unfold RequestManager.states
      rw [h3, h4, Multiset.cons_add]
    rw [hS]
    have step : P s1.retryDeadline := by
      cases h1 with
      | attempt ha =>
        rcases hs with hs | hs
        · omega
        · exact hs
      | destination _ _ _ => exact hc
    refine .cons ?_ hi
    cases h2 with
    | unbound _ => exact step
    | bound _ _ _ => exact step
    | moved _ _ => exact hc

theorem max_case {P : Nat → Prop} {a b : Nat} (h1 : P a) (h2 : P b) : P (max a b) := by
  rcases Nat.le_total a b with h | h
  · rw [Nat.max_eq_right h]; exact h2
  · rw [Nat.max_eq_left h]; exact h1

theorem moved_fresh {past : Nat} {x moved : List (RequestState R)}
    (h : List.Forall₂ (fun s s' : RequestState R => s' = s.fresh s'.messageId past) x moved) {s : RequestState R} (hs : s ∈ moved) :
    ∃ y : RequestState R, s = y.fresh s.messageId past := by
  induction h with
  | nil => cases hs
  | cons h _ ih =>
    rcases List.mem_cons.1 hs with rfl | hs
    · exact ⟨_, h⟩
    · exact ih hs

theorem dated_micro {P : Nat → Prop} {c c' : Cfg R} (hm : Micro c c') (hc : P c.mgr.createdAt) (hi : Dated P c.mgr.states)
    (hl : ∀ r i d id d' est, .post r i d id d' (.ok est) ∈ c'.log →
      P (est.now + est.metrics.estimateRtt est.handlingDelay)) : Dated P c'.mgr.states := by
  cases hm with
  | @requeue m log ins rem rel s rest i n d t met h1 h2 h3 h4 h5 h6 =>
    unfold RequestManager.states at hi ⊢
    dsimp only at hi ⊢
    rw [PostQueues.bag_pop h1, Multiset.cons_add] at hi
    rw [PostQueues.bag_push, Multiset.cons_add]
    refine .cons ?_ hi.drop
    show P t
    rw [h6]
    exact max_case (hi s (Multiset.mem_cons_self _ _)) (hl _ _ _ _ _ _ (List.mem_append_right _ (List.mem_singleton.2 rfl)))
  | @wait m log ins rem rel s rest i d t met h1 h2 h3 h4 h5 h6 =>
    unfold RequestManager.states at hi ⊢
    dsimp only at hi ⊢
    rw [PostQueues.bag_pop h1, Multiset.cons_add] at hi
    rw [insertSorted_bag, Multiset.add_cons]
    refine .cons ?_ hi.drop
    show P t
    rw [h6]
    exact max_case (hi s (Multiset.mem_cons_self _ _)) (hl _ _ _ _ _ _ (List.mem_append_right _ (List.mem_singleton.2 rfl)))
  | @refused m log ins rem rel s rest i h1 h2 => exact hi
  | @failed m log ins rem rel s rest i e h1 h2 =>
    unfold RequestManager.states at hi ⊢
    dsimp only at hi ⊢
    rw [PostQueues.bag_pop h1, Multiset.cons_add] at hi
    exact hi.drop
  | @pop m log ins rem s rest m' l h1 h2 h3 =>
    have hi' : Dated P (s ::ₘ ({ m with retryQueue := rest, nextRetryDeadlineChanged := true } : RequestManager R).states) := by
      unfold RequestManager.states at hi ⊢
      dsimp only at hi ⊢
      rw [h1, ← Multiset.cons_coe, Multiset.add_cons] at hi
      exact hi
    exact dated_retry h3 hc hi'.drop (.inr (hi' s (Multiset.mem_cons_self _ _)))
  | @insert m log ins rem s m' l h1 h2 h3 h4 h5 => exact dated_retry h5 hc hi (.inl h3)
  | @update m log ins rem status moved h1 h2 =>
    obtain ⟨x, rest, e1, e2, -, e3⟩ := update_bag h2
    unfold RequestManager.states at hi ⊢
    dsimp only at hi ⊢
    rw [e1, add_assoc] at hi
    rw [e2, add_assoc]
    intro s hs
    rcases Multiset.mem_add.1 hs with hs | hs
    · obtain ⟨y, e⟩ := moved_fresh e3 (Multiset.mem_coe.1 hs)
      rw [e]
      exact hc
    · exact hi s (Multiset.mem_add.2 (.inr hs))
  | @remove m log ins rem rel s a b h1 =>
    unfold RequestManager.states at hi ⊢
    dsimp only at hi ⊢
    rw [PostQueues.bag_split h1, Multiset.cons_add] at hi
    exact hi.drop
  | @removeRetry m log ins rem s a b h1 =>
    unfold RequestManager.states at hi ⊢
    dsimp only at hi ⊢
    rw [h1, ms_middle, Multiset.singleton_add, Multiset.add_cons] at hi
    exact hi.drop

theorem micro_log {c c' : Cfg R} (hm : Micro c c') : ∃ l, c'.log = c.log ++ l := by
  cases hm with
  | remove => exact ⟨[], (List.append_nil _).symm⟩
  | removeRetry => exact ⟨[], (List.append_nil _).symm⟩
  | _ => exact ⟨_, rfl⟩

theorem dated_micros {P : Nat → Prop} {c c' : Cfg R} (hm : Micros c c') (hc : P c.mgr.createdAt) (hi : Dated P c.mgr.states)
    (hl : ∀ r i d id d' est, .post r i d id d' (.ok est) ∈ c'.log →
      P (est.now + est.metrics.estimateRtt est.handlingDelay)) : Dated P c'.mgr.states ∧ P c'.mgr.createdAt := by
  induction hm with
  | refl => exact ⟨hi, hc⟩
  | tail _ h ih =>
    obtain ⟨l, e⟩ := micro_log h
    obtain ⟨h1, h2⟩ := ih fun r i d id d' est he => hl r i d id d' est (by rw [e]; exact List.mem_append_left _ he)
    exact ⟨dated_micro h h2 h1 hl, by rw [createdAt_micro h]; exact h2⟩

end Manager

end Mixnet
