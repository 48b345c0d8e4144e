import Verif.Spec.Overflow
import Verif.Proofs.Overflow
import Verif.Props.Deadline
import Verif.Props.Delay
import Verif.Props.SendingF64
/-!
# C91: no time computation overflows
-/
namespace Mixnet.Props
open Mixnet Spec

variable {C : Crypto} {config : Config} {m m' : Node}

/-! ### Lemmas -/

theorem session_moderate (hC : CryptoLaws C) (hm : Moderate config) (hr : Node.Reachable C config m) {rel : RelSessionIndex} {s : Session}
    (hs : m.sessions.get rel = .full s) : 1 ≤ s.meanAuthoredPacketPeriod ∧ s.meanAuthoredPacketPeriod ≤ 2 ^ 32 * 10 ^ 9 ∧
      s.authoredPacketQueue.queue.length ≤ 2 ^ 20 := by
  obtain ⟨hI, rfl⟩ := hr.inv hC
  have hi := hI.sessions _ _ hs
  obtain ⟨sc, h1, h2, h3⟩ := hi.config
  have hq := hi.queue
  rw [h2] at hq
  have hsc : 1 ≤ sc.meanAuthoredPacketPeriod ∧ sc.meanAuthoredPacketPeriod ≤ ages ∧ sc.authoredPacketQueue.capacity ≤ 10 ^ 6 := by
    unfold Config.sessionConfig at h1
    cases hmx : s.topology.isMixnode with
    | true => rw [hmx] at h1; cases h1; exact ⟨hm.mixnodePeriod.1, hm.mixnodePeriod.2, hm.mixnodeQueue⟩
    | false =>
      rw [hmx] at h1
      exact ⟨(hm.clientPeriod sc h1).1, (hm.clientPeriod sc h1).2, hm.clientQueue sc h1⟩
  rw [h3]
  refine ⟨hsc.1, hsc.2.1, ?_⟩
  have := hsc.2.2
  omega

theorem most_hops (hm : Moderate config) : mostHops config ≤ 6 := by
  have := hm.hops
  unfold mostHops
  omega

theorem duration_ok {ns : Nat} (h : ns < 2 ^ 64 * 10 ^ 9) : durationChecked ns = .ok ns := by unfold durationChecked; rw [if_pos h]
theorem instant_ok {ns : Nat} (h : ns < 2 ^ 63 * 10 ^ 9) : instantChecked ns = .ok ns := by unfold instantChecked; rw [if_pos h]

/-! ### Claims -/

/-- **C91** (requests). For every posted request: the estimate of the time spent in queues, the total forwarding delay and the
round-trip time are computed without overflow, and so is the deadline for the next try. `value` is the `f64` in a delay; samples
of the exponential distribution are not negative. -/
theorem request_fits (hC : CryptoLaws C) (F : F64Delays C) (hpos : ∀ seed, 0 ≤ F.value (C.expSample seed)) (hm : Moderate config)
    (hr : Node.Reachable C config m) {rng : Rng} {i : Nat} {d d' : Option MixnodeIndex} {mid : MessageId} {data : Scattered Byte}
    {l : Bytes} {k : Nat} {ns : NetworkStatus} {met : RequestMetrics}
    (hw : (Call.postRequest rng i d mid data k ns).WellTyped) (hd : Denotes data l)
    (h : m.step C (.postRequest rng i d mid data k ns) = .ok (m', .posted d' (.ok met))) :
    (∃ s, m'.sessionAt i = some s ∧ estimateQueueDelayChecked config s = .ok met.authoredPacketQueueDelay) ∧
    (∃ there back, Binary64.delayAddChecked (F.value there) (F.value back) = .ok (F.value (C.delayAdd there back)) ∧
      Binary64.mulDurationChecked (F.value (C.delayAdd there back)) config.meanForwardingDelay = .ok met.forwardingDelay) ∧
    (∀ handling ≤ ages, met.estimateRttChecked handling = .ok (met.estimateRtt handling) ∧
      ∀ now ≤ clockLimit, instantChecked (now + met.estimateRtt handling) = .ok (now + met.estimateRtt handling)) := by
  obtain ⟨s, hs, he, -, h2⟩ := posted_queue_delay hC hr hm.hops hw hd h
  have hr' := hr.step hC hw h
  obtain ⟨rel, -, hslot⟩ := Node.sessionAt_eq.1 hs
  obtain ⟨p1, p2, p3⟩ := session_moderate hC hm hr' hslot
  have hcap := hm.mixnodeQueue
  have hages : ages = 2 ^ 32 * 10 ^ 9 := rfl
  have hmp := hm.mixnodePeriod.2
  have hfw := hm.forwarding
  have hnet := hm.net
  rw [hages] at hmp hfw hnet
  obtain ⟨eq, bq⟩ := Binary64.queueDelayChecked_ok (n := s.authoredPacketQueue.queue.length)
    (m := config.mixnodeSession.authoredPacketQueue.capacity) hm.loops.1 hm.loops.2 h2 p2 hmp p3 (by omega)
  rw [F.queue] at he
  obtain ⟨h3, h4, -, there, back, e, h5, h6, h7⟩ := metrics_delays F hC hr hm.hops hw hd h
  obtain ⟨h7, h8⟩ := h7 hpos
  unfold AtMost at h5 h6
  have h9 : (10 * ((mostHops config - 1 : ℕ) : Rat)) ≤ 50 := by
    have := most_hops hm
    have : ((mostHops config - 1 : ℕ) : Rat) ≤ 5 := by exact_mod_cast (by omega : mostHops config - 1 ≤ 5)
    linarith
  obtain ⟨e1, a1, b1⟩ := Binary64.finite_ok (q := F.value there + F.value back) (k := 7) (by linarith) (by norm_num; linarith) (by norm_num)
  obtain ⟨e2, b2⟩ := Binary64.mulDurationChecked_ok a1 b1 hfw (by norm_num) (by norm_num)
  rw [F.duration, F.add] at e
  refine ⟨⟨s, hs, ?_⟩, ⟨there, back, ?_, ?_⟩, fun handling hh => ?_⟩
  · unfold estimateQueueDelayChecked
    rw [eq, he]
  · unfold Binary64.delayAddChecked
    rw [e1, F.add]
  · rw [F.add, e2, e]
  · rw [hages] at hh
    rw [← he] at bq
    rw [← e] at b2
    have h10 : met.numHops ≤ 12 := by have := most_hops hm; omega
    have hmod : met.numHops % 2 ^ 32 = met.numHops := Nat.mod_eq_of_lt (by omega)
    have h11 : met.perHopNetDelay * met.numHops ≤ 2 ^ 32 * 10 ^ 9 * 12 := by
      rw [h4]; exact Nat.mul_le_mul hnet h10
    have hsum : met.estimateRtt handling =
        met.forwardingDelay + met.authoredPacketQueueDelay + met.perHopNetDelay * met.numHops + handling := rfl
    constructor
    · unfold RequestMetrics.estimateRttChecked
      rw [hmod, duration_ok (by omega), res_bind_ok, duration_ok (by omega), res_bind_ok, duration_ok (by omega), res_bind_ok,
        duration_ok (by omega), hsum]
    · intro now hnow
      have hcl : clockLimit = 2 ^ 61 * 10 ^ 9 := rfl
      rw [hcl] at hnow
      exact instant_ok (by rw [hsum]; omega)

/-- **C91** (forwarding). When a packet is to be forwarded, neither its delay nor the time at which it is due overflow. -/
theorem forward_fits (hC : CryptoLaws C) (F : F64Delays C) (hpos : ∀ seed, 0 ≤ F.value (C.expSample seed)) (hm : Moderate config)
    (hr : Node.Reachable C config m) {now : Nat} {packet : Bytes} {p : ForwardPacket} (hl : packet.length = 2252)
    (h : Forwards C m now packet p) (hnow : now ≤ clockLimit) :
    ∃ sec ns, Binary64.mulDurationChecked (F.value (forwardingDelay C sec)) config.meanForwardingDelay = .ok ns ∧
      instantChecked (now + ns) = .ok p.deadline := by
  obtain ⟨i, s, -, e⟩ := held_for hC hr hl h
  have hb : F.value (forwardingDelay C (C.deriveKxSharedSecret (packet.take 32) s.kxPair.secret)) ≤ 10 := exp_le_ten F _
  obtain ⟨e2, b2⟩ := Binary64.mulDurationChecked_ok (j := 4) (exp_nonneg F hpos
    (C.deriveKxSharedSecret (packet.take 32) s.kxPair.secret)) (le_trans hb (by norm_num)) hm.forwarding (by norm_num) (by norm_num)
  refine ⟨_, _, e2, ?_⟩
  rw [F.duration] at e
  have hcl : clockLimit = 2 ^ 61 * 10 ^ 9 := rfl
  rw [hcl] at hnow
  rw [instant_ok (by omega), e]

theorem mean_fits {a : Session} {l : List Session} (hs : ∀ s ∈ a :: l, 1 ≤ s.meanAuthoredPacketPeriod ∧
      s.meanAuthoredPacketPeriod ≤ 2 ^ 32 * 10 ^ 9) (hi : m.sessions.iter = a :: l) :
    ∃ x, m.meanSecs = .ok x ∧ m.meanSecsChecked = .ok x ∧ ∀ v, x = some v → 0 ≤ v ∧ v ≤ 2 ^ 34 := by
  have hs := hs
  unfold Node.meanSecs Node.meanSecsChecked
  rw [hi]
  match l, hs with
  | [], hs =>
    have ha := (hs a List.mem_cons_self).2
    have h0 := Binary64.asSecs_nonneg a.meanAuthoredPacketPeriod
    have h1 := Binary64.asSecs_le ha (by norm_num)
    obtain ⟨e1, a1, b1⟩ := Binary64.finite_ok (q := 2 * Binary64.asSecs a.meanAuthoredPacketPeriod) (k := 33) (by linarith)
      (by norm_num at h1 ⊢; linarith) (by norm_num)
    dsimp only
    cases m.sessionStatus.phase.needPrev with
    | false =>
      refine ⟨_, rfl, rfl, fun v hv => ?_⟩
      cases hv
      simp only [Bool.false_eq_true, if_false]
      exact ⟨h0, le_trans h1 (by norm_num)⟩
    | true =>
      refine ⟨_, rfl, ?_, fun v hv => ?_⟩
      · simp only [if_true]
        rw [e1, res_bind_ok]
      · cases hv
        simp only [if_true]
        exact ⟨a1, le_trans b1 (by norm_num)⟩
  | [b], hs =>
    have ha := hs a List.mem_cons_self
    have hb := hs b (by simp)
    have hne : Binary64.round (Binary64.asSecs a.meanAuthoredPacketPeriod + Binary64.asSecs b.meanAuthoredPacketPeriod) ≠ 0 := by
      intro h
      have := (Binary64.sum_zero_iff _ _).1 h
      have h1 : (1 : Rat) ≤ a.meanAuthoredPacketPeriod := by exact_mod_cast ha.1
      have h2 : (0 : Rat) ≤ b.meanAuthoredPacketPeriod := by positivity
      linarith
    obtain ⟨e, a1, b1⟩ := Binary64.halfRate_ok ha.2 hb.2 hne
    dsimp only
    rw [if_neg hne]
    refine ⟨_, rfl, ?_, fun v hv => ?_⟩
    · have e' := congrArg (fun x : Res Rat => x >>= fun v => Except.ok (some v)) e
      rw [res_bind_ok] at e'
      rw [← e']
      simp only [bind_assoc]
    · cases hv; exact ⟨a1, b1⟩
  | _ :: _ :: _, _ => exact ⟨_, rfl, rfl, fun v hv => by cases hv⟩

/-- **C91** (authored packets). The delay until the next authored packet is computed without overflow, whatever sample of
the exponential distribution is drawn, because the sample is capped. -/
theorem next_delay_fits (hC : CryptoLaws C) (hm : Moderate config) (hr : Node.Reachable C config m) {e : Rat} (he : 0 ≤ e) :
    ∃ x, m.nextAuthoredPacketDelayChecked e = .ok x ∧ m.nextAuthoredPacketDelay64 e = .ok x := by
  have hall : ∀ s ∈ m.sessions.iter, 1 ≤ s.meanAuthoredPacketPeriod ∧ s.meanAuthoredPacketPeriod ≤ 2 ^ 32 * 10 ^ 9 := by
    intro s hs
    unfold Sessions.iter at hs
    obtain ⟨slot, hmem, hslot⟩ := List.mem_filterMap.1 hs
    have hfull : slot = .full s := by cases slot <;> first | (cases hslot; done) | (cases hslot; rfl)
    have : ∃ rel, m.sessions.get rel = .full s := by
      rcases List.mem_cons.1 hmem with h | h
      · exact ⟨.current, by rw [← hfull, h]; rfl⟩
      · rw [List.mem_singleton] at h
        exact ⟨.prev, by rw [← hfull, h]; rfl⟩
    obtain ⟨rel, hrel⟩ := this
    obtain ⟨h1, h2, -⟩ := session_moderate hC hm hr hrel
    exact ⟨h1, h2⟩
  have hmean : ∃ x, m.meanSecs = .ok x ∧ m.meanSecsChecked = .ok x ∧ ∀ v, x = some v → 0 ≤ v ∧ v ≤ 2 ^ 34 := by
    obtain ⟨l, hl⟩ : ∃ l, m.sessions.iter = l := ⟨_, rfl⟩
    cases l with
    | nil => exact ⟨none, by unfold Node.meanSecs; rw [hl], by unfold Node.meanSecsChecked; rw [hl], fun v hv => by cases hv⟩
    | cons a l =>
      rw [hl] at hall
      exact mean_fits hall hl
  obtain ⟨x, h1, h2, h3⟩ := hmean
  unfold Node.nextAuthoredPacketDelayChecked Node.nextAuthoredPacketDelay64
  rw [h1, h2, res_bind_ok, res_bind_ok]
  cases x with
  | none => exact ⟨none, rfl, rfl⟩
  | some mean =>
    obtain ⟨h4, h5⟩ := h3 mean rfl
    have hcap : 0 ≤ (if e < 10 then e else 10) ∧ (if e < 10 then e else 10) ≤ 2 ^ 4 := by
      by_cases h : e < 10
      · rw [if_pos h]; exact ⟨he, by norm_num; linarith⟩
      · rw [if_neg h]; norm_num
    obtain ⟨e1, a1, b1⟩ := Binary64.finite_ok (q := (if e < 10 then e else 10) * mean) (k := 38) (mul_nonneg hcap.1 h4)
      (by have := mul_le_mul hcap.2 h5 h4 (by norm_num); exact le_trans this (by norm_num)) (by norm_num)
    obtain ⟨e2, -⟩ := Binary64.fromSecsChecked_ok a1 b1 (by norm_num)
    refine ⟨_, ?_, rfl⟩
    dsimp only
    rw [e1, res_bind_ok, e2, res_bind_ok]

/-- **C91** (retries). Whenever a manager posts a request to a node it is used with, the round-trip time and the deadline for
the next try are computed without overflow. -/
theorem retry_fits {R Ctx : Type} {T : RequestTrait R Ctx} {mc : RequestManagerConfig} {mgr mgr' : RequestManager R} {n n' : Node}
    (hC : CryptoLaws C) (F : F64Delays C) (hpos : ∀ seed, 0 ≤ F.value (C.expSample seed)) (hm : Moderate config)
    (hk : 1 ≤ config.surbKeystoreCapacity) (hT : ∀ r ctx, (T.data r ctx).len = (T.data r ctx).toVec.length)
    (hH : ∀ r id ctx, T.handlingDelay r id ctx ≤ ages)
    (h1 : 1 ≤ mc.numPostsPerAttempt) (h2 : 1 ≤ mc.numAttemptsPerDestination) (hu : InUse C T config mc mgr n)
    {env ns ctx call log out} (hns : ns.localPeerId.length = PEER_ID_SIZE)
    (hst : mgr.step C T n env ns ctx call = .ok (mgr', n', log, out))
    {r i d id d' est} (he : .post r i d id d' (.ok est) ∈ log) (hnow : est.now ≤ clockLimit) :
    est.metrics.estimateRttChecked est.handlingDelay = .ok (est.metrics.estimateRtt est.handlingDelay) ∧
    instantChecked (est.now + est.metrics.estimateRtt est.handlingDelay) =
      .ok (est.now + est.metrics.estimateRtt est.handlingDelay) := by
  have hs : Sane config := ⟨hm.hops, hk, ⟨hm.loops.1, by have := hm.loops.2; linarith⟩, hm.mixnodePeriod.1,
    fun sc h => (hm.clientPeriod sc h).1⟩
  obtain ⟨hr, hg, hb, hc⟩ := in_use hC hs hT h1 h2 hu
  have hsp : ∀ r, call = .insert r → mgr.hasSpace = true := by
    rintro r rfl
    cases hh : mgr.hasSpace with
    | true => rfl
    | false =>
      exfalso
      have : mgr.step C T n env ns ctx (.insert r) = .error ⟨"self.has_space()"⟩ := by
        show ((do assertP "self.has_space()" mgr.hasSpace; _) >>= _) = _
        rw [hh]; rfl
      rw [this] at hst; cases hst
  have hfine := ((manager_fine hC hs hT hns (env := env) (ctx := ctx) (call := call) hr hg hb (by rw [hc]; exact h1)
    (by rw [hc]; exact h2) hsp).2 _ hst).2.2
  obtain ⟨-, -, hp⟩ := feeds_split hC hs.hops hfine hr
  obtain ⟨n1, n2, rng, now, res', hr1, -, -, -, e, hw, hpost⟩ := hp _ _ _ _ _ _ he
  cases res' with
  | error e' => cases e
  | ok met =>
    cases e
    obtain ⟨h3, h4⟩ := (request_fits hC F hpos hm hr1 hw (Denotes.of_wf hw.2.2.1) hpost).2.2 _ (hH r id ctx)
    exact ⟨h3, h4 _ hnow⟩

/-- **C91** (needed). With nothing but loop cover the estimate is not a time, whatever the rest of the configuration. -/
theorem only_loops_overflow (s : Session) (h : config.loopCoverProportion = 1) :
    ∃ p, estimateQueueDelayChecked config s = .error p := by
  have e1 : Binary64.finite (1 - 1) = .ok 0 := by decide +kernel
  have e2 : Binary64.finite (1 / 2 * 0) = .ok 0 := by decide +kernel
  unfold estimateQueueDelayChecked Binary64.queueDelayChecked Binary64.rateMulChecked
  rw [h, e1, res_bind_ok, e2, res_bind_ok]
  unfold Binary64.divDurationChecked Binary64.divide
  rw [if_pos rfl]
  exact ⟨_, rfl⟩

/-- Nor is it if the periods of both sessions are zero. -/
example : Binary64.queueDelayChecked (1 / 4) 0 10 0 50 = .error ⟨"f64: division by zero"⟩ := by decide +kernel

/-- Very long periods and much cover do overflow: a billion years and queues with a million packets. -/
example : (Binary64.queueDelayChecked (999 / 1000) (2 ^ 55 * 10 ^ 9) 1000000 (2 ^ 55 * 10 ^ 9) 50).isOk = false := by decide +kernel

/-- So would a delay without the cap at ten. -/
example : (Binary64.mulDurationChecked (2 ^ 33) (2 ^ 32 * 10 ^ 9)).isOk = false ∧
    (Binary64.mulDurationChecked 10 (2 ^ 32 * 10 ^ 9)).isOk = true := by decide +kernel

/-- The default configuration is moderate. -/
theorem defaults_moderate (secret : Option KxSecret) (gateways : Nat) : Moderate (defaults secret gateways) where
  hops := by show (defaults none 0).numHops ≤ 6; decide +kernel
  loops := by show 0 ≤ (defaults none 0).loopCoverProportion ∧ (defaults none 0).loopCoverProportion ≤ 99 / 100; decide +kernel
  mixnodePeriod := by
    show 1 ≤ (defaults none 0).mixnodeSession.meanAuthoredPacketPeriod ∧ (defaults none 0).mixnodeSession.meanAuthoredPacketPeriod ≤ ages
    decide +kernel
  mixnodeQueue := by show (defaults none 0).mixnodeSession.authoredPacketQueue.capacity ≤ 10 ^ 6; decide +kernel
  clientPeriod := by
    intro sc h
    obtain ⟨sc', hsc⟩ : ∃ sc', (defaults none 0).nonMixnodeSession = some sc' ∧ 1 ≤ sc'.meanAuthoredPacketPeriod ∧
      sc'.meanAuthoredPacketPeriod ≤ ages := ⟨_, rfl, by decide +kernel, by decide +kernel⟩
    have h : (defaults none 0).nonMixnodeSession = some sc := h
    rw [hsc.1] at h; cases h; exact hsc.2
  clientQueue := by
    intro sc h
    obtain ⟨sc', hsc⟩ : ∃ sc', (defaults none 0).nonMixnodeSession = some sc' ∧ sc'.authoredPacketQueue.capacity ≤ 10 ^ 6 :=
      ⟨_, rfl, by decide +kernel⟩
    have h : (defaults none 0).nonMixnodeSession = some sc := h
    rw [hsc.1] at h; cases h; exact hsc.2
  forwarding := by show (defaults none 0).meanForwardingDelay ≤ ages; decide +kernel
  net := by show (defaults none 0).perHopNetDelay ≤ ages; decide +kernel

end Mixnet.Props

namespace Mixnet.World
open Spec Props

theorem cfg_moderate (b : UInt8) : Moderate (cfg b) :=
  let d := defaults_moderate none 0
  ⟨(by decide : 2 ≤ 6), d.loops, d.mixnodePeriod, d.mixnodeQueue, d.clientPeriod, d.clientQueue, d.forwarding, d.net⟩

theorem Cd_samples (seed : Bytes) : 0 ≤ Cd_delays.value (Cd.expSample seed) := by
  show (0 : Rat) ≤ ((seed.headD 0).toNat : Rat) / 10
  positivity

/-- Alice or Carol, set up, and then one more call. -/
def thenD (b : UInt8) (call : Call) : Res (Node × Node × Outcome) := do
  let n ← Node.new Cd (cfg b)
  let (n, _) ← n.step Cd (.setSessionStatus ⟨0, .requestsToCurrent⟩)
  let (n, _) ← n.step Cd (.maybeSetMixnodes .current (.ok mixes) rng)
  let (n', out) ← n.step Cd call
  .ok (n, n', out)

theorem thenD_ask : ∃ x, thenD 3 ask = .ok x ∧ (match x.2.2 with
    | .posted _ (.ok met) => decide (met.authoredPacketQueueDelay = 22298912608 ∧ met.forwardingDelay = 12200000000)
    | _ => false) = true :=
  Res.of_check (x := thenD 3 ask) (p := fun x => match x.2.2 with
    | .posted _ (.ok met) => decide (met.authoredPacketQueueDelay = 22298912608 ∧ met.forwardingDelay = 12200000000)
    | _ => false) (by decide +kernel)

theorem thenD_relay : ∃ x, thenD 7 relay = .ok x ∧ x.1.forwardPacketQueue.queue.map (·.deadline) = [] ∧
    x.2.1.forwardPacketQueue.queue.map (·.deadline) = [2200001000] := by
  obtain ⟨x, hx, h⟩ := Res.of_check (x := thenD 7 relay) (p := fun x => decide (x.1.forwardPacketQueue.queue.map (·.deadline) = [] ∧
    x.2.1.forwardPacketQueue.queue.map (·.deadline) = [2200001000])) (by decide +kernel)
  exact ⟨x, hx, of_decide_eq_true h⟩

attribute [local irreducible] Cd mixes cfg Node.step Node.new

theorem thenD_steps {b : UInt8} {call : Call} {x : Node × Node × Outcome} (h : thenD b call = .ok x) :
    Node.Reachable Cd (cfg b) x.1 ∧ x.1.step Cd call = .ok x.2 := by
  unfold thenD at h
  rw [res_bind_eq_ok] at h
  obtain ⟨n0, hn, h⟩ := h
  rw [res_bind_eq_ok] at h
  obtain ⟨⟨n1, o1⟩, s1, h⟩ := h
  rw [res_bind_eq_ok] at h
  obtain ⟨⟨n2, o2⟩, s2, h⟩ := h
  rw [res_bind_eq_ok] at h
  obtain ⟨⟨n3, o3⟩, s3, h⟩ := h
  cases h
  have r0 : Node.Reachable Cd (cfg b) n0 := ⟨n0, [], [], hn, by simp, .nil _⟩
  have r1 := r0.step Cd_laws (call := .setSessionStatus ⟨0, .requestsToCurrent⟩) trivial s1
  exact ⟨r1.step Cd_laws (setup_typed _ (by unfold setup; exact List.mem_cons_of_mem _ List.mem_cons_self)) s2, s3⟩

/-- Alice posts a request, and the hypotheses of `request_fits` are met. -/
example : ∃ (m m' : Node) (d : Option MixnodeIndex) (met : RequestMetrics), m.step Cd ask = .ok (m', .posted d (.ok met)) ∧
    met.estimateRttChecked 10 = .ok (met.estimateRtt 10) ∧ met.forwardingDelay = 12200000000 := by
  obtain ⟨⟨m, m', o⟩, hx, h⟩ := thenD_ask
  obtain ⟨hr, hst⟩ := thenD_steps hx
  dsimp only at h hr hst
  cases o with
  | posted d res =>
    cases res with
    | error e => cases h
    | ok met =>
      have h := of_decide_eq_true h
      exact ⟨m, m', d, met, hst, ((request_fits Cd_laws Cd_delays Cd_samples (cfg_moderate 3) hr ask_typed (Denotes.of_wf ask_typed.2.2.1)
        hst).2.2 10 (by decide)).1, h.2⟩
  | _ => cases h

/-- Carol forwards it, and the hypotheses of `forward_fits` are met. -/
example : ∃ (m : Node) (p : ForwardPacket), Forwards Cd m 1000 packet0.packet p ∧ p.deadline = 2200001000 ∧
    ∃ ns, instantChecked (1000 + ns) = .ok p.deadline := by
  obtain ⟨⟨m, m', o⟩, hx, h0, h1⟩ := thenD_relay
  obtain ⟨hr, hst⟩ := thenD_steps hx
  dsimp only at h0 h1 hr hst
  obtain ⟨hI, -⟩ := hr.inv Cd_laws
  rcases forward_step hI (Node.step_cases Cd_laws hI relay_typed hst) with ⟨now, packet, p, hcall, hf, hq⟩ | ⟨tie, p, hcall, -⟩ | ⟨-, -, -, hq⟩
  · cases hcall
    have e : p.deadline = 2200001000 := by
      rw [hq] at h1
      rw [List.map_cons] at h1
      injection h1
    obtain ⟨sec, ns, -, h2⟩ := forward_fits Cd_laws Cd_delays Cd_samples (cfg_moderate 7) hr packet0_length hf (by decide)
    exact ⟨m, p, hf, e, ns, h2⟩
  · cases hcall
  · rw [hq, h0] at h1; cases h1

/-- Whatever is drawn, Carol's next authored packet is to be sent within a second (her mean period is 100 ms). -/
example : ∃ m, Node.Reachable Cd (cfg 7) m ∧ ∀ e, 0 ≤ e → ∃ x, m.nextAuthoredPacketDelayChecked e = .ok x := by
  obtain ⟨⟨m, m', o⟩, hx, -⟩ := thenD_relay
  refine ⟨m, (thenD_steps hx).1, fun e he => ?_⟩
  obtain ⟨x, h, -⟩ := next_delay_fits Cd_laws (cfg_moderate 7) (thenD_steps hx).1 he
  exact ⟨x, h⟩

theorem of_postTimes {log : List (LogEntry Nat)} {t : Nat} (h : t ∈ postTimes log) :
    ∃ r i d id d' est, LogEntry.post r i d id d' (.ok est) ∈ log ∧ est.now = t := by
  obtain ⟨e, he, ht⟩ := List.mem_filterMap.1 h
  cases e with
  | post r i d id d' res =>
    cases res with
    | ok est => cases ht; exact ⟨r, i, d, id, d', est, he, rfl⟩
    | error e => cases ht
  | _ => cases ht

attribute [local irreducible] RequestManager.step

/-- The request that a manager posts to Alice at time 4 meets the hypotheses of `retry_fits`. -/
example : ∃ est : Estimate, est.now = 4 ∧
    instantChecked (4 + est.metrics.estimateRtt est.handlingDelay) = .ok (4 + est.metrics.estimateRtt est.handlingDelay) := by
  obtain ⟨⟨m, n, ts⟩, h, hts, -⟩ := waitsD_ok
  dsimp only at hts
  unfold waitsD at h
  rw [res_bind_eq_ok] at h
  obtain ⟨n0, hn, h⟩ := h
  rw [res_bind_eq_ok] at h
  obtain ⟨⟨n1, o1⟩, s1, h⟩ := h
  rw [res_bind_eq_ok] at h
  obtain ⟨⟨n2, o2⟩, s2, h⟩ := h
  rw [res_bind_eq_ok] at h
  obtain ⟨⟨m3, n3, l3, o3⟩, s3, h⟩ := h
  rw [res_bind_eq_ok] at h
  obtain ⟨⟨m4, n4, l4, o4⟩, s4, h⟩ := h
  cases h
  have h0 : n0.sessionStatus = ⟨0, .coverToCurrent⟩ := by
    unfold Node.new at hn
    rw [res_bind_eq_ok] at hn
    obtain ⟨k, -, hn⟩ := hn
    cases hn; rfl
  have u0 : InUse Cd trait (cfg 3) mgrConfig (RequestManager.new mgrConfig 2) n0 := .start hn
  have u1 := InUse.node u0 (call := .setSessionStatus ⟨0, .requestsToCurrent⟩) trivial
    (by show n0.sessionStatus.currentIndex ≤ 0; rw [h0]) s1
  have u2 := InUse.node u1 (call := .maybeSetMixnodes .current (.ok mixes) rng)
    (setup_typed _ (by unfold setup; exact List.mem_cons_of_mem _ List.mem_cons_self)) trivial s2
  have u3 := InUse.manager u2 rfl s3
  have h4 : 4 ∈ postTimes l3 ++ postTimes l4 := by rw [hts]; exact List.mem_singleton.2 rfl
  rcases List.mem_append.1 h4 with h4 | h4
  · obtain ⟨r, i, d, id, d', est, he, e⟩ := of_postTimes h4
    have := (retry_fits Cd_laws Cd_delays Cd_samples (cfg_moderate 3) world_sane.keystore (fun _ _ => rfl) (fun _ _ _ => (by decide : 10 ≤ ages))
      (by decide) (by decide) u2 rfl s3 he (by rw [e]; decide)).2
    rw [e] at this
    exact ⟨est, e, this⟩
  · obtain ⟨r, i, d, id, d', est, he, e⟩ := of_postTimes h4
    have := (retry_fits Cd_laws Cd_delays Cd_samples (cfg_moderate 3) world_sane.keystore (fun _ _ => rfl) (fun _ _ _ => (by decide : 10 ≤ ages))
      (by decide) (by decide) u3 rfl s4 he (by rw [e]; decide)).2
    rw [e] at this
    exact ⟨est, e, this⟩

end Mixnet.World
