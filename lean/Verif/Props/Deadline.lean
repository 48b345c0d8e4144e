import Verif.Proofs.Deadline
import Verif.Props.Together
import Verif.Props.Defaults
/-!
# C89: a request is tried again before long
-/
namespace Mixnet.Props
open Mixnet Spec

variable {R Ctx : Type} {C : Crypto} {T : RequestTrait R Ctx} {config : Config} {mc : RequestManagerConfig}
  {m : RequestManager R} {n : Node}

/-- **C89** (estimates). The estimate of the round-trip time of a posted request is at most a constant that follows from the
configuration, whatever the topology, the random numbers and the packets that wait, if the destination takes at most `H`. -/
theorem estimate_bounded (hC : CryptoLaws C) (F : F64Delays C) {n n' : Node} (hr : Node.Reachable C config n)
    (hk : config.numHops ≤ 6) (hf : 100 * config.meanForwardingDelay ≤ 2 ^ 49) {rng : Rng} {i : Nat}
    {d d' : Option MixnodeIndex} {mid : MessageId} {data : Scattered Byte} {l : Bytes} {k : Nat} {ns : NetworkStatus}
    {met : RequestMetrics} (hw : (Call.postRequest rng i d mid data k ns).WellTyped) (hd : Denotes data l)
    (h : n.step C (.postRequest rng i d mid data k ns) = .ok (n', .posted d' (.ok met)))
    {handling H : Nat} (hH : handling ≤ H) :
    met.forwardingDelay ≤ forwardingLimit config ∧ met.authoredPacketQueueDelay ≤ queueLimit config ∧
    met.numHops ≤ 2 * mostHops config ∧ met.perHopNetDelay = config.perHopNetDelay ∧
    met.estimateRtt handling ≤ roundTripLimit config H := by
  obtain ⟨h1, h2, h3, h4⟩ := metrics_limit F hC hr hk hw hd h
  have h6 : mostHops config ≤ 6 := by unfold mostHops; omega
  have h5 : met.forwardingDelay ≤ forwardingLimit config := by
    refine le_trans h3 (Binary64.mulDuration_le ?_)
    refine le_trans (Nat.mul_le_mul_right _ ?_) hf
    omega
  refine ⟨h5, h4, h1, h2, ?_⟩
  rw [(estimate_covers met met handling handling).1, h2]
  unfold roundTripLimit
  have := Nat.mul_le_mul_right config.perHopNetDelay h1
  omega

theorem until_in_use {t : Nat} (h : UsedUntil C T config mc t m n) : InUse C T config mc m n := by
  induction h with
  | start _ hn => exact .start hn
  | node _ hw ho hst ih => exact .node ih hw ho hst
  | manager _ hns hst _ ih => exact .manager ih hns hst

/-- **C89** (deadlines). If a manager and a node are created and used together, and nothing was posted after time `t`, then
every request that waits for its reply is due to be tried again by `t` plus the longest round trip. -/
theorem due_soon (hC : CryptoLaws C) (F : F64Delays C) (hs : Sane config) (hf : 100 * config.meanForwardingDelay ≤ 2 ^ 49)
    (hT : ∀ r ctx, (T.data r ctx).len = (T.data r ctx).toVec.length)
    {H : Nat} (hH : ∀ r id ctx, T.handlingDelay r id ctx ≤ H)
    (h1 : 1 ≤ mc.numPostsPerAttempt) (h2 : 1 ≤ mc.numAttemptsPerDestination) {t : Nat}
    (h : UsedUntil C T config mc t m n) :
    (∀ s ∈ m.retryQueue, s.retryDeadline ≤ t + roundTripLimit config H) ∧
    ∀ d, m.nextRetryDeadline = some d → d ≤ t + roundTripLimit config H := by
  suffices key : Dated (fun x => x ≤ t + roundTripLimit config H) m.states ∧ m.createdAt ≤ t + roundTripLimit config H by
    have hq : ∀ s ∈ m.retryQueue, s.retryDeadline ≤ t + roundTripLimit config H :=
      fun s hs => key.1 s (Multiset.mem_add.2 (.inr (Multiset.mem_coe.2 hs)))
    refine ⟨hq, fun d hd => ?_⟩
    unfold RequestManager.nextRetryDeadline at hd
    cases hr : m.retryQueue with
    | nil => rw [hr] at hd; cases hd
    | cons s rest =>
      rw [hr] at hd
      cases hd
      exact hq s (by rw [hr]; exact List.mem_cons_self)
  induction h with
  | start hn _ =>
    refine ⟨fun s hs => ?_, le_trans hn (Nat.le_add_right _ _)⟩
    exact absurd hs (Multiset.notMem_zero s)
  | node _ _ _ _ ih => exact ih
  | @manager m n env ns ctx call m' n' log out hu hns hst hnow ih =>
    by_cases hcall : call = .nextRetryDeadlineChanged
    · subst hcall
      cases hst
      exact ih
    · have hm := manager_step_micros hcall hst [] [] []
      refine dated_micros hm ih.2 ih.1 fun r i d id d' est he => ?_
      obtain ⟨hr, hg, hb, hc⟩ := in_use hC hs hT h1 h2 (until_in_use hu)
      have hsp : ∀ r, call = .insert r → m.hasSpace = true := by
        rintro r rfl
        cases hh : m.hasSpace with
        | true => rfl
        | false =>
          exfalso
          have : m.step C T n env ns ctx (.insert r) = .error ⟨"self.has_space()"⟩ := by
            show ((do assertP "self.has_space()" m.hasSpace; _) >>= _) = _
            rw [hh]; rfl
          rw [this] at hst; cases hst
      have hfine := ((manager_fine hC hs hT hns (env := env) (ctx := ctx) (call := call) hr hg hb (by rw [hc]; exact h1)
        (by rw [hc]; exact h2) hsp).2 _ hst).2.2
      obtain ⟨-, -, hp⟩ := feeds_split hC hs.hops hfine hr
      obtain ⟨n1, n2, rng, now, res', hr1, -, -, -, e, hw, hpost⟩ := hp _ _ _ _ _ _ he
      cases res' with
      | error e' => cases e
      | ok met =>
        cases e
        have h3 := (estimate_bounded hC F hr1 hs.hops hf hw (Denotes.of_wf hw.2.2.1) hpost (hH r id ctx)).2.2.2.2
        have h4 := hnow _ _ _ _ _ _ he
        dsimp only at h4 ⊢
        omega

/-- The primitives that the code uses are such. -/
def f64Delays (sample : Bytes → Rat) : F64Delays (f64Crypto sample) where
  value := fun d => d
  zero := rfl
  ten := rfl
  add := fun _ _ => rfl
  le := fun (a b : Rat) => (decide_eq_true_iff : decide (a ≤ b) = true ↔ a ≤ b)
  duration := fun _ _ => rfl
  queue := rfl

/-- With the default configuration (`/repo/src/core/config.rs:103-128`): at most 100 seconds in the queues of relays (six hops each
way, ten seconds at each but the last), a nanosecond for rounding, 144.9 seconds in queues of authored packets and 3.6 seconds
between nodes. -/
theorem default_limit (secret : Option KxSecret) (gateways H : Nat) :
    roundTripLimit (defaults secret gateways) H = 248495068740 + H := by
  have e0 : forwardingLimit (defaults secret gateways) = forwardingLimit (defaults none 0) := rfl
  have e1 : forwardingLimit (defaults none 0) = 100000000001 := by decide +kernel
  have e4 : 2 * mostHops (defaults none 0) * (defaults none 0).perHopNetDelay = 3600000000 := by decide +kernel
  have e2 : queueLimit (defaults secret gateways) = queueLimit (defaults none 0) := rfl
  have e3 : queueLimit (defaults none 0) = 144895068739 := by decide +kernel
  have e5 : 2 * mostHops (defaults secret gateways) * (defaults secret gateways).perHopNetDelay =
      2 * mostHops (defaults none 0) * (defaults none 0).perHopNetDelay := rfl
  unfold roundTripLimit
  rw [e0, e1, e2, e3, e5, e4]

end Mixnet.Props

namespace Mixnet.World
open Spec Props

/-- The toy primitives with delays as the code has them. -/
def Cd : Crypto :=
  { toyCrypto with
    Delay := Rat
    delayZero := 0
    delayAdd := fun a b => Binary64.round (a + b)
    delayTen := 10
    expSample := fun s => ((s.headD 0).toNat : Rat) / 10
    delayLe := fun a b => decide (a ≤ b)
    delayToDuration := Binary64.mulDuration
    queueDelayEstimate := Binary64.queueDelay }

theorem Cd_laws : CryptoLaws Cd :=
  { toyLaws with
    delay_total := (realLaws (fun _ => 0) Binary64.queueDelay).delay_total
    delay_trans := (realLaws (fun _ => 0) Binary64.queueDelay).delay_trans
    delay_add_mono := (realLaws (fun _ => 0) Binary64.queueDelay).delay_add_mono
    delay_duration_mono := (realLaws (fun _ => 0) Binary64.queueDelay).delay_duration_mono }

def Cd_delays : F64Delays Cd where
  value := fun d => d
  zero := rfl
  ten := rfl
  add := fun _ _ => rfl
  le := fun (a b : Rat) => (decide_eq_true_iff : decide (a ≤ b) = true ↔ a ≤ b)
  duration := fun _ _ => rfl
  queue := rfl

/-- The times at which requests were posted. -/
def postTimes (log : List (LogEntry Nat)) : List Nat :=
  log.filterMap fun e => match e with
    | .post _ _ _ _ _ (.ok est) => some est.now
    | _ => none

theorem mem_postTimes {log : List (LogEntry Nat)} {r i d id d' est} (h : LogEntry.post r i d id d' (.ok est) ∈ log) :
    est.now ∈ postTimes log := List.mem_filterMap.2 ⟨_, h, rfl⟩

/-- Alice is set up, a manager is created at time 2, and a request is inserted. The result has the times of the posts too. -/
def waitsD : Res (RequestManager Nat × Node × List Nat) := do
  let n ← Node.new Cd (cfg 3)
  let (n, _) ← n.step Cd (.setSessionStatus ⟨0, .requestsToCurrent⟩)
  let (n, _) ← n.step Cd (.maybeSetMixnodes .current (.ok mixes) rng)
  let (m, n, l1, _) ← (RequestManager.new mgrConfig 2).step Cd trait n (mgrEnv 3) (ns 3) () .updateSessionStatus
  let (m, n, l2, _) ← m.step Cd trait n (mgrEnv 4) (ns 3) () (.insert 7)
  .ok (m, n, postTimes l1 ++ postTimes l2)

theorem waitsD_ok : ∃ x, waitsD = .ok x ∧ x.2.2 = [4] ∧
    x.1.retryQueue.map (fun s => (s.request, s.retryDeadline)) = [(7, 38798912622)] := by
  obtain ⟨x, h1, h2⟩ := Res.of_check (x := waitsD) (p := fun x => decide (x.2.2 = [4] ∧
    x.1.retryQueue.map (fun s => (s.request, s.retryDeadline)) = [(7, 38798912622)])) (by decide +kernel)
  exact ⟨x, h1, of_decide_eq_true h2⟩

attribute [local irreducible] Cd mixes cfg Node.step Node.new RequestManager.step

/-- The hypotheses of `due_soon` are met: a request posted at time 4 is due at 38.8 s; the limit is 166.1 s. -/
example : ∃ (m : RequestManager Nat) (n : Node), UsedUntil Cd trait (cfg 3) mgrConfig 4 m n ∧
    m.retryQueue.map (fun s => (s.request, s.retryDeadline)) = [(7, 38798912622)] ∧
    (∀ s ∈ m.retryQueue, s.retryDeadline ≤ 4 + roundTripLimit (cfg 3) 10) ∧ roundTripLimit (cfg 3) 10 = 166095068750 := by
  obtain ⟨⟨m, n, ts⟩, h, hts, hq⟩ := waitsD_ok
  unfold waitsD at h
  rw [res_bind_eq_ok] at h
  obtain ⟨n0, hn, h⟩ := h
  rw [res_bind_eq_ok] at h
  obtain ⟨⟨n1, o1⟩, s1, h⟩ := h
  rw [res_bind_eq_ok] at h
  obtain ⟨⟨n2, o2⟩, s2, h⟩ := h
  rw [res_bind_eq_ok] at h
  obtain ⟨⟨m3, n3, l3, o3⟩, s3, h⟩ := h
  rw [res_bind_eq_ok] at h
  obtain ⟨⟨m4, n4, l4, o4⟩, s4, h⟩ := h
  cases h
  dsimp only at hts hq s2 s3 s4
  have h0 : n0.sessionStatus = ⟨0, .coverToCurrent⟩ := by
    unfold Node.new at hn
    rw [res_bind_eq_ok] at hn
    obtain ⟨k, -, hn⟩ := hn
    cases hn; rfl
  have hle : ∀ x ∈ postTimes l3 ++ postTimes l4, x ≤ 4 := by
    rw [hts]; intro x hx; rw [List.mem_singleton.1 hx]
  have u0 : UsedUntil Cd trait (cfg 3) mgrConfig 4 (RequestManager.new mgrConfig 2) n0 := .start (by decide) hn
  have u1 := UsedUntil.node u0 (call := .setSessionStatus ⟨0, .requestsToCurrent⟩) trivial
    (by show n0.sessionStatus.currentIndex ≤ 0; rw [h0]) s1
  have u2 := UsedUntil.node u1 (call := .maybeSetMixnodes .current (.ok mixes) rng)
    (setup_typed _ (by unfold setup; exact List.mem_cons_of_mem _ List.mem_cons_self)) trivial s2
  have u3 := UsedUntil.manager u2 rfl s3 fun r i d id d' est he => hle _ (List.mem_append_left _ (mem_postTimes he))
  have u4 := UsedUntil.manager u3 rfl s4 fun r i d id d' est he => hle _ (List.mem_append_right _ (mem_postTimes he))
  refine ⟨m, n, u4, hq, ?_, by decide +kernel⟩
  exact (due_soon Cd_laws Cd_delays world_sane (by decide +kernel) (fun _ _ => rfl) (fun _ _ _ => le_refl 10) (by decide)
    (by decide) u4).1

end Mixnet.World
