import Verif.Spec.Lifetime
import Verif.Proofs.Lifetime
import Verif.Props.Deadline
/-!
# C100: no request stays in the manager for ever
-/
namespace Mixnet.Props
open Mixnet Spec

variable {R Ctx : Type} {C : Crypto} {T : RequestTrait R Ctx} {config : Config} {mc : RequestManagerConfig}
  {m : RequestManager R} {n : Node}

theorem until_mono {t t' : Nat} (ht : t ≤ t') (h : UsedUntil C T config mc t m n) : UsedUntil C T config mc t' m n := by
  induction h with
  | start h hn => exact .start (le_trans h ht) hn
  | node _ hw ho hst ih => exact .node ih hw ho hst
  | manager _ hns hst hp ih => exact .manager ih hns hst fun _ _ _ _ _ _ he => le_trans (hp _ _ _ _ _ _ he) ht

/-- The whole history of a tended manager. -/
theorem tended_until {δ t τ : Nat} {r : R} (h : Tended C T config mc δ r t τ m n) : UsedUntil C T config mc τ m n ∧ t ≤ τ := by
  induction h with
  | start h _ => exact ⟨h, le_refl _⟩
  | node _ hw ho hst ih => exact ⟨.node ih.1 hw ho hst, ih.2⟩
  | manager _ hle _ hns _ hst hp _ ih => exact ⟨.manager (until_mono hle ih.1) hns hst hp, le_trans ih.2 hle⟩

/-- What every small step and the flag keep. -/
theorem in_use_keeps {P : RequestManager R → Prop} (h0 : ∀ now, P (.new mc now))
    (hm : ∀ c c' : Cfg R, P c.mgr → Micro c c' → P c'.mgr)
    (ha : ∀ m b, P m → P { m with nextRetryDeadlineChanged := b }) (h : InUse C T config mc m n) : P m := by
  induction h with
  | start _ => exact h0 _
  | node _ _ _ _ ih => exact ih
  | @manager m n env ns ctx call m' n' log out _ _ hst ih =>
    by_cases hcall : call = .nextRetryDeadlineChanged
    · subst hcall
      cases hst
      exact ha _ _ ih
    · have := manager_step_micros hcall hst [] [] []
      have key : ∀ c c' : Cfg R, Micros c c' → P c.mgr → P c'.mgr := by
        intro c c' hs hp
        induction hs with
        | refl => exact hp
        | tail _ h ih => exact hm _ _ ih h
      exact key _ _ this ih

theorem bag_mem {s : RequestState R} {q : PostQueues (RequestState R)} (h : s ∈ q.bag) : s ∈ q.current ++ q.prev ++ q.default := by
  unfold PostQueues.bag at h
  simpa [or_assoc] using h

/-- The estimates for the posts of a call. -/
theorem estimates_bounded (hC : CryptoLaws C) (F : F64Delays C) (hs : Sane config) (hf : 100 * config.meanForwardingDelay ≤ 2 ^ 49)
    (hT : ∀ r ctx, (T.data r ctx).len = (T.data r ctx).toVec.length) {H : Nat} (hH : ∀ r id ctx, T.handlingDelay r id ctx ≤ H)
    (h1 : 1 ≤ mc.numPostsPerAttempt) (h2 : 1 ≤ mc.numAttemptsPerDestination) (hu : InUse C T config mc m n) {env : Env}
    {ns : NetworkStatus} (hns : ns.localPeerId.length = PEER_ID_SIZE) {ctx : Ctx} {call : ManagerCall R} {m' : RequestManager R} {n' : Node}
    {log : List (LogEntry R)} {out : ManagerOutcome R} (hst : m.step C T n env ns ctx call = .ok (m', n', log, out)) {r : R}
    {i : SessionIndex} {d d' : Option MixnodeIndex} {id : MessageId} {est : Estimate} (he : .post r i d id d' (.ok est) ∈ log) :
    est.now + est.metrics.estimateRtt est.handlingDelay ≤ est.now + roundTripLimit config H := by
  obtain ⟨hr, hg, hb, hc⟩ := in_use hC hs hT h1 h2 hu
  have hsp : ∀ r, call = .insert r → m.hasSpace = true := by
    rintro r rfl
    cases hh : m.hasSpace with
    | true => rfl
    | false =>
      exfalso
      have : m.step C T n env ns ctx (.insert r) = .error ⟨"self.has_space()"⟩ := by
        show ((do assertP "self.has_space()" m.hasSpace; _) >>= _) = _
        rw [hh]; rfl
      rw [this] at hst; cases hst
  have hfine := ((manager_fine hC hs hT hns (env := env) (ctx := ctx) (call := call) hr hg hb (by rw [hc]; exact h1)
    (by rw [hc]; exact h2) hsp).2 _ hst).2.2
  obtain ⟨-, -, hp⟩ := feeds_split hC hs.hops hfine hr
  obtain ⟨n1, n2, rng, now, res', hr1, -, -, -, e, hw, hpost⟩ := hp _ _ _ _ _ _ he
  cases res' with
  | error e' => cases e
  | ok met =>
    cases e
    have h3 := (estimate_bounded hC F hr1 hs.hops hf hw (Denotes.of_wf hw.2.2.1) hpost (hH r id ctx)).2.2.2.2
    dsimp only
    omega

theorem tended_lives (hC : CryptoLaws C) (F : F64Delays C) (hs : Sane config) (hf : 100 * config.meanForwardingDelay ≤ 2 ^ 49)
    (hT : ∀ r ctx, (T.data r ctx).len = (T.data r ctx).toVec.length) {H : Nat} (hH : ∀ r id ctx, T.handlingDelay r id ctx ≤ H)
    (h1 : 1 ≤ mc.numPostsPerAttempt) (h2 : 1 ≤ mc.numAttemptsPerDestination) {δ t τ : Nat} {r : R}
    (h : Tended C T config mc δ r t τ m n) :
    NotQueued r m ∧ ∀ s ∈ m.retryQueue, s.request = r →
      s.retryDeadline + δ + s.left m.config * (roundTripLimit config H + δ) ≤ t + stay config mc H δ := by
  induction h with
  | @start m n hu hq =>
    refine ⟨hq, fun s hsq he => ?_⟩
    have k1 := (due_soon hC F hs hf hT hH h1 h2 hu).1 s hsq
    have k2 : Few m := in_use_keeps (P := Few) (fun now s hs => absurd hs (Multiset.notMem_zero s)) (fun _ _ => few_micro)
      (fun _ _ h => h) (until_in_use hu)
    have k3 := k2 s (Multiset.mem_add.2 (.inr (Multiset.mem_coe.2 hsq)))
    have hc := (in_use hC hs hT h1 h2 (until_in_use hu)).2.2.2
    rw [hc] at k3 ⊢
    unfold stay
    obtain ⟨e, he⟩ := Nat.exists_eq_add_of_le k3
    rw [he, Nat.add_mul, Nat.add_mul, Nat.one_mul]
    have : 0 ≤ e * (roundTripLimit config H + δ) := Nat.zero_le _
    omega
  | node _ _ _ _ ih => exact ih
  | @manager τ τ' m n env ns ctx call m' n' log out hu hle hin hns hcall' hst hnow hq ih =>
    refine ⟨hq, ?_⟩
    obtain ⟨hun, -⟩ := tended_until hu
    have huse := until_in_use hun
    obtain ⟨hr, hg, hb, hc⟩ := in_use hC hs hT h1 h2 huse
    by_cases hcall : call = .nextRetryDeadlineChanged
    · subst hcall
      cases hst
      exact ih.2
    · have hm := manager_step_micros hcall hst [] [] []
      have hsort : m.retryQueue.Pairwise fun a b => a.retryDeadline ≤ b.retryDeadline :=
        in_use_keeps (P := fun m => m.retryQueue.Pairwise fun (a b : RequestState R) => a.retryDeadline ≤ b.retryDeadline) (fun _ => .nil)
          (fun c _ h hm => sorted_micro (c := c) h hm) (fun _ _ h => h) huse
      have hcreated : m.createdAt ≤ τ := by
        clear ih hst hin hq hm hu hsort hnow hr hg hb hc huse hle
        induction hun with
        | start h _ => exact h
        | node _ _ _ _ ih => exact ih
        | @manager m n env ns ctx call m' n' log out _ _ hst _ ih =>
          by_cases hcall : call = .nextRetryDeadlineChanged
          · subst hcall
            cases hst
            exact ih
          · have := manager_step_micros hcall hst [] [] []
            have key : ∀ c c' : Cfg R, Micros c c' → c'.mgr.createdAt = c.mgr.createdAt := by
              intro c c' hs
              induction hs with
              | refl => rfl
              | tail _ h ih => exact (createdAt_micro h).trans ih
            have := key _ _ this
            dsimp only at this
            omega
      have hlate : ∀ s ∈ m.retryQueue, τ' ≤ s.retryDeadline + δ := by
        intro s hsq
        cases hrq : m.retryQueue with
        | nil => rw [hrq] at hsq; cases hsq
        | cons s0 rest =>
          have := hin s0.retryDeadline (by unfold RequestManager.nextRetryDeadline; rw [hrq]; rfl)
          rw [hrq] at hsq hsort
          rcases List.mem_cons.1 hsq with rfl | hsq
          · exact this
          · have := (List.pairwise_cons.1 hsort).1 s hsq
            omega
      have hlives : Lives r (t + stay config mc H δ) (roundTripLimit config H) δ τ' m := by
        refine ⟨by omega, fun s hsb he => ?_, fun s hsq he => ?_⟩
        · exact absurd he (ih.1 s (bag_mem hsb))
        · have k1 := ih.2 s hsq he
          have k2 := hlate s hsq
          omega
      have := lives_micros hm hlives ?_ ?_
      · intro s hsq he
        exact (this.waiting s hsq he).1
      · dsimp only
        rw [List.nil_append]
        intro hx
        cases call <;> simp [inserted] at hx
        exact hcall' (by rw [hx])
      · intro r i d id d' est he
        have k1 := estimates_bounded hC F hs hf hT hH h1 h2 huse hns hst (by simpa using he)
        have k2 := hnow _ _ _ _ _ _ (by simpa using he)
        omega

/-- **C100.** Suppose that up to time `t` nothing stood in the way of the posts of a request (it is not waiting in a post queue), and that
from then on it is not inserted again, there is always room for its posts, and the user pops retries at most `δ` after the time the manager
tells. While the manager holds the request, the next retry is due so early that the user pops it by the time `t + stay`, and after that
time the manager no longer holds it: it was answered (removed), or its handler was called. -/
theorem leaves_the_manager (hC : CryptoLaws C) (F : F64Delays C) (hs : Sane config) (hf : 100 * config.meanForwardingDelay ≤ 2 ^ 49)
    (hT : ∀ r ctx, (T.data r ctx).len = (T.data r ctx).toVec.length) {H : Nat} (hH : ∀ r id ctx, T.handlingDelay r id ctx ≤ H)
    (h1 : 1 ≤ mc.numPostsPerAttempt) (h2 : 1 ≤ mc.numAttemptsPerDestination) {δ t τ : Nat} {r : R}
    (h : Tended C T config mc δ r t τ m n) :
    (r ∈ managed m → ∃ deadline, m.nextRetryDeadline = some deadline ∧ deadline + δ ≤ t + stay config mc H δ) ∧
    ∀ τ', InTime δ τ' m → t + stay config mc H δ < τ' → r ∉ managed m := by
  have first : r ∈ managed m → ∃ deadline, m.nextRetryDeadline = some deadline ∧ deadline + δ ≤ t + stay config mc H δ := by
    intro hr
    obtain ⟨k1, k2⟩ := tended_lives hC F hs hf hT hH h1 h2 h
    have huse := until_in_use (tended_until h).1
    have hsort : m.retryQueue.Pairwise fun a b => a.retryDeadline ≤ b.retryDeadline :=
      in_use_keeps (P := fun m => m.retryQueue.Pairwise fun (a b : RequestState R) => a.retryDeadline ≤ b.retryDeadline) (fun _ => .nil)
        (fun c _ h hm => sorted_micro (c := c) h hm) (fun _ _ h => h) huse
    unfold managed at hr
    obtain ⟨s, hsm, he⟩ := List.mem_map.1 hr
    rcases List.mem_append.1 hsm with hsm | hsm
    · exact absurd he (k1 s hsm)
    · have k3 := k2 s hsm he
      unfold RequestManager.nextRetryDeadline
      cases hrq : m.retryQueue with
      | nil => rw [hrq] at hsm; cases hsm
      | cons s0 rest =>
        refine ⟨s0.retryDeadline, rfl, ?_⟩
        rw [hrq] at hsm hsort
        rcases List.mem_cons.1 hsm with rfl | hsm
        · omega
        · have := (List.pairwise_cons.1 hsort).1 s hsm
          omega
  refine ⟨first, fun τ' hin hlt hr => ?_⟩
  obtain ⟨d, hd, hle⟩ := first hr
  have := hin d hd
  omega

end Mixnet.Props

namespace Mixnet.World
open Spec Props

/-- Random numbers for call number `k`, at time `t`. -/
def envAt (k t : Nat) : Env := fun j => ⟨(mgrEnv k j).rng, t⟩

/-- Alice and her manager, with the logs of the calls. -/
structure Life where
  n0 : Node
  n1 : Node
  o1 : Outcome
  n2 : Node
  o2 : Outcome
  m3 : RequestManager Nat
  n3 : Node
  l3 : List (LogEntry Nat)
  o3 : ManagerOutcome Nat
  m4 : RequestManager Nat
  n4 : Node
  l4 : List (LogEntry Nat)
  o4 : ManagerOutcome Nat
  m5 : RequestManager Nat
  n5 : Node
  l5 : List (LogEntry Nat)
  o5 : ManagerOutcome Nat
  m6 : RequestManager Nat
  n6 : Node
  l6 : List (LogEntry Nat)
  o6 : ManagerOutcome Nat

/-- A request is inserted at time 4, tried again at 40 s and given up at 78 s. -/
def lifeRes : Res Life := do
  let n0 ← Node.new Cd (cfg 3)
  let (n1, o1) ← n0.step Cd (.setSessionStatus ⟨0, .requestsToCurrent⟩)
  let (n2, o2) ← n1.step Cd (.maybeSetMixnodes .current (.ok mixes) rng)
  let (m3, n3, l3, o3) ← (RequestManager.new mgrConfig 2).step Cd trait n2 (mgrEnv 3) (ns 3) () .updateSessionStatus
  let (m4, n4, l4, o4) ← m3.step Cd trait n3 (mgrEnv 4) (ns 3) () (.insert 7)
  let (m5, n5, l5, o5) ← m4.step Cd trait n4 (envAt 7 40000000000) (ns 3) () .popNextRetry
  let (m6, n6, l6, o6) ← m5.step Cd trait n5 (envAt 8 78000000000) (ns 3) () .popNextRetry
  .ok ⟨n0, n1, o1, n2, o2, m3, n3, l3, o3, m4, n4, l4, o4, m5, n5, l5, o5, m6, n6, l6, o6⟩

def noneQueued (m : RequestManager Nat) : Bool := (m.postQueues.current ++ m.postQueues.prev ++ m.postQueues.default).isEmpty

theorem noneQueued_iff {m : RequestManager Nat} (h : noneQueued m = true) (r : Nat) : NotQueued r m := by
  unfold noneQueued at h
  unfold NotQueued
  rw [List.isEmpty_iff.1 h]
  exact fun s hs => by cases hs

def goodLife (x : Life) : Bool :=
  decide (postTimes x.l3 = [] ∧ postTimes x.l4 = [4] ∧ postTimes x.l5 = [40000000000] ∧ postTimes x.l6 = [] ∧
    x.m4.nextRetryDeadline = some 38798912622 ∧ x.m5.nextRetryDeadline = some 77637633289 ∧ managed x.m5 = [7] ∧
    x.m6.nextRetryDeadline = none ∧ Spec.exhausted x.l6 = [7]) && noneQueued x.m4 && noneQueued x.m5 && noneQueued x.m6

theorem life_ok : (match lifeRes with | .ok a => goodLife a | .error _ => false) = true := by decide +kernel

theorem life_good : ∃ x, lifeRes = .ok x ∧ goodLife x = true := by
  have h := life_ok
  generalize lifeRes = x at h
  cases x with
  | error e => cases h
  | ok t => exact ⟨t, rfl, h⟩

attribute [local irreducible] Cd mixes cfg Node.step Node.new RequestManager.step

/-- The hypotheses of `leaves_the_manager` are met by a user who is at most 2 s late. At 40 s the request is still there, and the next
deadline, 77.6 s, is before the limit of 336.2 s. At 78 s it is given up. -/
example : ∃ (m m' : RequestManager Nat) (n n' : Node), Tended Cd trait (cfg 3) mgrConfig 2000000000 7 4 40000000000 m n ∧ managed m = [7] ∧
    m.nextRetryDeadline = some 77637633289 ∧ 77637633289 + 2000000000 ≤ 4 + stay (cfg 3) mgrConfig 10 2000000000 ∧
    stay (cfg 3) mgrConfig 10 2000000000 = 336190137500 ∧
    Tended Cd trait (cfg 3) mgrConfig 2000000000 7 4 78000000000 m' n' ∧ 7 ∉ managed m' := by
  obtain ⟨⟨n0, n1, o1, n2, o2, m3, n3, l3, o3, m4, n4, l4, o4, m5, n5, l5, o5, m6, n6, l6, o6⟩, h, hg⟩ := life_good
  unfold lifeRes at h
  rw [res_bind_eq_ok] at h
  obtain ⟨n0', hn, h⟩ := h
  rw [res_bind_eq_ok] at h
  obtain ⟨⟨n1', o1'⟩, s1, h⟩ := h
  rw [res_bind_eq_ok] at h
  obtain ⟨⟨n2', o2'⟩, s2, h⟩ := h
  rw [res_bind_eq_ok] at h
  obtain ⟨⟨m3', n3', l3', o3'⟩, s3, h⟩ := h
  rw [res_bind_eq_ok] at h
  obtain ⟨⟨m4', n4', l4', o4'⟩, s4, h⟩ := h
  rw [res_bind_eq_ok] at h
  obtain ⟨⟨m5', n5', l5', o5'⟩, s5, h⟩ := h
  rw [res_bind_eq_ok] at h
  obtain ⟨⟨m6', n6', l6', o6'⟩, s6, h⟩ := h
  cases h
  unfold goodLife at hg
  dsimp only at hg
  simp only [Bool.and_eq_true, decide_eq_true_eq] at hg
  obtain ⟨⟨⟨⟨g1, g2, g3, g4, g5, g6, g7, g8, g9⟩, i4⟩, i5⟩, i6⟩ := hg
  have h0 : n0.sessionStatus = ⟨0, .coverToCurrent⟩ := by
    unfold Node.new at hn
    rw [res_bind_eq_ok] at hn
    obtain ⟨k, -, hn⟩ := hn
    cases hn; rfl
  have u0 : UsedUntil Cd trait (cfg 3) mgrConfig 4 (RequestManager.new mgrConfig 2) n0 := .start (by decide) hn
  have u1 := UsedUntil.node u0 (call := .setSessionStatus ⟨0, .requestsToCurrent⟩) trivial
    (by show n0.sessionStatus.currentIndex ≤ 0; rw [h0]) s1
  have u2 := UsedUntil.node u1 (call := .maybeSetMixnodes .current (.ok mixes) rng)
    (setup_typed _ (by unfold setup; exact List.mem_cons_of_mem _ List.mem_cons_self)) trivial s2
  have u3 := UsedUntil.manager u2 rfl s3 fun r i d id d' est he => by
    have := mem_postTimes he; rw [g1] at this; cases this
  have u4 := UsedUntil.manager u3 rfl s4 fun r i d id d' est he => by
    have := mem_postTimes he; rw [g2] at this; rw [List.mem_singleton.1 this]
  have t4 : Tended Cd trait (cfg 3) mgrConfig 2000000000 7 4 4 m4 n4 := .start u4 (noneQueued_iff i4 7)
  have t5 : Tended Cd trait (cfg 3) mgrConfig 2000000000 7 4 40000000000 m5 n5 := .manager t4 (by decide)
    (fun d hd => by rw [g5] at hd; cases hd; decide) rfl (fun h => by cases h) s5
    (fun r i d id d' est he => by have := mem_postTimes he; rw [g3] at this; rw [List.mem_singleton.1 this]) (noneQueued_iff i5 7)
  have t6 : Tended Cd trait (cfg 3) mgrConfig 2000000000 7 4 78000000000 m6 n6 := .manager t5 (by decide)
    (fun d hd => by rw [g6] at hd; cases hd; decide) rfl (fun h => by cases h) s6
    (fun r i d id d' est he => by have := mem_postTimes he; rw [g4] at this; cases this) (noneQueued_iff i6 7)
  have k5 := (leaves_the_manager Cd_laws Cd_delays world_sane (by decide +kernel) (fun _ _ => rfl) (fun _ _ _ => le_refl 10) (by decide)
    (by decide) t5).1 (by rw [g7]; simp)
  have k6 := (leaves_the_manager Cd_laws Cd_delays world_sane (by decide +kernel) (fun _ _ => rfl) (fun _ _ _ => le_refl 10) (by decide)
    (by decide) t6).2 400000000000 (fun d hd => by rw [g8] at hd; cases hd) (by decide +kernel)
  obtain ⟨d, hd, hle⟩ := k5
  rw [g6] at hd
  cases hd
  exact ⟨m5, m6, n5, n6, t5, g7, g6, hle, by decide +kernel, t6, k6⟩

end Mixnet.World
