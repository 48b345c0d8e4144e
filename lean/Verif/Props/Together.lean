import Verif.Proofs.ManagerNode
import Verif.Proofs.ReplyNode
import Verif.Spec.ReplyWorld
import Verif.Props.RequestManager
import Verif.Spec.ManagerWorld
/-!
# C57, C58: request and reply managers used with a node do not panic
-/
namespace Mixnet.Props
open Mixnet Spec

variable {R Ctx : Type} {C : Crypto} {T : RequestTrait R Ctx} {config : Config} {mc : RequestManagerConfig}
  {m : RequestManager R} {n : Node}

theorem in_use (hC : CryptoLaws C) (hs : Sane config) (hT : ∀ r ctx, (T.data r ctx).len = (T.data r ctx).toVec.length)
    (h1 : 1 ≤ mc.numPostsPerAttempt) (h2 : 1 ≤ mc.numAttemptsPerDestination) (h : InUse C T config mc m n) :
    Node.Reachable C config n ∧ GoodStates n m ∧ BoundQ m ∧ m.config = mc := by
  induction h with
  | start hn =>
    refine ⟨⟨_, [], [], hn, fun _ h => (by cases h), .nil _⟩, ⟨fun rel s hs => ?_, fun s hs => (by cases hs)⟩,
      ⟨fun rel s hs => ?_, fun s hs => (by cases hs)⟩, rfl⟩
    · match rel, hs with
      | none, hs => cases hs
      | some .current, hs => cases hs
      | some .prev, hs => cases hs
    · match rel, hs with
      | none, hs => cases hs
      | some .current, hs => cases hs
      | some .prev, hs => cases hs
  | node _ hw ho hst ih =>
    obtain ⟨hr, hg, hb, hc⟩ := ih
    obtain ⟨hI, -⟩ := hr.inv hC
    exact ⟨hr.step hC hw hst, hg.mono fun i d hk => hk.step (Node.step_cases hC hI hw hst) ho, hb, hc⟩
  | @manager m n env ns ctx call m' n' log out _ hns hst ih =>
    obtain ⟨hr, hg, hb, hc⟩ := ih
    have hsp : ∀ r, call = .insert r → m.hasSpace = true := by
      rintro r rfl
      cases hh : m.hasSpace with
      | true => rfl
      | false =>
        exfalso
        have : m.step C T n env ns ctx (.insert r) = .error ⟨"self.has_space()"⟩ := by
          show ((do assertP "self.has_space()" m.hasSpace; _) >>= _) = _
          rw [hh]; rfl
        rw [this] at hst; cases hst
    have hf := (manager_fine hC hs hT hns (env := env) (ctx := ctx) (call := call) hr hg hb (by rw [hc]; exact h1)
      (by rw [hc]; exact h2) hsp).2 _ hst
    refine ⟨hf.1, hf.2.1, ?_⟩
    by_cases hcall : call = .nextRetryDeadlineChanged
    · subst hcall
      cases hst
      exact ⟨hb, hc⟩
    · have hm := manager_step_micros hcall hst [] [] []
      refine ⟨bound_micros hb hm, ?_⟩
      have key : ∀ {c c' : Cfg R}, Micros c c' → c'.mgr.config = c.mgr.config := by
        intro c c' h
        induction h with
        | refl => rfl
        | tail _ hm ih => exact (config_micro hm).1.trans ih
      exact (key hm).trans hc

/-- **C57.** If a manager configured for at least one attempt and one post and a node with a sane configuration are
created and used together, session indices never decreasing, and if the manager is asked to insert only when it has
space, then no call of the manager panics: except because a random SURB ID repeats, which it can only if 16 bytes of
the random numbers drawn are the ID of a SURB waiting for its reply, or come twice. -/
theorem manager_no_panic (hC : CryptoLaws C) (hs : Sane config) (hT : ∀ r ctx, (T.data r ctx).len = (T.data r ctx).toVec.length)
    (h1 : 1 ≤ mc.numPostsPerAttempt) (h2 : 1 ≤ mc.numAttemptsPerDestination) (h : InUse C T config mc m n)
    (env : Env) {ns : NetworkStatus} (hns : ns.localPeerId.length = PEER_ID_SIZE) (ctx : Ctx) (call : ManagerCall R)
    (hsp : ∀ r, call = .insert r → m.hasSpace = true) :
    (∃ m' n' log out, m.step C T n env ns ctx call = .ok (m', n', log, out)) ∨
    (m.step C T n env ns ctx call = .error surbIdRepeated ∧
      ∃ n' k, PostsFrom C n n' ∧ IdRepeats n' (env k).rng) := by
  obtain ⟨hr, hg, hb, hc⟩ := in_use hC hs hT h1 h2 h
  have hf := manager_fine hC hs hT hns (env := env) (ctx := ctx) (call := call) hr hg hb (by rw [hc]; exact h1)
    (by rw [hc]; exact h2) hsp
  cases hx : m.step C T n env ns ctx call with
  | ok x =>
    obtain ⟨m', n', log, out⟩ := x
    exact .inl ⟨m', n', log, out, rfl⟩
  | error p =>
    rw [hx] at hf
    obtain ⟨rfl, hk⟩ := hf.1 p rfl
    exact .inr ⟨rfl, hk⟩

/-- **C58.** If a reply manager and a node are created and used together, in any order and
with any requests, SURBs, replies, clock and random numbers, then no call of the manager panics. -/
theorem reply_manager_no_panic (hC : CryptoLaws C) {rc : ReplyManagerConfig} {rm : ReplyManager}
    (h : ReplyInUse C config rc rm n) (rng : Rng) (now : Nat) {call : ReplyCall} (hw : ReplyCall.WellTyped call) :
    ∃ rm' n' log out, rm.step C n rng now call = .ok (rm', n', log, out) := by
  have key : ∀ {rm : ReplyManager} {n : Node}, ReplyInUse C config rc rm n → Node.Reachable C config n ∧ rm.Inv rc := by
    intro rm n h
    induction h with
    | start hn => exact ⟨⟨_, [], [], hn, fun _ h => (by cases h), .nil _⟩, ReplyManager.new_inv rc⟩
    | node _ hw hst ih => exact ⟨ih.1.step hC hw hst, ih.2⟩
    | manager _ hw hst ih =>
      obtain ⟨m', n', log, out, h1, h2⟩ := reply_step_total hC ih.1 ih.2 _ _ hw
      rw [hst] at h1
      cases h1
      exact ⟨h2, ReplyManager.does_inv ih.2 (ReplyManager.step_does hst)⟩
  obtain ⟨hr, hi⟩ := key h
  obtain ⟨m', n', log, out, h1, -⟩ := reply_step_total hC hr hi rng now hw
  exact ⟨m', n', log, out, h1⟩

/-! ### A concrete case, and why session indices must not decrease -/

end Mixnet.Props

namespace Mixnet.World
open Spec Props

/-- A call of the node or of the manager. -/
abbrev Move := Call ⊕ ManagerCall Nat

/-- Calls of Alice's node and of her manager, move number `t` on. -/
def play (m : RequestManager Nat) (n : Node) (t : Nat) : List Move → Res (RequestManager Nat × Node)
  | [] => .ok (m, n)
  | .inl c :: cs => do
    let (n, _) ← n.step C c
    play m n (t + 1) cs
  | .inr c :: cs => do
    let (m, n, _) ← m.step C trait n (mgrEnv t) (ns 3) () c
    play m n (t + 1) cs

theorem play_inUse : ∀ {moves : List Move} {m : RequestManager Nat} {n : Node} {t : Nat} {m' : RequestManager Nat} {n' : Node},
    InUse C trait (cfg 3) mgrConfig m n → (∀ c, .inl c ∈ moves → c.WellTyped) →
    (∀ c, .inl c ∈ moves → ∀ n, Onward n c) →
    play m n t moves = .ok (m', n') → InUse C trait (cfg 3) mgrConfig m' n'
  | [], m, n, t, m', n', h, _, _, hp => by cases hp; exact h
  | .inl c :: cs, m, n, t, m', n', h, hw, ho, hp => by
    unfold play at hp
    rw [res_bind_eq_ok] at hp
    obtain ⟨⟨n1, o⟩, h1, hp⟩ := hp
    exact play_inUse (.node h (hw c List.mem_cons_self) (ho c List.mem_cons_self n) h1)
      (fun c h => hw c (List.mem_cons_of_mem _ h)) (fun c h => ho c (List.mem_cons_of_mem _ h)) hp
  | .inr c :: cs, m, n, t, m', n', h, hw, ho, hp => by
    unfold play at hp
    rw [res_bind_eq_ok] at hp
    obtain ⟨⟨m1, n1, l, o⟩, h1, hp⟩ := hp
    exact play_inUse (.manager h rfl h1)
      (fun c h => hw c (List.mem_cons_of_mem _ h)) (fun c h => ho c (List.mem_cons_of_mem _ h)) hp

/-- The node after `setup`, and a new manager, are in use. -/
theorem alice_inUse : InUse C trait (cfg 3) mgrConfig (RequestManager.new mgrConfig 5) alice := by
  obtain ⟨os, h⟩ : ∃ os, startRes 3 setup = .ok (alice, os) := ⟨_, by unfold alice; exact Res.eq_get2 _ alice_ok⟩
  unfold startRes at h
  rw [res_bind_eq_ok] at h
  obtain ⟨n0, hn, h⟩ := h
  have h0 : n0.sessionStatus = ⟨0, .coverToCurrent⟩ := by
    unfold Node.new at hn
    rw [res_bind_eq_ok] at hn
    obtain ⟨k, -, hn⟩ := hn
    cases hn; rfl
  have hruns := runAll_runs h
  unfold setup at hruns
  cases hruns with
  | cons s1 r1 =>
    cases r1 with
    | cons s2 r2 =>
      cases r2
      have i0 : InUse C trait (cfg 3) mgrConfig (RequestManager.new mgrConfig 5) n0 := .start hn
      have i1 := InUse.node i0 (call := .setSessionStatus ⟨0, .requestsToCurrent⟩) trivial
        (by show n0.sessionStatus.currentIndex ≤ 0; rw [h0]) s1
      exact InUse.node i1 (call := .maybeSetMixnodes .current (.ok mixes) rng)
        (setup_typed _ (by unfold setup; exact List.mem_cons_of_mem _ List.mem_cons_self)) trivial s2

/-- Calls of Alice's manager: a request is inserted. -/
def asks : List Move := [.inr .updateSessionStatus, .inr (.insert 7)]

/-- The request is posted to the mixnode with index 1 of session 0, and waits for a retry. -/
theorem asks_play : ∃ m n, play (.new mgrConfig 5) alice 0 asks = .ok (m, n) ∧
    m.retryQueue.map (fun s => (s.request, s.sessionIndex, s.destinationIndex)) = [(7, some 0, some 1)] := by
  obtain ⟨⟨m, n⟩, h1, h2⟩ := Res.of_check (x := play (.new mgrConfig 5) alice 0 asks)
    (p := fun x => decide (x.1.retryQueue.map (fun s => (s.request, s.sessionIndex, s.destinationIndex)) =
      [(7, some 0, some 1)])) (by decide +kernel)
  exact ⟨m, n, h1, of_decide_eq_true h2⟩

/-- The hypotheses of `manager_no_panic` are met by a manager with a request waiting for a retry. -/
example : ∃ m n, InUse C trait (cfg 3) mgrConfig m n ∧
    m.retryQueue.map (fun s => (s.request, s.sessionIndex, s.destinationIndex)) = [(7, some 0, some 1)] ∧
    ∀ env, (∃ m' n' log out, m.step C trait n env (ns 3) () .popNextRetry = .ok (m', n', log, out)) ∨
      (m.step C trait n env (ns 3) () .popNextRetry = .error surbIdRepeated ∧
        ∃ n' k, PostsFrom C n n' ∧ IdRepeats n' (env k).rng) := by
  obtain ⟨m, n, h1, h2⟩ := asks_play
  have hu := play_inUse alice_inUse (by intro c hc; simp [asks] at hc) (by intro c hc; simp [asks] at hc) h1
  exact ⟨m, n, hu, h2, fun env => manager_no_panic toyLaws world_sane (fun _ _ => rfl) (by decide) (by decide) hu env rfl ()
    .popNextRetry (fun r h => by cases h)⟩

/-- A reply manager created beside any reachable node is in use. -/
theorem replyInUse_of_reachable {config : Config} {n : Node} (rc : ReplyManagerConfig) (h : Node.Reachable C config n) :
    ReplyInUse C config rc (ReplyManager.new rc) n := by
  obtain ⟨n0, calls, outs, hn, hw, hr⟩ := h
  have key : ∀ {n0 n : Node} {calls outs}, Node.Runs C n0 calls outs n → (∀ c ∈ calls, c.WellTyped) →
      ReplyInUse C config rc (ReplyManager.new rc) n0 → ReplyInUse C config rc (ReplyManager.new rc) n := by
    intro n0 n calls outs hr
    induction hr with
    | nil => exact fun _ h => h
    | cons hs _ ih =>
      exact fun hw h => ih (fun c hc => hw c (List.mem_cons_of_mem _ hc)) (.node h (hw _ List.mem_cons_self) hs)
  exact key hr hw (.start hn)

/-- The hypotheses of `reply_manager_no_panic` are met by Bob's node, which has received a request with a SURB, and
a manager that completes it: the reply is posted once, and there is no SURB for a second copy. -/
example : ReplyInUse C (cfg 5) replyConfig (ReplyManager.new replyConfig) bob1 ∧
    ReplyCall.WellTyped (.complete ⟨0, mid, surbs⟩ [7, 8]) ∧
    ∃ x, (ReplyManager.new replyConfig).step C bob1 rng 0 (.complete ⟨0, mid, surbs⟩ [7, 8]) = .ok x ∧
      x.2.2.1.map (·.result.isOk) = [true, false] := by
  refine ⟨replyInUse_of_reachable _ (bob_reachable.step toyLaws arrive_typed arrive_step), answer_typed.1, ?_⟩
  obtain ⟨x, h1, h2⟩ := Res.of_check
    (x := (ReplyManager.new replyConfig).step C bob1 rng 0 (.complete ⟨0, mid, surbs⟩ [7, 8]))
    (p := fun x => decide (x.2.2.1.map (·.result.isOk) = [true, false])) (by decide +kernel)
  exact ⟨x, h1, of_decide_eq_true h2⟩

/-- If the node goes back to session 0 and is given fewer mixnodes for it than it had, the retry panics: the
destination it remembers does not exist any more. -/
def goesBack : List Move :=
  [.inl (.setSessionStatus ⟨1, .requestsToCurrent⟩), .inl (.setSessionStatus ⟨0, .requestsToCurrent⟩),
    .inl (.maybeSetMixnodes .current (.ok [mix 3]) rng), .inr .popNextRetry]

example : panics (play (.new mgrConfig 5) alice 0 (asks ++ goesBack)) = true := by decide +kernel

end Mixnet.World
