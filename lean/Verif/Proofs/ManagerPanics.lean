import Verif.Proofs.ManagerBound
/-!
# The manager panics only if the mixnet does
-/
namespace Mixnet
open Spec
variable {R Ctx : Type} {C : Crypto} {T : RequestTrait R Ctx} {ns : NetworkStatus} {ctx : Ctx}

theorem Spec.PostsFrom.trans {a b c : Node} (h : PostsFrom C a b) (h' : PostsFrom C b c) : PostsFrom C a c := by
  induction h' with
  | refl => exact h
  | post _ h2 ih => exact .post ih h2

theorem FromMixnet.after {a b : Node} {p : Panic} (h : PostsFrom C a b) (h' : FromMixnet C T ns ctx b p) :
    FromMixnet C T ns ctx a p := by
  obtain ⟨n, rng, i, d, id, r, h1, h2⟩ := h'
  exact ⟨n, rng, i, d, id, r, h.trans h1, h2⟩

/-- Panics come from the mixnet; the result's mixnet is left by posts. -/
def Only {α : Type} (C : Crypto) (T : RequestTrait R Ctx) (ns : NetworkStatus) (ctx : Ctx) (n : Node)
    (node : α → Node) (x : Res α) : Prop :=
  (∀ p, x = .error p → FromMixnet C T ns ctx n p) ∧ ∀ a, x = .ok a → PostsFrom C n (node a)

theorem Only.ok {α : Type} {n : Node} {node : α → Node} {a : α} (h : PostsFrom C n (node a)) :
    Only C T ns ctx n node (.ok a) :=
  ⟨fun _ h => (by cases h), fun _ h' => by cases h'; exact h⟩

theorem Only.bind {α β : Type} {n : Node} {node : α → Node} {node' : β → Node} {x : Res α} {f : α → Res β}
    (h : Only C T ns ctx n node x) (h' : ∀ a, x = .ok a → Only C T ns ctx (node a) node' (f a)) :
    Only C T ns ctx n node' (x >>= f) := by
  cases x with
  | error p =>
    refine ⟨fun q hq => h.1 q ?_, fun a ha => ?_⟩
    · exact congrArg Except.error (by cases hq; rfl)
    · cases ha
  | ok a =>
    have h2 := h.2 a rfl
    refine ⟨fun p hp => FromMixnet.after h2 ((h' a rfl).1 p hp), fun b hb => h2.trans ((h' a rfl).2 b hb)⟩

theorem Only.assert {β : Type} {n : Node} {node' : β → Node} {site : String} {b : Bool} {f : Unit → Res β}
    (hb : b = true) (h : Only C T ns ctx n node' (f ())) : Only C T ns ctx n node' (assertP site b >>= f) := by
  rw [assertP_pos hb, res_bind_ok]
  exact h

theorem postNext_only {rel : Option RelSessionIndex} {relOrDefault : RelSessionIndex} {i : SessionIndex} {w : Work R}
    (hi : w.mgr.PostsIn rel i) (hb : BoundQ w.mgr) :
    Only C T ns ctx w.mixnet (fun x : Bool × Work R => x.2.mixnet)
      (Work.postNext C T ns ctx rel relOrDefault (rel.map fun _ => i) i w) := by
  unfold Work.postNext
  obtain ⟨q, hq⟩ : ∃ q, w.queue rel = q := ⟨_, rfl⟩
  rw [hq]
  cases q with
  | nil => exact .ok .refl
  | cons s rest =>
    dsimp only
    refine .assert ?_ ?_
    · refine decide_eq_true (fits_index hi (hb.1 rel s ?_).1)
      unfold Work.queue at hq
      rw [hq]
      exact List.mem_cons_self
    · refine .bind (node := fun x : Node × Option MixnodeIndex × Except PostErr RequestMetrics => x.1) ⟨fun p hp => ⟨_, _, _, _, _, s.request, .refl, hp⟩,
        fun ⟨n', d', res⟩ ha => .post .refl ha⟩ ?_
      rintro ⟨n', d', res⟩ -
      dsimp only
      split
      · split
        · exact .ok .refl
        · exact .ok .refl
      · exact .ok .refl
      · exact .ok .refl

theorem postLoop_only {rel : Option RelSessionIndex} {i : SessionIndex} {relOrDefault : RelSessionIndex} :
    ∀ {n : Nat} {w : Work R}, relOrDefault = rel.getD w.mgr.sessionStatus.phase.defaultRequestSession →
    w.mgr.PostsIn rel i → BoundQ w.mgr →
    (∀ p, Work.postLoop C T ns ctx rel relOrDefault (rel.map fun _ => i) i n w = .error p →
      FromMixnet C T ns ctx w.mixnet p) ∧
    ∀ w', Work.postLoop C T ns ctx rel relOrDefault (rel.map fun _ => i) i n w = .ok (some w') →
      PostsFrom C w.mixnet w'.mixnet
  | 0, w, hrd, hi, hb => ⟨fun _ h => (by cases h), fun _ h => (by cases h)⟩
  | n + 1, w, hrd, hi, hb => by
    unfold Work.postLoop
    obtain ⟨p1, p2⟩ := postNext_only (C := C) (T := T) (ns := ns) (ctx := ctx) (relOrDefault := relOrDefault) hi hb
    obtain ⟨x, hx⟩ : ∃ x, Work.postNext C T ns ctx rel relOrDefault (rel.map fun _ => i) i w = x := ⟨_, rfl⟩
    rw [hx] at p1 p2 ⊢
    cases x with
    | error p => exact ⟨fun q hq => p1 q (congrArg Except.error (by cases hq; rfl)), fun _ h => (by cases h)⟩
    | ok x =>
      obtain ⟨again, w1⟩ := x
      obtain ⟨hst, hcf, hcase⟩ := postNext_micro hrd hi hx [] []
      have hp := p2 _ rfl
      rw [res_bind_ok]
      dsimp only at hp ⊢
      cases again with
      | false =>
        refine ⟨fun _ h => (by cases h), fun w' h => ?_⟩
        cases h
        exact hp
      | true =>
        have hb1 : BoundQ w1.mgr := by
          rcases hcase with ⟨-, h, -⟩ | ⟨s, rest, -, h, -⟩ | ⟨s, rest, -, -, hm, -⟩
          · cases h
          · cases h
          · exact bound_micro hb hm.1
        obtain ⟨a1, a2⟩ := postLoop_only (n := n)
          (w := w1) (hrd.trans (by rw [hst])) (by unfold RequestManager.PostsIn; rw [hst]; exact hi) hb1
        simp only [if_true]
        exact ⟨fun p h => FromMixnet.after hp (a1 p h), fun w' h => hp.trans (a2 w' h)⟩

theorem queueSession_ok {rel : Option RelSessionIndex} {cur i : SessionIndex} {p : SessionPhase}
    (h : (rel.getD p.defaultRequestSession).add cur = .ok i) : Work.queueSession cur rel = .ok (rel.map fun _ => i) := by
  cases rel with
  | none => rfl
  | some rel =>
    simp only [Option.getD_some] at h
    show (rel.add cur >>= fun i => Except.ok (some i)) = _
    rw [h]
    rfl

theorem processPostQueue_only {rel : Option RelSessionIndex} {w : Work R} (hb : BoundQ w.mgr) :
    Only C T ns ctx w.mixnet Work.mixnet (w.processPostQueue C T ns ctx rel) := by
  unfold Work.processPostQueue
  dsimp only
  split
  · rename_i h
    refine .assert ?_ (.ok .refl)
    rw [List.isEmpty_iff, List.eq_nil_iff_forall_not_mem]
    intro s hs
    obtain ⟨j, -, hj⟩ := (hb.1 (some .prev) s hs).1
    omega
  · rename_i h
    obtain ⟨i, hi⟩ : ∃ i, (rel.getD w.mgr.sessionStatus.phase.defaultRequestSession).add
        w.mgr.sessionStatus.currentIndex = .ok i := by
      cases hr : rel.getD w.mgr.sessionStatus.phase.defaultRequestSession with
      | current => exact ⟨_, rfl⟩
      | prev =>
        refine ⟨w.mgr.sessionStatus.currentIndex - 1, add_ok.2 (.inr ⟨rfl, ?_, rfl⟩)⟩
        rw [hr] at h
        simp only [true_and] at h
        omega
    rw [queueSession_ok hi, hi, res_bind_ok, res_bind_ok]
    obtain ⟨a1, a2⟩ := postLoop_only (C := C) (T := T) (ns := ns) (ctx := ctx) (n := Work.iterations (w.queue rel)) rfl hi hb
    obtain ⟨x, hx⟩ : ∃ x, Work.postLoop C T ns ctx rel (rel.getD w.mgr.sessionStatus.phase.defaultRequestSession)
      (rel.map fun _ => i) i (Work.iterations (w.queue rel)) w = x := ⟨_, rfl⟩
    rw [hx] at a1 a2 ⊢
    cases x with
    | error p => exact ⟨fun q hq => a1 q (congrArg Except.error (by cases hq; rfl)), fun _ h => (by cases h)⟩
    | ok o =>
      cases o with
      | none => exact absurd ((postLoop_micros [] [] rfl hi hx).1 rfl) (Nat.lt_irrefl _)
      | some w' => exact .ok (a2 w' rfl)

theorem processPostQueue_bound {rel : Option RelSessionIndex} {w w' : Work R} (hb : BoundQ w.mgr)
    (h : w.processPostQueue C T ns ctx rel = .ok w') : BoundQ w'.mgr ∧ w'.mgr.config = w.mgr.config := by
  obtain ⟨h1, -, h2, -⟩ := processPostQueue_micros h [] []
  exact ⟨bound_micros (c' := w'.cfg [] []) hb h1.micros, h2⟩

theorem processPostQueues_only {w : Work R} (hb : BoundQ w.mgr) :
    Only C T ns ctx w.mixnet Work.mixnet (w.processPostQueues C T ns ctx) := by
  unfold Work.processPostQueues
  refine .bind (processPostQueue_only hb) fun w1 h1 => ?_
  have b1 := (processPostQueue_bound hb h1).1
  refine .bind (processPostQueue_only b1) fun w2 h2 => ?_
  exact processPostQueue_only (processPostQueue_bound b1 h2).1

theorem updateSessionStatus_only {w : Work R} (hb : BoundQ w.mgr) :
    Only C T ns ctx w.mixnet Work.mixnet (w.updateSessionStatus C T ns ctx) := by
  unfold Work.updateSessionStatus
  dsimp only
  split
  · exact .ok .refl
  · rename_i hne
    obtain ⟨env', h1, h2⟩ := newDestinations_spec
      (ss := (Work.moveQueues w.mgr.postQueues w.mgr.sessionStatus w.mixnet.sessionStatus).default.drop
        w.mgr.postQueues.default.length) (w := w) (past := w.mgr.createdAt)
    rw [h1]
    refine processPostQueues_only (w := ⟨_, w.mixnet, env', _⟩) ?_
    exact bound_micro (c := ⟨w.mgr, w.log, [], []⟩) hb (Micro.update hne h2)

theorem enqueue_only {w : Work R} {s : RequestState R} (hb : BoundQ w.mgr) (hs : Paired s)
    (hp : 1 ≤ w.mgr.config.numPostsPerAttempt) :
    Only C T ns ctx w.mixnet Work.mixnet (w.enqueue C T ns ctx s) := by
  unfold Work.enqueue
  refine .assert (decide_eq_true hp) ?_
  dsimp only
  obtain ⟨env', l2, e1, e2⟩ := retrySession_spec w { s with postsRemaining := w.mgr.config.numPostsPerAttempt - 1 }
  obtain ⟨x, hx⟩ : ∃ x, w.retrySession { s with postsRemaining := w.mgr.config.numPostsPerAttempt - 1 } = x := ⟨_, rfl⟩
  rw [hx] at e1 e2 ⊢
  obtain ⟨rel, s2, w1⟩ := x
  dsimp only at e1 e2 ⊢
  subst e1
  have hb1 : BoundQ { w.mgr with postQueues := w.mgr.postQueues.set rel (w.mgr.postQueues.get rel ++ [s2]) } := by
    refine ⟨?_, hb.2⟩
    intro rel' t ht
    replace ht := mem_get_set ht
    rcases ht with ⟨rfl, ht⟩ | ⟨-, ht⟩
    · rcases List.mem_append.1 ht with ht | ht
      · exact hb.1 _ t ht
      · rw [List.mem_singleton] at ht
        subst ht
        exact place_fits (m := w.mgr) e2 hs
    · exact hb.1 _ t ht
  split
  · refine .bind (processPostQueue_only (w := ⟨_, w.mixnet, env', _⟩) hb1) fun w2 h2 => ?_
    split
    · exact processPostQueue_only (processPostQueue_bound hb1 h2).1
    · exact .ok .refl
  · exact .ok .refl

theorem retry_only {w : Work R} {s : RequestState R} (hb : BoundQ w.mgr) (hs : Paired s) (h0 : s.postsRemaining = 0)
    (hp : 1 ≤ w.mgr.config.numPostsPerAttempt) (ha : 1 ≤ w.mgr.config.numAttemptsPerDestination) :
    Only C T ns ctx w.mixnet Work.mixnet (w.retry C T ns ctx s) := by
  unfold Work.retry
  refine .assert (decide_eq_true h0) ?_
  split
  · exact enqueue_only hb hs hp
  · split
    · exact .ok .refl
    · refine .assert (decide_eq_true ha) ?_
      exact enqueue_only (w := ⟨w.mgr, w.mixnet, _, _⟩) hb ⟨fun _ => rfl, fun _ => rfl⟩ hp

/-- Calls of a manager panic only if the mixnet does. -/
theorem step_only {m : RequestManager R} {mixnet : Node} {env : Env} {call : ManagerCall R} {p : Panic}
    (hb : BoundQ m) (hp : 1 ≤ m.config.numPostsPerAttempt) (ha : 1 ≤ m.config.numAttemptsPerDestination)
    (hs : ∀ r, call = .insert r → m.hasSpace = true)
    (h : m.step C T mixnet env ns ctx call = .error p) : FromMixnet C T ns ctx mixnet p := by
  unfold RequestManager.step at h
  cases call with
  | updateSessionStatus =>
    exact (Only.bind (n := mixnet) (node := Work.mixnet) (node' := fun x => x.2.1) (updateSessionStatus_only hb) fun w _ => .ok .refl).1 p h
  | insert r =>
    refine (Only.bind (n := mixnet) (node := Work.mixnet) (node' := fun x => x.2.1) ?_ fun w _ => .ok .refl).1 p h
    unfold Work.insert
    refine .assert (hs r rfl) ?_
    exact retry_only (w := ⟨m, mixnet, env, []⟩) hb ⟨fun _ => rfl, fun _ => rfl⟩ rfl hp ha
  | remove id => cases h
  | processPostQueues =>
    exact (Only.bind (n := mixnet) (node := Work.mixnet) (node' := fun x => x.2.1) (processPostQueues_only hb) fun w _ => .ok .refl).1 p h
  | popNextRetry =>
    refine (Only.bind (n := mixnet) (node := fun x => x.1.mixnet) (node' := fun x => x.2.1) ?_ fun w _ => .ok .refl).1 p h
    unfold Work.popNextRetry
    dsimp only
    obtain ⟨q, hq⟩ : ∃ q, m.retryQueue = q := ⟨_, rfl⟩
    rw [hq]
    cases q with
    | nil => exact .ok .refl
    | cons s rest =>
      dsimp only
      have hs := hb.2 s (by rw [hq]; exact List.mem_cons_self)
      refine .bind (node := Work.mixnet) ?_ fun w _ => .ok .refl
      refine retry_only (w := ⟨_, mixnet, env, []⟩) ⟨hb.1, fun x hx => hb.2 x ?_⟩ hs.2.2 hs.2.1 hp ha
      rw [hq]
      exact List.mem_cons_of_mem _ hx
  | nextRetryDeadlineChanged => cases h

end Mixnet
