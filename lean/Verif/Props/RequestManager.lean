import Verif.Spec.ManagerWorld
import Verif.Proofs.ManagerPop
import Verif.Proofs.ManagerIds
/-!
# C40-C46: the request manager

`Reached C T config now calls outs log m`: a new manager, created at time `now`, has received `calls`, each
with an arbitrary mixnet, environment, network status and context; it has returned `outs`; `log` says what
it has done; it is in state `m`.
-/
namespace Mixnet.Props
open Mixnet Spec

variable {R Ctx : Type} {C : Crypto} {T : RequestTrait R Ctx} {config : RequestManagerConfig} {now : Nat}
  {calls : List (ManagerCall R)} {outs : List (ManagerOutcome R)} {log : List (LogEntry R)} {m : RequestManager R}

theorem ids_reached (h : Reached C T config now calls outs log m) (hd : (drawn log).Nodup) :
    m.createdAt = now ∧ Ids now m.states log := by
  have := manager_induction
    (P := fun c => c.mgr.createdAt = now ∧ ((drawn c.log).Nodup → Ids c.mgr.createdAt c.mgr.states c.log))
    (fun _ _ hi hm => ⟨(createdAt_micro hm).trans hi.1, ids_micro hm hi.2⟩) (fun _ _ _ _ _ h => h) h [] [] [] ⟨rfl, fun _ => by
      refine ⟨fun s hs => ?_, ?_, fun s hs => (by cases hs), fun s hs => ?_, fun s hs => (by cases hs), fun s hs => ?_, fun s hs => ?_⟩
      · simp [RequestManager.states, PostQueues.bag, RequestManager.new, PostQueues.new] at hs
      · simp [RequestManager.states, PostQueues.bag, RequestManager.new, PostQueues.new]
      · simp [RequestManager.states, PostQueues.bag, RequestManager.new, PostQueues.new] at hs
      · simp [RequestManager.states, PostQueues.bag, RequestManager.new, PostQueues.new] at hs
      · simp [RequestManager.states, PostQueues.bag, RequestManager.new, PostQueues.new] at hs⟩
  dsimp only at this
  rw [List.nil_append] at this
  obtain ⟨h1, h2⟩ := this
  refine ⟨h1, ?_⟩
  rw [← h1]
  exact h2 hd

/-! ### C40 -/

/-- C40: the requests inserted are those in the manager, those returned by `remove`, those given up because of
an error and those that reached the retry limit, each as often as it was inserted. -/
theorem no_request_lost (h : Reached C T config now calls outs log m) :
    (managed m ++ removed outs ++ failed log ++ exhausted log).Perm (inserted calls) := by
  have := manager_induction (P := Kept) (fun _ _ => kept_micro) (fun _ _ _ _ _ h => h) h [] [] [] (by
    unfold Kept RequestManager.states PostQueues.bag
    rfl)
  unfold Kept at this
  simp only [List.nil_append] at this
  rw [← managed_eq] at this
  rw [← Multiset.coe_eq_coe]
  simpa only [Multiset.coe_add] using this

theorem reported_micro {c c' : Cfg R} (h : errorsReported c.log = refusals c.log) (hm : Micro c c') :
    errorsReported c'.log = refusals c'.log := by
  have app : ∀ a b : List (LogEntry R), errorsReported (a ++ b) = errorsReported a ++ errorsReported b :=
    fun a b => List.flatMap_append
  have app' : ∀ a b : List (LogEntry R), refusals (a ++ b) = refusals a ++ refusals b :=
    fun a b => List.flatMap_append
  cases hm with
  | failed _ _ he =>
    dsimp only at h ⊢
    rw [app, app', h]
    congr 1
    rename_i e _ _
    cases e <;> first | rfl | exact absurd rfl he
  | pop _ _ hr =>
    dsimp only at h ⊢
    rw [app, app', h]
    congr 1
    cases hr with
    | limit => rfl
    | again _ h2 h3 => cases h2 <;> cases h3 <;> rfl
  | insert _ _ _ _ hr =>
    dsimp only at h ⊢
    rw [app, app', h]
    congr 1
    cases hr with
    | limit => rfl
    | again _ h2 h3 => cases h2 <;> cases h3 <;> rfl
  | @update m log ins rem status moved h1 h2 =>
    dsimp only at h ⊢
    rw [app, app', h]
    congr 1
    clear h2
    induction moved with
    | nil => rfl
    | cons s ss ih => exact ih
  | remove _ => exact h
  | removeRetry _ => exact h
  | requeue => dsimp only at h ⊢; rw [app, app', h]; rfl
  | wait => dsimp only at h ⊢; rw [app, app', h]; rfl
  | refused => dsimp only at h ⊢; rw [app, app', h]; rfl

/-- C40: a request is given up because of an error exactly if `post_request` has returned that error for it, for
another reason than lack of space in the queue: `handle_post_err` has been called with just these requests and
errors, in that order. -/
theorem given_up_iff_refused (h : Reached C T config now calls outs log m) :
    errorsReported log = refusals log := by
  have := manager_induction (P := fun c => errorsReported c.log = refusals c.log) (fun _ _ => reported_micro)
    (fun _ _ _ _ _ h => h) h [] [] [] rfl
  simpa using this

/-- `remove` returns a request with that id if there is one; it is then no longer in the manager, and all the
others are. -/
theorem remove_returns (id : MessageId) :
    (∀ r, (m.remove id).2 = some r → ∃ s : RequestState R, s.request = r ∧ s.messageId = id ∧
      s ∈ m.postQueues.current ++ m.postQueues.prev ++ m.postQueues.default ++ m.retryQueue ∧
      (managed m).Perm (r :: managed (m.remove id).1)) ∧
    ((m.remove id).2 = none → (m.remove id).1 = m ∧
      ∀ s ∈ m.postQueues.current ++ m.postQueues.prev ++ m.postQueues.default ++ m.retryQueue, s.messageId ≠ id) := by
  have hc := remove_cases m id
  generalize m.remove id = x at hc
  obtain ⟨m', o⟩ := x
  dsimp only at hc ⊢
  have mem : ∀ {rel : Option RelSessionIndex} {s : RequestState R}, s ∈ m.postQueues.get rel →
      s ∈ m.postQueues.current ++ m.postQueues.prev ++ m.postQueues.default ++ m.retryQueue := by
    rintro (_ | _ | _) s hs
    · simp [show s ∈ m.postQueues.default from hs]
    · simp [show s ∈ m.postQueues.current from hs]
    · simp [show s ∈ m.postQueues.prev from hs]
  cases hc with
  | @post rel s a b h1 h2 =>
    refine ⟨?_, fun h => (by cases h)⟩
    rintro r ⟨⟩
    refine ⟨s, rfl, h2, mem (rel := rel) (by rw [h1]; simp), ?_⟩
    rw [← Multiset.coe_eq_coe, ← Multiset.cons_coe, managed_eq, managed_eq]
    unfold RequestManager.states
    dsimp only
    rw [PostQueues.bag_split h1, Multiset.cons_add, Multiset.map_cons]
  | @retry s a b h1 h2 =>
    refine ⟨?_, fun h => (by cases h)⟩
    rintro r ⟨⟩
    refine ⟨s, rfl, h2, by rw [h1]; simp, ?_⟩
    rw [← Multiset.coe_eq_coe, ← Multiset.cons_coe, managed_eq, managed_eq]
    unfold RequestManager.states
    dsimp only
    rw [h1, ms_middle, Multiset.singleton_add, Multiset.add_cons, Multiset.map_cons]
  | none h1 h2 =>
    refine ⟨fun r h => (by cases h), fun _ => ⟨rfl, ?_⟩⟩
    intro s hs
    simp only [List.mem_append] at hs
    rcases hs with ((hs | hs) | hs) | hs
    · exact h1 (some .current) s hs
    · exact h1 (some .prev) s hs
    · exact h1 none s hs
    · exact h2 s hs

/-! ### C41 -/

theorem counted (h : Reached C T config now calls outs log m) (p : R → Bool) :
    m.config = config ∧ ∃ waste, toCome p m + (posted log).countP p + waste =
      config.numDestinations * config.numAttemptsPerDestination * config.numPostsPerAttempt * (inserted calls).countP p ∧
      ((removed outs).countP p + (failed log).countP p = 0 → waste = 0) := by
  have hc := manager_induction (P := fun c => c.mgr.config = config)
    (fun _ _ h hm => (config_micro hm).1.trans h) (fun _ _ _ _ _ h => h) h [] [] [] rfl
  have := manager_induction (P := Counted p) (fun _ _ => counted_micro) (fun _ _ _ _ _ h => h) h [] [] [] ⟨0, by
    unfold toCome PostQueues.bag
    rfl, fun _ => rfl⟩
  unfold Counted at this
  dsimp only at hc this
  rw [hc] at this
  exact ⟨hc, by simpa only [List.nil_append] using this⟩

/-- C41: a request is posted at most `num_destinations * num_attempts_per_destination *
num_posts_per_attempt` times for each time it was inserted. -/
theorem posts_bounded [DecidableEq R] (h : Reached C T config now calls outs log m) (r : R) :
    (posted log).count r ≤
      config.numDestinations * config.numAttemptsPerDestination * config.numPostsPerAttempt * (inserted calls).count r := by
  obtain ⟨-, waste, h1, -⟩ := counted h (· == r)
  simp only [List.count]
  omega

/-- C41: a request inserted once that has reached the retry limit has been posted exactly that often. -/
theorem exhausted_exactly [DecidableEq R] (h : Reached C T config now calls outs log m) (r : R)
    (hr : (inserted calls).count r = 1) (he : r ∈ exhausted log) :
    (posted log).count r =
      config.numDestinations * config.numAttemptsPerDestination * config.numPostsPerAttempt := by
  have hp := (no_request_lost h).count_eq r
  rw [hr] at hp
  simp only [List.count_append] at hp
  have := List.count_pos_iff.2 he
  obtain ⟨-, waste, h1, h2⟩ := counted h (· == r)
  simp only [List.count] at hr hp h1 this ⊢
  rw [hr] at h1
  have hw := h2 (by omega)
  have h0 : toCome (· == r) m = 0 := by
    have hm : ∀ s ∈ m.states, (s.request == r) = false := by
      intro s hs
      by_contra hc
      have : s.request = r := by simpa using hc
      have : r ∈ managed m := by
        rw [← Multiset.mem_coe, managed_eq, Multiset.mem_map]
        exact ⟨s, hs, this⟩
      have := List.count_pos_iff.2 this
      simp only [List.count] at this
      omega
    unfold toCome
    have e1 : (m.postQueues.bag.map (sooner (· == r) m.config)).sum = 0 := by
      refine Multiset.sum_eq_zero fun x hx => ?_
      obtain ⟨s, hs, rfl⟩ := Multiset.mem_map.1 hx
      unfold sooner
      rw [if_neg (by dsimp only; rw [hm s (Multiset.mem_add.2 (.inl hs))]; simp)]
    have e2 : ((↑m.retryQueue : Multiset (RequestState R)).map (later (· == r) m.config)).sum = 0 := by
      refine Multiset.sum_eq_zero fun x hx => ?_
      obtain ⟨s, hs, rfl⟩ := Multiset.mem_map.1 hx
      unfold later
      rw [if_neg (by dsimp only; rw [hm s (Multiset.mem_add.2 (.inr hs))]; simp)]
    rw [e1, e2]
  omega

/-- C41: a request that was neither removed nor given up because of an error, and was posted less often, is
still in the manager. -/
theorem posted_less_still_managed [DecidableEq R] (h : Reached C T config now calls outs log m) (r : R)
    (hr : (inserted calls).count r = 1) (h1 : r ∉ removed outs) (h2 : r ∉ failed log)
    (hlt : (posted log).count r <
      config.numDestinations * config.numAttemptsPerDestination * config.numPostsPerAttempt) : r ∈ managed m := by
  have hp := (no_request_lost h).count_eq r
  rw [hr] at hp
  simp only [List.count_append, List.count_eq_zero_of_not_mem h1, List.count_eq_zero_of_not_mem h2] at hp
  by_contra hm
  rw [List.count_eq_zero_of_not_mem hm] at hp
  have he : r ∈ exhausted log := List.count_pos_iff.1 (by omega)
  have := exhausted_exactly h r hr he
  omega

/-! ### C42 -/

/-- C42: `has_space` says whether there are fewer requests than the capacity. -/
theorem has_space_iff : m.hasSpace = true ↔ (managed m).length < m.config.capacity := by
  rw [hasSpace_iff, ← Multiset.coe_card, managed_eq, Multiset.card_map]

/-- C42: there are never more requests than the capacity. (`insert` asserts that there is space.) -/
theorem capacity_respected (h : Reached C T config now calls outs log m) : (managed m).length ≤ config.capacity := by
  have hc := manager_induction (P := fun c => c.mgr.config = config)
    (fun _ _ h hm => (config_micro hm).1.trans h) (fun _ _ _ _ _ h => h) h [] [] [] rfl
  have := manager_induction (P := Within) (fun _ _ => within_micro) (fun _ _ _ _ _ h => h) h [] [] []
    (Nat.zero_le _)
  unfold Within at this
  dsimp only at hc this
  rw [hc] at this
  rw [← Multiset.coe_card, managed_eq, Multiset.card_map]
  exact this

/-! ### C43 -/

/-- C43: requests wait for a retry in the order of their deadlines. -/
theorem retry_queue_sorted (h : Reached C T config now calls outs log m) :
    m.retryQueue.Pairwise fun a b => a.retryDeadline ≤ b.retryDeadline :=
  manager_induction (P := Sorted) (fun _ _ => sorted_micro) (fun _ _ _ _ _ h => h) h [] [] [] .nil

/-- C43: `next_retry_deadline` is the earliest deadline. -/
theorem next_deadline_earliest (h : Reached C T config now calls outs log m) :
    (m.nextRetryDeadline = none ↔ m.retryQueue = []) ∧
    ∀ t, m.nextRetryDeadline = some t →
      (∃ s ∈ m.retryQueue, s.retryDeadline = t) ∧ ∀ s ∈ m.retryQueue, t ≤ s.retryDeadline := by
  have hs := retry_queue_sorted h
  unfold RequestManager.nextRetryDeadline
  cases hq : m.retryQueue with
  | nil => simp
  | cons s rest =>
    rw [hq, List.pairwise_cons] at hs
    refine ⟨by simp, ?_⟩
    rintro t ⟨⟩
    refine ⟨⟨s, List.mem_cons_self, rfl⟩, ?_⟩
    intro s' hs'
    rcases List.mem_cons.1 hs' with rfl | hs'
    · exact Nat.le_refl _
    · exact hs.1 s' hs'

/-- C43: `pop_next_retry` retries a request with the earliest deadline, if there is one; all the others go on
waiting. -/
theorem pop_retries_earliest (h : Reached C T config now calls outs log m)
    {mixnet mixnet' : Node} {env : Env} {ns : NetworkStatus} {ctx : Ctx} {m' : RequestManager R}
    {l : List (LogEntry R)} {out : ManagerOutcome R}
    (hp : m.step C T mixnet env ns ctx .popNextRetry = .ok (m', mixnet', l, out)) :
    (m.retryQueue = [] ∧ out = .popped false) ∨
    ∃ s rest, m.retryQueue = s :: rest ∧ out = .popped true ∧ (∀ s' ∈ rest, s.retryDeadline ≤ s'.retryDeadline) ∧
      List.Subperm rest m'.retryQueue := by
  obtain ⟨h1, h2⟩ := pop_waits hp
  have hs := retry_queue_sorted h
  cases hq : m.retryQueue with
  | nil => rw [hq] at h1; exact .inl ⟨rfl, h1⟩
  | cons s rest =>
    rw [hq] at h1 h2 hs
    rw [List.pairwise_cons] at hs
    exact .inr ⟨s, rest, rfl, h1, hs.1, Multiset.coe_le.1 h2⟩

/-- C43: if the next retry deadline is not what it was when `next_retry_deadline_changed` was last called (or
when the manager was created), the next call returns true. -/
theorem deadline_changes_announced {m0 : RequestManager R} (h : RequestManager.Runs C T m0 calls outs log m)
    (hc : .nextRetryDeadlineChanged ∉ calls) (hd : m.nextRetryDeadline ≠ m0.nextRetryDeadline) :
    m.takeNextRetryDeadlineChanged.2 = true := by
  have key : ∀ (l0 : List (LogEntry R)) (d : Option Nat), Flagged d ⟨m0, l0, [], []⟩ → Flagged d ⟨m, l0, [], []⟩ := by
    clear hd
    induction h with
    | nil _ => exact fun _ _ h => h
    | @cons m1 call mixnet env ns ctx m2 mixnet' log1 out calls outs logs m3 h1 h2 ih =>
      intro l0 d hf
      refine ih (fun hm => hc (List.mem_cons_of_mem _ hm)) l0 d ?_
      have hm := manager_step_micros (fun e => hc (e ▸ List.mem_cons_self)) h1 [] [] []
      have : Flagged d (⟨m1, [], [], []⟩ : Cfg R) := hf
      have h3 := flagged_micros this hm
      exact h3
  rcases key [] _ (.inl rfl) with h | h
  · exact absurd h hd
  · exact h

/-- Asking resets the answer. -/
theorem asking_resets : m.takeNextRetryDeadlineChanged.1.takeNextRetryDeadlineChanged.2 = false ∧
    m.takeNextRetryDeadlineChanged.1.nextRetryDeadline = m.nextRetryDeadline := ⟨rfl, rfl⟩

/-! ### C44 -/

/-- C44: in every reachable state requests are bound to the session of the queue they wait in. -/
theorem requests_bound (h : Reached C T config now calls outs log m) : Bound m := by
  rw [bound_iff]
  refine manager_induction (P := fun c => BoundQ c.mgr) (fun _ _ => bound_micro) (fun _ _ _ _ _ h => h) h [] [] [] ?_
  refine ⟨?_, fun s hs => (by cases hs)⟩
  rintro (_ | _ | _) s hs <;> cases hs

/-- C44: hence no assertion of the manager fails: with at least one attempt and one post, and if `insert` is
called only when there is space, calls panic only if `post_request` does. -/
theorem panics_only_in_mixnet (h : Reached C T config now calls outs log m)
    (hp : 1 ≤ config.numPostsPerAttempt) (ha : 1 ≤ config.numAttemptsPerDestination)
    {mixnet : Node} {env : Env} {ns : NetworkStatus} {ctx : Ctx} {call : ManagerCall R}
    (hs : ∀ r, call = .insert r → m.hasSpace = true) {p : Panic}
    (he : m.step C T mixnet env ns ctx call = .error p) : FromMixnet C T ns ctx mixnet p := by
  have hc := manager_induction (P := fun c => c.mgr.config = config)
    (fun _ _ h hm => (config_micro hm).1.trans h) (fun _ _ _ _ _ h => h) h [] [] [] rfl
  dsimp only at hc
  exact step_only (bound_iff.1 (requests_bound h)) (by rw [hc]; exact hp) (by rw [hc]; exact ha) hs he

/-! ### C45 -/

/-- C45: if the random message ids are different, posts with the same message id are posts of the same
request in the same session to the same destination. -/
theorem id_one_destination (h : Reached C T config now calls outs log m) (hd : (drawn log).Nodup)
    {r r' : R} {i i' : SessionIndex} {id : MessageId} {d d' : Option MixnodeIndex}
    (h1 : (r, i, id, d) ∈ sendings log) (h2 : (r', i', id, d') ∈ sendings log) :
    r = r' ∧ i = i' ∧ d = d' ∧ d ≠ none := by
  have hI := (ids_reached h hd).2
  have := hI.unique _ h1 _ h2 rfl
  simp only [Prod.mk.injEq] at this
  exact ⟨this.1, this.2.1, this.2.2.2, (hI.sent _ h1).2⟩

/-! ### C53 -/

/-- C53: if the random message ids are different, a request waiting for a retry comes due when the replies to
all posts with its message id should have arrived: its deadline is the latest of the times (of a post) plus
round-trip time estimated then. (The manager's creation time stands in for a deadline before the first post;
no deadline is earlier.) -/
theorem retry_when_overdue (h : Reached C T config now calls outs log m) (hd : (drawn log).Nodup)
    {s : RequestState R} (hs : s ∈ m.retryQueue) :
    now ≤ s.retryDeadline ∧ (∀ t ∈ expected s.messageId log, t ≤ s.retryDeadline) ∧
    (s.retryDeadline = now ∨ s.retryDeadline ∈ expected s.messageId log) ∧
    ∃ i d, (s.request, i, s.messageId, d) ∈ sendings log := by
  obtain ⟨hc, hI⟩ := ids_reached h hd
  have hm : s ∈ m.states := by
    unfold RequestManager.states
    exact Multiset.mem_add.2 (.inr (Multiset.mem_coe.2 hs))
  obtain ⟨h1, h2, h3⟩ := hI.due s hm
  refine ⟨h1, h2, h3, ?_⟩
  obtain ⟨x, hx, he⟩ := hI.posted s hm ((requests_bound h).retry s hs).1
  obtain ⟨a1, -, -⟩ := hI.agree s hm x hx he
  refine ⟨x.2.1, x.2.2.2, ?_⟩
  rw [← a1, ← he]
  exact hx

/-! ### C46 -/

/-- C46: the loop of `process_post_queue` ends, whatever the mixnet does: from some number of iterations on,
allowing more changes nothing. -/
theorem post_loop_ends {w : Work R} {rel : Option RelSessionIndex} {i : SessionIndex} {ns : NetworkStatus} {ctx : Ctx}
    (hi : (rel.getD w.mgr.sessionStatus.phase.defaultRequestSession).add w.mgr.sessionStatus.currentIndex = .ok i) :
    ∃ N res, res ≠ .ok none ∧ ∀ n, N ≤ n →
      Work.postLoop C T ns ctx rel (rel.getD w.mgr.sessionStatus.phase.defaultRequestSession)
        (rel.map fun _ => i) i n w = res := by
  have hne : Work.postLoop C T ns ctx rel (rel.getD w.mgr.sessionStatus.phase.defaultRequestSession)
        (rel.map fun _ => i) i (Work.iterations (w.queue rel)) w ≠ .ok none := by
    intro hx
    exact absurd ((postLoop_micros [] [] rfl hi hx).1 rfl) (Nat.lt_irrefl _)
  refine ⟨Work.iterations (w.queue rel), _, hne, fun n hn => ?_⟩
  obtain ⟨k, rfl⟩ := Nat.exists_eq_add_of_le hn
  exact postLoop_mono hne

/-- C46: after `process_post_queues` each post queue is empty, unless its session does not exist or the attempt
to post its first request was refused for lack of space. -/
theorem queues_processed {m' : RequestManager R} {mixnet mixnet' : Node} {env : Env} {ns : NetworkStatus} {ctx : Ctx}
    {l : List (LogEntry R)} {out : ManagerOutcome R}
    (h : m.step C T mixnet env ns ctx .processPostQueues = .ok (m', mixnet', l, out)) (rel : Option RelSessionIndex) :
    m'.postQueues.get rel = [] ∨
    (rel.getD m.sessionStatus.phase.defaultRequestSession = .prev ∧ m.sessionStatus.currentIndex = 0) ∨
    ∃ s rest i, m'.postQueues.get rel = s :: rest ∧
      (rel.getD m.sessionStatus.phase.defaultRequestSession).add m.sessionStatus.currentIndex = .ok i ∧
      .post s.request i s.destinationIndex s.messageId s.destinationIndex (.error .notEnoughSpaceInQueue) ∈ l := by
  unfold RequestManager.step at h
  rw [res_bind_eq_ok] at h
  obtain ⟨w, h1, h⟩ := h
  cases h
  rcases processPostQueues_left h1 rel with h | h | ⟨s, rest, i, l1, l2, h2, h3, h4⟩
  · exact .inl h
  · exact .inr (.inl h)
  · refine .inr (.inr ⟨s, rest, i, h2, h3, ?_⟩)
    rw [h4]
    simp

/-! ### The hypotheses can be met -/

/-- A history in which a request (7) is posted twice, as configured, and reaches the retry limit, another one (8)
is removed, and one inserted twice (9) waits. -/
example : ∃ m os log, Reached World.C World.trait World.mgrConfig 5 World.mgrCalls os log m ∧
    (managed m = [9, 9] ∧ removed os = [8] ∧ exhausted log = [7] ∧ posted log = [7, 7, 8, 9, 9] ∧
      (drawn log).Nodup ∧ m.nextRetryDeadline.isSome) := World.mgr_history

/-- In it a request waits, its reply being expected at some time. -/
example : ∃ m os log s, Reached World.C World.trait World.mgrConfig 5 World.mgrCalls os log m ∧ s ∈ m.retryQueue ∧
    (s.retryDeadline = 5 ∨ s.retryDeadline ∈ expected s.messageId log) := by
  obtain ⟨m, os, log, h, -, -, -, -, hd, hs⟩ := World.mgr_history
  unfold RequestManager.nextRetryDeadline at hs
  cases hq : m.retryQueue with
  | nil => rw [hq] at hs; simp at hs
  | cons s rest =>
    have hmem : s ∈ m.retryQueue := by rw [hq]; exact List.mem_cons_self
    exact ⟨m, os, log, s, h, hq ▸ hmem, (retry_when_overdue h hd hmem).2.2.1⟩

example : (inserted World.mgrCalls).count 7 = 1 := rfl

/-- A history at the end of which requests wait in the queues of the current session and of the default one, for
lack of space. -/
example : ∃ m os log, Reached World.C World.trait ⟨2, 1, 1, 2⟩ 5 World.busyCalls os log m ∧
    (m.postQueues.current.map (·.request) = [7] ∧ m.postQueues.default.map (·.request) = [8] ∧
      m.sessionStatus = ⟨0, .requestsToCurrent⟩ ∧ m.hasSpace = false) := World.busy_history

end Mixnet.Props
