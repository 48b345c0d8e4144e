import Verif.Spec.ManagerWorld
import Verif.Props.RequestManager
import Verif.Proofs.ManagerTries
/-!
# C66: how many destinations a request is tried at, and how often

Every message id is drawn for one try: one request, in one session, to one destination (C45). A request is tried
`num_destinations` times, and once more each time a change of the session status may force it to start anew.
-/
namespace Mixnet.Props
open Mixnet Spec

variable {R Ctx : Type} {C : Crypto} {T : RequestTrait R Ctx} {config : RequestManagerConfig} {now : Nat}
  {calls : List (ManagerCall R)} {outs : List (ManagerOutcome R)} {log : List (LogEntry R)} {m m0 : RequestManager R}
  {k : Nat}

/-- `RunsChanging` is `RequestManager.Runs`. -/
theorem runs_changing (h : RunsChanging C T m0 calls outs log k m) : RequestManager.Runs C T m0 calls outs log m := by
  induction h with
  | nil m => exact .nil m
  | same h1 _ _ ih => exact .cons h1 ih
  | change h1 _ _ ih => exact .cons h1 ih

/-- Every history has a number of changes, and only calls of `update_session_status` count. -/
theorem changes_counted (h : RequestManager.Runs C T m0 calls outs log m) :
    ∃ k, RunsChanging C T m0 calls outs log k m ∧
      k ≤ (calls.filter fun c => match c with | .updateSessionStatus => true | _ => false).length := by
  induction h with
  | nil m => exact ⟨0, .nil m, Nat.zero_le _⟩
  | @cons m call mixnet env ns ctx m1 mixnet' log1 out calls outs logs m'' h1 h2 ih =>
    obtain ⟨k, hk, hle⟩ := ih
    by_cases hs : m1.sessionStatus = m.sessionStatus
    · refine ⟨k, .same h1 hs hk, Nat.le_trans hle ?_⟩
      exact (List.Sublist.filter _ (List.sublist_cons_self call calls)).length_le
    · refine ⟨k + 1, .change h1 hs hk, ?_⟩
      have : call = .updateSessionStatus := by
        by_contra hc
        by_cases hcall : call = .nextRetryDeadlineChanged
        · subst hcall
          cases h1
          exact hs rfl
        · cases call with
          | updateSessionStatus => exact hc rfl
          | insert r =>
            unfold RequestManager.step at h1
            rw [res_bind_eq_ok] at h1
            obtain ⟨w, h3, h1⟩ := h1
            cases h1
            exact hs (insert_micros h3 [] []).status
          | remove id =>
            have hr := remove_cases m id
            have h1 : (Except.ok ((m.remove id).1, mixnet, [], ManagerOutcome.removed (m.remove id).2) : Res _) =
              .ok (m1, mixnet', log1, out) := h1
            generalize m.remove id = x at hr h1
            obtain ⟨m2, o⟩ := x
            cases h1
            dsimp only at hr
            cases hr <;> exact hs rfl
          | processPostQueues =>
            unfold RequestManager.step at h1
            rw [res_bind_eq_ok] at h1
            obtain ⟨w, h3, h1⟩ := h1
            cases h1
            exact hs (processPostQueues_micros h3 [] []).1.status
          | popNextRetry =>
            unfold RequestManager.step at h1
            rw [res_bind_eq_ok] at h1
            obtain ⟨⟨w, b⟩, h3, h1⟩ := h1
            cases h1
            exact hs (popNextRetry_micros h3 [] []).1.status
          | nextRetryDeadlineChanged => exact hcall rfl
      subst this
      rw [List.filter_cons_of_pos rfl, List.length_cons]
      omega

theorem owned_reached (h : Reached C T config now calls outs log m) : Owned m.states log := by
  have := manager_induction (P := fun c => Owned c.mgr.states c.log) (fun _ _ => owned_micro)
    (fun _ _ _ _ _ h => h) h [] [] [] ⟨fun s hs => by
      simp [RequestManager.states, PostQueues.bag, RequestManager.new, PostQueues.new] at hs, fun x hx => by cases hx⟩
  simpa using this

theorem news_bounded (p : R → Bool) (h : RunsChanging C T (.new config now) calls outs log k m) :
    news p log ≤ (config.numDestinations + k) * (inserted calls).countP p := by
  have h0 : Tried p 0 (⟨.new config now, [], [], []⟩ : Cfg R) := by
    refine ⟨?_, ?_⟩
    · unfold Kept RequestManager.states PostQueues.bag
      rfl
    · simp [potential, news, RequestManager.states, PostQueues.bag, RequestManager.new, PostQueues.new]
  have key := (tried_runs h [] [] [] 0 h0).2
  have hc : m.config = config := by
    have := manager_induction (P := fun c => c.mgr.config = config)
      (fun _ _ hi hm => (config_micro hm).1.trans hi) (fun _ _ _ _ _ h => h) (runs_changing h) [] [] [] rfl
    exact this
  unfold potential at key
  dsimp only at key
  simp only [List.nil_append, Nat.zero_add] at key
  rw [hc] at key
  omega

theorem nodup_owned [DecidableEq R] (h : RunsChanging C T (.new config now) calls outs log k m) {r : R}
    {ids : List MessageId} (hn : ids.Nodup) (ht : ∀ id ∈ ids, (r, id) ∈ owners log) :
    ids.length ≤ (config.numDestinations + k) * (inserted calls).count r := by
  have h1 := news_bounded (fun x => x == r) h
  rw [owners_news] at h1
  refine Nat.le_trans ?_ h1
  have hsub : (ids.map fun id => (r, id)) ⊆ (owners log).filter fun x => x.1 == r := by
    intro x hx
    obtain ⟨id, hid, rfl⟩ := List.mem_map.1 hx
    exact List.mem_filter.2 ⟨ht id hid, by simp⟩
  have hnd : (ids.map fun id => (r, id)).Nodup := hn.map fun a b hab => by cases hab; rfl
  have := (hnd.subperm hsub).length_le
  rw [List.length_map] at this
  rw [List.countP_eq_length_filter]
  exact this

/-- C66: a request inserted once is posted with at most as many message ids as there are destinations to be tried and
changes of the session status (for each time it was inserted). -/
theorem tries_bounded [DecidableEq R] (h : RunsChanging C T (.new config now) calls outs log k m) {r : R}
    {ids : List MessageId} (hn : ids.Nodup) (ht : ∀ id ∈ ids, TriedWith r id log) :
    ids.length ≤ (config.numDestinations + k) * (inserted calls).count r := by
  refine nodup_owned h hn fun id hid => ?_
  obtain ⟨i, d, hs⟩ := ht id hid
  exact (owned_reached (runs_changing h)).sent _ hs

/-- C66: if the random message ids are different, it is posted to at most as many destinations (mixnodes of a
session). -/
theorem destinations_bounded [DecidableEq R] (h : RunsChanging C T (.new config now) calls outs log k m)
    (hd : (drawn log).Nodup) {r : R} {l : List (SessionIndex × MixnodeIndex)} (hn : l.Nodup)
    (ht : ∀ x ∈ l, TriedAt r x.1 x.2 log) :
    l.length ≤ (config.numDestinations + k) * (inserted calls).count r := by
  have hids := (ids_reached (runs_changing h) hd).2
  unfold TriedAt at ht
  choose! f hf using ht
  rw [← List.length_map (f := f)]
  refine tries_bounded h (r := r) ?_ ?_
  · refine (List.nodup_map_iff_inj_on hn).2 fun x hx y hy he => ?_
    have := hids.unique _ (hf x hx) _ (hf y hy) he
    simp only [Prod.mk.injEq, Option.some.injEq] at this
    exact Prod.ext this.2.1 this.2.2.2
  · intro id hid
    obtain ⟨x, hx, rfl⟩ := List.mem_map.1 hid
    exact ⟨_, _, hf x hx⟩

/-- C66: if the random message ids are different, each is used for at most `num_attempts_per_destination *
num_posts_per_attempt` posts. -/
theorem posts_per_try (h : Reached C T config now calls outs log m) (hd : (drawn log).Nodup) (id : MessageId) :
    postsWith id log ≤ config.numAttemptsPerDestination * config.numPostsPerAttempt := by
  have := manager_induction
    (P := fun c => c.mgr.config = config ∧ ((drawn c.log).Nodup → Ids c.mgr.createdAt c.mgr.states c.log ∧
      Spent c.mgr.config c.mgr.postQueues.bag ↑c.mgr.retryQueue c.log))
    (fun c c' hi hm => ⟨(config_micro hm).1.trans hi.1, fun hd => by
      have hd0 : (drawn c.log).Nodup := by
        obtain ⟨l, hl⟩ : ∃ l, c'.log = c.log ++ l := by
          cases hm with
          | remove _ => exact ⟨[], (List.append_nil _).symm⟩
          | removeRetry _ => exact ⟨[], (List.append_nil _).symm⟩
          | _ => exact ⟨_, rfl⟩
        rw [hl] at hd
        exact nodup_prefix hd
      exact ⟨ids_micro hm (fun hd => (hi.2 hd).1) hd, spent_micro hm hd (hi.2 hd0).1 (hi.2 hd0).2⟩⟩)
    (fun _ _ _ _ _ h => h) h [] [] [] ⟨rfl, fun _ => by
      refine ⟨⟨fun s hs => ?_, ?_, fun s hs => (by cases hs), fun s hs => ?_, fun s hs => (by cases hs),
        fun s hs => ?_, fun s hs => ?_⟩, fun s hs => ?_, fun s hs => ?_, fun id => Nat.zero_le _⟩
      · simp [RequestManager.states, PostQueues.bag, RequestManager.new, PostQueues.new] at hs
      · simp [RequestManager.states, PostQueues.bag, RequestManager.new, PostQueues.new]
      · simp [RequestManager.states, PostQueues.bag, RequestManager.new, PostQueues.new] at hs
      · simp [RequestManager.states, PostQueues.bag, RequestManager.new, PostQueues.new] at hs
      · simp [RequestManager.states, PostQueues.bag, RequestManager.new, PostQueues.new] at hs
      · simp [PostQueues.bag, RequestManager.new, PostQueues.new] at hs
      · simp [RequestManager.new] at hs⟩
  dsimp only at this
  rw [List.nil_append] at this
  obtain ⟨h1, h2⟩ := this
  rw [← h1]
  exact (h2 hd).2.all id

theorem list_sum_le {α : Type} {f g : α → Nat} (l : List α) (h : ∀ a ∈ l, f a ≤ g a) : (l.map f).sum ≤ (l.map g).sum := by
  induction l with
  | nil => exact Nat.le_refl _
  | cons a l ih =>
    rw [List.map_cons, List.map_cons, List.sum_cons, List.sum_cons]
    exact Nat.add_le_add (h a List.mem_cons_self) (ih fun b hb => h b (List.mem_cons_of_mem _ hb))

theorem split_by_id (S : List (Sending R)) : ∀ ids : List MessageId, (∀ x ∈ S, x.2.2.1 ∈ ids) →
    S.length ≤ (ids.map fun id => (S.filter fun x => x.2.2.1 = id).length).sum
  | [], h => by
    cases S with
    | nil => exact Nat.le_refl _
    | cons x S => exact absurd (h x List.mem_cons_self) (by simp)
  | id :: ids, h => by
    have ih := split_by_id (S.filter fun x => ¬ x.2.2.1 = id) ids fun x hx => by
      obtain ⟨h1, h2⟩ := List.mem_filter.1 hx
      rcases List.mem_cons.1 (h x h1) with he | he
      · exact absurd he (of_decide_eq_true h2)
      · exact he
    rw [List.map_cons, List.sum_cons]
    have e1 : S.length = (S.filter fun x => x.2.2.1 = id).length + (S.filter fun x => ¬ x.2.2.1 = id).length := by
      have := List.length_eq_length_filter_add (l := S) fun x => decide (x.2.2.1 = id)
      rw [this]
      congr 3
      funext x
      by_cases hx : x.2.2.1 = id <;> simp [hx]
    have e2 : (ids.map fun id' => ((S.filter fun x => ¬ x.2.2.1 = id).filter fun x => x.2.2.1 = id').length).sum ≤
        (ids.map fun id' => (S.filter fun x => x.2.2.1 = id').length).sum := by
      refine list_sum_le ids fun id' _ => ?_
      exact (List.Sublist.filter _ List.filter_sublist).length_le
    omega

theorem posted_sendings [DecidableEq R] (r : R) (log : List (LogEntry R)) :
    (posted log).count r = ((sendings log).filter fun x => x.1 = r).length := by
  induction log with
  | nil => rfl
  | cons e log ih =>
    show (posted ([e] ++ log)).count r = ((sendings ([e] ++ log)).filter fun x => x.1 = r).length
    rw [posted_append, sendings_append, List.count_append, List.filter_append, List.length_append, ih]
    congr 1
    cases e with
    | post r' i d id d' res =>
      cases res with
      | error e => rfl
      | ok met =>
        rw [posted_post, sendings_post]
        by_cases hr : r' = r <;> simp [hr]
    | _ => rfl

/-- C66: if the random message ids are different, a request inserted once is given up for having reached the retry
limit only after `num_destinations` tries, i.e. posts with different message ids (whose destinations were chosen
independently). -/
theorem destinations_tried [DecidableEq R] (h : Reached C T config now calls outs log m) (hd : (drawn log).Nodup)
    (ha : 1 ≤ config.numAttemptsPerDestination) (hp : 1 ≤ config.numPostsPerAttempt) {r : R}
    (hr : (inserted calls).count r = 1) (he : r ∈ exhausted log) :
    ∃ ids : List MessageId, ids.Nodup ∧ config.numDestinations ≤ ids.length ∧ ∀ id ∈ ids, TriedWith r id log := by
  refine ⟨(((sendings log).filter fun x => x.1 = r).map (·.2.2.1)).dedup, List.nodup_dedup _, ?_, ?_⟩
  · have h1 := exhausted_exactly h r hr he
    rw [posted_sendings] at h1
    have h2 := split_by_id ((sendings log).filter fun x => x.1 = r)
      (((sendings log).filter fun x => x.1 = r).map (·.2.2.1)).dedup fun x hx =>
        List.mem_dedup.2 (List.mem_map.2 ⟨x, hx, rfl⟩)
    generalize (((sendings log).filter fun x => x.1 = r).map (·.2.2.1)).dedup = ids at h2 ⊢
    rw [h1] at h2
    have h3 : (ids.map fun id => (((sendings log).filter fun x => x.1 = r).filter fun x => x.2.2.1 = id).length).sum ≤
        ids.length * (config.numAttemptsPerDestination * config.numPostsPerAttempt) := by
      refine Nat.le_trans (list_sum_le ids (g := fun _ => config.numAttemptsPerDestination * config.numPostsPerAttempt)
        fun id _ => ?_) (by simp)
      refine Nat.le_trans ?_ (posts_per_try h hd id)
      exact (List.Sublist.filter _ List.filter_sublist).length_le
    rw [Nat.mul_assoc] at h2
    exact Nat.le_of_mul_le_mul_right (Nat.le_trans h2 h3) (Nat.mul_pos ha hp)
  · intro id hid
    obtain ⟨⟨r', i, id', d⟩, hx, rfl⟩ := List.mem_map.1 (List.mem_dedup.1 hid)
    obtain ⟨h1, h2⟩ := List.mem_filter.1 hx
    obtain rfl := of_decide_eq_true h2
    exact ⟨i, d, h1⟩

end Mixnet.Props

namespace Mixnet.World
open Spec

/-- Calls made one after the other, each with a mixnet. -/
def runOver (m : RequestManager Nat) (t : Nat) : List (Node × ManagerCall Nat) →
    Res (RequestManager Nat × List (ManagerOutcome Nat) × List (LogEntry Nat) × Nat)
  | [] => .ok (m, [], [], 0)
  | (node, c) :: cs =>
    match m.step C trait node (mgrEnv t) (ns 3) () c with
    | .error e => .error e
    | .ok (m1, _, l, o) =>
      match runOver m1 (t + 1) cs with
      | .error e => .error e
      | .ok (m2, os, ls, k) => .ok (m2, o :: os, l ++ ls, if m1.sessionStatus = m.sessionStatus then k else k + 1)

theorem runOver_runs : ∀ {cs : List (Node × ManagerCall Nat)} {m : RequestManager Nat} {t : Nat} {m' os ls k},
    runOver m t cs = .ok (m', os, ls, k) → RunsChanging C trait m (cs.map (·.2)) os ls k m' := by
  intro cs
  induction cs with
  | nil => intro m t m' os ls k h; cases h; exact .nil _
  | cons x cs ih =>
    obtain ⟨node, c⟩ := x
    intro m t m' os ls k h
    unfold runOver at h
    split at h
    · cases h
    · rename_i m1 n1 l1 o hx
      split at h
      · cases h
      · rename_i m2 os2 ls2 k2 hy
        by_cases hs : m1.sessionStatus = m.sessionStatus
        · rw [if_pos hs] at h
          cases h
          exact .same hx hs (ih hy)
        · rw [if_neg hs] at h
          cases h
          exact .change hx hs (ih hy)

/-- Alice in a later session, with the same mixnodes. -/
def laterAlice : Node := { alice with sessionStatus := ⟨5, .requestsToCurrent⟩ }

/-- The session ends after the first post; the request is tried a third time, at the third of what could have been
four destinations. -/
def threeTries : List (Node × ManagerCall Nat) :=
  [(alice, .updateSessionStatus), (alice, .insert 7), (laterAlice, .updateSessionStatus), (laterAlice, .popNextRetry),
    (laterAlice, .popNextRetry), (laterAlice, .popNextRetry), (laterAlice, .popNextRetry)]

/-- The hypotheses of the theorems above are met by a request tried three times, though there are two destinations. -/
example : ∃ m os log, RunsChanging C trait (.new ⟨3, 2, 2, 1⟩ 5) (threeTries.map (·.2)) os log 2 m ∧
    (exhausted log = [7] ∧ (drawn log).Nodup ∧ (drawn log).length = 3 ∧ (sendings log).length = 4 ∧
      ((sendings log).map (·.2.1)) = [0, 5, 5, 5]) := by
  have h : (match runOver (.new ⟨3, 2, 2, 1⟩ 5) 0 threeTries with
      | .ok (_, _, log, k) => decide (k = 2 ∧ exhausted log = [7] ∧ (drawn log).Nodup ∧ (drawn log).length = 3 ∧
          (sendings log).length = 4 ∧ ((sendings log).map (·.2.1)) = [0, 5, 5, 5])
      | .error _ => false) = true := by decide +kernel
  obtain ⟨x, hx⟩ : ∃ x, runOver (.new ⟨3, 2, 2, 1⟩ 5) 0 threeTries = x := ⟨_, rfl⟩
  rw [hx] at h
  cases x with
  | error e => cases h
  | ok p =>
    obtain ⟨m, os, log, k⟩ := p
    obtain ⟨rfl, hl⟩ := of_decide_eq_true h
    exact ⟨m, os, log, runOver_runs hx, hl⟩

end Mixnet.World
