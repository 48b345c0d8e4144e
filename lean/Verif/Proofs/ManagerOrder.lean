import Verif.Spec.Order
import Verif.Proofs.ManagerIds
/-!
# The order of first posts
-/
namespace Mixnet
open Spec
variable {R Ctx : Type}

/-- What is known about the requests not yet posted. -/
structure Ordered [DecidableEq R] (c : Cfg R) : Prop where
  bound : BoundQ c.mgr
  kept : Kept c
  tried : ∀ s ∈ c.mgr.states, s.sessionIndex ≠ none → s.request ∈ posted c.log
  order : (((c.mgr.postQueues.default.map (·.request)).filter fun r => r ∉ posted c.log)).Sublist c.inserted
  known : ∀ r ∈ posted c.log, r ∈ c.inserted
  limit : ∀ r ∈ exhausted c.log, r ∈ posted c.log ∨ c.mgr.config.numDestinations = 0

theorem filter_posted [DecidableEq R] {q : List R} {a : List (LogEntry R)} (b : List (LogEntry R)) :
    (q.filter fun r => r ∉ posted (a ++ b)).Sublist (q.filter fun r => r ∉ posted a) := by
  refine List.monotone_filter_right q fun r hr => ?_
  simp only [decide_eq_true_eq] at hr ⊢
  intro hc
  rw [posted_append] at hr
  exact hr (List.mem_append_left _ hc)

theorem managed_inserted {c : Cfg R} (h : Kept c) {s : RequestState R} (hs : s ∈ c.mgr.states) :
    s.request ∈ c.inserted := by
  rw [← Multiset.mem_coe, ← h]
  simp only [Multiset.mem_add]
  exact .inl (.inl (.inl (Multiset.mem_map_of_mem _ hs)))

theorem queue_states {m : RequestManager R} {rel : Option RelSessionIndex} {s : RequestState R}
    (h : s ∈ m.postQueues.get rel) : s ∈ m.states := by
  unfold RequestManager.states PostQueues.bag
  simp only [Multiset.mem_add, Multiset.mem_coe]
  rcases rel with _ | _ | _
  · exact .inl (.inr h)
  · exact .inl (.inl (.inl h))
  · exact .inl (.inl (.inr h))

theorem default_set {q : PostQueues (RequestState R)} {rel : Option RelSessionIndex} (hr : rel ≠ none)
    (l : List (RequestState R)) : (q.set rel l).default = q.default := by
  rcases rel with _ | _ | _
  · exact absurd rfl hr
  · rfl
  · rfl

theorem ordered_retry [DecidableEq R] {m m' : RequestManager R} {s : RequestState R} {l log : List (LogEntry R)}
    {ins ins' : List R} (h : Retry m s m' l)
    (tried : ∀ s ∈ m.states, s.sessionIndex ≠ none → s.request ∈ posted log)
    (order : (((m.postQueues.default.map (·.request)).filter fun r => r ∉ posted log)).Sublist ins)
    (known : ∀ r ∈ posted log, r ∈ ins)
    (limit : ∀ r ∈ exhausted log, r ∈ posted log ∨ m.config.numDestinations = 0)
    (hs : (s.request ∈ posted log ∧ ins' = ins) ∨
      (s.destinationsRemaining = m.config.numDestinations ∧ s.attemptsRemaining = 0 ∧ ins' = ins ++ [s.request])) :
    (∀ s ∈ m'.states, s.sessionIndex ≠ none → s.request ∈ posted (log ++ l)) ∧
    ((((m'.postQueues.default.map (·.request)).filter fun r => r ∉ posted (log ++ l))).Sublist ins') ∧
    (∀ r ∈ posted (log ++ l), r ∈ ins') ∧
    (∀ r ∈ exhausted (log ++ l), r ∈ posted (log ++ l) ∨ m'.config.numDestinations = 0) := by
  have hins : ins.Sublist ins' := by
    rcases hs with ⟨-, rfl⟩ | ⟨-, -, rfl⟩
    · exact .refl _
    · exact List.sublist_append_left ..
  obtain ⟨hcf, ⟨rfl, rfl, h1, h2⟩ | ⟨s1, l1, rel, s2, l2, h0, rfl, h1, h2, hm', h3, h4, h5, -, h6, h7⟩⟩ := retry_states h
  · have e : posted (log ++ [.retryLimit s.request]) = posted log := by
      rw [posted_append, posted_limit, List.append_nil]
    rw [e]
    refine ⟨tried, order.trans hins, fun r hr => hins.subset (known r hr), fun r hr => ?_⟩
    rw [exhausted_append, exhausted_limit] at hr
    rcases List.mem_append.1 hr with hr | hr
    · exact limit r hr
    · rw [List.mem_singleton] at hr
      subst hr
      rcases hs with ⟨hs, -⟩ | ⟨hs, -, -⟩
      · exact .inl hs
      · right; omega
  · have e : posted (log ++ (l1 ++ l2)) = posted log := by
      rw [posted_append, h7, List.append_nil]
    have e' : exhausted (log ++ (l1 ++ l2)) = exhausted log := by
      rw [exhausted_append, h6, List.append_nil]
    have hS : m'.states = s2 ::ₘ m.states := by
      unfold RequestManager.states
      rw [h3, h4, Multiset.cons_add]
    -- the request that is queued is not bound, or was posted
    have hb : s2.request ∈ posted log ∨ (s2.sessionIndex = none ∧ ins' = ins ++ [s2.request]) := by
      rcases hs with ⟨hs, -⟩ | ⟨-, ha, hs⟩
      · left; rw [h5]; exact hs
      · right
        rw [h5]
        refine ⟨?_, hs⟩
        cases h1 with
        | attempt h => omega
        | destination _ _ _ =>
          cases h2 with
          | unbound hu => exact hu
          | bound hu _ _ => cases hu
          | moved hu _ => rfl
    rw [e, e', hS]
    refine ⟨?_, ?_, fun r hr => hins.subset (known r hr), ?_⟩
    · intro t ht hne
      rcases Multiset.mem_cons.1 ht with rfl | ht
      · rcases hb with hb | ⟨hb, -⟩
        · exact hb
        · exact absurd hb hne
      · exact tried t ht hne
    · rw [hm']
      dsimp only
      by_cases hrel : rel = none
      · subst hrel
        show (((m.postQueues.default ++ [s2]).map (·.request)).filter _).Sublist ins'
        rw [List.map_append, List.filter_append]
        rcases hb with hb | ⟨-, hb⟩
        · have : ([s2].map (·.request)).filter (fun r => decide (r ∉ posted log)) = [] := by
            simp [hb]
          rw [this, List.append_nil]
          exact order.trans hins
        · rw [hb]
          refine order.append ?_
          exact List.filter_sublist
      · rw [default_set hrel]
        exact order.trans hins
    · rw [hcf]; exact limit

theorem posted_mono {a : List (LogEntry R)} (b : List (LogEntry R)) {r : R} (h : r ∈ posted a) : r ∈ posted (a ++ b) := by
  rw [posted_append]; exact List.mem_append_left _ h

theorem ordered_micro [DecidableEq R] {c c' : Cfg R} (h : Ordered c) (hm : Micro c c') : Ordered c' := by
  have hb := bound_micro h.bound hm
  have hk := kept_micro h.kept hm
  obtain ⟨bound, kept, tried, order, known, limit⟩ := h
  suffices key : (∀ s ∈ c'.mgr.states, s.sessionIndex ≠ none → s.request ∈ posted c'.log) ∧
      ((((c'.mgr.postQueues.default.map (·.request)).filter fun r => r ∉ posted c'.log)).Sublist c'.inserted) ∧
      (∀ r ∈ posted c'.log, r ∈ c'.inserted) ∧
      (∀ r ∈ exhausted c'.log, r ∈ posted c'.log ∨ c'.mgr.config.numDestinations = 0) from
    ⟨hb, hk, key.1, key.2.1, key.2.2.1, key.2.2.2⟩
  clear hb hk
  -- after a post
  have post : ∀ {m : RequestManager R} {log rel s rest i d d' id met ins rem}, c = ⟨m, log, ins, rem⟩ →
      m.postQueues.get rel = s :: rest →
      (((m.postQueues.set rel rest).default.map (·.request)).filter fun r =>
        r ∉ posted (log ++ [.post s.request i d id d' (.ok met)])).Sublist ins ∧
      (∀ r ∈ posted (log ++ [.post s.request i d id d' (.ok met)]), r ∈ ins) ∧
      (∀ r ∈ exhausted (log ++ [.post s.request i d id d' (.ok met)]),
        r ∈ posted (log ++ [.post s.request i d id d' (.ok met)]) ∨ m.config.numDestinations = 0) := by
    intro m log rel s rest i d d' id met ins rem hc h1
    subst hc
    refine ⟨?_, ?_, ?_⟩
    · refine List.Sublist.trans ?_ order
      refine (filter_posted _).trans ?_
      refine List.Sublist.filter _ ?_
      by_cases hrel : rel = none
      · subst hrel
        show (rest.map _).Sublist (m.postQueues.default.map _)
        rw [show m.postQueues.default = s :: rest from h1]
        exact List.sublist_cons_self ..
      · rw [default_set hrel]
    · intro r hr
      rw [posted_append, posted_post] at hr
      rcases List.mem_append.1 hr with hr | hr
      · exact known r hr
      · rw [List.mem_singleton] at hr
        subst hr
        exact managed_inserted kept (queue_states (rel := rel) (by dsimp only; rw [h1]; exact List.mem_cons_self))
    · intro r hr
      rw [exhausted_append, exhausted_post, List.append_nil] at hr
      exact (limit r hr).imp (posted_mono _) fun h => h
  have drop : ∀ {m : RequestManager R} {log rel s a b ins rem}, c = ⟨m, log, ins, rem⟩ →
      m.postQueues.get rel = a ++ s :: b → ((((m.postQueues.set rel (a ++ b)).default.map (·.request)).filter fun r =>
        r ∉ posted log)).Sublist ins := by
    intro m log rel s a b ins rem hc h1
    subst hc
    refine List.Sublist.trans (List.Sublist.filter _ ?_) order
    by_cases hrel : rel = none
    · subst hrel
      show ((a ++ b).map _).Sublist (m.postQueues.default.map _)
      rw [show m.postQueues.default = a ++ s :: b from h1]
      exact ((List.Sublist.refl a).append (List.sublist_cons_self ..)).map _
    · rw [default_set hrel]
  cases hm with
  | @requeue m log ins rem rel s rest i n d t met h1 h2 h3 h4 h5 h6 =>
    obtain ⟨k1, k2, k3⟩ := post (i := i) (d := s.destinationIndex) (id := s.messageId) (d' := d) (met := met) rfl h1
    dsimp only
    refine ⟨?_, ?_, k2, k3⟩
    · unfold RequestManager.states at tried ⊢
      dsimp only at tried ⊢
      rw [PostQueues.bag_pop h1, Multiset.cons_add] at tried
      rw [PostQueues.bag_push, Multiset.cons_add]
      intro t ht hne
      rcases Multiset.mem_cons.1 ht with rfl | ht
      · rw [posted_append, posted_post]
        exact List.mem_append_right _ (List.mem_singleton.2 rfl)
      · exact posted_mono _ (tried t (Multiset.mem_cons_of_mem ht) hne)
    · rw [default_set (by unfold RequestManager.nextQueue; exact Option.some_ne_none _)]
      exact k1
  | @wait m log ins rem rel s rest i d t met h1 h2 h3 h4 h5 h6 =>
    obtain ⟨k1, k2, k3⟩ := post (i := i) (d := s.destinationIndex) (id := s.messageId) (d' := d) (met := met) rfl h1
    dsimp only
    refine ⟨?_, k1, k2, k3⟩
    unfold RequestManager.states at tried ⊢
    dsimp only at tried ⊢
    rw [PostQueues.bag_pop h1, Multiset.cons_add] at tried
    rw [insertSorted_bag, Multiset.add_cons]
    intro t ht hne
    rcases Multiset.mem_cons.1 ht with rfl | ht
    · rw [posted_append, posted_post]
      exact List.mem_append_right _ (List.mem_singleton.2 rfl)
    · exact posted_mono _ (tried t (Multiset.mem_cons_of_mem ht) hne)
  | @refused m log ins rem rel s rest i h1 h2 =>
    dsimp only at tried order known limit ⊢
    rw [posted_append, posted_refused, List.append_nil, exhausted_append, exhausted_post, List.append_nil]
    exact ⟨tried, order, known, limit⟩
  | @failed m log ins rem rel s rest i e h1 h2 h3 =>
    have k1 := drop (a := []) rfl h1
    dsimp only at tried order known limit ⊢
    rw [posted_append, posted_err, List.append_nil, exhausted_append, exhausted_err, List.append_nil]
    refine ⟨fun t ht hne => tried t ?_ hne, k1, known, limit⟩
    unfold RequestManager.states at ht ⊢
    dsimp only at ht ⊢
    rw [PostQueues.bag_pop h1, Multiset.cons_add]
    exact Multiset.mem_cons_of_mem ht
  | @pop m log ins rem s rest m' l h1 h2 h3 =>
    dsimp only at tried order known limit ⊢
    have e : m.states = s ::ₘ RequestManager.states { m with retryQueue := rest, nextRetryDeadlineChanged := true } := by
      unfold RequestManager.states
      dsimp only
      rw [h1, ← Multiset.cons_coe, Multiset.add_cons]
    rw [e] at tried
    have hne : s.sessionIndex ≠ none := (bound.2 s (by dsimp only; rw [h1]; exact List.mem_cons_self)).1
    have key := ordered_retry h3 (fun t ht => tried t (Multiset.mem_cons_of_mem ht)) order known limit
      (.inl ⟨tried s (Multiset.mem_cons_self ..) hne, rfl⟩)
    exact key
  | @insert m log ins rem s m' l h1 h2 h3 h4 h5 =>
    exact ordered_retry h5 tried order known limit (.inr ⟨h2, h3, rfl⟩)
  | @update m log ins rem status moved h1 h2 =>
    obtain ⟨x, rest, e1, e2, e4, e3⟩ := update_bag h2
    obtain ⟨-, n2, n3, -⟩ := newIds_log moved
    dsimp only at tried order known limit ⊢
    rw [posted_append, n3, List.append_nil, exhausted_append, n2, List.append_nil]
    -- those that are moved were posted
    have hx : ∀ s ∈ moved, s.sessionIndex = none ∧ s.request ∈ posted log := by
      intro s hs
      have hf : ∃ s0 ∈ x, s = s0.fresh s.messageId m.createdAt := by
        clear e1 e2 e4 h2 n2 n3
        induction e3 with
        | nil => cases hs
        | @cons a b x moved hab _ ih =>
          rcases List.mem_cons.1 hs with rfl | hs
          · exact ⟨a, List.mem_cons_self, hab⟩
          · obtain ⟨s0, h1, h2⟩ := ih hs
            exact ⟨s0, List.mem_cons_of_mem _ h1, h2⟩
      obtain ⟨s0, hs0, he⟩ := hf
      refine ⟨by rw [he]; rfl, ?_⟩
      have : s.request = s0.request := by rw [he]; rfl
      rw [this]
      obtain ⟨x', f1, -, f3⟩ := moveQueues_default m.postQueues m.sessionStatus status
      have : x' = x := List.append_cancel_left (f1.symm.trans e4)
      subst this
      have hmem : s0 ∈ (↑m.postQueues.current : Multiset (RequestState R)) + ↑m.postQueues.prev := by
        rw [← f3]
        exact Multiset.mem_add.2 (.inl (Multiset.mem_add.2 (.inl hs0)))
      rcases Multiset.mem_add.1 hmem with hm | hm
      · refine tried s0 (queue_states (rel := some .current) hm) ?_
        have := (bound.1 (some .current) s0 hm).1
        rw [show s0.sessionIndex = _ from this]
        exact Option.some_ne_none _
      · refine tried s0 (queue_states (rel := some .prev) hm) ?_
        obtain ⟨j, hj, -⟩ := (bound.1 (some .prev) s0 hm).1
        rw [hj]
        exact Option.some_ne_none _
    refine ⟨?_, ?_, known, limit⟩
    · intro t ht hne
      unfold RequestManager.states at ht tried
      dsimp only at ht
      rw [e2] at ht
      rw [e1] at tried
      rw [add_assoc] at ht tried
      rcases Multiset.mem_add.1 ht with ht | ht
      · exact (hx t ht).2
      · exact tried t (Multiset.mem_add.2 (.inr ht)) hne
    · rw [e4, List.take_left, List.map_append, List.filter_append]
      have : (moved.map (·.request)).filter (fun r => decide (r ∉ posted log)) = [] := by
        rw [List.filter_eq_nil_iff]
        intro r hr
        obtain ⟨s, hs, rfl⟩ := List.mem_map.1 hr
        simp [(hx s hs).2]
      rw [this, List.append_nil]
      exact order
  | @remove m log ins rem rel s a b h1 =>
    have k1 := drop rfl h1
    dsimp only at tried order known limit ⊢
    refine ⟨fun t ht hne => tried t ?_ hne, k1, known, limit⟩
    unfold RequestManager.states at ht ⊢
    dsimp only at ht ⊢
    rw [PostQueues.bag_split h1, Multiset.cons_add]
    exact Multiset.mem_cons_of_mem ht
  | @removeRetry m log ins rem s a b h1 =>
    dsimp only at tried order known limit ⊢
    refine ⟨fun t ht hne => tried t ?_ hne, order, known, limit⟩
    unfold RequestManager.states at ht ⊢
    dsimp only at ht ⊢
    rw [h1, ms_middle, Multiset.singleton_add, Multiset.add_cons]
    exact Multiset.mem_cons_of_mem ht

end Mixnet
