import Verif.Proofs.ManagerInv
/-!
# Counting posts, capacity, and the order of the retry queue
-/
namespace Mixnet
open Spec
variable {R : Type}

/-! ### The configuration does not change -/

theorem config_micro {c c' : Cfg R} (hm : Micro c c') :
    c'.mgr.config = c.mgr.config ∧ c'.mgr.createdAt = c.mgr.createdAt := by
  cases hm with
  | pop _ _ h => cases h <;> exact ⟨rfl, rfl⟩
  | insert _ _ _ _ h => cases h <;> exact ⟨rfl, rfl⟩
  | _ => exact ⟨rfl, rfl⟩

/-! ### Capacity -/

theorem states_card (m : RequestManager R) :
    m.states.card = (m.postQueues.iter.map List.length).sum + m.retryQueue.length := by
  unfold RequestManager.states PostQueues.bag PostQueues.iter
  simp
  omega

theorem hasSpace_iff {m : RequestManager R} : m.hasSpace = true ↔ m.states.card < m.config.capacity := by
  unfold RequestManager.hasSpace
  rw [states_card]
  simp

theorem retry_card {m m' : RequestManager R} {s : RequestState R} {l : List (LogEntry R)} (h : Retry m s m' l) :
    m'.states.card ≤ m.states.card + 1 := by
  obtain ⟨-, ⟨rfl, -⟩ | ⟨s1, l1, rel, s2, l2, -, -, -, -, -, h1, h2, -⟩⟩ := retry_states h
  · omega
  · unfold RequestManager.states
    rw [h1, h2]
    simp

/-- The capacity is respected. -/
def Within (c : Cfg R) : Prop := c.mgr.states.card ≤ c.mgr.config.capacity

theorem within_micro {c c' : Cfg R} (h : Within c) (hm : Micro c c') : Within c' := by
  have hcf := (config_micro hm).1
  unfold Within at h ⊢
  rw [hcf]
  clear hcf
  cases hm with
  | @requeue m log ins rem rel s rest i n d t met h1 h2 h3 h4 h5 h6 =>
    refine Nat.le_trans ?_ h
    unfold RequestManager.states
    dsimp only
    rw [PostQueues.bag_push, PostQueues.bag_pop h1]
    simp
  | @wait m log ins rem rel s rest i d t met h1 h2 h3 h4 h5 h6 =>
    refine Nat.le_trans ?_ h
    unfold RequestManager.states
    dsimp only
    rw [insertSorted_bag, PostQueues.bag_pop h1]
    simp
    omega
  | refused h1 h2 => exact h
  | @failed m log ins rem rel s rest i e h1 h2 =>
    refine Nat.le_trans ?_ h
    unfold RequestManager.states
    dsimp only
    rw [PostQueues.bag_pop h1]
    simp
  | @pop m log ins rem s rest m' l h1 h2 h3 =>
    refine Nat.le_trans ?_ h
    refine Nat.le_trans (retry_card h3) ?_
    unfold RequestManager.states
    dsimp only
    rw [h1]
    simp
    omega
  | @insert m log ins rem s m' l h1 h2 h3 h4 h5 =>
    have := hasSpace_iff.1 h1
    have h6 := retry_card h5
    dsimp only at this h6 ⊢
    omega
  | @update m log ins rem status moved h1 h2 =>
    obtain ⟨x, rest, e1, e2, -, e3⟩ := update_bag h2
    refine Nat.le_trans ?_ h
    unfold RequestManager.states
    dsimp only
    rw [e1, e2]
    simp [e3.length_eq]
  | @remove m log ins rem rel s a b h1 =>
    refine Nat.le_trans ?_ h
    unfold RequestManager.states
    dsimp only
    rw [PostQueues.bag_split h1]
    simp
  | @removeRetry m log ins rem s a b h1 =>
    refine Nat.le_trans ?_ h
    unfold RequestManager.states
    dsimp only
    rw [h1]
    simp

/-! ### Counting posts -/

/-- The posts still to come for a request that is not waiting to be posted, if it satisfies `p`. -/
def later (p : R → Bool) (k : RequestManagerConfig) (s : RequestState R) : Nat :=
  if p s.request then
    (s.destinationsRemaining * k.numAttemptsPerDestination + s.attemptsRemaining) * k.numPostsPerAttempt
  else 0

/-- The posts still to come for a request waiting to be posted, if it satisfies `p`. -/
def sooner (p : R → Bool) (k : RequestManagerConfig) (s : RequestState R) : Nat :=
  if p s.request then
    (s.destinationsRemaining * k.numAttemptsPerDestination + s.attemptsRemaining) * k.numPostsPerAttempt +
      s.postsRemaining + 1
  else 0

/-- The posts still to come. -/
def toCome (p : R → Bool) (m : RequestManager R) : Nat :=
  (m.postQueues.bag.map (sooner p m.config)).sum + ((↑m.retryQueue : Multiset (RequestState R)).map (later p m.config)).sum

/-- The posts made and those to come are those configured, but for those not made. -/
def Counted (p : R → Bool) (c : Cfg R) : Prop :=
  ∃ waste, toCome p c.mgr + (posted c.log).countP p + waste =
      c.mgr.config.numDestinations * c.mgr.config.numAttemptsPerDestination * c.mgr.config.numPostsPerAttempt *
        c.inserted.countP p ∧
    (c.removed.countP p + (failed c.log).countP p = 0 → waste = 0)

theorem recount_sooner {p : R → Bool} {m : RequestManager R} {s s1 : RequestState R} {l : List (LogEntry R)}
    (hp : 1 ≤ m.config.numPostsPerAttempt) (h : Recount m s s1 l) : sooner p m.config s1 = later p m.config s := by
  obtain ⟨P, hP⟩ : ∃ P, m.config.numPostsPerAttempt = P + 1 := ⟨m.config.numPostsPerAttempt - 1, by omega⟩
  cases h with
  | attempt h1 =>
    unfold sooner later
    dsimp only
    split
    · rw [h1, hP]
      simp only [Nat.add_sub_cancel]
      ring
    · rfl
  | destination h1 h2 h3 =>
    obtain ⟨A, hA⟩ : ∃ A, m.config.numAttemptsPerDestination = A + 1 :=
      ⟨m.config.numAttemptsPerDestination - 1, by omega⟩
    unfold sooner later RequestState.fresh
    dsimp only
    split
    · rw [h1, h2, hP, hA]
      simp only [Nat.add_sub_cancel]
      ring
    · rfl

theorem place_sooner {p : R → Bool} {m : RequestManager R} {s s1 : RequestState R} {l : List (LogEntry R)}
    {k : RequestManagerConfig} {rel : Option RelSessionIndex} (h : Place m s rel s1 l) : sooner p k s1 = sooner p k s := by
  cases h <;> rfl

theorem retry_toCome {p : R → Bool} {m m' : RequestManager R} {s : RequestState R} {l : List (LogEntry R)}
    (h : Retry m s m' l) : toCome p m' = toCome p m + later p m.config s ∧ posted l = [] ∧ failed l = [] := by
  obtain ⟨hc, ⟨rfl, rfl, h1, h2⟩ | ⟨s1, l1, rel, s2, l2, h0, -, h1, h2, -, h3, h4, h5, h6, -, h7⟩⟩ := retry_states h
  · refine ⟨?_, rfl, rfl⟩
    unfold later
    rw [h1, h2]
    simp
  · refine ⟨?_, h7, h6⟩
    unfold toCome
    rw [hc, h3, h4, Multiset.map_cons, Multiset.sum_cons, place_sooner h2, recount_sooner h0 h1]
    omega

theorem fresh_sooner {p : R → Bool} {k : RequestManagerConfig} {past : Nat} {a b : List (RequestState R)}
    (h : List.Forall₂ (fun s s' : RequestState R => s' = s.fresh s'.messageId past) a b) :
    b.map (sooner p k) = a.map (sooner p k) := by
  induction h with
  | nil => rfl
  | cons h _ ih =>
    rw [List.map_cons, List.map_cons, ih, h]
    rfl

theorem counted_micro {p : R → Bool} {c c' : Cfg R} (h : Counted p c) (hm : Micro c c') : Counted p c' := by
  obtain ⟨waste, h, hw⟩ := h
  cases hm with
  | @requeue m log ins rem rel s rest i n d t met h1 h2 h3 h4 h5 h6 =>
    refine ⟨waste, ?_, ?_⟩
    · rw [← h]
      unfold toCome
      dsimp only
      rw [PostQueues.bag_push, PostQueues.bag_pop h1, Multiset.map_cons, Multiset.sum_cons, Multiset.map_cons,
        Multiset.sum_cons, posted_append, posted_post, List.countP_append, List.countP_singleton]
      unfold sooner RequestState.posted
      dsimp only
      rw [h5]
      split <;> omega
    · dsimp only at hw ⊢
      rw [failed_append, failed_post, List.append_nil]
      exact hw
  | @wait m log ins rem rel s rest i d t met h1 h2 h3 h4 h5 h6 =>
    refine ⟨waste, ?_, ?_⟩
    · rw [← h]
      unfold toCome
      dsimp only
      rw [insertSorted_bag, PostQueues.bag_pop h1, Multiset.map_cons, Multiset.sum_cons, Multiset.map_cons,
        Multiset.sum_cons, posted_append, posted_post, List.countP_append, List.countP_singleton]
      unfold sooner later RequestState.posted
      dsimp only
      rw [h5]
      split <;> omega
    · dsimp only at hw ⊢
      rw [failed_append, failed_post, List.append_nil]
      exact hw
  | @refused m log ins rem rel s rest i h1 h2 =>
    refine ⟨waste, ?_, ?_⟩
    · rw [← h]
      dsimp only
      rw [posted_append, posted_refused, List.append_nil]
    · dsimp only at hw ⊢
      rw [failed_append, failed_post, List.append_nil]
      exact hw
  | @failed m log ins rem rel s rest i e h1 h2 =>
    refine ⟨waste + sooner p m.config s, ?_, ?_⟩
    · rw [← h]
      unfold toCome
      dsimp only
      rw [PostQueues.bag_pop h1, Multiset.map_cons, Multiset.sum_cons, posted_append, posted_err, List.append_nil]
      omega
    · dsimp only at hw ⊢
      rw [failed_append, failed_err, List.countP_append, List.countP_singleton]
      intro h0
      unfold sooner
      split at h0
      · omega
      · rename_i hp
        rw [if_neg hp, hw (by omega)]
  | @pop m log ins rem s rest m' l h1 h2 h3 =>
    obtain ⟨e1, e2, e3⟩ := retry_toCome (p := p) h3
    have hcf := (retry_states h3).1
    refine ⟨waste, ?_, ?_⟩
    · dsimp only at h hcf ⊢
      rw [hcf, ← h, e1]
      unfold toCome
      dsimp only
      rw [h1, posted_append, e2, List.append_nil, ← Multiset.cons_coe, Multiset.map_cons, Multiset.sum_cons]
      omega
    · dsimp only at hw ⊢
      rw [failed_append, e3, List.append_nil]
      exact hw
  | @insert m log ins rem s m' l h1 h2 h3 h4 h5 =>
    obtain ⟨e1, e2, e3⟩ := retry_toCome (p := p) h5
    have hcf := (retry_states h5).1
    refine ⟨waste, ?_, ?_⟩
    · dsimp only at h ⊢
      rw [hcf, List.countP_append, List.countP_singleton, Nat.mul_add, ← h, e1, posted_append, e2, List.append_nil]
      unfold later
      rw [h2, h3]
      split
      · rw [Nat.mul_one, Nat.add_zero]; omega
      · omega
    · dsimp only at hw ⊢
      rw [failed_append, e3, List.append_nil]
      exact hw
  | @update m log ins rem status moved h1 h2 =>
    obtain ⟨x, rest, e1, e2, -, e3⟩ := update_bag h2
    obtain ⟨n1, -, n3, -⟩ := newIds_log moved
    refine ⟨waste, ?_, ?_⟩
    · rw [← h]
      unfold toCome
      dsimp only
      rw [e1, e2, posted_append, n3, List.append_nil, Multiset.map_add, Multiset.map_add,
        Multiset.map_coe (sooner p m.config) moved, fresh_sooner e3, Multiset.map_coe (sooner p m.config) x]
    · dsimp only at hw ⊢
      rw [failed_append, n1, List.append_nil]
      exact hw
  | @remove m log ins rem rel s a b h1 =>
    refine ⟨waste + sooner p m.config s, ?_, ?_⟩
    · rw [← h]
      unfold toCome
      dsimp only
      rw [PostQueues.bag_split h1, Multiset.map_cons, Multiset.sum_cons]
      omega
    · dsimp only at hw ⊢
      rw [List.countP_append, List.countP_singleton]
      intro h0
      unfold sooner
      split at h0
      · omega
      · rename_i hp
        rw [if_neg hp, hw (by omega)]
  | @removeRetry m log ins rem s a b h1 =>
    refine ⟨waste + later p m.config s, ?_, ?_⟩
    · rw [← h]
      unfold toCome
      dsimp only
      rw [h1, ms_middle, Multiset.map_add, Multiset.map_singleton, Multiset.sum_add, Multiset.sum_singleton]
      omega
    · dsimp only at hw ⊢
      rw [List.countP_append, List.countP_singleton]
      intro h0
      unfold later
      split at h0
      · omega
      · rename_i hp
        rw [if_neg hp, hw (by omega)]

/-! ### The order of the retry queue -/

/-- The retry queue is sorted by deadline. -/
def Sorted (c : Cfg R) : Prop := c.mgr.retryQueue.Pairwise fun a b => a.retryDeadline ≤ b.retryDeadline

theorem insertSorted_sorted {l : List (RequestState R)} {s : RequestState R}
    (h : l.Pairwise fun a b => a.retryDeadline ≤ b.retryDeadline) :
    (insertSorted l s).Pairwise fun a b => a.retryDeadline ≤ b.retryDeadline := by
  rw [insertSorted_eq]
  induction l with
  | nil => simp
  | cons x l ih =>
    rw [List.pairwise_cons] at h
    by_cases hx : x.retryDeadline < s.retryDeadline
    · rw [List.takeWhile_cons_of_pos (by simpa using hx), List.dropWhile_cons_of_pos (by simpa using hx),
        List.cons_append, List.pairwise_cons]
      refine ⟨?_, ih h.2⟩
      intro b hb
      have : b ∈ s :: l := by
        have hp : (l.takeWhile (fun s' => decide (s'.retryDeadline < s.retryDeadline)) ++
            s :: l.dropWhile (fun s' => decide (s'.retryDeadline < s.retryDeadline))).Perm (s :: l) := by
          refine List.perm_middle.trans ?_
          rw [List.takeWhile_append_dropWhile]
        exact hp.mem_iff.1 hb
      rcases List.mem_cons.1 this with rfl | hb
      · omega
      · exact h.1 b hb
    · rw [List.takeWhile_cons_of_neg (by simpa using hx), List.dropWhile_cons_of_neg (by simpa using hx),
        List.nil_append, List.pairwise_cons]
      refine ⟨?_, List.pairwise_cons.2 h⟩
      intro b hb
      rcases List.mem_cons.1 hb with rfl | hb
      · omega
      · have := h.1 b hb
        omega

theorem retry_retryQueue {m m' : RequestManager R} {s : RequestState R} {l : List (LogEntry R)} (h : Retry m s m' l) :
    m'.retryQueue = m.retryQueue ∧ m'.nextRetryDeadlineChanged = m.nextRetryDeadlineChanged := by
  cases h <;> exact ⟨rfl, rfl⟩

theorem sorted_micro {c c' : Cfg R} (h : Sorted c) (hm : Micro c c') : Sorted c' := by
  unfold Sorted at h ⊢
  cases hm with
  | wait h1 h2 h3 h4 h5 h6 => exact insertSorted_sorted h
  | pop h1 h2 h3 =>
    dsimp only at h ⊢
    rw [(retry_retryQueue h3).1]
    rw [h1, List.pairwise_cons] at h
    exact h.2
  | insert h1 h2 h3 h4 h5 =>
    dsimp only
    rw [(retry_retryQueue h5).1]
    exact h
  | removeRetry h1 =>
    dsimp only at h ⊢
    rw [h1] at h
    exact h.sublist (List.Sublist.append (List.Sublist.refl _) (List.sublist_cons_self ..))
  | _ => exact h

/-- If the deadline differs from `d`, the flag is set. -/
def Flagged (d : Option Nat) (c : Cfg R) : Prop :=
  c.mgr.nextRetryDeadline = d ∨ c.mgr.nextRetryDeadlineChanged = true

theorem insertSorted_head {l : List (RequestState R)} {s : RequestState R}
    (h : (l.takeWhile fun s' => s'.retryDeadline < s.retryDeadline).length ≠ 0) :
    (insertSorted l s).head? = l.head? := by
  rw [insertSorted_eq]
  cases l with
  | nil => simp at h
  | cons x l =>
    by_cases hx : x.retryDeadline < s.retryDeadline
    · rw [List.takeWhile_cons_of_pos (by simpa using hx)]
      rfl
    · rw [List.takeWhile_cons_of_neg (by simpa using hx)] at h
      simp at h

theorem flagged_micro {d : Option Nat} {c c' : Cfg R} (h : Flagged d c) (hm : Micro c c') : Flagged d c' := by
  unfold Flagged at h ⊢
  unfold RequestManager.nextRetryDeadline at h ⊢
  cases hm with
  | @wait m log ins rem rel s rest i d t met h1 h2 h3 h4 h5 h6 =>
    dsimp only at h ⊢
    split
    · exact .inr rfl
    · rename_i hl
      rw [insertSorted_head (s := s.posted i d t) hl]
      exact h
  | pop h1 h2 h3 =>
    dsimp only
    rw [(retry_retryQueue h3).2]
    exact .inr rfl
  | insert h1 h2 h3 h4 h5 =>
    dsimp only
    rw [(retry_retryQueue h5).1, (retry_retryQueue h5).2]
    exact h
  | @removeRetry m log ins rem s a b h1 =>
    dsimp only at h ⊢
    cases a with
    | nil => exact .inr rfl
    | cons x a =>
      rw [h1] at h
      exact h
  | _ => exact h

theorem flagged_micros {d : Option Nat} {c c' : Cfg R} (h : Flagged d c) (hm : Micros c c') : Flagged d c' := by
  induction hm with
  | refl => exact h
  | tail _ h ih => exact flagged_micro ih h

end Mixnet
