import Verif.Proofs.Deadline
import Verif.Proofs.ManagerTries
import Verif.Proofs.ManagerPop
/-!
# How long a request stays in a manager
-/
namespace Mixnet
open Spec
variable {R Ctx : Type} {C : Crypto} {T : RequestTrait R Ctx}

/-- How often a request may still be tried again. -/
def RequestState.left (k : RequestManagerConfig) (s : RequestState R) : Nat :=
  s.destinationsRemaining * k.numAttemptsPerDestination + s.attemptsRemaining

/-- A request that is tried again may be so once less. -/
theorem retry_left {m m' : RequestManager R} {s : RequestState R} {l : List (LogEntry R)} (h : Retry m s m' l) :
    m'.config = m.config ∧ m'.createdAt = m.createdAt ∧ m'.retryQueue = m.retryQueue ∧ (m'.postQueues.bag = m.postQueues.bag ∨
      ∃ s2 : RequestState R, m'.postQueues.bag = s2 ::ₘ m.postQueues.bag ∧ s2.request = s.request ∧
        s2.left m.config + 1 = s.left m.config ∧ (s2.retryDeadline = s.retryDeadline ∨ s2.retryDeadline = m.createdAt)) := by
  obtain ⟨hc, ⟨rfl, -⟩ | ⟨s1, l1, rel, s2, l2, h0, -, h1, h2, hm, h3, h4, h5, -⟩⟩ := retry_states h
  · exact ⟨hc, rfl, rfl, .inl rfl⟩
  · refine ⟨hc, by rw [hm], h4, .inr ⟨s2, h3, h5, ?_, ?_⟩⟩
    · have e1 : s1.left m.config + 1 = s.left m.config := by
        unfold RequestState.left
        cases h1 with
        | attempt ha => dsimp only; omega
        | @destination d id ha hd hp =>
          show d * m.config.numAttemptsPerDestination + (m.config.numAttemptsPerDestination - 1) + 1 =
            s.destinationsRemaining * m.config.numAttemptsPerDestination + s.attemptsRemaining
          rw [hd, ha, Nat.succ_mul]
          omega
      cases h2 with
      | unbound _ => exact e1
      | bound _ _ _ => exact e1
      | moved _ _ => exact e1
    · have e1 : s1.retryDeadline = s.retryDeadline ∨ s1.retryDeadline = m.createdAt := by
        cases h1 with
        | attempt ha => exact .inl rfl
        | destination _ _ _ => exact .inr rfl
      cases h2 with
      | unbound _ => exact e1
      | bound _ _ _ => exact e1
      | moved _ _ => exact .inr rfl

/-- No request can be tried again more often than the configuration says, less one. -/
def Few (m : RequestManager R) : Prop :=
  ∀ s ∈ m.states, s.left m.config + 1 ≤ m.config.numDestinations * m.config.numAttemptsPerDestination

theorem few_micro {c c' : Cfg R} (h : Few c.mgr) (hm : Micro c c') : Few c'.mgr := by
  unfold Few at *
  cases hm with
  | @requeue m log ins rem rel s rest i n d t met h1 h2 h3 h4 h5 h6 =>
    unfold RequestManager.states at h ⊢
    dsimp only at h ⊢
    rw [PostQueues.bag_pop h1, Multiset.cons_add] at h
    rw [PostQueues.bag_push, Multiset.cons_add]
    intro x hx
    rcases Multiset.mem_cons.1 hx with rfl | hx
    · exact h s (Multiset.mem_cons_self ..)
    · exact h x (Multiset.mem_cons_of_mem hx)
  | @wait m log ins rem rel s rest i d t met h1 h2 h3 h4 h5 h6 =>
    unfold RequestManager.states at h ⊢
    dsimp only at h ⊢
    rw [PostQueues.bag_pop h1, Multiset.cons_add] at h
    rw [insertSorted_bag, Multiset.add_cons]
    intro x hx
    rcases Multiset.mem_cons.1 hx with rfl | hx
    · exact h s (Multiset.mem_cons_self ..)
    · exact h x (Multiset.mem_cons_of_mem hx)
  | @refused m log ins rem rel s rest i h1 h2 => exact h
  | @failed m log ins rem rel s rest i e h1 h2 =>
    unfold RequestManager.states at h ⊢
    dsimp only at h ⊢
    rw [PostQueues.bag_pop h1, Multiset.cons_add] at h
    exact fun x hx => h x (Multiset.mem_cons_of_mem hx)
  | @pop m log ins rem s rest m' l h1 h2 h3 =>
    obtain ⟨e1, -, e2, e3⟩ := retry_left h3
    have hS : m.states = s ::ₘ RequestManager.states { m with retryQueue := rest, nextRetryDeadlineChanged := true } := by
      unfold RequestManager.states
      dsimp only
      rw [h1, ← Multiset.cons_coe, Multiset.add_cons]
    dsimp only at h e1 e2 e3 ⊢
    rw [hS] at h
    rw [e1]
    intro x hx
    rcases e3 with e3 | ⟨s2, e3, -, e4, -⟩
    · unfold RequestManager.states at hx
      rw [e3, e2] at hx
      exact h x (Multiset.mem_cons_of_mem hx)
    · unfold RequestManager.states at hx
      rw [e3, e2, Multiset.cons_add] at hx
      rcases Multiset.mem_cons.1 hx with rfl | hx
      · have := h s (Multiset.mem_cons_self ..)
        omega
      · exact h x (Multiset.mem_cons_of_mem hx)
  | @insert m log ins rem s m' l h1 h2 h3 h4 h5 =>
    obtain ⟨e1, -, e2, e3⟩ := retry_left h5
    dsimp only at h e1 e2 e3 ⊢
    rw [e1]
    intro x hx
    rcases e3 with e3 | ⟨s2, e3, -, e4, -⟩
    · unfold RequestManager.states at hx
      rw [e3, e2] at hx
      exact h x hx
    · unfold RequestManager.states at hx
      rw [e3, e2, Multiset.cons_add] at hx
      rcases Multiset.mem_cons.1 hx with rfl | hx
      · rw [e4]
        unfold RequestState.left
        rw [h2, h3]
        omega
      · exact h x hx
  | @update m log ins rem status moved h1 h2 =>
    obtain ⟨x, rest, e1, e2, -, e3⟩ := update_bag h2
    unfold RequestManager.states at h ⊢
    dsimp only at h ⊢
    rw [e1, add_assoc] at h
    rw [e2, add_assoc]
    intro s hs
    rcases Multiset.mem_add.1 hs with hs | hs
    · obtain ⟨y, hy, e⟩ := moved_from e3 (Multiset.mem_coe.1 hs)
      have := h y (Multiset.mem_add.2 (.inl (Multiset.mem_coe.2 hy)))
      rw [e]
      exact this
    · exact h s (Multiset.mem_add.2 (.inr hs))
  | @remove m log ins rem rel s a b h1 =>
    unfold RequestManager.states at h ⊢
    dsimp only at h ⊢
    rw [PostQueues.bag_split h1, Multiset.cons_add] at h
    exact fun x hx => h x (Multiset.mem_cons_of_mem hx)
  | @removeRetry m log ins rem s a b h1 =>
    unfold RequestManager.states at h ⊢
    dsimp only at h ⊢
    rw [h1, ms_middle, Multiset.singleton_add, Multiset.add_cons] at h
    exact fun x hx => h x (Multiset.mem_cons_of_mem hx)

/-- Where the request is in a call at time `τ`: its deadlines up to the last, `L` after each post and `δ` late at most, are not after
`B`. -/
structure Lives (r : R) (B L δ τ : Nat) (m : RequestManager R) : Prop where
  created : m.createdAt ≤ τ + L
  queued : ∀ s ∈ m.postQueues.bag, s.request = r → max s.retryDeadline (τ + L) + δ + s.left m.config * (L + δ) ≤ B
  waiting : ∀ s ∈ m.retryQueue, s.request = r →
    s.retryDeadline + δ + s.left m.config * (L + δ) ≤ B ∧ τ + s.left m.config * (L + δ) ≤ B

theorem lives_micro {r : R} {B L δ τ : Nat} {c c' : Cfg R} (hm : Micro c c') (h : Lives r B L δ τ c.mgr) (hr : r ∉ c'.inserted)
    (hl : ∀ r i d id d' est, .post r i d id d' (.ok est) ∈ c'.log →
      est.now + est.metrics.estimateRtt est.handlingDelay ≤ τ + L) : Lives r B L δ τ c'.mgr := by
  cases hm with
  | @requeue m log ins rem rel s rest i n d t met h1 h2 h3 h4 h5 h6 =>
    refine ⟨h.created, ?_, h.waiting⟩
    have hq := h.queued
    dsimp only at hq ⊢
    rw [PostQueues.bag_pop h1] at hq
    rw [PostQueues.bag_push]
    intro x hx he
    rcases Multiset.mem_cons.1 hx with rfl | hx
    · have k1 := hq s (Multiset.mem_cons_self ..) he
      have k2 := hl _ _ _ _ _ _ (List.mem_append_right _ (List.mem_singleton.2 rfl))
      show max t (τ + L) + δ + s.left m.config * (L + δ) ≤ B
      omega
    · exact hq x (Multiset.mem_cons_of_mem hx) he
  | @wait m log ins rem rel s rest i d t met h1 h2 h3 h4 h5 h6 =>
    have hq := h.queued
    dsimp only at hq
    rw [PostQueues.bag_pop h1] at hq
    refine ⟨h.created, fun x hx he => hq x (Multiset.mem_cons_of_mem hx) he, ?_⟩
    intro x hx he
    dsimp only at hx ⊢
    rw [← Multiset.mem_coe, insertSorted_bag] at hx
    rcases Multiset.mem_cons.1 hx with rfl | hx
    · have k1 := hq s (Multiset.mem_cons_self ..) he
      have k2 := hl _ _ _ _ _ _ (List.mem_append_right _ (List.mem_singleton.2 rfl))
      show t + δ + s.left m.config * (L + δ) ≤ B ∧ τ + s.left m.config * (L + δ) ≤ B
      omega
    · exact h.waiting x hx he
  | @refused m log ins rem rel s rest i h1 h2 => exact h
  | @failed m log ins rem rel s rest i e h1 h2 =>
    have hq := h.queued
    dsimp only at hq
    rw [PostQueues.bag_pop h1] at hq
    exact ⟨h.created, fun x hx he => hq x (Multiset.mem_cons_of_mem hx) he, h.waiting⟩
  | @pop m log ins rem s rest m' l h1 h2 h3 =>
    obtain ⟨e1, e0, e2, e3⟩ := retry_left h3
    obtain ⟨hc, hq, hw⟩ := h
    dsimp only at hc hq hw e0 e1 e2 e3 ⊢
    rw [h1] at hw
    refine ⟨by rw [e0]; exact hc, ?_, ?_⟩
    · intro x hx he
      rw [e1]
      rcases e3 with e3 | ⟨s2, e3, e5, e4, e6⟩
      · rw [e3] at hx; exact hq x hx he
      · rw [e3] at hx
        rcases Multiset.mem_cons.1 hx with rfl | hx
        · obtain ⟨k1, k2⟩ := hw s List.mem_cons_self (e5.symm.trans he)
          rw [← e4, Nat.succ_mul] at k1 k2
          rcases e6 with e6 | e6 <;> rw [e6] <;> omega
        · exact hq x hx he
    · rw [e1, e2]
      exact fun x hx he => hw x (List.mem_cons_of_mem _ hx) he
  | @insert m log ins rem s m' l h1 h2 h3 h4 h5 =>
    obtain ⟨e1, e0, e2, e3⟩ := retry_left h5
    obtain ⟨hc, hq, hw⟩ := h
    dsimp only at hc hq hw e0 e1 e2 e3 ⊢
    refine ⟨by rw [e0]; exact hc, ?_, by rw [e1, e2]; exact hw⟩
    intro x hx he
    rw [e1]
    rcases e3 with e3 | ⟨s2, e3, e5, e4, e6⟩
    · rw [e3] at hx; exact hq x hx he
    · rw [e3] at hx
      rcases Multiset.mem_cons.1 hx with rfl | hx
      · exact absurd (List.mem_append_right _ (List.mem_singleton.2 (he.symm.trans e5))) hr
      · exact hq x hx he
  | @update m log ins rem status moved h1 h2 =>
    obtain ⟨x, rest, e1, e2, -, e3⟩ := update_bag h2
    refine ⟨h.created, ?_, h.waiting⟩
    have hq := h.queued
    have hc := h.created
    dsimp only at hq hc ⊢
    rw [e1] at hq
    rw [e2]
    intro s hs he
    rcases Multiset.mem_add.1 hs with hs | hs
    · obtain ⟨y, hy, e⟩ := moved_from e3 (Multiset.mem_coe.1 hs)
      have := hq y (Multiset.mem_add.2 (.inl (Multiset.mem_coe.2 hy))) (by rw [← he, e]; rfl)
      rw [e]
      show max m.createdAt (τ + L) + δ + y.left m.config * (L + δ) ≤ B
      omega
    · exact hq s (Multiset.mem_add.2 (.inr hs)) he
  | @remove m log ins rem rel s a b h1 =>
    refine ⟨h.created, ?_, h.waiting⟩
    have hq := h.queued
    dsimp only at hq ⊢
    rw [PostQueues.bag_split h1] at hq
    exact fun x hx he => hq x (Multiset.mem_cons_of_mem hx) he
  | @removeRetry m log ins rem s a b h1 =>
    refine ⟨h.created, h.queued, ?_⟩
    intro x hx he
    refine h.waiting x ?_ he
    dsimp only at hx ⊢
    rw [h1]
    rcases List.mem_append.1 hx with hx | hx
    · exact List.mem_append_left _ hx
    · exact List.mem_append_right _ (List.mem_cons_of_mem _ hx)

theorem lives_micros {r : R} {B L δ τ : Nat} {c c' : Cfg R} (hm : Micros c c') (h : Lives r B L δ τ c.mgr) (hr : r ∉ c'.inserted)
    (hl : ∀ r i d id d' est, .post r i d id d' (.ok est) ∈ c'.log →
      est.now + est.metrics.estimateRtt est.handlingDelay ≤ τ + L) : Lives r B L δ τ c'.mgr := by
  induction hm with
  | refl => exact h
  | @tail c1 c2 _ hs ih =>
    obtain ⟨l, e⟩ := micro_log hs
    have hi : ∃ x, c2.inserted = c1.inserted ++ x := by
      cases hs with
      | insert _ _ _ _ _ => exact ⟨_, rfl⟩
      | _ => exact ⟨[], (List.append_nil _).symm⟩
    obtain ⟨x, hx⟩ := hi
    refine lives_micro hs (ih ?_ ?_) hr hl
    · exact fun hc => hr (by rw [hx]; exact List.mem_append_left _ hc)
    · exact fun r i d id d' est he => hl r i d id d' est (by rw [e]; exact List.mem_append_left _ he)

end Mixnet
