import Verif.Proofs.ManagerTries
import Verif.Proofs.ManagerPop
/-!
# A request that waits is not posted
-/
namespace Mixnet
open Spec
variable {R Ctx : Type} {C : Crypto} {T : RequestTrait R Ctx} {ns : NetworkStatus} {ctx : Ctx}

/-- No post with this id was tried. -/
def Silent (id : MessageId) (log : List (LogEntry R)) : Prop :=
  ∀ r i d0 d res, LogEntry.post r i d0 id d res ∉ log

/-- The request is where it was and was not posted since, or it has fewer attempts left. -/
def Keeps (k : Nat) (w : RequestState R) (c : Cfg R) : Prop :=
  (w ∈ c.mgr.retryQueue ∧ Silent w.messageId (c.log.drop k)) ∨
  ∀ s ∈ c.mgr.states, s.messageId = w.messageId → s.attemptsRemaining < w.attemptsRemaining

theorem Silent.add {id : MessageId} {a l : List (LogEntry R)} {k : Nat} (hk : k ≤ a.length) (h : Silent id (a.drop k))
    (hl : Silent id l) : Silent id ((a ++ l).drop k) := by
  rw [List.drop_append_of_le_length hk]
  intro r i d0 d res hm
  rcases List.mem_append.1 hm with hm | hm
  · exact h _ _ _ _ _ hm
  · exact hl _ _ _ _ _ hm

theorem Silent.nil {id : MessageId} : Silent id ([] : List (LogEntry R)) := fun _ _ _ _ _ h => by cases h

theorem retry_silent {m m' : RequestManager R} {s : RequestState R} {l : List (LogEntry R)} (h : Retry m s m' l) (id : MessageId) :
    Silent id l := by
  intro r i d0 d res hm
  cases h with
  | limit => rw [List.mem_singleton] at hm; cases hm
  | again _ h1 h2 =>
    rcases List.mem_append.1 hm with hm | hm
    · cases h1 with
      | attempt => cases hm
      | destination => rw [List.mem_singleton] at hm; cases hm
    · cases h2 with
      | unbound => cases hm
      | bound => cases hm
      | moved => rw [List.mem_singleton] at hm; cases hm

/-- The states after a retry. -/
theorem retry_mem {m m' : RequestManager R} {s t : RequestState R} {l : List (LogEntry R)} (h : Retry m s m' l)
    (ht : t ∈ m'.states) : t ∈ m.states ∨ t.messageId ∈ drawn l ∨ (t.messageId = s.messageId ∧ t.attemptsRemaining < s.attemptsRemaining) := by
  obtain ⟨-, ⟨rfl, rfl, h1, h2⟩ | ⟨s1, l1, rel, s2, l2, h0, rfl, h1, h2, -, h3, h4, -⟩⟩ := retry_states h
  · exact .inl ht
  · have hS : m'.states = s2 ::ₘ m.states := by
      unfold RequestManager.states
      rw [h3, h4, Multiset.cons_add]
    rw [hS] at ht
    rcases Multiset.mem_cons.1 ht with rfl | ht
    · right
      rw [drawn_append]
      cases h2 with
      | moved _ _ => exact .inl (List.mem_append_right _ (List.mem_singleton.2 rfl))
      | _ =>
        cases h1 with
        | attempt ha => exact .inr ⟨rfl, by dsimp only; omega⟩
        | destination _ _ _ => exact .inl (List.mem_append_left _ (List.mem_singleton.2 rfl))
    · exact .inl ht

theorem retry_queue_kept {m m' : RequestManager R} {s : RequestState R} {l : List (LogEntry R)} (h : Retry m s m' l) :
    m'.retryQueue = m.retryQueue := by
  cases h <;> rfl

theorem drawn_apart {a l : List (LogEntry R)} {id : MessageId} (hd : (drawn (a ++ l)).Nodup) (h : id ∈ drawn a) : id ∉ drawn l := by
  rw [drawn_append, List.nodup_append] at hd
  exact fun hc => hd.2.2 _ h _ hc rfl

theorem keeps_micro {c c' : Cfg R} {k : Nat} {w : RequestState R} (hm : Micro c c') (hd : (drawn c'.log).Nodup)
    (hi : Ids c.mgr.createdAt c.mgr.states c.log) (hw : w.messageId ∈ drawn c.log) (hk : k ≤ c.log.length)
    (h : Keeps k w c) : Keeps k w c' := by
  cases hm with
  | @requeue m log ins rem rel s rest i n d t met h1 h2 h3 h4 h5 h6 =>
    have nd := hi.nodup
    unfold RequestManager.states at nd
    dsimp only at nd
    rw [PostQueues.bag_pop h1, Multiset.cons_add, Multiset.map_cons, Multiset.nodup_cons] at nd
    rcases h with ⟨a1, a2⟩ | h
    · refine .inl ⟨a1, a2.add hk ?_⟩
      intro r' i' d0' d' res' hmem
      rw [List.mem_singleton] at hmem
      injection hmem with _ _ _ e
      exact nd.1 (Multiset.mem_map.2 ⟨w, Multiset.mem_add.2 (.inr a1), e⟩)
    · right
      unfold RequestManager.states at h ⊢
      dsimp only at h ⊢
      rw [PostQueues.bag_pop h1, Multiset.cons_add] at h
      rw [PostQueues.bag_push, Multiset.cons_add]
      intro x hx he
      rcases Multiset.mem_cons.1 hx with rfl | hx
      · exact h s (Multiset.mem_cons_self ..) he
      · exact h x (Multiset.mem_cons_of_mem hx) he
  | @wait m log ins rem rel s rest i d t met h1 h2 h3 h4 h5 h6 =>
    have nd := hi.nodup
    unfold RequestManager.states at nd
    dsimp only at nd
    rw [PostQueues.bag_pop h1, Multiset.cons_add, Multiset.map_cons, Multiset.nodup_cons] at nd
    rcases h with ⟨a1, a2⟩ | h
    · refine .inl ⟨?_, a2.add hk ?_⟩
      · rw [← Multiset.mem_coe, insertSorted_bag]
        exact Multiset.mem_cons_of_mem a1
      · intro r' i' d0' d' res' hmem
        rw [List.mem_singleton] at hmem
        injection hmem with _ _ _ e
        exact nd.1 (Multiset.mem_map.2 ⟨w, Multiset.mem_add.2 (.inr a1), e⟩)
    · right
      unfold RequestManager.states at h ⊢
      dsimp only at h ⊢
      rw [PostQueues.bag_pop h1, Multiset.cons_add] at h
      rw [insertSorted_bag, Multiset.add_cons]
      intro x hx he
      rcases Multiset.mem_cons.1 hx with rfl | hx
      · exact h s (Multiset.mem_cons_self ..) he
      · exact h x (Multiset.mem_cons_of_mem hx) he
  | @refused m log ins rem rel s rest i h1 h2 =>
    have nd := hi.nodup
    unfold RequestManager.states at nd
    dsimp only at nd
    rw [PostQueues.bag_pop h1, Multiset.cons_add, Multiset.map_cons, Multiset.nodup_cons] at nd
    rcases h with ⟨a1, a2⟩ | h
    · refine .inl ⟨a1, a2.add hk ?_⟩
      intro r' i' d0' d' res' hmem
      rw [List.mem_singleton] at hmem
      injection hmem with _ _ _ e
      exact nd.1 (Multiset.mem_map.2 ⟨w, Multiset.mem_add.2 (.inr a1), e⟩)
    · exact .inr h
  | @failed m log ins rem rel s rest i e h1 h2 =>
    have nd := hi.nodup
    unfold RequestManager.states at nd
    dsimp only at nd
    rw [PostQueues.bag_pop h1, Multiset.cons_add, Multiset.map_cons, Multiset.nodup_cons] at nd
    rcases h with ⟨a1, a2⟩ | h
    · refine .inl ⟨a1, a2.add hk ?_⟩
      intro r' i' d0' d' res' hmem
      rcases List.mem_cons.1 hmem with hmem | hmem
      · injection hmem with _ _ _ e
        exact nd.1 (Multiset.mem_map.2 ⟨w, Multiset.mem_add.2 (.inr a1), e⟩)
      · rw [List.mem_singleton] at hmem; cases hmem
    · right
      unfold RequestManager.states at h ⊢
      dsimp only at h ⊢
      rw [PostQueues.bag_pop h1, Multiset.cons_add] at h
      exact fun x hx he => h x (Multiset.mem_cons_of_mem hx) he
  | @pop m log ins rem s rest m' l h1 h2 h3 =>
    have hS : m.states = s ::ₘ RequestManager.states { m with retryQueue := rest, nextRetryDeadlineChanged := true } := by
      unfold RequestManager.states
      dsimp only
      rw [h1, ← Multiset.cons_coe, Multiset.add_cons]
    have nd := hi.nodup
    dsimp only at nd hw hd
    rw [hS, Multiset.map_cons, Multiset.nodup_cons] at nd
    have hfresh : ∀ x ∈ m'.states, x.messageId = w.messageId →
        x ∈ RequestManager.states { m with retryQueue := rest, nextRetryDeadlineChanged := true } ∨
          (w.messageId = s.messageId ∧ x.attemptsRemaining < s.attemptsRemaining) := by
      intro x hx he
      rcases retry_mem h3 hx with hx | hx | hx
      · exact .inl hx
      · exact absurd (he ▸ hx) (drawn_apart hd hw)
      · exact .inr ⟨he.symm.trans hx.1, hx.2⟩
    rcases h with ⟨a1, a2⟩ | h
    · dsimp only at a1 a2
      rw [h1] at a1
      rcases List.mem_cons.1 a1 with rfl | a1
      · right
        intro x hx he
        rcases hfresh x hx he with hx | hx
        · exact absurd (Multiset.mem_map.2 ⟨x, hx, he⟩) nd.1
        · exact hx.2
      · refine .inl ⟨?_, a2.add hk (retry_silent h3 _)⟩
        dsimp only
        rw [retry_queue_kept h3]
        exact a1
    · right
      dsimp only at h ⊢
      rw [hS] at h
      intro x hx he
      rcases hfresh x hx he with hx | hx
      · exact h x (Multiset.mem_cons_of_mem hx) he
      · exact lt_trans hx.2 (h s (Multiset.mem_cons_self ..) hx.1.symm)
  | @insert m log ins rem s m' l h1 h2 h3 h4 h5 =>
    rcases h with ⟨a1, a2⟩ | h
    · refine .inl ⟨?_, a2.add hk (retry_silent h5 _)⟩
      dsimp only
      rw [retry_queue_kept h5]
      exact a1
    · right
      intro x hx he
      rcases retry_mem h5 hx with hx | hx | hx
      · exact h x hx he
      · exact absurd (he ▸ hx) (drawn_apart hd hw)
      · rw [h3] at hx; exact absurd hx.2 (Nat.not_lt_zero _)
  | @update m log ins rem status moved h1 h2 =>
    obtain ⟨x, rest, e1, e2, -, e3⟩ := update_bag h2
    rcases h with ⟨a1, a2⟩ | h
    · refine .inl ⟨a1, a2.add hk ?_⟩
      intro r' i' d0' d' res' hmem
      obtain ⟨_, _, e⟩ := List.mem_map.1 hmem
      cases e
    · right
      unfold RequestManager.states at h ⊢
      dsimp only at h hd hw ⊢
      rw [e1] at h
      rw [e2]
      intro y hy he
      rcases Multiset.mem_add.1 hy with hy | hy
      · rcases Multiset.mem_add.1 hy with hy | hy
        · exfalso
          refine drawn_apart hd hw ?_
          rw [(newIds_log moved).2.2.2]
          exact List.mem_map.2 ⟨y, hy, he⟩
        · exact h y (Multiset.mem_add.2 (.inl (Multiset.mem_add.2 (.inr hy)))) he
      · exact h y (Multiset.mem_add.2 (.inr hy)) he
  | @remove m log ins rem rel s a b h1 =>
    rcases h with h | h
    · exact .inl h
    · right
      unfold RequestManager.states at h ⊢
      dsimp only at h ⊢
      rw [PostQueues.bag_split h1, Multiset.cons_add] at h
      exact fun x hx he => h x (Multiset.mem_cons_of_mem hx) he
  | @removeRetry m log ins rem s a b h1 =>
    have nd := hi.nodup
    unfold RequestManager.states at nd
    dsimp only at nd
    rw [h1, ms_middle, Multiset.singleton_add, Multiset.add_cons, Multiset.map_cons, Multiset.nodup_cons] at nd
    rcases h with ⟨a1, a2⟩ | h
    · dsimp only at a1
      rw [h1, ← Multiset.mem_coe, ms_middle, Multiset.singleton_add] at a1
      rcases Multiset.mem_cons.1 a1 with rfl | a1
      · right
        intro x hx he
        exact absurd (Multiset.mem_map.2 ⟨x, hx, he⟩) nd.1
      · exact .inl ⟨by simpa using a1, a2⟩
    · right
      unfold RequestManager.states at h ⊢
      dsimp only at h ⊢
      rw [h1, ms_middle, Multiset.singleton_add, Multiset.add_cons] at h
      exact fun x hx he => h x (Multiset.mem_cons_of_mem hx) he

end Mixnet
