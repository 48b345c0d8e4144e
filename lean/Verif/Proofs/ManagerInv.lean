import Verif.Proofs.ManagerCalls
import Mathlib.Algebra.BigOperators.Group.Multiset.Basic
import Mathlib.Tactic.Ring
import Mathlib.Tactic.Abel
/-!
# Invariants of a request manager
-/
namespace Mixnet
open Spec
variable {R : Type}

/-! ### The queues as a bag -/

/-- The requests waiting to be posted. -/
def PostQueues.bag {T : Type} (q : PostQueues T) : Multiset T := ↑q.current + ↑q.prev + ↑q.default

theorem PostQueues.bag_split {T : Type} {q : PostQueues T} {rel : Option RelSessionIndex} {a b : List T} {s : T}
    (h : q.get rel = a ++ s :: b) : q.bag = s ::ₘ (q.set rel (a ++ b)).bag := by
  have e : (↑(a ++ s :: b) : Multiset T) = s ::ₘ ↑(a ++ b) := Multiset.coe_eq_coe.2 List.perm_middle
  obtain ⟨c, p, d⟩ := q
  rcases rel with _ | _ | _
  · change d = _ at h; subst h
    show _ + _ + (↑(a ++ s :: b) : Multiset T) = s ::ₘ (_ + _ + ↑(a ++ b))
    rw [e, Multiset.add_cons]
    rfl
  · change c = _ at h; subst h
    show (↑(a ++ s :: b) : Multiset T) + _ + _ = s ::ₘ (↑(a ++ b) + _ + _)
    rw [e, Multiset.cons_add, Multiset.cons_add]
    rfl
  · change p = _ at h; subst h
    show _ + (↑(a ++ s :: b) : Multiset T) + _ = s ::ₘ (_ + ↑(a ++ b) + _)
    rw [e, Multiset.add_cons, Multiset.cons_add]
    rfl

theorem PostQueues.bag_pop {T : Type} {q : PostQueues T} {rel : Option RelSessionIndex} {b : List T} {s : T}
    (h : q.get rel = s :: b) : q.bag = s ::ₘ (q.set rel b).bag :=
  PostQueues.bag_split (a := []) h

theorem PostQueues.bag_push {T : Type} (q : PostQueues T) (rel : Option RelSessionIndex) (s : T) :
    (q.set rel (q.get rel ++ [s])).bag = s ::ₘ q.bag := by
  have : (q.set rel (q.get rel ++ [s])).get rel = q.get rel ++ s :: [] := PostQueues.get_set ..
  rw [PostQueues.bag_split this, PostQueues.set_set, List.append_nil, PostQueues.set_get]

theorem insertSorted_eq (l : List (RequestState R)) (s : RequestState R) :
    insertSorted l s = l.takeWhile (fun s' => s'.retryDeadline < s.retryDeadline) ++
      s :: l.dropWhile (fun s' => s'.retryDeadline < s.retryDeadline) := by
  unfold insertSorted
  generalize (fun s' : RequestState R => decide (s'.retryDeadline < s.retryDeadline)) = p
  induction l with
  | nil => rfl
  | cons x l ih =>
    by_cases hx : p x = true
    · rw [List.takeWhile_cons_of_pos hx, List.dropWhile_cons_of_pos hx, List.length_cons, List.insertIdx_succ_cons,
        ih, List.cons_append]
    · rw [List.takeWhile_cons_of_neg hx, List.dropWhile_cons_of_neg hx]; rfl

theorem insertSorted_bag (l : List (RequestState R)) (s : RequestState R) :
    (↑(insertSorted l s) : Multiset (RequestState R)) = s ::ₘ ↑l := by
  rw [insertSorted_eq]
  refine Multiset.coe_eq_coe.2 (List.perm_middle.trans ?_)
  rw [List.takeWhile_append_dropWhile]

/-- Requests have moved from the other queues to the end of the default one. -/
def Flow (q q' : PostQueues (RequestState R)) : Prop :=
  ∃ x, q'.default = q.default ++ x ∧
    (↑x : Multiset (RequestState R)) + ↑q'.current + ↑q'.prev = ↑q.current + ↑q.prev

theorem Flow.refl (q : PostQueues (RequestState R)) : Flow q q := ⟨[], by simp, by simp⟩

theorem Flow.trans {a b c : PostQueues (RequestState R)} (h : Flow a b) (h' : Flow b c) : Flow a c := by
  obtain ⟨x, h1, h2⟩ := h
  obtain ⟨y, h3, h4⟩ := h'
  refine ⟨x ++ y, by rw [h3, h1, List.append_assoc], ?_⟩
  have e : (↑(x ++ y) : Multiset (RequestState R)) + ↑c.current + ↑c.prev =
      ↑x + (↑y + ↑c.current + ↑c.prev) := by rw [← Multiset.coe_add]; abel
  rw [e, h4, ← h2]
  abel

theorem Flow.current (q : PostQueues (RequestState R)) :
    Flow q { q with default := q.default ++ q.current, current := [] } := by
  refine ⟨q.current, rfl, ?_⟩
  simp

theorem Flow.prev (q : PostQueues (RequestState R)) :
    Flow q { q with default := q.default ++ q.prev, prev := [] } := by
  refine ⟨q.prev, rfl, ?_⟩
  dsimp only
  rw [Multiset.coe_nil]
  abel

theorem Flow.swap (q : PostQueues (RequestState R)) : Flow q { q with current := q.prev, prev := q.current } := by
  refine ⟨[], by simp, ?_⟩
  dsimp only
  rw [Multiset.coe_nil]
  abel

theorem moveQueues_flow (q : PostQueues (RequestState R)) (old new : SessionStatus) :
    Flow q (Work.moveQueues q old new) := by
  unfold Work.moveQueues
  dsimp only
  split_ifs
  · exact (((Flow.prev q).trans (.swap _)).trans (.current _)).trans (.prev _)
  · exact (((Flow.prev q).trans (.current _)).trans (.current _)).trans (.prev _)
  · exact (Flow.current _).trans (.prev _)
  · exact ((Flow.prev q).trans (.swap _)).trans (.prev _)
  · exact ((Flow.prev q).trans (.current _)).trans (.prev _)
  · exact Flow.prev _
  · exact ((Flow.prev q).trans (.swap _)).trans (.current _)
  · exact ((Flow.prev q).trans (.current _)).trans (.current _)
  · exact Flow.current _
  · exact (Flow.prev q).trans (.swap _)
  · exact (Flow.prev q).trans (.current _)
  · exact .refl _

theorem moveQueues_default (q : PostQueues (RequestState R)) (old new : SessionStatus) :
    ∃ x, (Work.moveQueues q old new).default = q.default ++ x ∧
      (Work.moveQueues q old new).bag = q.bag ∧
      (↑x : Multiset (RequestState R)) + ↑(Work.moveQueues q old new).current +
        ↑(Work.moveQueues q old new).prev = ↑q.current + ↑q.prev := by
  obtain ⟨x, h1, h2⟩ := moveQueues_flow q old new
  refine ⟨x, h1, ?_, h2⟩
  unfold PostQueues.bag
  rw [h1, ← Multiset.coe_add, ← h2]
  abel

/-! ### Requests are neither lost nor duplicated -/

/-- All the states of requests. -/
def RequestManager.states (m : RequestManager R) : Multiset (RequestState R) := m.postQueues.bag + ↑m.retryQueue

theorem managed_eq (m : RequestManager R) :
    (↑(managed m) : Multiset R) = m.states.map (·.request) := by
  unfold managed RequestManager.states PostQueues.bag
  rw [← Multiset.map_coe]
  simp only [← Multiset.coe_add]

theorem failed_append (a b : List (LogEntry R)) : failed (a ++ b) = failed a ++ failed b := List.flatMap_append
theorem exhausted_append (a b : List (LogEntry R)) : exhausted (a ++ b) = exhausted a ++ exhausted b :=
  List.flatMap_append
theorem posted_append (a b : List (LogEntry R)) : posted (a ++ b) = posted a ++ posted b := List.flatMap_append
theorem drawn_append (a b : List (LogEntry R)) : drawn (a ++ b) = drawn a ++ drawn b := List.flatMap_append

theorem failed_post {r : R} {i d id d' res} : failed [LogEntry.post r i d id d' res] = [] := rfl
theorem exhausted_post {r : R} {i d id d' res} : exhausted [LogEntry.post r i d id d' res] = [] := rfl
theorem posted_post {r : R} {i d id d' met} : posted [LogEntry.post r i d id d' (.ok met)] = [r] := rfl
theorem posted_refused {r : R} {i d id d' e} : posted [LogEntry.post r i d id d' (.error e)] = [] := rfl
theorem drawn_post {r : R} {i d id d' res} : drawn [LogEntry.post r i d id d' res] = [] := rfl
theorem failed_err {r : R} {i d id d' res e} :
    failed [LogEntry.post r i d id d' res, .postErr r e] = [r] := rfl
theorem exhausted_err {r : R} {i d id d' res e} :
    exhausted [LogEntry.post r i d id d' res, .postErr r e] = [] := rfl
theorem posted_err {r : R} {i d id d' e e'} :
    posted [LogEntry.post r i d id d' (.error e'), .postErr r e] = [] := rfl
theorem drawn_err {r : R} {i d id d' res e} :
    drawn [LogEntry.post r i d id d' res, .postErr r e] = [] := rfl
theorem failed_limit {r : R} : failed [LogEntry.retryLimit r] = [] := rfl
theorem exhausted_limit {r : R} : exhausted [LogEntry.retryLimit r] = [r] := rfl
theorem posted_limit {r : R} : posted [LogEntry.retryLimit r] = [] := rfl
theorem drawn_limit {r : R} : drawn [LogEntry.retryLimit r] = [] := rfl

theorem ms_snoc {α : Type} (l : List α) (a : α) : (↑(l ++ [a]) : Multiset α) = {a} + ↑l := by
  rw [← Multiset.coe_add, Multiset.coe_singleton, add_comm]

theorem ms_middle {α : Type} (a b : List α) (s : α) : (↑(a ++ s :: b) : Multiset α) = {s} + ↑(a ++ b) := by
  rw [Multiset.singleton_add]
  exact Multiset.coe_eq_coe.2 List.perm_middle

/-- The states after a retry. -/
theorem retry_states {m m' : RequestManager R} {s : RequestState R} {l : List (LogEntry R)} (h : Retry m s m' l) :
    m'.config = m.config ∧
    ((m' = m ∧ l = [.retryLimit s.request] ∧ s.attemptsRemaining = 0 ∧ s.destinationsRemaining = 0) ∨
    ∃ (s1 : RequestState R) (l1 : List (LogEntry R)) (rel : Option RelSessionIndex) (s2 : RequestState R)
      (l2 : List (LogEntry R)),
      1 ≤ m.config.numPostsPerAttempt ∧ l = l1 ++ l2 ∧ Recount m s s1 l1 ∧ Place m s1 rel s2 l2 ∧
      m' = { m with postQueues := m.postQueues.set rel (m.postQueues.get rel ++ [s2]) } ∧
      m'.postQueues.bag = s2 ::ₘ m.postQueues.bag ∧ m'.retryQueue = m.retryQueue ∧ s2.request = s.request ∧
      failed l = [] ∧ exhausted l = [] ∧ posted l = []) := by
  cases h with
  | limit h1 h2 => exact ⟨rfl, .inl ⟨rfl, rfl, h1, h2⟩⟩
  | again h1 h2 h3 =>
    refine ⟨rfl, .inr ⟨_, _, _, _, _, h1, rfl, h2, h3, rfl, PostQueues.bag_push .., rfl, ?_, ?_, ?_, ?_⟩⟩
    all_goals cases h2 <;> cases h3 <;> rfl

theorem fresh_requests {past : Nat} {a b : List (RequestState R)}
    (h : List.Forall₂ (fun s s' : RequestState R => s' = s.fresh s'.messageId past) a b) :
    b.map (·.request) = a.map (·.request) := by
  induction h with
  | nil => rfl
  | cons h _ ih =>
    rw [List.map_cons, List.map_cons, ih, h]
    rfl

theorem newIds_log (moved : List (RequestState R)) :
    failed (moved.map fun s => LogEntry.newId s.request s.messageId) = [] ∧
    exhausted (moved.map fun s => LogEntry.newId s.request s.messageId) = [] ∧
    posted (moved.map fun s => LogEntry.newId s.request s.messageId) = [] ∧
    drawn (moved.map fun s => LogEntry.newId s.request s.messageId) = moved.map (·.messageId) := by
  induction moved with
  | nil => exact ⟨rfl, rfl, rfl, rfl⟩
  | cons s ss ih =>
    obtain ⟨h1, h2, h3, h4⟩ := ih
    refine ⟨h1, h2, h3, ?_⟩
    show s.messageId :: drawn _ = _
    rw [h4]; rfl

/-- The states after an update of the session status. -/
theorem update_bag {m : RequestManager R} {status : SessionStatus} {moved : List (RequestState R)}
    (h : List.Forall₂ (fun s s' : RequestState R => s' = s.fresh s'.messageId m.createdAt)
        ((Work.moveQueues m.postQueues m.sessionStatus status).default.drop m.postQueues.default.length) moved) :
    ∃ (x : List (RequestState R)) (rest : Multiset (RequestState R)),
      m.postQueues.bag = ↑x + rest ∧
      PostQueues.bag { Work.moveQueues m.postQueues m.sessionStatus status with
              default := (Work.moveQueues m.postQueues m.sessionStatus status).default.take
                m.postQueues.default.length ++ moved } = ↑moved + rest ∧
      (Work.moveQueues m.postQueues m.sessionStatus status).default = m.postQueues.default ++ x ∧
      List.Forall₂ (fun s s' : RequestState R => s' = s.fresh s'.messageId m.createdAt) x moved := by
  obtain ⟨x, h1, h2, h3⟩ := moveQueues_default m.postQueues m.sessionStatus status
  rw [h1, List.drop_left] at h
  refine ⟨x, ↑(Work.moveQueues m.postQueues m.sessionStatus status).current +
    ↑(Work.moveQueues m.postQueues m.sessionStatus status).prev + ↑m.postQueues.default, ?_, ?_, h1, h⟩
  · rw [← h2]
    unfold PostQueues.bag
    rw [h1, ← Multiset.coe_add]
    abel
  · unfold PostQueues.bag
    dsimp only
    rw [h1, List.take_left, ← Multiset.coe_add]
    abel

/-- Every request inserted is in one place. -/
def Kept (c : Cfg R) : Prop :=
  c.mgr.states.map (·.request) + ↑c.removed + ↑(failed c.log) + ↑(exhausted c.log) = (↑c.inserted : Multiset R)

theorem kept_retry {m m' : RequestManager R} {s : RequestState R} {l log : List (LogEntry R)} {ins rem : List R}
    (hr : Retry m s m' l)
    (h : (s ::ₘ m.states).map (·.request) + ↑rem + ↑(failed log) + ↑(exhausted log) = (↑ins : Multiset R)) :
    Kept ⟨m', log ++ l, ins, rem⟩ := by
  obtain ⟨-, ⟨rfl, rfl, -, -⟩ | ⟨s1, l1, rel, s2, l2, -, -, -, -, -, h1, h2, h3, h4, h5, -⟩⟩ := retry_states hr
  · unfold Kept
    dsimp only
    rw [← h, failed_append, exhausted_append]
    rw [failed_limit, exhausted_limit, List.append_nil, ms_snoc, Multiset.map_cons, ← Multiset.singleton_add]
    abel
  · unfold Kept
    dsimp only
    rw [← h, failed_append, exhausted_append, h4, h5, List.append_nil, List.append_nil]
    unfold RequestManager.states
    rw [h1, h2, Multiset.cons_add, Multiset.map_cons, Multiset.map_cons, h3]

theorem kept_micro {c c' : Cfg R} (h : Kept c) (hm : Micro c c') : Kept c' := by
  cases hm with
  | @requeue m log ins rem rel s rest i n d t met h1 h2 h3 h4 h5 h6 =>
    unfold Kept RequestManager.states at h ⊢
    dsimp only at h ⊢
    rw [PostQueues.bag_push, failed_append, exhausted_append]
    rw [PostQueues.bag_pop h1] at h
    rw [← h]
    rw [failed_post, exhausted_post, List.append_nil, List.append_nil, Multiset.cons_add, Multiset.cons_add, Multiset.map_cons, Multiset.map_cons]
    rfl
  | @wait m log ins rem rel s rest i d t met h1 h2 h3 h4 h5 h6 =>
    unfold Kept RequestManager.states at h ⊢
    dsimp only at h ⊢
    rw [insertSorted_bag, failed_append, exhausted_append]
    rw [PostQueues.bag_pop h1] at h
    rw [← h]
    rw [failed_post, exhausted_post, List.append_nil, List.append_nil, Multiset.cons_add, Multiset.add_cons, Multiset.map_cons, Multiset.map_cons]
    rfl
  | @refused m log ins rem rel s rest i h1 h2 =>
    unfold Kept at h ⊢
    dsimp only at h ⊢
    rw [failed_append, exhausted_append]
    rw [failed_post, exhausted_post, List.append_nil, List.append_nil, h]
  | @failed m log ins rem rel s rest i e h1 h2 =>
    unfold Kept RequestManager.states at h ⊢
    dsimp only at h ⊢
    rw [failed_append, exhausted_append]
    rw [PostQueues.bag_pop h1] at h
    rw [← h]
    rw [failed_err, exhausted_err, List.append_nil, ms_snoc, Multiset.cons_add, Multiset.map_cons, ← Multiset.singleton_add]
    abel
  | @pop m log ins rem s rest m' l h1 h2 h3 =>
    refine kept_retry h3 ?_
    unfold Kept RequestManager.states at h
    dsimp only at h
    rw [h1] at h
    rw [← h]
    unfold RequestManager.states
    dsimp only
    rw [← Multiset.cons_coe, Multiset.add_cons]
  | @insert m log ins rem s m' l h1 h2 h3 h4 h5 =>
    refine kept_retry h5 ?_
    unfold Kept at h
    dsimp only at h
    rw [ms_snoc, ← h, Multiset.map_cons, ← Multiset.singleton_add]
    abel
  | @update m log ins rem status moved h1 h2 =>
    obtain ⟨x, rest, e1, e2, -, e3⟩ := update_bag h2
    obtain ⟨n1, n2, -, -⟩ := newIds_log moved
    unfold Kept RequestManager.states at h ⊢
    dsimp only at h ⊢
    rw [failed_append, exhausted_append, n1, n2, List.append_nil, List.append_nil]
    rw [← h, e1, e2]
    simp only [Multiset.map_add, Multiset.map_coe]
    rw [fresh_requests e3]
  | @remove m log ins rem rel s a b h1 =>
    unfold Kept RequestManager.states at h ⊢
    dsimp only at h ⊢
    rw [PostQueues.bag_split h1] at h
    rw [← h, ms_snoc, Multiset.cons_add, Multiset.map_cons, ← Multiset.singleton_add]
    abel
  | @removeRetry m log ins rem s a b h1 =>
    unfold Kept RequestManager.states at h ⊢
    dsimp only at h ⊢
    rw [h1, ms_middle] at h
    rw [← h, ms_snoc, Multiset.map_add, Multiset.map_add, Multiset.map_add, Multiset.map_singleton]
    abel

end Mixnet
