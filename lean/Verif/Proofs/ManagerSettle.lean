import Verif.Spec.Settle
import Verif.Proofs.ManagerOrder
import Verif.Proofs.ManagerTries
/-!
# Requests that have left the manager, and the ids of those that have not
-/
namespace Mixnet
open Spec
variable {R Ctx : Type}

/-- What a step is about: requests in the manager before it, or inserted in it. -/
structure About (c c' : Cfg R) : Prop where
  ins : ∃ i, c'.inserted = c.inserted ++ i ∧
    (∀ s ∈ c'.mgr.states, s.request ∈ c.mgr.states.map (·.request) ∨ s.request ∈ i) ∧
    (∃ l, c'.log = c.log ++ l ∧ ∀ e ∈ l, subject e ∈ c.mgr.states.map (·.request) ∨ subject e ∈ i) ∧
    (∃ l, c'.removed = c.removed ++ l ∧ ∀ r ∈ l, r ∈ c.mgr.states.map (·.request) ∨ r ∈ i)

theorem retry_about {m m' : RequestManager R} {s : RequestState R} {l : List (LogEntry R)} (h : Retry m s m' l) :
    (∀ t ∈ m'.states, t ∈ m.states ∨ t.request = s.request) ∧ ∀ e ∈ l, subject e = s.request := by
  obtain ⟨-, ⟨rfl, rfl, h1, h2⟩ | ⟨s1, l1, rel, s2, l2, h0, rfl, h1, h2, -, h3, h4, h5, -⟩⟩ := retry_states h
  · refine ⟨fun t ht => .inl ht, fun e he => ?_⟩
    rw [List.mem_singleton] at he
    subst he; rfl
  · have hS : m'.states = s2 ::ₘ m.states := by
      unfold RequestManager.states
      rw [h3, h4, Multiset.cons_add]
    rw [hS]
    refine ⟨fun t ht => ?_, fun e he => ?_⟩
    · rcases Multiset.mem_cons.1 ht with rfl | ht
      · exact .inr h5
      · exact .inl ht
    · have e1 : s1.request = s.request := by cases h1 <;> rfl
      rcases List.mem_append.1 he with he | he
      · cases h1 with
        | attempt _ => cases he
        | destination _ _ _ => rw [List.mem_singleton] at he; subst he; rfl
      · cases h2 with
        | unbound _ => cases he
        | bound _ _ _ => cases he
        | moved _ _ => rw [List.mem_singleton] at he; subst he; exact e1

theorem micro_about {c c' : Cfg R} (hm : Micro c c') : About c c' := by
  constructor
  cases hm with
  | @requeue m log ins rem rel s rest i n d t met h1 h2 h3 h4 h5 h6 =>
    refine ⟨[], (List.append_nil _).symm, ?_, ⟨_, rfl, ?_⟩, [], (List.append_nil _).symm, fun _ h => (by cases h)⟩
    · unfold RequestManager.states
      dsimp only
      rw [PostQueues.bag_push, PostQueues.bag_pop h1, Multiset.cons_add, Multiset.cons_add, Multiset.map_cons]
      intro t ht
      left
      rcases Multiset.mem_cons.1 ht with rfl | ht
      · exact Multiset.mem_cons_self ..
      · exact Multiset.mem_cons_of_mem (Multiset.mem_map_of_mem _ ht)
    · intro e he
      rw [List.mem_singleton] at he
      subst he
      exact .inl (Multiset.mem_map_of_mem _ (queue_states (rel := rel) (by dsimp only; rw [h1]; exact List.mem_cons_self)))
  | @wait m log ins rem rel s rest i d t met h1 h2 h3 h4 h5 h6 =>
    refine ⟨[], (List.append_nil _).symm, ?_, ⟨_, rfl, ?_⟩, [], (List.append_nil _).symm, fun _ h => (by cases h)⟩
    · unfold RequestManager.states
      dsimp only
      rw [insertSorted_bag, PostQueues.bag_pop h1, Multiset.cons_add, Multiset.add_cons, Multiset.map_cons]
      intro t ht
      left
      rcases Multiset.mem_cons.1 ht with rfl | ht
      · exact Multiset.mem_cons_self ..
      · exact Multiset.mem_cons_of_mem (Multiset.mem_map_of_mem _ ht)
    · intro e he
      rw [List.mem_singleton] at he
      subst he
      exact .inl (Multiset.mem_map_of_mem _ (queue_states (rel := rel) (by dsimp only; rw [h1]; exact List.mem_cons_self)))
  | @refused m log ins rem rel s rest i h1 h2 =>
    refine ⟨[], (List.append_nil _).symm, fun t ht => .inl (Multiset.mem_map_of_mem _ ht), ⟨_, rfl, ?_⟩, [],
      (List.append_nil _).symm, fun _ h => (by cases h)⟩
    intro e he
    rw [List.mem_singleton] at he
    subst he
    exact .inl (Multiset.mem_map_of_mem _ (queue_states (rel := rel) (by dsimp only; rw [h1]; exact List.mem_cons_self)))
  | @failed m log ins rem rel s rest i e h1 h2 h3 =>
    have hs : s.request ∈ m.states.map (·.request) :=
      Multiset.mem_map_of_mem _ (queue_states (rel := rel) (by rw [h1]; exact List.mem_cons_self))
    refine ⟨[], (List.append_nil _).symm, fun t ht => .inl ?_, ⟨_, rfl, ?_⟩, [],
      (List.append_nil _).symm, fun _ h => (by cases h)⟩
    · unfold RequestManager.states at ht ⊢
      dsimp only at ht ⊢
      rw [PostQueues.bag_pop h1, Multiset.cons_add, Multiset.map_cons]
      exact Multiset.mem_cons_of_mem (Multiset.mem_map_of_mem _ ht)
    · intro e he
      simp only [List.mem_cons, List.not_mem_nil, or_false] at he
      rcases he with rfl | rfl <;> exact .inl hs
  | @pop m log ins rem s rest m' l h1 h2 h3 =>
    obtain ⟨k1, k2⟩ := retry_about h3
    have e : m.states = s ::ₘ RequestManager.states { m with retryQueue := rest, nextRetryDeadlineChanged := true } := by
      unfold RequestManager.states
      dsimp only
      rw [h1, ← Multiset.cons_coe, Multiset.add_cons]
    refine ⟨[], (List.append_nil _).symm, fun t ht => .inl ?_, ⟨_, rfl, fun e' he => .inl ?_⟩, [],
      (List.append_nil _).symm, fun _ h => (by cases h)⟩
    · dsimp only
      rw [e, Multiset.map_cons]
      rcases k1 t ht with ht | ht
      · exact Multiset.mem_cons_of_mem (Multiset.mem_map_of_mem _ ht)
      · rw [ht]; exact Multiset.mem_cons_self ..
    · dsimp only
      rw [k2 e' he, e, Multiset.map_cons]
      exact Multiset.mem_cons_self ..
  | @insert m log ins rem s m' l h1 h2 h3 h4 h5 =>
    obtain ⟨k1, k2⟩ := retry_about h5
    refine ⟨[s.request], rfl, fun t ht => ?_, ⟨_, rfl, fun e he => .inr ?_⟩, [], (List.append_nil _).symm,
      fun _ h => (by cases h)⟩
    · rcases k1 t ht with ht | ht
      · exact .inl (Multiset.mem_map_of_mem _ ht)
      · exact .inr (List.mem_singleton.2 ht)
    · exact List.mem_singleton.2 (k2 e he)
  | @update m log ins rem status moved h1 h2 =>
    obtain ⟨x, rest, e1, e2, -, e3⟩ := update_bag h2
    have hmv : ∀ s ∈ moved, s.request ∈ m.states.map (·.request) := by
      intro s hs
      obtain ⟨s0, hs0, he⟩ := moved_from e3 hs
      rw [show s.request = s0.request by rw [he]; rfl]
      refine Multiset.mem_map_of_mem _ ?_
      unfold RequestManager.states
      rw [e1]
      exact Multiset.mem_add.2 (.inl (Multiset.mem_add.2 (.inl hs0)))
    refine ⟨[], (List.append_nil _).symm, fun t ht => .inl ?_, ⟨_, rfl, fun e he => .inl ?_⟩, [],
      (List.append_nil _).symm, fun _ h => (by cases h)⟩
    · unfold RequestManager.states at ht
      dsimp only at ht
      rw [e2, add_assoc] at ht
      rcases Multiset.mem_add.1 ht with ht | ht
      · exact hmv t ht
      · refine Multiset.mem_map_of_mem _ ?_
        unfold RequestManager.states
        rw [e1, add_assoc]
        exact Multiset.mem_add.2 (.inr ht)
    · obtain ⟨s, hs, rfl⟩ := List.mem_map.1 he
      exact hmv s hs
  | @remove m log ins rem rel s a b h1 =>
    refine ⟨[], (List.append_nil _).symm, fun t ht => .inl ?_, ⟨[], (List.append_nil _).symm, fun _ h => (by cases h)⟩,
      _, rfl, fun r hr => .inl ?_⟩
    · unfold RequestManager.states at ht ⊢
      dsimp only at ht ⊢
      rw [PostQueues.bag_split h1, Multiset.cons_add, Multiset.map_cons]
      exact Multiset.mem_cons_of_mem (Multiset.mem_map_of_mem _ ht)
    · rw [List.mem_singleton] at hr
      subst hr
      exact Multiset.mem_map_of_mem _ (queue_states (rel := rel) (by dsimp only; rw [h1]; simp))
  | @removeRetry m log ins rem s a b h1 =>
    have e : m.states = s ::ₘ (m.postQueues.bag + ↑(a ++ b)) := by
      unfold RequestManager.states
      rw [h1, ms_middle, Multiset.singleton_add, Multiset.add_cons]
    refine ⟨[], (List.append_nil _).symm, fun t ht => .inl ?_, ⟨[], (List.append_nil _).symm, fun _ h => (by cases h)⟩,
      _, rfl, fun r hr => .inl ?_⟩
    · unfold RequestManager.states at ht
      dsimp only at ht ⊢
      rw [e, Multiset.map_cons]
      exact Multiset.mem_cons_of_mem (Multiset.mem_map_of_mem _ ht)
    · rw [List.mem_singleton] at hr
      subst hr
      dsimp only
      rw [e, Multiset.map_cons]
      exact Multiset.mem_cons_self ..

/-- The request is not in the manager and nothing has been done about it, unless it was inserted. -/
def Quiet (r : R) (c : Cfg R) : Prop :=
  r ∈ c.inserted ∨ (r ∉ c.mgr.states.map (·.request) ∧ (∀ e ∈ c.log, subject e ≠ r) ∧ r ∉ c.removed)

theorem quiet_micro {r : R} {c c' : Cfg R} (h : Quiet r c) (hm : Micro c c') : Quiet r c' := by
  obtain ⟨i, hi, h1, ⟨l, hl, h2⟩, l', hl', h3⟩ := (micro_about hm).ins
  unfold Quiet at *
  rw [hi]
  rcases h with h | ⟨q1, q2, q3⟩
  · exact .inl (List.mem_append_left _ h)
  · by_cases hr : r ∈ i
    · exact .inl (List.mem_append_right _ hr)
    · right
      refine ⟨?_, ?_, ?_⟩
      · intro hc
        obtain ⟨s, hs, rfl⟩ := Multiset.mem_map.1 hc
        rcases h1 s hs with h | h
        · exact q1 h
        · exact hr h
      · rw [hl]
        intro e he hs
        rcases List.mem_append.1 he with he | he
        · exact q2 e he hs
        · rw [← hs] at q1 hr
          rcases h2 e he with h | h
          · exact q1 h
          · exact hr h
      · rw [hl']
        intro hc
        rcases List.mem_append.1 hc with hc | hc
        · exact q3 hc
        · rcases h3 r hc with h | h
          · exact q1 h
          · exact hr h

/-! ### The id a request is posted with -/

variable [DecidableEq R]

theorem idsOf_append (r : R) (a b : List (LogEntry R)) : idsOf r (a ++ b) = idsOf r a ++ idsOf r b :=
  List.flatMap_append

theorem latestId_same {r : R} {a b : List (LogEntry R)} (h : idsOf r b = []) : latestId r (a ++ b) = latestId r a := by
  unfold latestId
  rw [idsOf_append, h, List.append_nil]

theorem latestId_new {r : R} {a b : List (LogEntry R)} {id : MessageId} (h : idsOf r b = [id]) :
    latestId r (a ++ b) = some id := by
  unfold latestId
  rw [idsOf_append, h, List.getLast?_append]
  rfl

theorem idsOf_moved (r : R) (l : List (RequestState R)) :
    idsOf r (l.map fun s => .newId s.request s.messageId) =
      (l.filter fun s => s.request = r).map (·.messageId) := by
  induction l with
  | nil => rfl
  | cons s l ih =>
    show (if s.request = r then [s.messageId] else []) ++ idsOf r _ = _
    rw [ih, List.filter_cons]
    by_cases h : s.request = r <;> simp [h]

/-- Requests have the ids last drawn for them. -/
def Latest (S : Multiset (RequestState R)) (r : R) (log : List (LogEntry R)) : Prop :=
  ∀ s ∈ S, s.request = r → latestId r log = some s.messageId

theorem count_cons_one {S : Multiset (RequestState R)} {s : RequestState R} {r : R}
    (h : ((s ::ₘ S).map (·.request)).count r ≤ 1) (hs : s.request = r) : ∀ t ∈ S, t.request ≠ r := by
  intro t ht he
  rw [Multiset.map_cons, hs, Multiset.count_cons_self] at h
  have : 0 < (S.map (·.request)).count r := Multiset.count_pos.2 (Multiset.mem_map.2 ⟨t, ht, he⟩)
  omega

theorem Latest.fresh {S : Multiset (RequestState R)} {s : RequestState R} {r : R} {log : List (LogEntry R)}
    (h : Latest S r log) (hc : ((s ::ₘ S).map (·.request)).count r ≤ 1) {id : MessageId} (hs : s.messageId = id)
    {r' : R} (hr : s.request = r') : Latest (s ::ₘ S) r (log ++ [.newId r' id]) := by
  intro t ht he
  by_cases hsr : s.request = r
  · have : t = s := by
      rcases Multiset.mem_cons.1 ht with rfl | ht
      · rfl
      · exact absurd he (count_cons_one hc hsr t ht)
    subst this
    rw [latestId_new (id := id), hs]
    show (if r' = r then [id] else []) ++ [] = [id]
    rw [if_pos (hr.symm.trans he)]; rfl
  · have hne : r' ≠ r := fun h => hsr (hr.trans h)
    rw [latestId_same]
    · rcases Multiset.mem_cons.1 ht with rfl | ht
      · exact absurd he hsr
      · exact h t ht he
    · show (if r' = r then [id] else []) ++ [] = []
      rw [if_neg hne]; rfl

theorem Latest.le {S S' : Multiset (RequestState R)} {r : R} {log : List (LogEntry R)} (h : Latest S r log)
    (hl : S' ≤ S) : Latest S' r log := fun s hs => h s (Multiset.mem_of_le hl hs)

theorem Latest.same {S : Multiset (RequestState R)} {s s' : RequestState R} {r : R} {log : List (LogEntry R)}
    (h : Latest (s ::ₘ S) r log) (h1 : s'.messageId = s.messageId) (h2 : s'.request = s.request) :
    Latest (s' ::ₘ S) r log := by
  intro t ht he
  rcases Multiset.mem_cons.1 ht with rfl | ht
  · rw [h1]; exact h s (Multiset.mem_cons_self ..) (h2.symm.trans he)
  · exact h t (Multiset.mem_cons_of_mem ht) he

theorem Latest.log {S : Multiset (RequestState R)} {r : R} {log l : List (LogEntry R)} (h : Latest S r log)
    (hl : idsOf r l = []) : Latest S r (log ++ l) := fun s hs he => by
  rw [latestId_same hl]; exact h s hs he

theorem count_change {S : Multiset (RequestState R)} {s s' : RequestState R} {r : R}
    (h : ((s ::ₘ S).map (·.request)).count r ≤ 1) (hs : s'.request = s.request) :
    ((s' ::ₘ S).map (·.request)).count r ≤ 1 := by
  rw [Multiset.map_cons, hs, ← Multiset.map_cons (f := fun s : RequestState R => s.request)]; exact h

theorem latest_retry {m m' : RequestManager R} {s : RequestState R} {l log : List (LogEntry R)} {r : R}
    (h : Retry m s m' l) (hc : ((s ::ₘ m.states).map (·.request)).count r ≤ 1)
    (hl : Latest m.states r log) (hs : s.attemptsRemaining = 0 ∨ Latest (s ::ₘ m.states) r log) :
    Latest m'.states r (log ++ l) := by
  obtain ⟨-, ⟨rfl, rfl, h1, h2⟩ | ⟨s1, l1, rel, s2, l2, h0, rfl, h1, h2, -, h3, h4, h5, -⟩⟩ := retry_states h
  · exact hl.log rfl
  · have hS : m'.states = s2 ::ₘ m.states := by
      unfold RequestManager.states
      rw [h3, h4, Multiset.cons_add]
    rw [hS, ← List.append_assoc]
    have e1 : s1.request = s.request := by cases h1 <;> rfl
    have k1 : Latest (s1 ::ₘ m.states) r (log ++ l1) := by
      cases h1 with
      | attempt ha =>
        rw [List.append_nil]
        rcases hs with hs | hs
        · omega
        · exact hs.same rfl rfl
      | destination _ _ _ => exact hl.fresh (count_change hc e1) rfl rfl
    cases h2 with
    | unbound _ => rw [List.append_nil]; exact k1
    | bound _ _ _ => rw [List.append_nil]; exact k1
    | moved _ _ =>
      have k2 := k1.le (Multiset.le_cons_self ..)
      exact Latest.fresh k2 (count_change hc (by exact e1)) (by rfl) (by rfl)

/-- A request inserted once has the id last drawn for it. -/
def LatestIn (r : R) (c : Cfg R) : Prop :=
  Kept c ∧ (c.inserted.count r ≤ 1 → Latest c.mgr.states r c.log)

theorem states_count {c : Cfg R} (h : Kept c) (r : R) : (c.mgr.states.map (·.request)).count r ≤ c.inserted.count r := by
  rw [← Multiset.coe_count, ← h]
  simp only [Multiset.count_add]
  omega

theorem latest_micro {r : R} {c c' : Cfg R} (h : LatestIn r c) (hm : Micro c c') : LatestIn r c' := by
  obtain ⟨hk, h⟩ := h
  refine ⟨kept_micro hk hm, fun hcount => ?_⟩
  cases hm with
  | @requeue m log ins rem rel s rest i n d t met h1 h2 h3 h4 h5 h6 =>
    have h := h hcount
    unfold RequestManager.states at h ⊢
    dsimp only at h ⊢
    rw [PostQueues.bag_pop h1, Multiset.cons_add] at h
    rw [PostQueues.bag_push, Multiset.cons_add]
    exact Latest.log (h.same (by rfl) (by rfl)) (by rfl)
  | @wait m log ins rem rel s rest i d t met h1 h2 h3 h4 h5 h6 =>
    have h := h hcount
    unfold RequestManager.states at h ⊢
    dsimp only at h ⊢
    rw [PostQueues.bag_pop h1, Multiset.cons_add] at h
    rw [insertSorted_bag, Multiset.add_cons]
    exact Latest.log (h.same (by rfl) (by rfl)) (by rfl)
  | refused h1 h2 => exact (h hcount).log rfl
  | @failed m log ins rem rel s rest i e h1 h2 =>
    refine ((h hcount).le ?_).log rfl
    unfold RequestManager.states
    dsimp only
    rw [PostQueues.bag_pop h1, Multiset.cons_add]
    exact Multiset.le_cons_self ..
  | @pop m log ins rem s rest m' l h1 h2 h3 =>
    have h := h hcount
    have hsc := (states_count hk r).trans hcount
    dsimp only at h hsc
    have e : m.states = s ::ₘ RequestManager.states { m with retryQueue := rest, nextRetryDeadlineChanged := true } := by
      unfold RequestManager.states
      dsimp only
      rw [h1, ← Multiset.cons_coe, Multiset.add_cons]
    rw [e] at h hsc
    exact latest_retry h3 hsc (h.le (Multiset.le_cons_self ..)) (.inr h)
  | @insert m log ins rem s m' l h1 h2 h3 h4 h5 =>
    dsimp only at hcount h
    have hsc := states_count hk r
    dsimp only at hsc
    rw [List.count_append] at hcount
    refine latest_retry h5 ?_ (h (by omega)) (.inl h3)
    rw [Multiset.map_cons, Multiset.count_cons]
    rw [List.count_singleton] at hcount
    by_cases hr : s.request = r
    · simp only [hr, beq_self_eq_true, if_true] at hcount ⊢
      omega
    · rw [if_neg (fun h => hr h.symm)]
      omega
  | @update m log ins rem status moved h1 h2 =>
    obtain ⟨x, rest, e1, e2, -, e3⟩ := update_bag h2
    have h := h hcount
    have hsc := (states_count hk r).trans hcount
    dsimp only at h hsc ⊢
    unfold RequestManager.states at h hsc ⊢
    dsimp only
    rw [e2]
    rw [e1] at h hsc
    have hx : x.map (·.request) = moved.map (·.request) := by
      clear e1 e2 h2 h hsc hcount hk
      induction e3 with
      | nil => rfl
      | @cons a b x moved hab _ ih =>
        rw [List.map_cons, List.map_cons, ih, show b.request = a.request by rw [hab]; rfl]
    have hsc' : ((↑moved + (rest + ↑m.retryQueue) : Multiset (RequestState R)).map (·.request)).count r ≤ 1 := by
      rw [Multiset.map_add, Multiset.map_coe, ← hx, ← Multiset.map_coe, ← Multiset.map_add, ← add_assoc]
      exact hsc
    intro s hs hr
    rw [add_assoc] at hs
    rcases Multiset.mem_add.1 hs with hs | hs'
    · rw [latestId_new (id := s.messageId)]
      rw [idsOf_moved]
      obtain ⟨a, b, rfl⟩ := List.append_of_mem hs
      have e : ((↑(a ++ s :: b) : Multiset (RequestState R)) + (rest + ↑m.retryQueue)) =
          s ::ₘ ((↑(a ++ b) : Multiset (RequestState R)) + (rest + ↑m.retryQueue)) := by
        rw [ms_middle, Multiset.singleton_add, Multiset.cons_add]
      rw [e] at hsc'
      have ho := count_cons_one hsc' hr
      have none : ∀ t ∈ a ++ b, t.request ≠ r := fun t ht => ho t (Multiset.mem_add.2 (.inl ht))
      rw [List.filter_append, List.filter_cons, if_pos (by simpa using hr)]
      rw [List.filter_eq_nil_iff.2 fun t ht => by simpa using none t (List.mem_append_left _ ht),
        List.filter_eq_nil_iff.2 fun t ht => by simpa using none t (List.mem_append_right _ ht)]
      rfl
    · rw [latestId_same]
      · refine h s ?_ hr
        rw [add_assoc]
        exact Multiset.mem_add.2 (.inr hs')
      · rw [idsOf_moved, List.filter_eq_nil_iff.2 ?_]
        · rfl
        · intro t ht he
          have he : t.request = r := by simpa using he
          obtain ⟨a, b, rfl⟩ := List.append_of_mem ht
          have e : ((↑(a ++ t :: b) : Multiset (RequestState R)) + (rest + ↑m.retryQueue)) =
              t ::ₘ ((↑(a ++ b) : Multiset (RequestState R)) + (rest + ↑m.retryQueue)) := by
            rw [ms_middle, Multiset.singleton_add, Multiset.cons_add]
          rw [e] at hsc'
          exact count_cons_one hsc' he s (Multiset.mem_add.2 (.inr hs')) hr
  | @remove m log ins rem rel s a b h1 =>
    refine (h hcount).le ?_
    unfold RequestManager.states
    dsimp only
    rw [PostQueues.bag_split h1, Multiset.cons_add]
    exact Multiset.le_cons_self ..
  | @removeRetry m log ins rem s a b h1 =>
    refine (h hcount).le ?_
    unfold RequestManager.states
    dsimp only
    rw [h1, ms_middle, Multiset.singleton_add, Multiset.add_cons]
    exact Multiset.le_cons_self ..

end Mixnet
