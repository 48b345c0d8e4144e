import Verif.Proofs.ManagerCount
import Verif.Proofs.Keep
/-!
# Requests are bound to the session of their queue, and no assertion of the manager fails
-/
namespace Mixnet
open Spec
variable {R Ctx : Type}

/-- The session index of a request in queue `rel`. -/
def Fits (cur : SessionIndex) : Option RelSessionIndex → Option SessionIndex → Prop
  | none, i => i = none
  | some .current, i => i = some cur
  | some .prev, i => ∃ j, i = some j ∧ j + 1 = cur

/-- A request has a destination iff it has a session. -/
def Paired (s : RequestState R) : Prop := s.sessionIndex = none ↔ s.destinationIndex = none

/-- The queue is allowed to contain something. -/
def Open (m : RequestManager R) : Option RelSessionIndex → Prop
  | none => True
  | some rel => m.sessionStatus.phase.allowRequestsAndReplies rel = true

/-- `Bound`, queue by queue. -/
def BoundQ (m : RequestManager R) : Prop :=
  (∀ rel, ∀ s ∈ m.postQueues.get rel, Fits m.sessionStatus.currentIndex rel s.sessionIndex ∧ Paired s ∧ Open m rel) ∧
  (∀ s ∈ m.retryQueue, s.sessionIndex ≠ none ∧ s.postsRemaining = 0 ∧ Paired s)

theorem bound_iff {m : RequestManager R} : Bound m ↔ BoundQ m := by
  constructor
  · intro h
    constructor
    · rintro (_ | _ | _) s hs
      · exact ⟨h.default s hs, h.destination s (by simp [show s ∈ m.postQueues.default from hs]), trivial⟩
      · refine ⟨h.current s hs, h.destination s (by simp [show s ∈ m.postQueues.current from hs]), ?_⟩
        show m.sessionStatus.phase.allowRequestsAndReplies .current = true
        by_contra hc
        have := h.currentAllowed (by simpa using hc)
        rw [show m.postQueues.get (some .current) = m.postQueues.current from rfl, this] at hs
        cases hs
      · refine ⟨h.prev s hs, h.destination s (by simp [show s ∈ m.postQueues.prev from hs]), ?_⟩
        show m.sessionStatus.phase.allowRequestsAndReplies .prev = true
        by_contra hc
        have := h.prevAllowed (by simpa using hc)
        rw [show m.postQueues.get (some .prev) = m.postQueues.prev from rfl, this] at hs
        cases hs
    · intro s hs
      exact ⟨(h.retry s hs).1, (h.retry s hs).2, h.destination s (by simp [hs])⟩
  · rintro ⟨h, h'⟩
    refine ⟨fun s hs => (h (some .current) s hs).1, fun s hs => (h (some .prev) s hs).1,
      fun s hs => (h none s hs).1, fun s hs => ⟨(h' s hs).1, (h' s hs).2.1⟩, ?_, ?_, ?_⟩
    · intro s hs
      simp only [List.mem_append] at hs
      rcases hs with ((hs | hs) | hs) | hs
      · exact (h (some .current) s hs).2.1
      · exact (h (some .prev) s hs).2.1
      · exact (h none s hs).2.1
      · exact (h' s hs).2.2
    · intro hf
      rw [List.eq_nil_iff_forall_not_mem]
      intro s hs
      have := (h (some .current) s hs).2.2
      exact absurd (hf.symm.trans this) (by simp)
    · intro hf
      rw [List.eq_nil_iff_forall_not_mem]
      intro s hs
      have := (h (some .prev) s hs).2.2
      exact absurd (hf.symm.trans this) (by simp)

theorem default_open (p : SessionPhase) : p.allowRequestsAndReplies p.defaultRequestSession = true := by
  cases p <;> rfl

theorem mem_get_set {T : Type} {q : PostQueues T} {rel rel' : Option RelSessionIndex} {l : List T} {s : T}
    (h : s ∈ (q.set rel l).get rel') : (rel' = rel ∧ s ∈ l) ∨ (rel' ≠ rel ∧ s ∈ q.get rel') := by
  by_cases hr : rel' = rel
  · subst hr
    rw [PostQueues.get_set] at h
    exact .inl ⟨rfl, h⟩
  · rw [PostQueues.get_set_ne _ (Ne.symm hr)] at h
    exact .inr ⟨hr, h⟩

theorem fits_posts {m : RequestManager R} {rel : Option RelSessionIndex} {i : SessionIndex} (h : m.PostsIn rel i) :
    Fits m.sessionStatus.currentIndex (m.nextQueue rel) (some i) := by
  unfold RequestManager.nextQueue
  rcases add_ok.1 h with ⟨h1, h2⟩ | ⟨h1, h2, h3⟩
  · rw [h1]; exact congrArg some h2
  · rw [h1]; exact ⟨i, rfl, by omega⟩

theorem fits_index {m : RequestManager R} {rel : Option RelSessionIndex} {i : SessionIndex} {x : Option SessionIndex}
    (h : m.PostsIn rel i) (hf : Fits m.sessionStatus.currentIndex rel x) : x = rel.map fun _ => i := by
  rcases rel with _ | rel
  · exact hf
  · rcases add_ok.1 h with ⟨h1, h2⟩ | ⟨h1, h2, h3⟩
    · simp only [Option.getD_some] at h1
      subst h1
      rw [h2]
      exact hf
    · simp only [Option.getD_some] at h1
      subst h1
      obtain ⟨j, rfl, hj⟩ := hf
      simp only [Option.map_some, Option.some.injEq]
      omega

theorem recount_paired {m : RequestManager R} {s s1 : RequestState R} {l : List (LogEntry R)}
    (h : Recount m s s1 l) (hs : Paired s ∨ s.attemptsRemaining = 0) : Paired s1 := by
  cases h with
  | attempt h1 =>
    rcases hs with hs | hs
    · exact hs
    · omega
  | destination h1 h2 h3 => exact ⟨fun _ => rfl, fun _ => rfl⟩

theorem place_fits {m : RequestManager R} {s s1 : RequestState R} {rel : Option RelSessionIndex} {l : List (LogEntry R)}
    (h : Place m s rel s1 l) (hs : Paired s) :
    Fits m.sessionStatus.currentIndex rel s1.sessionIndex ∧ Paired s1 ∧ Open m rel := by
  cases h with
  | unbound h => exact ⟨h, hs, trivial⟩
  | bound h1 h2 h3 =>
    refine ⟨?_, hs, h3⟩
    rw [h1]
    rcases fromSessionIndex_some.1 h2 with ⟨rfl, rfl⟩ | ⟨rfl, h⟩
    · rfl
    · exact ⟨_, rfl, h⟩
  | moved h1 h2 => exact ⟨rfl, ⟨fun _ => rfl, fun _ => rfl⟩, trivial⟩

theorem retry_bound {m m' : RequestManager R} {s : RequestState R} {l : List (LogEntry R)} (h : Retry m s m' l)
    (hb : BoundQ m) (hs : Paired s ∨ s.attemptsRemaining = 0) : BoundQ m' := by
  cases h with
  | limit _ _ => exact hb
  | again h1 h2 h3 =>
    refine ⟨?_, hb.2⟩
    intro rel' t ht
    replace ht := mem_get_set ht
    rcases ht with ⟨rfl, ht⟩ | ⟨-, ht⟩
    · rcases List.mem_append.1 ht with ht | ht
      · exact hb.1 _ t ht
      · rw [List.mem_singleton] at ht
        subst ht
        exact place_fits (m := m) h3 (recount_paired h2 hs)
    · exact hb.1 _ t ht

theorem moveQueues_from (q : PostQueues (RequestState R)) (old new : SessionStatus) :
    (∀ s ∈ (Work.moveQueues q old new).current, s ∈ q.current ∧ old.currentIndex = new.currentIndex ∧
      new.phase.allowRequestsAndReplies .current = true) ∧
    (∀ s ∈ (Work.moveQueues q old new).prev,
      ((s ∈ q.prev ∧ old.currentIndex = new.currentIndex) ∨
        (s ∈ q.current ∧ new.currentIndex = old.currentIndex + 1)) ∧
      new.phase.allowRequestsAndReplies .prev = true) := by
  unfold Work.moveQueues
  dsimp only
  split_ifs with h1 h2 h3 h4 h5 h6 h7 h8 h9 h10
  all_goals constructor
  all_goals (intro s hs; first | (simp at hs; done) | (simp_all; try omega))

theorem bound_micro {c c' : Cfg R} (hb : BoundQ c.mgr) (hm : Micro c c') : BoundQ c'.mgr := by
  cases hm with
  | @requeue m log ins rem rel s rest i n d t met h1 h2 h3 h4 h5 h6 =>
    refine ⟨?_, hb.2⟩
    intro rel' x hx
    replace hx := mem_get_set hx
    rcases hx with ⟨rfl, hx⟩ | ⟨-, hx⟩
    · rcases List.mem_append.1 hx with hx | hx
      · replace hx := mem_get_set hx
        rcases hx with ⟨he, hx⟩ | ⟨-, hx⟩
        · refine hb.1 _ x ?_
          dsimp only
          rw [he, h1]
          exact List.mem_cons_of_mem _ hx
        · exact hb.1 _ x hx
      · rw [List.mem_singleton] at hx
        subst hx
        obtain ⟨x, rfl, -⟩ := h4
        refine ⟨fits_posts h2, ⟨fun h => (by cases h), fun h => (by cases h)⟩, ?_⟩
        rcases rel with _ | rel
        · exact default_open _
        · exact (hb.1 (some rel) s (by dsimp only; rw [h1]; exact List.mem_cons_self)).2.2
    · replace hx := mem_get_set hx
      rcases hx with ⟨rfl, hx⟩ | ⟨-, hx⟩
      · refine hb.1 _ x ?_
        dsimp only
        rw [h1]
        exact List.mem_cons_of_mem _ hx
      · exact hb.1 _ x hx
  | @wait m log ins rem rel s rest i d t met h1 h2 h3 h4 h5 h6 =>
    refine ⟨?_, ?_⟩
    · intro rel' x hx
      replace hx := mem_get_set hx
      rcases hx with ⟨rfl, hx⟩ | ⟨-, hx⟩
      · refine hb.1 _ x ?_
        dsimp only
        rw [h1]
        exact List.mem_cons_of_mem _ hx
      · exact hb.1 _ x hx
    · intro x hx
      have : x ∈ (↑(insertSorted m.retryQueue (s.posted i d t)) : Multiset (RequestState R)) := hx
      rw [insertSorted_bag, Multiset.mem_cons] at this
      rcases this with rfl | this
      · obtain ⟨y, rfl, -⟩ := h4
        exact ⟨fun h => (by cases h), h5, ⟨fun h => (by cases h), fun h => (by cases h)⟩⟩
      · exact hb.2 x this
  | refused h1 h2 => exact hb
  | @failed m log ins rem rel s rest i e h1 h2 =>
    refine ⟨?_, hb.2⟩
    intro rel' x hx
    replace hx := mem_get_set hx
    rcases hx with ⟨rfl, hx⟩ | ⟨-, hx⟩
    · refine hb.1 _ x ?_
      dsimp only
      rw [h1]
      exact List.mem_cons_of_mem _ hx
    · exact hb.1 _ x hx
  | @pop m log ins rem s rest m' l h1 h2 h3 =>
    refine retry_bound h3 ⟨hb.1, ?_⟩ (.inl (hb.2 s (by dsimp only; rw [h1]; exact List.mem_cons_self)).2.2)
    intro x hx
    refine hb.2 x ?_
    dsimp only
    rw [h1]
    exact List.mem_cons_of_mem _ hx
  | @insert m log ins rem s m' l h1 h2 h3 h4 h5 => exact retry_bound h5 hb (.inr h3)
  | @update m log ins rem status moved h1 h2 =>
    obtain ⟨f1, f2⟩ := moveQueues_from m.postQueues m.sessionStatus status
    refine ⟨?_, hb.2⟩
    rintro (_ | _ | _) x hx
    · obtain ⟨y, e1, -⟩ := moveQueues_default m.postQueues m.sessionStatus status
      change x ∈ _ ++ moved at hx
      rw [e1, List.take_left] at hx
      replace hx := List.mem_append.1 hx
      rcases hx with hx | hx
      · have := hb.1 none x hx
        exact ⟨this.1, this.2.1, trivial⟩
      · obtain ⟨z, hz⟩ : ∃ z, x = RequestState.fresh z x.messageId m.createdAt := by
          clear hb f1 f2 h1 e1
          generalize (Work.moveQueues m.postQueues m.sessionStatus status).default.drop m.postQueues.default.length = l at h2
          induction h2 with
          | nil => cases hx
          | cons h _ ih =>
            rcases List.mem_cons.1 hx with rfl | hx
            · exact ⟨_, h⟩
            · exact ih hx
        rw [hz]
        exact ⟨rfl, ⟨fun _ => rfl, fun _ => rfl⟩, trivial⟩
    · obtain ⟨g1, g2, g3⟩ := f1 x hx
      have := hb.1 (some .current) x g1
      refine ⟨?_, this.2.1, g3⟩
      have h := this.1
      dsimp only at h
      rw [g2] at h
      exact h
    · obtain ⟨⟨g1, g2⟩ | ⟨g1, g2⟩, g3⟩ := f2 x hx
      · have := hb.1 (some .prev) x g1
        refine ⟨?_, this.2.1, g3⟩
        have h := this.1
        dsimp only at h
        rw [g2] at h
        exact h
      · have := hb.1 (some .current) x g1
        refine ⟨⟨_, this.1, g2.symm⟩, this.2.1, g3⟩
  | @remove m log ins rem rel s a b h1 =>
    refine ⟨?_, hb.2⟩
    intro rel' x hx
    replace hx := mem_get_set hx
    rcases hx with ⟨rfl, hx⟩ | ⟨-, hx⟩
    · refine hb.1 _ x ?_
      dsimp only
      rw [h1]
      rcases List.mem_append.1 hx with hx | hx
      · exact List.mem_append_left _ hx
      · exact List.mem_append_right _ (List.mem_cons_of_mem _ hx)
    · exact hb.1 _ x hx
  | @removeRetry m log ins rem s a b h1 =>
    refine ⟨hb.1, ?_⟩
    intro x hx
    refine hb.2 x ?_
    dsimp only at hx ⊢
    rw [h1]
    rcases List.mem_append.1 hx with hx | hx
    · exact List.mem_append_left _ hx
    · exact List.mem_append_right _ (List.mem_cons_of_mem _ hx)

theorem bound_micros {c c' : Cfg R} (hb : BoundQ c.mgr) (hm : Micros c c') : BoundQ c'.mgr := by
  induction hm with
  | refl => exact hb
  | tail _ h ih => exact bound_micro ih h

end Mixnet
