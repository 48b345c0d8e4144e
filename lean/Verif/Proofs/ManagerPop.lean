import Verif.Proofs.ManagerPanics
/-!
# Posting leaves the retry queue alone, but for adding to it; the queues after processing
-/
namespace Mixnet
open Spec
variable {R Ctx : Type} {C : Crypto} {T : RequestTrait R Ctx} {ns : NetworkStatus} {ctx : Ctx}

/-- `l` is still waiting. -/
def Waits (l : Multiset (RequestState R)) (w : Work R) : Prop := l ≤ ↑w.mgr.retryQueue

theorem postNext_waits {rel : Option RelSessionIndex} {relOrDefault : RelSessionIndex} {si : Option SessionIndex}
    {i : SessionIndex} {w w' : Work R} {again : Bool} {l : Multiset (RequestState R)} (hl : Waits l w)
    (h : Work.postNext C T ns ctx rel relOrDefault si i w = .ok (again, w')) : Waits l w' := by
  unfold Work.postNext at h
  split at h
  · cases h; exact hl
  · rename_i s rest hq
    dsimp only at h
    rw [res_bind_eq_ok] at h
    obtain ⟨_, -, h⟩ := h
    rw [res_bind_eq_ok] at h
    obtain ⟨⟨n', d', res⟩, -, h⟩ := h
    dsimp only at h
    split at h
    · split at h
      · cases h; exact hl
      · cases h
        unfold Waits Work.insertRetry at *
        dsimp only at *
        refine le_trans hl ?_
        refine le_trans (Multiset.le_cons_self _ _) (le_of_eq (insertSorted_bag _ _).symm)
    · cases h; exact hl
    · cases h; exact hl

theorem postLoop_waits {rel : Option RelSessionIndex} {relOrDefault : RelSessionIndex} {si : Option SessionIndex}
    {i : SessionIndex} {l : Multiset (RequestState R)} : ∀ {n : Nat} {w w' : Work R}, Waits l w →
    Work.postLoop C T ns ctx rel relOrDefault si i n w = .ok (some w') → Waits l w'
  | 0, _, _, _, h => by cases h
  | n + 1, w, w', hl, h => by
    unfold Work.postLoop at h
    rw [res_bind_eq_ok] at h
    obtain ⟨⟨again, w1⟩, h1, h⟩ := h
    have hl1 := postNext_waits hl h1
    dsimp only at h
    split at h
    · exact postLoop_waits hl1 h
    · cases h; exact hl1

theorem processPostQueue_waits {rel : Option RelSessionIndex} {w w' : Work R} {l : Multiset (RequestState R)}
    (hl : Waits l w) (h : w.processPostQueue C T ns ctx rel = .ok w') : Waits l w' := by
  unfold Work.processPostQueue at h
  dsimp only at h
  split at h
  · rw [res_bind_eq_ok] at h
    obtain ⟨_, -, h⟩ := h
    cases h; exact hl
  · rw [res_bind_eq_ok] at h
    obtain ⟨session, -, h⟩ := h
    rw [res_bind_eq_ok] at h
    obtain ⟨i, -, h⟩ := h
    rw [res_bind_eq_ok] at h
    obtain ⟨o, h3, h⟩ := h
    cases o with
    | none => cases h
    | some w1 => cases h; exact postLoop_waits hl h3

theorem enqueue_waits {w w' : Work R} {s : RequestState R} {l : Multiset (RequestState R)}
    (hl : Waits l w) (h : w.enqueue C T ns ctx s = .ok w') : Waits l w' := by
  unfold Work.enqueue at h
  rw [res_bind_eq_ok] at h
  obtain ⟨_, -, h⟩ := h
  dsimp only at h
  obtain ⟨env', l2, e1, e2⟩ := retrySession_spec w { s with postsRemaining := w.mgr.config.numPostsPerAttempt - 1 }
  obtain ⟨x, hx⟩ : ∃ x, w.retrySession { s with postsRemaining := w.mgr.config.numPostsPerAttempt - 1 } = x := ⟨_, rfl⟩
  rw [hx] at e1 h
  obtain ⟨rel, s2, w1⟩ := x
  dsimp only at e1 h
  subst e1
  split at h
  · rw [res_bind_eq_ok] at h
    obtain ⟨w2, h2, h⟩ := h
    have hl1 : Waits l (Work.setQueue ⟨w.mgr, w.mixnet, env', w.log ++ l2⟩ rel
        (Work.queue ⟨w.mgr, w.mixnet, env', w.log ++ l2⟩ rel ++ [s2])) := hl
    have := processPostQueue_waits hl1 h2
    split at h
    · exact processPostQueue_waits this h
    · cases h; exact this
  · cases h; exact hl

theorem retry_waits {w w' : Work R} {s : RequestState R} {l : Multiset (RequestState R)}
    (hl : Waits l w) (h : w.retry C T ns ctx s = .ok w') : Waits l w' := by
  unfold Work.retry at h
  rw [res_bind_eq_ok] at h
  obtain ⟨_, -, h⟩ := h
  split at h
  · exact enqueue_waits hl h
  · split at h
    · cases h; exact hl
    · rw [res_bind_eq_ok] at h
      obtain ⟨_, -, h⟩ := h
      refine enqueue_waits (w := (w.newDestination _ w.mgr.createdAt).2) ?_ h
      exact hl

theorem pop_waits {m m' : RequestManager R} {mixnet mixnet' : Node} {env : Env} {log : List (LogEntry R)}
    {out : ManagerOutcome R} (h : m.step C T mixnet env ns ctx .popNextRetry = .ok (m', mixnet', log, out)) :
    out = .popped (!m.retryQueue.isEmpty) ∧
      (↑m.retryQueue.tail : Multiset (RequestState R)) ≤ (↑m'.retryQueue : Multiset (RequestState R)) := by
  unfold RequestManager.step at h
  dsimp only at h
  rw [res_bind_eq_ok] at h
  obtain ⟨⟨w, b⟩, h1, h⟩ := h
  cases h
  refine ⟨by rw [(popNextRetry_micros h1 [] []).2], ?_⟩
  unfold Work.popNextRetry at h1
  dsimp only at h1
  obtain ⟨q, hq⟩ : ∃ q, m.retryQueue = q := ⟨_, rfl⟩
  rw [hq] at h1 ⊢
  cases q with
  | nil => exact Multiset.zero_le _
  | cons s rest =>
    dsimp only at h1
    rw [res_bind_eq_ok] at h1
    obtain ⟨w2, h2, h1⟩ := h1
    cases h1
    exact retry_waits (le_refl _) h2

/-- What `process_post_queues` leaves in a queue. -/
theorem processPostQueues_left {w w' : Work R} (h : w.processPostQueues C T ns ctx = .ok w')
    (rel : Option RelSessionIndex) :
    w'.queue rel = [] ∨
      (rel.getD w.mgr.sessionStatus.phase.defaultRequestSession = .prev ∧ w.mgr.sessionStatus.currentIndex = 0) ∨
      ∃ (s : RequestState R) (rest : List (RequestState R)) (i : SessionIndex) (l1 l2 : List (LogEntry R)),
        w'.queue rel = s :: rest ∧ w.mgr.PostsIn rel i ∧
        w'.log = w.log ++ l1 ++ [.post s.request i s.destinationIndex s.messageId s.destinationIndex
          (.error .notEnoughSpaceInQueue)] ++ l2 := by
  unfold Work.processPostQueues at h
  rw [res_bind_eq_ok] at h
  obtain ⟨w1, h1, h⟩ := h
  rw [res_bind_eq_ok] at h
  obtain ⟨w2, h2, h⟩ := h
  obtain ⟨-, a2, -, a4, la, a5, a6⟩ := processPostQueue_micros h1 [] []
  obtain ⟨-, b2, -, b4, lb, b5, b6⟩ := processPostQueue_micros h2 [] []
  obtain ⟨-, c2, -, c4, lc, c5, c6⟩ := processPostQueue_micros h [] []
  have key : ∀ {wa wb : Work R} {l : List (LogEntry R)} {rel : Option RelSessionIndex} (pre post : List (LogEntry R)),
      wa.mgr.sessionStatus = w.mgr.sessionStatus → wa.log = w.log ++ pre →
      w'.log = wb.log ++ post → w'.queue rel = wb.queue rel →
      wb.log = wa.log ++ l → 
      ((wa.mgr.NoSession rel ∧ wb = wa) ∨ (∃ i, wa.mgr.PostsIn rel i ∧
            (wb.queue rel = [] ∨ ∃ s rest, wb.queue rel = s :: rest ∧ Refused rel i s l))) →
      w'.queue rel = [] ∨
      (rel.getD w.mgr.sessionStatus.phase.defaultRequestSession = .prev ∧ w.mgr.sessionStatus.currentIndex = 0) ∨
      ∃ (s : RequestState R) (rest : List (RequestState R)) (i : SessionIndex) (l1 l2 : List (LogEntry R)),
        w'.queue rel = s :: rest ∧ w.mgr.PostsIn rel i ∧
        w'.log = w.log ++ l1 ++ [.post s.request i s.destinationIndex s.messageId s.destinationIndex
          (.error .notEnoughSpaceInQueue)] ++ l2 := by
    intro wa wb l rel pre post hs hpre hpost hq hl hcase
    rcases hcase with ⟨hn, -⟩ | ⟨i, hi, he | ⟨s, rest, he, a, rfl⟩⟩
    · refine .inr (.inl ?_)
      unfold RequestManager.NoSession at hn
      rw [hs] at hn
      exact hn
    · exact .inl (hq.trans he)
    · refine .inr (.inr ⟨s, rest, i, pre ++ a, post, hq.trans he, ?_, ?_⟩)
      · unfold RequestManager.PostsIn at hi ⊢
        rw [hs] at hi
        exact hi
      · rw [hpost, hl, hpre]
        simp only [List.append_assoc]
  rcases rel with _ | _ | _
  · refine key [] (lb ++ lc) rfl (by simp) (by rw [c5, b5]; simp) ?_ a5 a6
    rw [c4 none (by simp) (by unfold RequestManager.nextQueue; simp), b4 none (by simp) (by unfold RequestManager.nextQueue; simp)]
  · refine key la lc a2 a5 c5 ?_ b5 b6
    rw [c4 _ (by simp) (by unfold RequestManager.nextQueue; simp)]
  · refine key (la ++ lb) [] (by rw [b2, a2]) (by rw [b5, a5]; simp) (by simp) rfl c5 c6

/-- The loop of `process_post_queue` ends: more iterations change nothing. -/
theorem postLoop_mono {rel : Option RelSessionIndex} {relOrDefault : RelSessionIndex} {si : Option SessionIndex}
    {i : SessionIndex} : ∀ {n k : Nat} {w : Work R},
    Work.postLoop C T ns ctx rel relOrDefault si i n w ≠ .ok none →
    Work.postLoop C T ns ctx rel relOrDefault si i (n + k) w = Work.postLoop C T ns ctx rel relOrDefault si i n w
  | 0, _, _, h => absurd rfl h
  | n + 1, k, w, h => by
    rw [show n + 1 + k = (n + k) + 1 by omega]
    unfold Work.postLoop at h ⊢
    obtain ⟨x, hx⟩ : ∃ x, Work.postNext C T ns ctx rel relOrDefault si i w = x := ⟨_, rfl⟩
    rw [hx] at h ⊢
    cases x with
    | error p => rfl
    | ok x =>
      obtain ⟨again, w1⟩ := x
      rw [res_bind_ok] at h ⊢
      dsimp only at h ⊢
      cases again with
      | false => rfl
      | true => exact postLoop_mono h

end Mixnet
