import Verif.Spec.Punctual
import Verif.Spec.ManagerWorld
import Verif.Props.RequestManager
import Verif.Proofs.ManagerKeeps
/-!
# C99: a request that waits for a retry is left alone until it is due
-/
namespace Mixnet.Props
open Mixnet Spec

variable {R Ctx : Type} {C : Crypto} {T : RequestTrait R Ctx} {config : RequestManagerConfig} {now t : Nat}
  {calls calls' : List (ManagerCall R)} {outs outs' : List (ManagerOutcome R)} {log log' : List (LogEntry R)} {m m' m0 : RequestManager R}

/-- `Punctual` is `RequestManager.Runs`. -/
theorem punctual_runs (h : Punctual C T t m calls outs log m') : RequestManager.Runs C T m calls outs log m' := by
  induction h with
  | nil m => exact .nil m
  | cons _ _ h1 _ ih => exact .cons h1 ih

theorem punctual_later {t' : Nat} (ht : t ≤ t') (h : Punctual C T t m calls outs log m') : Punctual C T t' m calls outs log m' := by
  induction h with
  | nil m => exact .nil m
  | cons h1 h2 h3 _ ih => exact .cons (Nat.lt_of_lt_of_le h1 ht) h2 h3 ih

theorem runs_then (h : RequestManager.Runs C T m0 calls outs log m) (h' : RequestManager.Runs C T m calls' outs' log' m') :
    RequestManager.Runs C T m0 (calls ++ calls') (outs ++ outs') (log ++ log') m' := by
  induction h with
  | nil m => exact h'
  | cons h1 _ ih => rw [List.append_assoc]; exact .cons h1 (ih h')

/-- C99: if a request waits for a retry with the same number of attempts left before and after some calls, no post with its message id was
tried in these calls. -/
theorem waiting_not_posted (h : Reached C T config now calls outs log m) (h' : RequestManager.Runs C T m calls' outs' log' m')
    (hd : (drawn (log ++ log')).Nodup) {w : RequestState R} (hw : w ∈ m.retryQueue) {w' : RequestState R} (hw' : w' ∈ m'.retryQueue)
    (hid : w'.messageId = w.messageId) (hat : w'.attemptsRemaining = w.attemptsRemaining) : w' = w ∧ Unposted w.messageId log' := by
  obtain ⟨hc, hI⟩ := ids_reached h (nodup_prefix hd)
  have mem : ∀ {m : RequestManager R} {s}, s ∈ m.retryQueue → s ∈ m.states := by
    intro m s hs
    unfold RequestManager.states
    exact Multiset.mem_add.2 (.inr (Multiset.mem_coe.2 hs))
  have hdw := hI.drawn w (mem hw)
  have := manager_induction
    (P := fun c => (drawn c.log).Nodup → Ids c.mgr.createdAt c.mgr.states c.log ∧ w.messageId ∈ drawn c.log ∧ log.length ≤ c.log.length ∧
      Keeps log.length w c)
    (fun c c' hi hm hd => by
      obtain ⟨l, hl⟩ : ∃ l, c'.log = c.log ++ l := by
        cases hm with
        | remove _ => exact ⟨[], (List.append_nil _).symm⟩
        | removeRetry _ => exact ⟨[], (List.append_nil _).symm⟩
        | _ => exact ⟨_, rfl⟩
      have hd0 : (drawn c.log).Nodup := by rw [hl] at hd; exact nodup_prefix hd
      obtain ⟨i1, i2, i3, i4⟩ := hi hd0
      refine ⟨ids_micro hm (fun _ => i1) hd, ?_, ?_, keeps_micro hm hd i1 i2 i3 i4⟩
      · rw [hl, drawn_append]; exact List.mem_append_left _ i2
      · rw [hl, List.length_append]; omega)
    (fun _ _ _ _ _ h => h) h' log [] [] (fun _ => ⟨hc ▸ hI, hdw, le_refl _, .inl ⟨hw, by
      dsimp only; rw [List.drop_length]; exact Silent.nil⟩⟩)
  obtain ⟨i1, -, -, i4⟩ := this hd
  dsimp only at i1 i4
  rcases i4 with ⟨a1, a2⟩ | h
  · refine ⟨?_, ?_⟩
    · exact Multiset.inj_on_of_nodup_map i1.nodup _ (mem hw') _ (mem a1) hid
    · dsimp only at a2
      rw [List.drop_left] at a2
      exact a2
  · exact absurd (h w' (mem hw') hid) (by omega)

theorem processPostQueues_waits {ns : NetworkStatus} {ctx : Ctx} {w w' : Work R} {l : Multiset (RequestState R)}
    (hl : Waits l w) (h : w.processPostQueues C T ns ctx = .ok w') : Waits l w' := by
  unfold Work.processPostQueues at h
  rw [res_bind_eq_ok] at h
  obtain ⟨w1, h1, h⟩ := h
  rw [res_bind_eq_ok] at h
  obtain ⟨w2, h2, h⟩ := h
  exact processPostQueue_waits (processPostQueue_waits (processPostQueue_waits hl h1) h2) h

/-- One call leaves alone a request that waits, unless it removes it, or pops it as the first. -/
theorem step_waits {mixnet mixnet' : Node} {env : Env} {ns : NetworkStatus} {ctx : Ctx} {call : ManagerCall R} {out : ManagerOutcome R}
    (h : m.step C T mixnet env ns ctx call = .ok (m', mixnet', log, out)) {w : RequestState R} (hw : w ∈ m.retryQueue)
    (hr : call ≠ .remove w.messageId) (hp : call = .popNextRetry → m.retryQueue.head? ≠ some w) : w ∈ m'.retryQueue := by
  have one : ∀ {x : Work R}, Waits {w} x → w ∈ x.mgr.retryQueue := fun h => Multiset.mem_coe.1 (Multiset.singleton_le.1 h)
  have start : Waits {w} (⟨m, mixnet, env, []⟩ : Work R) := Multiset.singleton_le.2 hw
  cases call with
  | updateSessionStatus =>
    unfold RequestManager.step at h
    rw [res_bind_eq_ok] at h
    obtain ⟨w1, h1, h⟩ := h
    cases h
    refine one ?_
    unfold Work.updateSessionStatus at h1
    dsimp only at h1
    by_cases hs : m.sessionStatus = mixnet.sessionStatus
    · rw [if_pos (by simpa using hs)] at h1
      cases h1; exact start
    · rw [if_neg (by simpa using hs)] at h1
      obtain ⟨env', e1, -⟩ := newDestinations_spec
        (ss := (Work.moveQueues m.postQueues m.sessionStatus mixnet.sessionStatus).default.drop
          m.postQueues.default.length) (w := ⟨m, mixnet, env, []⟩) (past := m.createdAt)
      rw [e1] at h1
      refine processPostQueues_waits ?_ h1
      exact start
  | insert r =>
    unfold RequestManager.step at h
    rw [res_bind_eq_ok] at h
    obtain ⟨w1, h1, h⟩ := h
    cases h
    unfold Work.insert at h1
    rw [res_bind_eq_ok] at h1
    obtain ⟨_, -, h1⟩ := h1
    refine one (retry_waits ?_ h1)
    exact start
  | remove id =>
    have hc := remove_cases m id
    have h : (Except.ok ((m.remove id).1, mixnet, [], ManagerOutcome.removed (m.remove id).2) : Res _) =
      .ok (m', mixnet', log, out) := h
    generalize m.remove id = x at hc h
    obtain ⟨m1, o⟩ := x
    cases h
    dsimp only at hc
    cases hc with
    | post _ _ => exact hw
    | @retry s a b h1 h2 =>
      dsimp only
      rw [h1] at hw
      rcases List.mem_append.1 hw with hw | hw
      · exact List.mem_append_left _ hw
      · rcases List.mem_cons.1 hw with rfl | hw
        · exact absurd (by rw [h2]) hr
        · exact List.mem_append_right _ hw
    | none _ _ => exact hw
  | processPostQueues =>
    unfold RequestManager.step at h
    rw [res_bind_eq_ok] at h
    obtain ⟨w1, h1, h⟩ := h
    cases h
    exact one (processPostQueues_waits start h1)
  | popNextRetry =>
    have := (pop_waits h).2
    have hp := hp rfl
    cases hq : m.retryQueue with
    | nil => rw [hq] at hw; cases hw
    | cons s rest =>
      rw [hq] at hw hp this
      rcases List.mem_cons.1 hw with rfl | hw
      · exact absurd rfl hp
      · exact Multiset.mem_coe.1 (Multiset.mem_of_le this (Multiset.mem_coe.2 hw))
  | nextRetryDeadlineChanged =>
    cases h
    exact hw

/-- **C99.** A request waits for a retry. The user removes it at no time, calls anything else in any order, and pops a retry only when the
deadline the manager tells has come. Before the deadline of the request, it still waits, and no post with its message id was tried. -/
theorem waits_until_due (h : Reached C T config now calls outs log m) {w : RequestState R} (hw : w ∈ m.retryQueue)
    (h' : Punctual C T w.retryDeadline m calls' outs' log' m') (hr : .remove w.messageId ∉ calls') :
    w ∈ m'.retryQueue ∧ ((drawn (log ++ log')).Nodup → Unposted w.messageId log') := by
  have key : w ∈ m'.retryQueue := by
    generalize ht : w.retryDeadline = t at h'
    induction h' generalizing calls outs log with
    | nil m => exact hw
    | @cons m call now1 mixnet env ns ctx m1 mixnet' log1 out calls1 outs1 logs m'' h1 h2 h3 h4 ih =>
      refine ih (runs_then h (.cons h3 (.nil _))) ?_ (fun hc => hr (List.mem_cons_of_mem _ hc))
      refine step_waits h3 hw (fun hc => hr (hc ▸ List.mem_cons_self)) ?_
      intro hc he
      obtain ⟨d, hd, hle⟩ := h2 hc
      unfold RequestManager.nextRetryDeadline at hd
      rw [he] at hd
      cases hd
      dsimp only at hle
      omega
  exact ⟨key, fun hd => (waiting_not_posted h (punctual_runs h') hd hw key rfl rfl).2⟩

end Mixnet.Props

namespace Mixnet.World
open Spec Props

/-- Requests 7 and 8 are inserted; 7 is tried again. -/
def punctualRes : Res ((RequestManager Nat × List (ManagerOutcome Nat) × List (LogEntry Nat)) ×
    (RequestManager Nat × List (ManagerOutcome Nat) × List (LogEntry Nat))) := do
  let a ← runManager alice (.new mgrConfig 5) 0 [.updateSessionStatus, .insert 7, .insert 8]
  let b ← runManager alice a.1 3 [.popNextRetry]
  .ok (a, b)

def goodPunctual (x : (RequestManager Nat × List (ManagerOutcome Nat) × List (LogEntry Nat)) ×
    (RequestManager Nat × List (ManagerOutcome Nat) × List (LogEntry Nat))) : Bool :=
  match x.1.1.retryQueue with
  | [s, w] => decide (s.request = 7 ∧ w.request = 8 ∧ s.retryDeadline < w.retryDeadline ∧ Spec.posted x.2.2.2 = [7] ∧
      (drawn (x.1.2.2 ++ x.2.2.2)).Nodup)
  | _ => false

theorem punctual_ok : (match punctualRes with | .ok a => goodPunctual a | .error _ => false) = true := by decide +kernel

theorem punctual_good : ∃ x, punctualRes = .ok x ∧ goodPunctual x = true := by
  have h := punctual_ok
  generalize punctualRes = x at h
  cases x with
  | error e => cases h
  | ok t => exact ⟨t, rfl, h⟩

attribute [local irreducible] RequestManager.step in
/-- All the hypotheses of `waits_until_due` are met: when request 7 is due and is posted again, request 8 still waits. -/
example : ∃ (m m' : RequestManager Nat) (w : RequestState Nat) (outs : List (ManagerOutcome Nat)) (log : List (LogEntry Nat)),
    w ∈ m.retryQueue ∧ w.request = 8 ∧ Punctual C trait w.retryDeadline m [.popNextRetry] outs log m' ∧ Spec.posted log = [7] ∧
      w ∈ m'.retryQueue ∧ Unposted w.messageId log := by
  obtain ⟨⟨⟨m, os, log⟩, ⟨m', os', log'⟩⟩, hx, hg⟩ := punctual_good
  unfold punctualRes at hx
  rw [res_bind_eq_ok] at hx
  obtain ⟨a, h1, hx⟩ := hx
  rw [res_bind_eq_ok] at hx
  obtain ⟨b, h2, hx⟩ := hx
  have hx := Except.ok.inj hx
  have e1 : a = (m, os, log) := congrArg Prod.fst hx
  have e2 : b = (m', os', log') := congrArg Prod.snd hx
  subst e1 e2
  have r1 : Reached C trait mgrConfig 5 _ _ _ _ := runManager_runs h1
  have r2 := runManager_runs h2
  dsimp only at r2
  unfold goodPunctual at hg
  dsimp only at hg
  split at hg
  · rename_i s w hq
    obtain ⟨g1, g2, g3, g4, g5⟩ := of_decide_eq_true hg
    cases r2 with
    | cons hs hrest =>
      cases hrest
      have hp : Punctual C trait w.retryDeadline m [.popNextRetry] _ _ m' :=
        .cons g3 (fun _ => ⟨_, by unfold RequestManager.nextRetryDeadline; rw [hq]; rfl, le_refl _⟩) hs
          (.nil _)
      have hw : w ∈ m.retryQueue := by rw [hq]; simp
      obtain ⟨k1, k2⟩ := waits_until_due r1 hw hp (by simp)
      refine ⟨m, m', w, _, _, hw, g2, hp, ?_, k1, k2 ?_⟩
      · simpa using g4
      · simpa using g5
  · cases hg

end Mixnet.World
