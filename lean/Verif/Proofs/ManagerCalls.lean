import Verif.Proofs.ManagerSteps
import Verif.Spec.RequestManager
/-!
# The methods of a request manager as sequences of small steps
-/
namespace Mixnet
open Spec
variable {R Ctx : Type} {C : Crypto} {T : RequestTrait R Ctx} {ns : NetworkStatus} {ctx : Ctx}

theorem processPostQueues_micros {w w' : Work R} (h : w.processPostQueues C T ns ctx = .ok w') (ins rem : List R) :
    Calms (w.cfg ins rem) (w'.cfg ins rem) ∧ w'.mgr.sessionStatus = w.mgr.sessionStatus ∧
      w'.mgr.config = w.mgr.config := by
  unfold Work.processPostQueues at h
  rw [res_bind_eq_ok] at h
  obtain ⟨w1, h1, h⟩ := h
  rw [res_bind_eq_ok] at h
  obtain ⟨w2, h2, h⟩ := h
  obtain ⟨a1, a2, a3, -⟩ := processPostQueue_micros h1 ins rem
  obtain ⟨b1, b2, b3, -⟩ := processPostQueue_micros h2 ins rem
  obtain ⟨c1, c2, c3, -⟩ := processPostQueue_micros h ins rem
  exact ⟨(a1.trans b1).trans c1, by rw [c2, b2, a2], by rw [c3, b3, a3]⟩

theorem newDestinations_spec : ∀ {ss : List (RequestState R)} {w : Work R} {past : Nat},
    ∃ env', (w.newDestinations ss past).2 =
        ⟨w.mgr, w.mixnet, env', w.log ++ (w.newDestinations ss past).1.map fun s => .newId s.request s.messageId⟩ ∧
      List.Forall₂ (fun s s' : RequestState R => s' = s.fresh s'.messageId past) ss (w.newDestinations ss past).1
  | [], w, past => ⟨w.env, by simp [Work.newDestinations], .nil⟩
  | s :: ss, w, past => by
    obtain ⟨env', h1, h2⟩ := newDestinations_spec (ss := ss) (w := (w.newDestination s past).2) (past := past)
    refine ⟨env', ?_, .cons rfl h2⟩
    show ((w.newDestination s past).2.newDestinations ss past).2 = _
    rw [h1]
    show Work.mk _ _ _ ((w.log ++ [_]) ++ _) = _
    rw [List.append_assoc]
    rfl

theorem updateSessionStatus_micros {w w' : Work R} (h : w.updateSessionStatus C T ns ctx = .ok w')
    (ins rem : List R) : w' = w ∨ (w'.mgr.sessionStatus ≠ w.mgr.sessionStatus ∧
      ∃ c, Micro (w.cfg ins rem) c ∧ Calms c (w'.cfg ins rem)) := by
  unfold Work.updateSessionStatus at h
  dsimp only at h
  split at h
  · cases h; exact .inl rfl
  · rename_i hne
    obtain ⟨env', h1, h2⟩ := newDestinations_spec
      (ss := (Work.moveQueues w.mgr.postQueues w.mgr.sessionStatus w.mixnet.sessionStatus).default.drop
        w.mgr.postQueues.default.length) (w := w) (past := w.mgr.createdAt)
    rw [h1] at h
    obtain ⟨k1, k2, -⟩ := processPostQueues_micros h ins rem
    refine .inr ⟨?_, _, Micro.update hne h2, k1⟩
    rw [k2]
    exact Ne.symm hne

theorem retrySession_spec (w : Work R) (s : RequestState R) :
    ∃ env' l, (w.retrySession s).2.2 = ⟨w.mgr, w.mixnet, env', w.log ++ l⟩ ∧
      Place w.mgr s (w.retrySession s).1 (w.retrySession s).2.1 l := by
  unfold Work.retrySession
  obtain ⟨r, dr, ar, pr, mi, si, di, rd⟩ := s
  cases si with
  | none => exact ⟨w.env, [], by simp, .unbound rfl⟩
  | some i =>
    dsimp only
    obtain ⟨o, ho⟩ : ∃ o, RelSessionIndex.fromSessionIndex i w.mgr.sessionStatus.currentIndex = o := ⟨_, rfl⟩
    rw [ho]
    cases o with
    | none =>
      dsimp only
      refine ⟨_, _, rfl, Place.moved (i := i) rfl ?_⟩
      rw [ho]; intro _ h; cases h
    | some rel =>
      dsimp only
      by_cases ha : w.mgr.sessionStatus.phase.allowRequestsAndReplies rel = true
      · rw [if_pos ha]
        exact ⟨w.env, [], by simp, .bound rfl ho ha⟩
      · rw [if_neg ha]
        refine ⟨_, _, rfl, Place.moved (i := i) rfl ?_⟩
        rw [ho]
        rintro _ ⟨⟩
        simpa using ha

/-- `enqueue` after the counters were set. `s1` has them set already. -/
theorem enqueue_spec {w w' : Work R} {s : RequestState R} (h : w.enqueue C T ns ctx s = .ok w') :
    1 ≤ w.mgr.config.numPostsPerAttempt ∧
    ∃ (rel : Option RelSessionIndex) (s2 : RequestState R) (l2 : List (LogEntry R)) (w1 : Work R), Place w.mgr { s with postsRemaining := w.mgr.config.numPostsPerAttempt - 1 } rel s2 l2 ∧
      w1.mgr = { w.mgr with postQueues := w.mgr.postQueues.set rel (w.mgr.postQueues.get rel ++ [s2]) } ∧
      w1.mixnet = w.mixnet ∧
      w1.log = w.log ++ l2 ∧ ∀ ins rem, Calms (w1.cfg ins rem) (w'.cfg ins rem) := by
  unfold Work.enqueue at h
  rw [res_bind_eq_ok] at h
  obtain ⟨_, h1, h⟩ := h
  have hp := of_decide_eq_true (assert_of_ok h1)
  refine ⟨hp, ?_⟩
  dsimp only at h
  obtain ⟨env', l2, e1, e2⟩ := retrySession_spec w { s with postsRemaining := w.mgr.config.numPostsPerAttempt - 1 }
  generalize w.retrySession { s with postsRemaining := w.mgr.config.numPostsPerAttempt - 1 } = t at h e1 e2
  obtain ⟨rel, s2, w2⟩ := t
  dsimp only at e1 e2 h
  subst e1
  refine ⟨rel, s2, l2, (Work.mk w.mgr w.mixnet env' (w.log ++ l2)).setQueue rel
      ((Work.mk w.mgr w.mixnet env' (w.log ++ l2)).queue rel ++ [s2]), e2, rfl, rfl, rfl, fun ins rem => ?_⟩
  · split at h
    · rw [res_bind_eq_ok] at h
      obtain ⟨w3, h3, h⟩ := h
      refine (processPostQueue_micros h3 ins rem).1.trans ?_
      split at h
      · exact (processPostQueue_micros h ins rem).1
      · cases h; exact .refl
    · cases h
      exact .refl

/-- `retry` of a request that is not in the manager. -/
theorem retry_spec {w w' : Work R} {s : RequestState R} (h : w.retry C T ns ctx s = .ok w') :
    s.postsRemaining = 0 ∧
    ∃ (w1 : Work R) (l : List (LogEntry R)), Retry w.mgr s w1.mgr l ∧ w1.mixnet = w.mixnet ∧ w1.log = w.log ++ l ∧
      ∀ ins rem, Calms (w1.cfg ins rem) (w'.cfg ins rem) := by
  unfold Work.retry at h
  rw [res_bind_eq_ok] at h
  obtain ⟨_, h1, h⟩ := h
  refine ⟨of_decide_eq_true (assert_of_ok h1), ?_⟩
  clear h1
  obtain ⟨r, dr, ar, pr, mi, si, di, rd⟩ := s
  dsimp only at h
  cases ar with
  | succ a =>
    dsimp only at h
    obtain ⟨hp, rel, s2, l2, w1, e1, e2, e3, e4, e5⟩ := enqueue_spec h
    refine ⟨w1, [] ++ l2, ?_, e3, e4, e5⟩
    rw [e2]
    exact .again hp (.attempt rfl) e1
  | zero =>
    cases dr with
    | zero =>
      cases h
      exact ⟨w.note (.retryLimit r), [.retryLimit r], .limit rfl rfl, rfl, rfl, fun ins rem => .refl⟩
    | succ d =>
      dsimp only at h
      rw [res_bind_eq_ok] at h
      obtain ⟨_, h2, h⟩ := h
      have ha := of_decide_eq_true (assert_of_ok h2)
      obtain ⟨hp, rel, s2, l2, w1, e1, e2, e3, e4, e5⟩ := enqueue_spec h
      refine ⟨w1, [.newId r ((w.env 0).rng.fillBytes MESSAGE_ID_SIZE).1] ++ l2, ?_, e3, ?_, e5⟩
      · rw [e2]
        exact .again hp (.destination (id := ((w.env 0).rng.fillBytes MESSAGE_ID_SIZE).1) rfl rfl ha) e1
      · rw [e4]
        show (w.log ++ [_]) ++ l2 = _
        rw [List.append_assoc]

theorem Retry.status {m m' : RequestManager R} {s : RequestState R} {l : List (LogEntry R)} (h : Retry m s m' l) :
    m'.sessionStatus = m.sessionStatus := by
  cases h <;> rfl

theorem insert_micros {w w' : Work R} {r : R} (h : w.insert C T ns ctx r = .ok w') (ins rem : List R) :
    Calms (w.cfg ins rem) (w'.cfg (ins ++ [r]) rem) := by
  unfold Work.insert at h
  rw [res_bind_eq_ok] at h
  obtain ⟨_, h1, h⟩ := h
  obtain ⟨-, w1, l, e1, e2, e3, e4⟩ := retry_spec h
  refine .head ?_ (e4 (ins ++ [r]) rem)
  have := Micro.insert (log := w.log) (ins := ins) (rem := rem) (assert_of_ok h1) rfl rfl rfl e1
  unfold Work.cfg
  rw [e3]
  exact ⟨this, e1.status⟩

theorem popNextRetry_micros {w w' : Work R} {b : Bool} (h : w.popNextRetry C T ns ctx = .ok (w', b)) (ins rem : List R) :
    Calms (w.cfg ins rem) (w'.cfg ins rem) ∧ b = !w.mgr.retryQueue.isEmpty := by
  unfold Work.popNextRetry at h
  obtain ⟨q, hq⟩ : ∃ q, w.mgr.retryQueue = q := ⟨_, rfl⟩
  rw [hq] at h ⊢
  cases q with
  | nil => cases h; exact ⟨.refl, rfl⟩
  | cons s rest =>
    dsimp only at h
    rw [res_bind_eq_ok] at h
    obtain ⟨w2, h1, h⟩ := h
    cases h
    obtain ⟨e0, w1, l, e1, e2, e3, e4⟩ := retry_spec h1
    refine ⟨.head ?_ (e4 ins rem), rfl⟩
    unfold Work.cfg
    rw [e3]
    exact ⟨Micro.pop hq e0 e1, e1.status⟩

theorem find_split {id : MessageId} {l : List (RequestState R)} {i : Nat} {s : RequestState R}
    (h : ((l.findIdx? fun s => s.messageId == id).bind fun i => l[i]?.map fun s => (i, s)) = some (i, s)) :
    s.messageId = id ∧ l = l.take i ++ s :: l.drop (i + 1) ∧ l.eraseIdx i = l.take i ++ l.drop (i + 1) ∧ i < l.length := by
  rw [Option.bind_eq_some_iff] at h
  obtain ⟨j, h1, h2⟩ := h
  rw [Option.map_eq_some_iff] at h2
  obtain ⟨s', h2, h3⟩ := h2
  cases h3
  obtain ⟨hlt, hget⟩ := List.getElem?_eq_some_iff.1 h2
  rw [List.findIdx?_eq_some_iff_getElem] at h1
  obtain ⟨_, h4, -⟩ := h1
  rw [hget] at h4
  refine ⟨by simpa using h4, ?_, List.eraseIdx_eq_take_drop_succ .., hlt⟩
  rw [← hget, List.getElem_cons_drop, List.take_append_drop]

/-- Removing a request. -/
inductive RemoveCase (m : RequestManager R) (id : MessageId) : RequestManager R → Option R → Prop
  | post {rel s a b} : m.postQueues.get rel = a ++ s :: b → s.messageId = id →
      RemoveCase m id { m with postQueues := m.postQueues.set rel (a ++ b) } (some s.request)
  | retry {s a b} : m.retryQueue = a ++ s :: b → s.messageId = id →
      RemoveCase m id { m with
            retryQueue := a ++ b
            nextRetryDeadlineChanged := if a = [] then true else m.nextRetryDeadlineChanged } (some s.request)
  | none : (∀ rel, ∀ s ∈ m.postQueues.get rel, s.messageId ≠ id) → (∀ s ∈ m.retryQueue, s.messageId ≠ id) →
      RemoveCase m id m none

theorem find_none {id : MessageId} {l : List (RequestState R)}
    (h : ((l.findIdx? fun s => s.messageId == id).bind fun i => l[i]?.map fun s => (i, s)) = none) :
    ∀ s ∈ l, s.messageId ≠ id := by
  rw [Option.bind_eq_none_iff] at h
  obtain ⟨o, ho⟩ : ∃ o, (l.findIdx? fun s => s.messageId == id) = o := ⟨_, rfl⟩
  cases o with
  | none =>
    rw [List.findIdx?_eq_none_iff] at ho
    intro s hs
    simpa using ho s hs
  | some j =>
    have h' := h j ho
    rw [List.findIdx?_eq_some_iff_getElem] at ho
    obtain ⟨hlt, -⟩ := ho
    rw [List.getElem?_eq_getElem hlt] at h'
    cases h'

theorem remove_cases (m : RequestManager R) (id : MessageId) : RemoveCase m id (m.remove id).1 (m.remove id).2 := by
  unfold RequestManager.remove
  dsimp only
  split
  · rename_i i s h
    obtain ⟨h1, h2, h3, -⟩ := find_split h
    rw [h3]
    exact RemoveCase.post (rel := some .current) h2 h1
  · rename_i n1
    split
    · rename_i i s h
      obtain ⟨h1, h2, h3, -⟩ := find_split h
      rw [h3]
      exact RemoveCase.post (rel := some .prev) h2 h1
    · rename_i n2
      split
      · rename_i i s h
        obtain ⟨h1, h2, h3, -⟩ := find_split h
        rw [h3]
        exact RemoveCase.post (rel := none) h2 h1
      · rename_i n3
        split
        · rename_i i s h
          obtain ⟨h1, h2, h3, hlt⟩ := find_split h
          rw [h3]
          have := RemoveCase.retry (m := m) h2 h1
          have e : (m.retryQueue.take i = []) = (i = 0) := by
            rw [List.take_eq_nil_iff, ← List.length_eq_zero_iff]
            apply propext
            constructor
            · rintro (h | h)
              · exact h
              · omega
            · exact .inl
          simp only [e] at this
          exact this
        · rename_i n4
          refine .none ?_ (find_none n4)
          rintro (_ | _ | _)
          · exact find_none n3
          · exact find_none n1
          · exact find_none n2

/-- Steps do not depend on what was logged before. -/
theorem Micro.after {c c' : Cfg R} (h : Micro c c') (pre : List (LogEntry R)) :
    Micro { c with log := pre ++ c.log } { c' with log := pre ++ c'.log } := by
  cases h with
  | requeue h1 h2 h3 h4 h5 h6 => dsimp only; rw [← List.append_assoc]; exact .requeue h1 h2 h3 h4 h5 h6
  | wait h1 h2 h3 h4 h5 h6 => dsimp only; rw [← List.append_assoc]; exact .wait h1 h2 h3 h4 h5 h6
  | refused h1 h2 => dsimp only; rw [← List.append_assoc]; exact .refused h1 h2
  | failed h1 h2 h3 => dsimp only; rw [← List.append_assoc]; exact .failed h1 h2 h3
  | pop h1 h2 h3 => dsimp only; rw [← List.append_assoc]; exact .pop h1 h2 h3
  | insert h1 h2 h3 h4 h5 => dsimp only; rw [← List.append_assoc]; exact .insert h1 h2 h3 h4 h5
  | update h1 h2 => dsimp only; rw [← List.append_assoc]; exact .update h1 h2
  | remove h1 => exact .remove h1
  | removeRetry h1 => exact .removeRetry h1

theorem Micros.after {c c' : Cfg R} (h : Micros c c') (pre : List (LogEntry R)) :
    Micros { c with log := pre ++ c.log } { c' with log := pre ++ c'.log } := by
  induction h with
  | refl => exact .refl
  | tail _ h ih => exact ih.tail (h.after pre)

theorem Micros.after_nil {m m' : RequestManager R} {l : List (LogEntry R)} {ins ins' rem rem' : List R}
    (h : Micros ⟨m, [], ins, rem⟩ ⟨m', l, ins', rem'⟩) (pre : List (LogEntry R)) :
    Micros ⟨m, pre, ins, rem⟩ ⟨m', pre ++ l, ins', rem'⟩ := by
  have := Micros.after h pre
  simpa only [List.append_nil] using this

theorem Calms.after {c c' : Cfg R} (h : Calms c c') (pre : List (LogEntry R)) :
    Calms { c with log := pre ++ c.log } { c' with log := pre ++ c'.log } := by
  induction h with
  | refl => exact .refl
  | tail _ h ih => exact ih.tail ⟨h.1.after pre, h.2⟩

theorem Calms.after_nil {m m' : RequestManager R} {l : List (LogEntry R)} {ins ins' rem rem' : List R}
    (h : Calms ⟨m, [], ins, rem⟩ ⟨m', l, ins', rem'⟩) (pre : List (LogEntry R)) :
    Calms ⟨m, pre, ins, rem⟩ ⟨m', pre ++ l, ins', rem'⟩ := by
  have := Calms.after h pre
  simpa only [List.append_nil] using this

/-- A call is an update of the session status and other steps, or other steps only. -/
theorem manager_step_calms {m m' : RequestManager R} {mixnet mixnet' : Node} {env : Env} {call : ManagerCall R}
    {l : List (LogEntry R)} {out : ManagerOutcome R} (hcall : call ≠ .nextRetryDeadlineChanged)
    (h : m.step C T mixnet env ns ctx call = .ok (m', mixnet', l, out)) (log : List (LogEntry R)) (ins rem : List R) :
    Calms ⟨m, log, ins, rem⟩ ⟨m', log ++ l, ins ++ inserted [call], rem ++ removed [out]⟩ ∨
    (m'.sessionStatus ≠ m.sessionStatus ∧ ∃ c, Micro ⟨m, log, ins, rem⟩ c ∧
      Calms c ⟨m', log ++ l, ins ++ inserted [call], rem ++ removed [out]⟩) := by
  cases call with
  | updateSessionStatus =>
    unfold RequestManager.step at h
    rw [res_bind_eq_ok] at h
    obtain ⟨w, h1, h⟩ := h
    cases h
    rcases updateSessionStatus_micros h1 ins rem with rfl | ⟨hne, c, k1, k2⟩
    · left
      simpa [inserted, removed] using Relation.ReflTransGen.refl
    · right
      have k3 := k1.after log
      unfold Work.cfg at k3
      dsimp only at k3
      rw [List.append_nil] at k3
      refine ⟨hne, _, k3, ?_⟩
      simpa [inserted, removed, Work.cfg] using k2.after log
  | insert r =>
    unfold RequestManager.step at h
    rw [res_bind_eq_ok] at h
    obtain ⟨w, h1, h⟩ := h
    cases h
    exact .inl (by simpa [inserted, removed] using (insert_micros h1 ins rem).after_nil log)
  | remove id =>
    have hc := remove_cases m id
    have h : (Except.ok ((m.remove id).1, mixnet, [], ManagerOutcome.removed (m.remove id).2) : Res _) =
      .ok (m', mixnet', l, out) := h
    generalize m.remove id = x at hc h
    obtain ⟨m1, o⟩ := x
    cases h
    dsimp only at hc
    left
    cases hc with
    | post h1 h2 => simpa [inserted, removed] using .single ⟨.remove h1, rfl⟩
    | retry h1 h2 =>
      simp only [inserted, removed, List.flatMap_cons, List.flatMap_nil, List.append_nil]
      exact .single ⟨.removeRetry h1, rfl⟩
    | none _ _ =>
      simp only [inserted, removed, List.flatMap_cons, List.flatMap_nil, List.append_nil]
      exact .refl
  | processPostQueues =>
    unfold RequestManager.step at h
    rw [res_bind_eq_ok] at h
    obtain ⟨w, h1, h⟩ := h
    cases h
    exact .inl (by simpa [inserted, removed] using (processPostQueues_micros h1 ins rem).1.after_nil log)
  | popNextRetry =>
    unfold RequestManager.step at h
    rw [res_bind_eq_ok] at h
    obtain ⟨⟨w, b⟩, h1, h⟩ := h
    cases h
    exact .inl (by simpa [inserted, removed] using (popNextRetry_micros h1 ins rem).1.after_nil log)
  | nextRetryDeadlineChanged => exact absurd rfl hcall

theorem manager_step_micros {m m' : RequestManager R} {mixnet mixnet' : Node} {env : Env} {call : ManagerCall R}
    {l : List (LogEntry R)} {out : ManagerOutcome R} (hcall : call ≠ .nextRetryDeadlineChanged)
    (h : m.step C T mixnet env ns ctx call = .ok (m', mixnet', l, out)) (log : List (LogEntry R)) (ins rem : List R) :
    Micros ⟨m, log, ins, rem⟩ ⟨m', log ++ l, ins ++ inserted [call], rem ++ removed [out]⟩ := by
  rcases manager_step_calms hcall h log ins rem with h | ⟨-, c, h1, h2⟩
  · exact h.micros
  · exact .head h1 h2.micros

/-- What holds at first, is kept by every step and does not depend on the flag, holds after a history. -/
theorem manager_induction {P : Cfg R → Prop} (hm : ∀ c c', P c → Micro c c' → P c')
    (ha : ∀ m log ins rem b, P ⟨m, log, ins, rem⟩ → P ⟨{ m with nextRetryDeadlineChanged := b }, log, ins, rem⟩)
    {m m' : RequestManager R} {calls : List (ManagerCall R)}
    {outs : List (ManagerOutcome R)} {logs : List (LogEntry R)} (h : RequestManager.Runs C T m calls outs logs m') :
    ∀ (log : List (LogEntry R)) (ins rem : List R), P ⟨m, log, ins, rem⟩ →
      P ⟨m', log ++ logs, ins ++ inserted calls, rem ++ removed outs⟩ := by
  induction h with
  | nil m => intro log ins rem h; simpa [inserted, removed] using h
  | @cons m call mixnet env ns ctx m1 mixnet' log1 out calls outs logs m'' h1 h2 ih =>
    intro log ins rem hP
    have step : P ⟨m1, log ++ log1, ins ++ inserted [call], rem ++ removed [out]⟩ := by
      by_cases hcall : call = .nextRetryDeadlineChanged
      · subst hcall
        cases h1
        simpa [inserted, removed] using ha m log ins rem false hP
      · have := manager_step_micros hcall h1 log ins rem
        generalize (⟨m, log, ins, rem⟩ : Cfg R) = c at this hP
        generalize (⟨m1, log ++ log1, ins ++ inserted [call], rem ++ removed [out]⟩ : Cfg R) = c' at this
        induction this with
        | refl => exact hP
        | tail _ h ih => exact hm _ _ ih h
    have := ih _ _ _ step
    simpa [inserted, removed] using this

end Mixnet
