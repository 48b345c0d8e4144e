import Verif.Model.RequestManager
import Verif.Proofs.NodeCalls
import Mathlib.Logic.Relation
/-!
# What a request manager does, in small steps
-/
namespace Mixnet
variable {R Ctx : Type}

/-- What a call of `post_request` does to the destination. -/
theorem post_destination {C : Crypto} {m m' : Node} {rng : Rng} {i : SessionIndex} {d d' : Option MixnodeIndex}
    {mid : MessageId} {data : Scattered Byte} {n : Nat} {ns : NetworkStatus} {r : Except PostErr RequestMetrics}
    (h : m.postRequest C rng i d mid data n ns = .ok (m', d', r)) :
    (∀ met, r = .ok met → ∃ x, d' = some x ∧ ∀ y, d = some y → y = x) ∧
    (∀ e, r = .error e → d' = d) ∧ (r = .error .notEnoughSpaceInQueue → m' = m) := by
  cases postRequest_cases h with
  | tooMany _ => exact ⟨fun _ h => (by cases h), fun _ _ => rfl, fun h => (by cases h)⟩
  | noSession bps e _ _ _ => exact ⟨fun _ h => (by cases h), fun _ _ => rfl, fun h => rfl⟩
  | noSpace bps rel s e _ _ _ _ => exact ⟨fun _ h => (by cases h), fun _ _ => rfl, fun h => rfl⟩
  | noDestination bps rel s e _ _ _ _ _ => exact ⟨fun _ h => (by cases h), fun _ _ => rfl, fun h => rfl⟩
  | failed bps rel s b rng1 acc e _ _ _ _ _ _ =>
    exact ⟨fun _ h => (by cases h), fun _ _ => rfl, fun h => (by cases h)⟩
  | posted bps rel s b rng1 acc infos met qd _ _ _ _ hb _ _ _ =>
    refine ⟨fun _ _ => ⟨_, rfl, ?_⟩, fun _ h => (by cases h), fun h => (by cases h)⟩
    rintro y rfl
    unfold RequestBuilder.new at hb
    rw [res_bind_eq_ok] at hb
    obtain ⟨g, _, hb⟩ := hb
    simp only [Except.ok.injEq, Prod.mk.injEq] at hb
    obtain ⟨rfl, -⟩ := hb
    rfl

/-- A manager with what has happened so far: the log, the requests inserted and those removed. -/
structure Cfg (R : Type) where
  mgr : RequestManager R
  log : List (LogEntry R)
  inserted : List R
  removed : List R

/-- The state of a request after a successful post. -/
def RequestState.posted (s : RequestState R) (i : SessionIndex) (d : Option MixnodeIndex) (t : Nat) :
    RequestState R :=
  { s with destinationIndex := d, sessionIndex := some i, retryDeadline := t }

/-- The state of a request that starts anew. -/
def RequestState.fresh (s : RequestState R) (id : MessageId) (past : Nat) : RequestState R :=
  { s with messageId := id, sessionIndex := none, destinationIndex := none, retryDeadline := past }

/-- Requests of queue `rel` are posted in session `i`. -/
def RequestManager.PostsIn (m : RequestManager R) (rel : Option RelSessionIndex) (i : SessionIndex) : Prop :=
  (rel.getD m.sessionStatus.phase.defaultRequestSession).add m.sessionStatus.currentIndex = .ok i

/-- The queue for the posts after the first. -/
def RequestManager.nextQueue (m : RequestManager R) (rel : Option RelSessionIndex) : Option RelSessionIndex :=
  some (rel.getD m.sessionStatus.phase.defaultRequestSession)

/-- Where a request goes after `insertRetry`. -/
def insertSorted (l : List (RequestState R)) (s : RequestState R) : List (RequestState R) :=
  l.insertIdx (l.takeWhile fun s' => s'.retryDeadline < s.retryDeadline).length s

/-- The counters of a request that is tried again. -/
inductive Recount (m : RequestManager R) (s : RequestState R) :
    RequestState R → List (LogEntry R) → Prop
  | attempt {a} : s.attemptsRemaining = a + 1 →
      Recount m s { s with attemptsRemaining := a, postsRemaining := m.config.numPostsPerAttempt - 1 } []
  | destination {d id} : s.attemptsRemaining = 0 → s.destinationsRemaining = d + 1 →
      1 ≤ m.config.numAttemptsPerDestination →
      Recount m s ({ s with
        destinationsRemaining := d, attemptsRemaining := m.config.numAttemptsPerDestination - 1
        postsRemaining := m.config.numPostsPerAttempt - 1 }.fresh id m.createdAt) [.newId s.request id]

/-- The queue of a request that is tried again. -/
inductive Place (m : RequestManager R) (s : RequestState R) :
    Option RelSessionIndex → RequestState R → List (LogEntry R) → Prop
  | unbound : s.sessionIndex = none → Place m s none s []
  | bound {i rel} : s.sessionIndex = some i →
      RelSessionIndex.fromSessionIndex i m.sessionStatus.currentIndex = some rel →
      m.sessionStatus.phase.allowRequestsAndReplies rel = true → Place m s (some rel) s []
  | moved {i id} : s.sessionIndex = some i →
      (∀ rel, RelSessionIndex.fromSessionIndex i m.sessionStatus.currentIndex = some rel →
        m.sessionStatus.phase.allowRequestsAndReplies rel = false) →
      Place m s none (s.fresh id m.createdAt) [.newId s.request id]

/-- `retry` of a request that is not in the manager, before the queues are processed. -/
inductive Retry (m : RequestManager R) (s : RequestState R) : RequestManager R → List (LogEntry R) → Prop
  | limit : s.attemptsRemaining = 0 → s.destinationsRemaining = 0 → Retry m s m [.retryLimit s.request]
  | again {s1 l1 rel s2 l2} : 1 ≤ m.config.numPostsPerAttempt → Recount m s s1 l1 → Place m s1 rel s2 l2 →
      Retry m s { m with postQueues := m.postQueues.set rel (m.postQueues.get rel ++ [s2]) } (l1 ++ l2)

/-- One step. -/
inductive Micro : Cfg R → Cfg R → Prop
  | requeue {m log ins rem rel s rest i n d t met} : m.postQueues.get rel = s :: rest → m.PostsIn rel i →
      s.sessionIndex = rel.map (fun _ => i) → (∃ x, d = some x ∧ ∀ y, s.destinationIndex = some y → y = x) →
      s.postsRemaining = n + 1 → t = max s.retryDeadline (met.now + met.metrics.estimateRtt met.handlingDelay) →
      Micro ⟨m, log, ins, rem⟩
        ⟨{ m with
            postQueues := (m.postQueues.set rel rest).set (m.nextQueue rel)
              ((m.postQueues.set rel rest).get (m.nextQueue rel) ++
              [{ s.posted i d t with postsRemaining := n }]) },
          log ++ [.post s.request i s.destinationIndex s.messageId d (.ok met)], ins, rem⟩
  | wait {m log ins rem rel s rest i d t met} : m.postQueues.get rel = s :: rest → m.PostsIn rel i →
      s.sessionIndex = rel.map (fun _ => i) → (∃ x, d = some x ∧ ∀ y, s.destinationIndex = some y → y = x) →
      s.postsRemaining = 0 → t = max s.retryDeadline (met.now + met.metrics.estimateRtt met.handlingDelay) →
      Micro ⟨m, log, ins, rem⟩
        ⟨{ m with
            postQueues := m.postQueues.set rel rest
            retryQueue := insertSorted m.retryQueue (s.posted i d t)
            nextRetryDeadlineChanged :=
              if (m.retryQueue.takeWhile fun s' => s'.retryDeadline < t).length = 0 then true
              else m.nextRetryDeadlineChanged },
          log ++ [.post s.request i s.destinationIndex s.messageId d (.ok met)], ins, rem⟩
  | refused {m log ins rem rel s rest i} : m.postQueues.get rel = s :: rest → m.PostsIn rel i →
      Micro ⟨m, log, ins, rem⟩
        ⟨m, log ++ [.post s.request i s.destinationIndex s.messageId s.destinationIndex
          (.error .notEnoughSpaceInQueue)], ins, rem⟩
  | failed {m log ins rem rel s rest i e} : m.postQueues.get rel = s :: rest → m.PostsIn rel i →
      e ≠ .notEnoughSpaceInQueue → Micro ⟨m, log, ins, rem⟩
        ⟨{ m with postQueues := m.postQueues.set rel rest },
          log ++ [.post s.request i s.destinationIndex s.messageId s.destinationIndex (.error e),
            .postErr s.request e], ins, rem⟩
  | pop {m log ins rem s rest m' l} : m.retryQueue = s :: rest → s.postsRemaining = 0 →
      Retry { m with retryQueue := rest, nextRetryDeadlineChanged := true } s m' l →
      Micro ⟨m, log, ins, rem⟩ ⟨m', log ++ l, ins, rem⟩
  | insert {m log ins rem s m' l} : m.hasSpace = true →
      s.destinationsRemaining = m.config.numDestinations → s.attemptsRemaining = 0 → s.sessionIndex = none →
      Retry m s m' l →
      Micro ⟨m, log, ins, rem⟩ ⟨m', log ++ l, ins ++ [s.request], rem⟩
  | update {m log ins rem status moved} : m.sessionStatus ≠ status →
      List.Forall₂ (fun s s' : RequestState R => s' = s.fresh s'.messageId m.createdAt)
        ((Work.moveQueues m.postQueues m.sessionStatus status).default.drop m.postQueues.default.length) moved →
      Micro ⟨m, log, ins, rem⟩
        ⟨{ m with
            postQueues := { Work.moveQueues m.postQueues m.sessionStatus status with
              default := (Work.moveQueues m.postQueues m.sessionStatus status).default.take
                m.postQueues.default.length ++ moved }
            sessionStatus := status },
          log ++ moved.map (fun s => .newId s.request s.messageId), ins, rem⟩
  | remove {m log ins rem rel s a b} : m.postQueues.get rel = a ++ s :: b →
      Micro ⟨m, log, ins, rem⟩
        ⟨{ m with postQueues := m.postQueues.set rel (a ++ b) }, log, ins, rem ++ [s.request]⟩
  | removeRetry {m log ins rem s a b} : m.retryQueue = a ++ s :: b →
      Micro ⟨m, log, ins, rem⟩
        ⟨{ m with
            retryQueue := a ++ b
            nextRetryDeadlineChanged := if a = [] then true else m.nextRetryDeadlineChanged },
          log, ins, rem ++ [s.request]⟩

/-- Several steps. -/
abbrev Micros : Cfg R → Cfg R → Prop := Relation.ReflTransGen Micro

/-- One step that is no update of the session status. -/
def Calm (c c' : Cfg R) : Prop := Micro c c' ∧ c'.mgr.sessionStatus = c.mgr.sessionStatus

/-- Several. -/
abbrev Calms : Cfg R → Cfg R → Prop := Relation.ReflTransGen Calm

theorem Calms.micros {c c' : Cfg R} (h : Calms c c') : Micros c c' := by
  induction h with
  | refl => exact .refl
  | tail _ h ih => exact ih.tail h.1

theorem Calms.status {c c' : Cfg R} (h : Calms c c') : c'.mgr.sessionStatus = c.mgr.sessionStatus := by
  induction h with
  | refl => rfl
  | tail _ h ih => exact h.2.trans ih

/-- A `Work` with the requests inserted and removed. -/
def Work.cfg (w : Work R) (ins rem : List R) : Cfg R := ⟨w.mgr, w.log, ins, rem⟩

theorem assert_of_ok {site : String} {b : Bool} {u : Unit} (h : assertP site b = .ok u) : b = true := by
  cases b
  · cases h
  · rfl

theorem PostQueues.set_set {T : Type} (q : PostQueues T) (rel : Option RelSessionIndex) (a b : List T) :
    (q.set rel a).set rel b = q.set rel b := by
  rcases rel with _ | _ | _ <;> rfl

theorem PostQueues.get_set {T : Type} (q : PostQueues T) (rel : Option RelSessionIndex) (a : List T) :
    (q.set rel a).get rel = a := by
  rcases rel with _ | _ | _ <;> rfl

theorem PostQueues.get_push {T : Type} (q : PostQueues T) (rel : Option RelSessionIndex) (a : List T) (x : T) :
    ((q.set rel a).set rel ((q.set rel a).get rel ++ [x])).get rel = a ++ [x] := by
  rcases rel with _ | _ | _ <;> rfl

theorem PostQueues.set_get {T : Type} (q : PostQueues T) (rel : Option RelSessionIndex) :
    q.set rel (q.get rel) = q := by
  rcases rel with _ | _ | _ <;> rfl

theorem PostQueues.get_set_ne {T : Type} (q : PostQueues T) {rel rel' : Option RelSessionIndex} (h : rel ≠ rel')
    (a : List T) : (q.set rel a).get rel' = q.get rel' := by
  rcases rel with _ | _ | _ <;> rcases rel' with _ | _ | _ <;> first | rfl | exact absurd rfl h

/-- One iteration of the loop is one step, or none if the queue is empty. -/
theorem postNext_micro {C : Crypto} {T : RequestTrait R Ctx} {ns : NetworkStatus} {ctx : Ctx}
    {rel : Option RelSessionIndex} {i : SessionIndex} {w w' : Work R} {again : Bool} {relOrDefault : RelSessionIndex}
    (hrd : relOrDefault = rel.getD w.mgr.sessionStatus.phase.defaultRequestSession)
    (hi : w.mgr.PostsIn rel i)
    (h : Work.postNext C T ns ctx rel relOrDefault (rel.map fun _ => i) i w = .ok (again, w')) (ins rem : List R) :
    w'.mgr.sessionStatus = w.mgr.sessionStatus ∧ w'.mgr.config = w.mgr.config ∧
    ((w.queue rel = [] ∧ again = false ∧ w' = w) ∨
      (∃ s rest, w.queue rel = s :: rest ∧ again = false ∧ w'.mgr = w.mgr ∧ w'.mixnet = w.mixnet ∧
        w'.log = w.log ++ [.post s.request i s.destinationIndex s.messageId s.destinationIndex
          (.error .notEnoughSpaceInQueue)] ∧ Calm (w.cfg ins rem) (w'.cfg ins rem)) ∨
      (∃ s rest, w.queue rel = s :: rest ∧ again = true ∧ Calm (w.cfg ins rem) (w'.cfg ins rem) ∧
        (w'.queue rel = rest ∨ ∃ n s', s.postsRemaining = n + 1 ∧ s'.postsRemaining = n ∧
          w'.queue rel = rest ++ [s']) ∧
        (∀ rel', rel' ≠ rel → rel' ≠ some relOrDefault → w'.queue rel' = w.queue rel') ∧
        ∃ d' res l, res ≠ .error .notEnoughSpaceInQueue ∧
          w'.log = w.log ++ .post s.request i s.destinationIndex s.messageId d' res :: l ∧
          (l = [] ∨ ∃ e, l = [.postErr s.request e]))) := by
  obtain ⟨m, node, env, log⟩ := w
  unfold Work.postNext Work.queue at h
  unfold Work.queue
  dsimp only at h hrd hi ⊢
  obtain ⟨q, hq⟩ : ∃ q, m.postQueues.get rel = q := ⟨_, rfl⟩
  rw [hq] at h ⊢
  cases q with
  | nil =>
    simp only [Except.ok.injEq, Prod.mk.injEq] at h
    obtain ⟨rfl, rfl⟩ := h
    exact ⟨rfl, rfl, .inl ⟨rfl, rfl, rfl⟩⟩
  | cons s rest =>
    dsimp only at h
    rw [res_bind_eq_ok] at h
    obtain ⟨_, h1, h⟩ := h
    have hs := of_decide_eq_true (assert_of_ok h1)
    rw [res_bind_eq_ok] at h
    obtain ⟨⟨node', d, res⟩, h2, h⟩ := h
    obtain ⟨p1, p2, p3⟩ := post_destination h2
    dsimp only [Work.setQueue, Work.draw, Work.note] at h h2 p1 p2 p3
    cases res with
    | ok met =>
      dsimp only at h
      obtain ⟨r, dr, ar, n, mi, si, di, rd⟩ := s
      dsimp only at h hs p1 ⊢
      cases n with
      | zero =>
        simp only [Except.ok.injEq, Prod.mk.injEq] at h
        obtain ⟨rfl, rfl⟩ := h
        refine ⟨rfl, rfl, .inr (.inr ⟨_, rest, rfl, rfl, ?_, .inl ?_, ?_, ?_⟩)⟩
        · exact ⟨Micro.wait hq hi hs (p1 _ rfl) rfl rfl, rfl⟩
        · exact PostQueues.get_set ..
        · intro rel' h1 h2
          exact PostQueues.get_set_ne _ (Ne.symm h1) _
        · exact ⟨_, _, [], (by simp [Except.map]), rfl, .inl rfl⟩
      | succ n =>
        simp only [Except.ok.injEq, Prod.mk.injEq] at h
        obtain ⟨rfl, rfl⟩ := h
        refine ⟨rfl, rfl, .inr (.inr ⟨_, rest, rfl, rfl, ?_, ?_, ?_, ?_⟩)⟩
        · subst hrd
          exact ⟨Micro.requeue hq hi hs (p1 _ rfl) rfl rfl, rfl⟩
        · by_cases hr : rel = some relOrDefault
          · subst hr
            exact .inr ⟨n, _, rfl, by rfl, PostQueues.get_push _ _ _ _⟩
          · refine .inl ?_
            rw [PostQueues.get_set_ne _ (Ne.symm hr), PostQueues.get_set]
        · intro rel' h1 h2
          rw [PostQueues.get_set_ne _ (Ne.symm h2), PostQueues.get_set_ne _ (Ne.symm h1)]
        · exact ⟨_, _, [], (by simp [Except.map]), rfl, .inl rfl⟩
    | error e =>
      have hd := p2 e rfl
      subst hd
      by_cases he : e = .notEnoughSpaceInQueue
      · subst he
        simp only [Except.ok.injEq, Prod.mk.injEq] at h
        obtain ⟨rfl, rfl⟩ := h
        have hm : (m.postQueues.set rel rest).set rel (s :: (m.postQueues.set rel rest).get rel) = m.postQueues := by
          rw [PostQueues.set_set, PostQueues.get_set, ← hq, PostQueues.set_get]
        refine ⟨rfl, rfl, .inr (.inl ⟨s, rest, rfl, rfl, ?_, p3 rfl, rfl, ?_⟩)⟩
        · dsimp only [Work.queue]
          rw [hm]
        · unfold Work.cfg
          dsimp only [Work.queue]
          rw [hm]
          exact ⟨Micro.refused hq hi, rfl⟩
      · obtain ⟨rfl, rfl⟩ : again = true ∧ w' = ⟨{ m with postQueues := m.postQueues.set rel rest }, node',
            fun k => env (k + 1), log ++ [.post s.request i s.destinationIndex s.messageId s.destinationIndex
              (.error e)] ++ [.postErr s.request e]⟩ := by
          cases e <;> first | exact absurd rfl he | (cases h; exact ⟨rfl, rfl⟩)
        refine ⟨rfl, rfl, .inr (.inr ⟨s, rest, rfl, rfl, ?_, .inl ?_, ?_, ?_⟩)⟩
        · unfold Work.cfg
          dsimp only
          rw [List.append_assoc]
          exact ⟨Micro.failed hq hi he, rfl⟩
        · exact PostQueues.get_set ..
        · intro rel' h1 h2
          exact PostQueues.get_set_ne _ (Ne.symm h1) _
        · refine ⟨s.destinationIndex, .error e, [.postErr s.request e], ?_, ?_, .inr ⟨e, rfl⟩⟩
          · simpa using he
          · dsimp only
            rw [List.append_assoc]; rfl

/-- The attempt to post the request at the front of queue `rel` was refused for lack of space. -/
def Refused (rel : Option RelSessionIndex) (i : SessionIndex) (s : RequestState R) (l : List (LogEntry R)) : Prop :=
  ∃ a, l = a ++ [.post s.request i s.destinationIndex s.messageId s.destinationIndex
    (.error .notEnoughSpaceInQueue)]

/-- The loop. -/
theorem postLoop_micros {C : Crypto} {T : RequestTrait R Ctx} {ns : NetworkStatus} {ctx : Ctx}
    {rel : Option RelSessionIndex} {i : SessionIndex} {relOrDefault : RelSessionIndex} (ins rem : List R) :
    ∀ {n : Nat} {w : Work R} {o : Option (Work R)},
    relOrDefault = rel.getD w.mgr.sessionStatus.phase.defaultRequestSession → w.mgr.PostsIn rel i →
    Work.postLoop C T ns ctx rel relOrDefault (rel.map fun _ => i) i n w = .ok o →
    (o = none → n < Work.iterations (w.queue rel)) ∧
    ∀ w', o = some w' → Calms (w.cfg ins rem) (w'.cfg ins rem) ∧
      w'.mgr.sessionStatus = w.mgr.sessionStatus ∧ w'.mgr.config = w.mgr.config ∧
      (∀ rel', rel' ≠ rel → rel' ≠ some relOrDefault → w'.queue rel' = w.queue rel') ∧
      ∃ l, w'.log = w.log ++ l ∧
        (w'.queue rel = [] ∨ ∃ s rest, w'.queue rel = s :: rest ∧ Refused rel i s l)
  | 0, w, o, hrd, hi, h => by
    cases h
    refine ⟨fun _ => ?_, fun w' h => (by cases h)⟩
    unfold Work.iterations
    omega
  | n + 1, w, o, hrd, hi, h => by
    unfold Work.postLoop at h
    rw [res_bind_eq_ok] at h
    obtain ⟨⟨again, w1⟩, h1, h⟩ := h
    obtain ⟨hst, hcf, hcase⟩ := postNext_micro hrd hi h1 ins rem
    dsimp only at h
    rcases hcase with ⟨hq, rfl, rfl⟩ | ⟨s, rest, hq, rfl, hm, -, hl, hmic⟩ | ⟨s, rest, hq, rfl, hmic, hq', hoth, d', res, l, hres, hl, hl'⟩
    · cases h
      refine ⟨fun h => (by cases h), ?_⟩
      rintro w' ⟨⟩
      exact ⟨.refl, rfl, rfl, fun _ _ _ => rfl, [], by simp, .inl hq⟩
    · cases h
      refine ⟨fun h => (by cases h), ?_⟩
      rintro w' ⟨⟩
      refine ⟨.single hmic, hst, hcf, fun _ _ _ => by unfold Work.queue; rw [hm], _, hl, .inr ⟨s, rest, ?_, [], rfl⟩⟩
      unfold Work.queue at hq ⊢
      rw [hm, hq]
    · obtain ⟨a1, a2⟩ := postLoop_micros ins rem (by rw [hst]; exact hrd) (by unfold RequestManager.PostsIn; rw [hst]; exact hi) h
      refine ⟨fun ho => ?_, ?_⟩
      · have := a1 ho
        unfold Work.iterations at this ⊢
        rw [hq]
        rcases hq' with hq' | ⟨k, s', hk, hs', hq'⟩
        · rw [hq'] at this
          simp only [List.map_cons, List.sum_cons]
          omega
        · rw [hq'] at this
          simp only [List.map_append, List.map_cons, List.map_nil, List.sum_append, List.sum_cons, List.sum_nil] at this ⊢
          omega
      · intro w' hw'
        obtain ⟨b1, b2, b3, b4, l2, b5, b6⟩ := a2 w' hw'
        refine ⟨.head hmic b1, by rw [b2, hst], by rw [b3, hcf], fun rel' x y => by rw [b4 rel' x y, hoth rel' x y],
          _, by rw [b5, hl, List.append_assoc], ?_⟩
        rcases b6 with b6 | ⟨s2, rest2, b6, a, rfl⟩
        · exact .inl b6
        · refine .inr ⟨s2, rest2, b6, ?_⟩
          exact ⟨_, (List.append_assoc ..).symm⟩

theorem add_ok {rel : RelSessionIndex} {cur i : Nat} :
    rel.add cur = .ok i ↔ (rel = .current ∧ i = cur) ∨ (rel = .prev ∧ 1 ≤ cur ∧ i = cur - 1) := by
  cases rel with
  | current => simp [RelSessionIndex.add, eq_comm]
  | prev =>
    by_cases h : 1 ≤ cur
    · simp [RelSessionIndex.add, h, eq_comm]
    · simp [RelSessionIndex.add, h, panic]

/-- The session of queue `rel` does not exist: the previous session at index 0. -/
def RequestManager.NoSession (m : RequestManager R) (rel : Option RelSessionIndex) : Prop :=
  rel.getD m.sessionStatus.phase.defaultRequestSession = .prev ∧ m.sessionStatus.currentIndex = 0

theorem processPostQueue_micros {C : Crypto} {T : RequestTrait R Ctx} {ns : NetworkStatus} {ctx : Ctx}
    {rel : Option RelSessionIndex} {w w' : Work R}
    (h : w.processPostQueue C T ns ctx rel = .ok w') (ins rem : List R) :
    Calms (w.cfg ins rem) (w'.cfg ins rem) ∧
      w'.mgr.sessionStatus = w.mgr.sessionStatus ∧ w'.mgr.config = w.mgr.config ∧
      (∀ rel', rel' ≠ rel → rel' ≠ w.mgr.nextQueue rel → w'.queue rel' = w.queue rel') ∧
      ∃ l, w'.log = w.log ++ l ∧
        ((w.mgr.NoSession rel ∧ w' = w) ∨
          (∃ i, w.mgr.PostsIn rel i ∧
            (w'.queue rel = [] ∨ ∃ s rest, w'.queue rel = s :: rest ∧ Refused rel i s l))) := by
  unfold Work.processPostQueue at h
  dsimp only at h
  split at h
  · rename_i hno
    rw [res_bind_eq_ok] at h
    obtain ⟨_, -, h⟩ := h
    cases h
    exact ⟨.refl, rfl, rfl, fun _ _ _ => rfl, [], by simp, .inl ⟨hno, rfl⟩⟩
  · rename_i hno
    rw [res_bind_eq_ok] at h
    obtain ⟨session, h1, h⟩ := h
    rw [res_bind_eq_ok] at h
    obtain ⟨i, h2, h⟩ := h
    rw [res_bind_eq_ok] at h
    obtain ⟨o, h3, h⟩ := h
    have hs : session = rel.map fun _ => i := by
      cases rel with
      | none => cases h1; rfl
      | some rel =>
        unfold Work.queueSession at h1
        rw [res_bind_eq_ok] at h1
        obtain ⟨j, h4, h1⟩ := h1
        cases h1
        have : (Except.ok j : Res Nat) = .ok i := by rw [← h4, ← h2]; rfl
        cases this
        rfl
    subst hs
    obtain ⟨a1, a2⟩ := postLoop_micros (w := w) ins rem rfl h2 h3
    cases o with
    | none => cases h
    | some w1 =>
      cases h
      obtain ⟨b1, b2, b3, b4, l, b5, b6⟩ := a2 _ rfl
      exact ⟨b1, b2, b3, b4, l, b5, .inr ⟨i, h2, b6⟩⟩

end Mixnet
