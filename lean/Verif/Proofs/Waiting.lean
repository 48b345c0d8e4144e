import Verif.Proofs.ManagerNode
import Verif.Spec.Waiting
/-!
# Requests waiting in a request manager: what the manager and the node do to each other
-/
namespace Mixnet
open Spec
variable {R Ctx : Type} {C : Crypto} {T : RequestTrait R Ctx} {ns : NetworkStatus} {ctx : Ctx}

/-! ### The node -/

/-- What a manager does to a node. -/
structure Grows (C : Crypto) (n n' : Node) : Prop where
  status : n'.sessionStatus = n.sessionStatus
  events : n'.events = n.events
  inv : n.Inv C → n'.Inv C
  busy : ∀ i, Busy n i → Busy n' i

theorem Grows.refl (n : Node) : Grows C n n := ⟨rfl, rfl, id, fun _ => id⟩

theorem Grows.trans {a b c : Node} (h : Grows C a b) (h' : Grows C b c) : Grows C a c :=
  ⟨h'.status.trans h.status, h'.events.trans h.events, h'.inv ∘ h.inv, fun i => h'.busy i ∘ h.busy i⟩

/-- Replacing a session by one that has packets if it had. -/
theorem busy_set {n n' : Node} {rel : RelSessionIndex} {s t : Session} (hs : n.sessions.get rel = .full s)
    (h1 : n'.sessionStatus = n.sessionStatus) (h2 : n'.sessions = n.sessions.set rel (.full t))
    (ht : s.authoredPacketQueue.queue ≠ [] → t.authoredPacketQueue.queue ≠ []) {i : Nat} (hb : Busy n i) : Busy n' i := by
  obtain ⟨s0, h0, hne⟩ := hb
  obtain ⟨rel0, a1, a2⟩ := Node.sessionAt_eq.1 h0
  by_cases hr : rel0 = rel
  · subst hr
    rw [hs] at a2; cases a2
    exact ⟨t, Node.sessionAt_eq.2 ⟨rel0, by rw [h1]; exact a1, by rw [h2, get_set_self]⟩, ht hne⟩
  · exact ⟨s0, Node.sessionAt_eq.2 ⟨rel0, by rw [h1]; exact a1, by rw [h2, get_set_ne _ hr]; exact a2⟩, hne⟩

theorem busy_same {n n' : Node} (h1 : n'.sessionStatus = n.sessionStatus) (h2 : n'.sessions = n.sessions) {i : Nat}
    (hb : Busy n i) : Busy n' i := by
  unfold Busy Node.sessionAt at *
  rw [h1, h2]; exact hb

theorem post_grows {n n' : Node} {rng i d mid data k d' r} (h : n.postRequest C rng i d mid data k ns = .ok (n', d', r)) :
    Grows C n n' ∧ (r = .error .notEnoughSpaceInQueue → Busy n' i) := by
  have hc := postRequest_cases h
  have hinv : n.Inv C → n'.Inv C := fun hI => Node.inv_post hI hc
  cases hc with
  | tooMany => exact ⟨.refl _, fun h => (by cases h)⟩
  | noSession bps e _ _ he =>
    refine ⟨.refl _, fun h => ?_⟩
    cases h
    unfold postSession at he
    repeat' split at he
    all_goals cases he
  | noSpace bps rel s e h1 h2 h3 h4 =>
    refine ⟨.refl _, fun h => ?_⟩
    obtain ⟨a1, -, a2⟩ := postSession_ok h3
    refine ⟨s, Node.sessionAt_eq.2 ⟨rel, a1, a2⟩, fun hq => ?_⟩
    have hlen : e = .len := by cases e <;> simp [CheckSpaceErr.toPostErr] at h ⊢
    subst hlen
    have hcap : ¬ s.authoredPacketQueue.config.capacity < bps.length := by
      rw [← AuthoredPacketQueue.checkSpace_capacity, h4]; intro h; cases h
    have : s.authoredPacketQueue.checkSpace bps.length = .ok () :=
      AuthoredPacketQueue.checkSpace_ok.2 ⟨by omega, .inl hq⟩
    rw [h4] at this; cases this
  | noDestination => exact ⟨.refl _, fun h => (by cases h)⟩
  | failed bps rel s b rng1 acc e h1 h2 h3 h4 h5 hf =>
    obtain ⟨a1, -, a2⟩ := postSession_ok h3
    obtain ⟨-, -, done, rest, bp, infos, -, -, hq, -, -⟩ := hf
    refine ⟨⟨rfl, rfl, hinv, fun i hb => ?_⟩, fun h => (by cases h)⟩
    refine busy_set a2 (by rfl) (by rfl) ?_ hb
    intro hne
    dsimp only at hq ⊢
    rw [hq]
    simp [hne]
  | posted bps rel s b rng1 acc infos met qd h1 h2 h3 h4 h5 hd h6 h7 =>
    obtain ⟨a1, -, a2⟩ := postSession_ok h3
    refine ⟨⟨rfl, rfl, hinv, fun i hb => ?_⟩, fun h => (by cases h)⟩
    refine busy_set a2 (by rfl) (by rfl) ?_ hb
    intro hne
    dsimp only
    rw [hd.queue]
    simp [hne]

/-- A call of the node, not a change of the session status: queues that have packets have some afterwards, or the event
for space is pending. -/
theorem busy_step {n n' : Node} {call : Call} {out : Outcome} (hc : StepCase C n call n' out)
    (hne : ∀ st, call ≠ .setSessionStatus st) {i : Nat} (hb : Busy n i) :
    Busy n' i ∨ n'.events.spaceInAuthoredPacketQueue = true := by
  cases hc with
  | status st => exact absurd rfl (hne st)
  | mixnodes rel0 answer rng m' b hcase =>
    have key : ∀ {n1 : Node} {slot : SessionSlot}, (n.sessions.get rel0).pending = true → n1.sessionStatus = n.sessionStatus →
        n1.sessions = n.sessions.set rel0 slot → Busy n1 i := by
      intro n1 slot hp h1 h2
      obtain ⟨s0, h0, hq⟩ := hb
      obtain ⟨rel, a1, a2⟩ := Node.sessionAt_eq.1 h0
      have hr : rel ≠ rel0 := by rintro rfl; rw [a2] at hp; cases hp
      exact ⟨s0, Node.sessionAt_eq.2 ⟨rel, by rw [h1]; exact a1, by rw [h2, get_set_ne _ hr]; exact a2⟩, hq⟩
    cases hcase with
    | skip => exact .inl (busy_same rfl rfl hb)
    | permanent hp => exact .inl (key hp rfl rfl)
    | transient hp => exact .inl (busy_same rfl rfl hb)
    | notWanted ms t rng1 rng2 hp => exact .inl (key hp rfl rfl)
    | set ms t rng1 rng2 sc hp => exact .inl (key hp rfl rfl)
  | nextKx rng =>
    left
    unfold Node.nextKxPublic
    split
    · exact hb
    · exact busy_same rfl rfl hb
  | handle now packet m' msg hcase =>
    left
    cases hcase with
    | ignored => exact hb
    | accepted out a rel0 s0 m' msg hacc heff =>
      cases heff with
      | forwardNowhere t d e hm => exact busy_set (t := Session.seen C s0 packet) hacc.slot (by rfl) (by rfl) id hb
      | forward t d peer ev hm => exact busy_set (t := Session.seen C s0 packet) hacc.slot (by rfl) (by rfl) id hb
      | request a o index hm => exact busy_set (t := Session.seen C s0 packet) hacc.slot (by rfl) (by rfl) id hb
      | _ => exact busy_same rfl rfl hb
  | popForward tie => exact .inl (busy_same rfl rfl hb)
  | popAuthored rng ns m' p hcase =>
    cases hcase with
    | idle => exact .inl hb
    | queued rel0 s0 rng1 rng2 p rest h1 h2 hs hal hq =>
      by_cases hr : rest = []
      · right
        dsimp only
        rw [hr]
        simp
      · exact .inl (busy_set hs (by rfl) (by rfl) (fun _ => hr) hb)
    | cover => exact .inl (busy_same rfl rfl hb)
  | post rng j d mid data k ns m' d' r hcase =>
    left
    cases hcase with
    | failed bps rel s b rng1 acc e h1 h2 h3 h4 h5 hf =>
      obtain ⟨a1, -, a2⟩ := postSession_ok h3
      obtain ⟨-, -, done, rest, bp, infos, -, -, hq, -, -⟩ := hf
      refine busy_set a2 (by rfl) (by rfl) ?_ hb
      intro hne
      dsimp only at hq ⊢
      rw [hq]
      simp [hne]
    | posted bps rel s b rng1 acc infos met qd h1 h2 h3 h4 h5 hd h6 h7 =>
      obtain ⟨a1, -, a2⟩ := postSession_ok h3
      refine busy_set a2 (by rfl) (by rfl) ?_ hb
      intro hne
      dsimp only
      rw [hd.queue]
      simp [hne]
    | _ => exact hb
  | reply surbs j mid data m' surbs' r hcase =>
    left
    cases hcase with
    | failed bps rel s rest used ps e' done bp left bad h1 h2 h3 =>
      exact busy_set (postSession_ok h3).2.2 (by rfl) (by rfl) (fun hne => by simp [hne]) hb
    | posted bps rel s rest used ps h1 h2 h3 =>
      exact busy_set (postSession_ok h3).2.2 (by rfl) (by rfl) (fun hne => by simp [hne]) hb
    | _ => exact hb
  | take => exact .inl (busy_same rfl rfl hb)

/-! ### Processing the queues -/

/-- Requests in queue `rel` wait for something: for the first session to begin, or for packets to be sent. -/
def WaitsIn (m : RequestManager R) (n : Node) (rel : Option RelSessionIndex) : Prop :=
  m.NoSession rel ∨ ∃ i, m.PostsIn rel i ∧ Busy n i

/-- That of every queue with requests. -/
def AllWait (m : RequestManager R) (n : Node) : Prop := ∀ rel, m.postQueues.get rel ≠ [] → WaitsIn m n rel

theorem WaitsIn.mono {m m' : RequestManager R} {n n' : Node} {rel : Option RelSessionIndex} (h : WaitsIn m n rel)
    (hst : m'.sessionStatus = m.sessionStatus) (hg : ∀ i, Busy n i → Busy n' i) : WaitsIn m' n' rel := by
  unfold WaitsIn RequestManager.NoSession RequestManager.PostsIn at *
  rw [hst]
  rcases h with h | ⟨i, h1, h2⟩
  · exact .inl h
  · exact .inr ⟨i, h1, hg i h2⟩

/-- The default queue and that of the default session wait for the same session. -/
theorem WaitsIn.default {m : RequestManager R} {n : Node} :
    WaitsIn m n none ↔ WaitsIn m n (some m.sessionStatus.phase.defaultRequestSession) := Iff.rfl

theorem postNext_grows {rel : Option RelSessionIndex} {i : SessionIndex} {w w' : Work R} {again : Bool}
    {relOrDefault : RelSessionIndex} {x : Option SessionIndex}
    (h : Work.postNext C T ns ctx rel relOrDefault x i w = .ok (again, w')) :
    Grows C w.mixnet w'.mixnet ∧ w'.mgr.sessionStatus = w.mgr.sessionStatus ∧
      (again = false → w'.queue rel = [] ∨ Busy w'.mixnet i) ∧
      ∀ rel', rel' ≠ rel → rel' ≠ some relOrDefault → w'.queue rel' = w.queue rel' := by
  obtain ⟨m, n, env, log⟩ := w
  unfold Work.postNext Work.queue at h
  unfold Work.queue
  dsimp only at h ⊢
  obtain ⟨q, hq⟩ : ∃ q, m.postQueues.get rel = q := ⟨_, rfl⟩
  rw [hq] at h
  cases q with
  | nil =>
    simp only [Except.ok.injEq, Prod.mk.injEq] at h
    obtain ⟨rfl, rfl⟩ := h
    exact ⟨.refl _, rfl, fun _ => .inl hq, fun _ _ _ => rfl⟩
  | cons s rest =>
    dsimp only at h
    rw [res_bind_eq_ok] at h
    obtain ⟨_, -, h⟩ := h
    rw [res_bind_eq_ok] at h
    obtain ⟨⟨n', d, res⟩, h2, h⟩ := h
    dsimp only [Work.setQueue, Work.draw, Work.note] at h h2
    obtain ⟨hg, hb⟩ := post_grows h2
    cases res with
    | ok met =>
      dsimp only at h
      obtain ⟨r, dr, ar, k, mi, si, di, rd⟩ := s
      dsimp only at h
      cases k with
      | zero =>
        simp only [Except.ok.injEq, Prod.mk.injEq] at h
        obtain ⟨rfl, rfl⟩ := h
        exact ⟨hg, rfl, fun h => (by cases h), fun rel' h1 _ => PostQueues.get_set_ne _ (Ne.symm h1) _⟩
      | succ k =>
        simp only [Except.ok.injEq, Prod.mk.injEq] at h
        obtain ⟨rfl, rfl⟩ := h
        refine ⟨hg, rfl, fun h => (by cases h), fun rel' h1 h2 => ?_⟩
        rw [PostQueues.get_set_ne _ (Ne.symm h2), PostQueues.get_set_ne _ (Ne.symm h1)]
    | error e =>
      by_cases he : e = .notEnoughSpaceInQueue
      · subst he
        simp only [Except.ok.injEq, Prod.mk.injEq] at h
        obtain ⟨rfl, rfl⟩ := h
        refine ⟨hg, rfl, fun _ => .inr (hb rfl), fun rel' h1 _ => ?_⟩
        rw [PostQueues.get_set_ne _ (Ne.symm h1), PostQueues.get_set_ne _ (Ne.symm h1)]
      · have h' : again = true ∧ w' = ⟨{ m with postQueues := m.postQueues.set rel rest }, n', fun k => env (k + 1),
            log ++ [.post s.request i s.destinationIndex s.messageId d (.error e)] ++ [.postErr s.request e]⟩ := by
          cases e <;> first | exact absurd rfl he | (cases h; exact ⟨rfl, rfl⟩)
        obtain ⟨rfl, rfl⟩ := h'
        exact ⟨hg, rfl, fun h => (by cases h), fun rel' h1 _ => PostQueues.get_set_ne _ (Ne.symm h1) _⟩

theorem postLoop_grows {rel : Option RelSessionIndex} {i : SessionIndex} {relOrDefault : RelSessionIndex}
    {x : Option SessionIndex} : ∀ {k : Nat} {w w' : Work R},
    Work.postLoop C T ns ctx rel relOrDefault x i k w = .ok (some w') →
    Grows C w.mixnet w'.mixnet ∧ w'.mgr.sessionStatus = w.mgr.sessionStatus ∧
      (w'.queue rel = [] ∨ Busy w'.mixnet i) ∧
      ∀ rel', rel' ≠ rel → rel' ≠ some relOrDefault → w'.queue rel' = w.queue rel'
  | 0, w, w', h => by cases h
  | k + 1, w, w', h => by
    unfold Work.postLoop at h
    rw [res_bind_eq_ok] at h
    obtain ⟨⟨again, w1⟩, h1, h⟩ := h
    obtain ⟨g1, g2, g3, g4⟩ := postNext_grows h1
    dsimp only at h
    cases again with
    | true =>
      rw [if_pos rfl] at h
      obtain ⟨k1, k2, k3, k4⟩ := postLoop_grows h
      exact ⟨g1.trans k1, k2.trans g2, k3, fun rel' a b => (k4 rel' a b).trans (g4 rel' a b)⟩
    | false =>
      rw [if_neg (by decide)] at h
      cases h
      exact ⟨g1, g2, g3 rfl, g4⟩

theorem processPostQueue_grows {rel : Option RelSessionIndex} {w w' : Work R}
    (h : w.processPostQueue C T ns ctx rel = .ok w') :
    Grows C w.mixnet w'.mixnet ∧ w'.mgr.sessionStatus = w.mgr.sessionStatus ∧
      (w'.queue rel = [] ∨ WaitsIn w'.mgr w'.mixnet rel) ∧
      ∀ rel', rel' ≠ rel → rel' ≠ w.mgr.nextQueue rel → w'.queue rel' = w.queue rel' := by
  unfold Work.processPostQueue at h
  dsimp only at h
  split at h
  · rename_i hn
    rw [res_bind_eq_ok] at h
    obtain ⟨_, -, h⟩ := h
    cases h
    exact ⟨.refl _, rfl, .inr (.inl hn), fun _ _ _ => rfl⟩
  · rw [res_bind_eq_ok] at h
    obtain ⟨x, -, h⟩ := h
    rw [res_bind_eq_ok] at h
    obtain ⟨i, hi, h⟩ := h
    rw [res_bind_eq_ok] at h
    obtain ⟨o, ho, h⟩ := h
    cases o with
    | none => cases h
    | some w1 =>
      cases h
      obtain ⟨g1, g2, g3, g4⟩ := postLoop_grows ho
      refine ⟨g1, g2, ?_, g4⟩
      rcases g3 with g3 | g3
      · exact .inl g3
      · refine .inr (.inr ⟨i, ?_, g3⟩)
        unfold RequestManager.PostsIn
        rw [g2]; exact hi

/-- After `process_post_queues` all the requests in the queues wait for something. -/
theorem processPostQueues_waits {w w' : Work R} (h : w.processPostQueues C T ns ctx = .ok w') :
    Grows C w.mixnet w'.mixnet ∧ w'.mgr.sessionStatus = w.mgr.sessionStatus ∧ AllWait w'.mgr w'.mixnet := by
  unfold Work.processPostQueues at h
  rw [res_bind_eq_ok] at h
  obtain ⟨w1, h1, h⟩ := h
  rw [res_bind_eq_ok] at h
  obtain ⟨w2, h2, h3⟩ := h
  obtain ⟨a1, a2, a3, a4⟩ := processPostQueue_grows h1
  obtain ⟨b1, b2, b3, b4⟩ := processPostQueue_grows h2
  obtain ⟨c1, c2, c3, c4⟩ := processPostQueue_grows h3
  refine ⟨a1.trans (b1.trans c1), c2.trans (b2.trans a2), ?_⟩
  intro rel hq
  change w'.queue rel ≠ [] at hq
  have q12 : rel = none → w2.queue rel = w1.queue rel := fun e => b4 _ (by rw [e]; simp) (by rw [e]; simp [RequestManager.nextQueue])
  have q23 : rel ≠ some .prev → w'.queue rel = w2.queue rel := fun e => c4 _ e (by simpa [RequestManager.nextQueue] using e)
  match rel with
  | none =>
    rw [q23 (by simp), q12 rfl] at hq
    exact (a3.resolve_left hq).mono (c2.trans b2) fun i hb => c1.busy i (b1.busy i hb)
  | some .current =>
    rw [q23 (by simp)] at hq
    exact (b3.resolve_left hq).mono c2 c1.busy
  | some .prev => exact c3.resolve_left hq

/-! ### Retries -/

theorem enqueue_waiting {w w' : Work R} {s : RequestState R} (h : w.enqueue C T ns ctx s = .ok w') :
    Grows C w.mixnet w'.mixnet ∧ w'.mgr.sessionStatus = w.mgr.sessionStatus ∧
      (AllWait w.mgr w.mixnet → AllWait w'.mgr w'.mixnet) := by
  unfold Work.enqueue at h
  rw [res_bind_eq_ok] at h
  obtain ⟨_, -, h⟩ := h
  dsimp only at h
  obtain ⟨env', l2, e1, -⟩ := retrySession_spec w { s with postsRemaining := w.mgr.config.numPostsPerAttempt - 1 }
  generalize w.retrySession { s with postsRemaining := w.mgr.config.numPostsPerAttempt - 1 } = t at h e1
  obtain ⟨rel, s2, w2⟩ := t
  dsimp only at e1 h
  subst e1
  -- the queues after pushing
  generalize hw0 : (Work.mk w.mgr w.mixnet env' (w.log ++ l2)) = w0 at h
  have hm0 : w0.mgr = w.mgr := by rw [← hw0]
  have hn0 : w0.mixnet = w.mixnet := by rw [← hw0]
  rw [← hm0, ← hn0]
  clear hw0 hm0 hn0
  have hset : ∀ rel', rel' ≠ rel → (w0.setQueue rel (w0.queue rel ++ [s2])).queue rel' = w0.queue rel' :=
    fun rel' hr => PostQueues.get_set_ne _ (Ne.symm hr) _
  cases hempty : w0.mgr.sessionPostQueuesEmpty rel with
  | false =>
    rw [hempty, if_neg (by decide)] at h
    cases h
    refine ⟨.refl _, rfl, fun hw rel' hq => ?_⟩
    suffices WaitsIn w0.mgr w0.mixnet rel' from this.mono rfl fun _ => id
    by_cases hr : rel' = rel
    · subst hr
      unfold RequestManager.sessionPostQueuesEmpty at hempty
      split at hempty
      · rename_i h1
        exact hw rel' (by simpa using h1)
      · dsimp only at hempty
        match rel' with
        | none =>
          refine WaitsIn.default.2 (hw _ ?_)
          simpa using hempty
        | some r =>
          dsimp only at hempty
          split at hempty
          · rename_i h2
            subst h2
            refine WaitsIn.default.1 (hw none ?_)
            change w0.mgr.postQueues.default ≠ []
            simpa using hempty
          · cases hempty
    · exact hw rel' fun h0 => hq ((hset rel' hr).trans h0)
  | true =>
    rw [hempty, if_pos rfl, res_bind_eq_ok] at h
    obtain ⟨w3, h3, h⟩ := h
    obtain ⟨a1, a2, a3, a4⟩ := processPostQueue_grows h3
    change Grows C w0.mixnet w3.mixnet at a1
    change w3.mgr.sessionStatus = w0.mgr.sessionStatus at a2
    cases rel with
    | some r =>
      rw [Option.isNone_some, if_neg (by decide)] at h
      cases h
      refine ⟨a1, a2, fun hw rel' hq => ?_⟩
      change w'.queue rel' ≠ [] at hq
      by_cases hr : rel' = some r
      · subst hr; exact a3.resolve_left hq
      · rw [a4 rel' hr (by simpa [RequestManager.nextQueue] using hr), hset rel' hr] at hq
        exact (hw rel' hq).mono a2 a1.busy
    | none =>
      rw [Option.isNone_none, if_pos rfl] at h
      obtain ⟨b1, b2, b3, b4⟩ := processPostQueue_grows h
      refine ⟨a1.trans b1, b2.trans a2, fun hw rel' hq => ?_⟩
      change w'.queue rel' ≠ [] at hq
      by_cases hr : rel' = some w3.mgr.sessionStatus.phase.defaultRequestSession
      · subst hr; exact b3.resolve_left hq
      · rw [b4 rel' hr (by simpa [RequestManager.nextQueue] using hr)] at hq
        by_cases hn : rel' = none
        · subst hn
          exact (a3.resolve_left hq).mono b2 b1.busy
        · rw [a4 rel' hn (by
            rw [a2] at hr
            simpa [RequestManager.nextQueue, Work.setQueue] using hr), hset rel' hn] at hq
          exact (hw rel' hq).mono (b2.trans a2) (fun i hb => b1.busy i (a1.busy i hb))

theorem retry_waiting {w w' : Work R} {s : RequestState R} (h : w.retry C T ns ctx s = .ok w') :
    Grows C w.mixnet w'.mixnet ∧ w'.mgr.sessionStatus = w.mgr.sessionStatus ∧
      (AllWait w.mgr w.mixnet → AllWait w'.mgr w'.mixnet) := by
  unfold Work.retry at h
  rw [res_bind_eq_ok] at h
  obtain ⟨_, -, h⟩ := h
  split at h
  · exact enqueue_waiting h
  · split at h
    · cases h
      exact ⟨.refl _, rfl, id⟩
    · rw [res_bind_eq_ok] at h
      obtain ⟨_, -, h⟩ := h
      rename_i d _ _
      have key := enqueue_waiting (w := (w.newDestination { s with
          destinationsRemaining := d, attemptsRemaining := w.mgr.config.numAttemptsPerDestination - 1 } w.mgr.createdAt).2) h
      exact key

/-! ### The calls of a manager -/

theorem remove_waiting (m : RequestManager R) (n : Node) (id : MessageId) (h : AllWait m n) :
    AllWait (m.remove id).1 n ∧ (m.remove id).1.sessionStatus = m.sessionStatus := by
  have key : ∀ (q : PostQueues (RequestState R)) (m' : RequestManager R), m'.sessionStatus = m.sessionStatus →
      (∀ rel, m.postQueues.get rel = [] → m'.postQueues.get rel = []) → AllWait m' n := by
    intro q m' h1 h2 rel hq
    exact (h rel fun h0 => hq (h2 rel h0)).mono h1 fun _ => _root_.id
  unfold RequestManager.remove
  dsimp only
  split
  · refine ⟨key m.postQueues _ rfl ?_, rfl⟩
    rintro (_ | _ | _) h0 <;> first | exact h0 | (change List.eraseIdx _ _ = []; rw [show m.postQueues.current = [] from h0]; rfl)
  · split
    · refine ⟨key m.postQueues _ rfl ?_, rfl⟩
      rintro (_ | _ | _) h0 <;> first | exact h0 | (change List.eraseIdx _ _ = []; rw [show m.postQueues.prev = [] from h0]; rfl)
    · split
      · refine ⟨key m.postQueues _ rfl ?_, rfl⟩
        rintro (_ | _ | _) h0 <;> first | exact h0 | (change List.eraseIdx _ _ = []; rw [show m.postQueues.default = [] from h0]; rfl)
      · split
        · exact ⟨fun rel hq => (h rel hq).mono rfl fun _ => _root_.id, rfl⟩
        · exact ⟨h, rfl⟩

/-- What a call of the manager does. -/
theorem manager_waiting {m m' : RequestManager R} {n n' : Node} {env : Env} {call : ManagerCall R} {log out}
    (h : m.step C T n env ns ctx call = .ok (m', n', log, out)) :
    Grows C n n' ∧
    ((processes call = true ∨ (m.sessionStatus ≠ n.sessionStatus ∧ m'.sessionStatus ≠ m.sessionStatus)) → AllWait m' n') ∧
    (m'.sessionStatus = m.sessionStatus → AllWait m n → AllWait m' n') ∧
    (m'.sessionStatus ≠ m.sessionStatus → m.sessionStatus ≠ n.sessionStatus) := by
  cases call with
  | updateSessionStatus =>
    unfold RequestManager.step at h
    rw [res_bind_eq_ok] at h
    obtain ⟨w, h1, h⟩ := h
    cases h
    unfold Work.updateSessionStatus at h1
    dsimp only at h1
    split at h1
    · cases h1
      exact ⟨.refl _, fun h => h.elim (fun h => (by cases h)) (fun h => absurd rfl h.2), fun _ => id, fun h => absurd rfl h⟩
    · rename_i hne
      obtain ⟨a1, a2, a3⟩ := processPostQueues_waits h1
      obtain ⟨env', b1, -⟩ := newDestinations_spec (w := ⟨m, n, env, []⟩) (past := m.createdAt)
        (ss := (Work.moveQueues m.postQueues m.sessionStatus n.sessionStatus).default.drop m.postQueues.default.length)
      rw [b1] at a1
      exact ⟨a1, fun _ => a3, fun _ _ => a3, fun _ => hne⟩
  | insert request =>
    unfold RequestManager.step at h
    rw [res_bind_eq_ok] at h
    obtain ⟨w, h1, h⟩ := h
    cases h
    unfold Work.insert at h1
    rw [res_bind_eq_ok] at h1
    obtain ⟨_, -, h1⟩ := h1
    obtain ⟨a1, a2, a3⟩ := retry_waiting h1
    exact ⟨a1, fun h => h.elim (fun h => (by cases h)) (fun h => absurd a2 h.2), fun _ => a3, fun h => absurd a2 h⟩
  | remove id =>
    unfold RequestManager.step at h
    dsimp only at h
    cases h
    have hst : (m.remove id).1.sessionStatus = m.sessionStatus := by
      unfold RequestManager.remove
      dsimp only
      repeat' split
      all_goals rfl
    exact ⟨.refl _, fun h => h.elim (fun h => (by cases h)) (fun h => absurd hst h.2),
      fun _ hw => (remove_waiting m n id hw).1, fun h => absurd hst h⟩
  | processPostQueues =>
    unfold RequestManager.step at h
    rw [res_bind_eq_ok] at h
    obtain ⟨w, h1, h⟩ := h
    cases h
    obtain ⟨a1, a2, a3⟩ := processPostQueues_waits h1
    exact ⟨a1, fun _ => a3, fun _ _ => a3, fun h => absurd a2 h⟩
  | popNextRetry =>
    unfold RequestManager.step at h
    rw [res_bind_eq_ok] at h
    obtain ⟨⟨w, b⟩, h1, h⟩ := h
    cases h
    unfold Work.popNextRetry at h1
    dsimp only at h1
    split at h1
    · cases h1
      exact ⟨.refl _, fun h => h.elim (fun h => (by cases h)) (fun h => absurd rfl h.2), fun _ => id, fun h => absurd rfl h⟩
    · rw [res_bind_eq_ok] at h1
      obtain ⟨w1, h2, h1⟩ := h1
      cases h1
      obtain ⟨a1, a2, a3⟩ := retry_waiting h2
      refine ⟨a1, fun h => h.elim (fun h => (by cases h)) (fun h => absurd a2 h.2), fun _ hw => a3 ?_, fun h => absurd a2 h⟩
      exact fun rel hq => (hw rel hq).mono rfl fun _ => id
  | nextRetryDeadlineChanged =>
    unfold RequestManager.step at h
    dsimp only at h
    cases h
    exact ⟨.refl _, fun h => h.elim (fun h => (by cases h)) (fun h => absurd rfl h.2),
      fun _ hw rel hq => (hw rel hq).mono rfl fun _ => id, fun h => absurd rfl h⟩

end Mixnet
