import Verif.Proofs.Waiting
import Verif.Proofs.ManagerInv
import Verif.Spec.Progress
/-!
# The place of a request in its queue
-/
namespace Mixnet
open Spec
variable {R Ctx : Type} {C : Crypto} {T : RequestTrait R Ctx} {ns : NetworkStatus} {ctx : Ctx}

/-- The request waits in the queue behind at most `k` others. -/
def Behind (rel : Option RelSessionIndex) (s : RequestState R) (k : Nat) (m : RequestManager R) : Prop :=
  ∃ a b, m.postQueues.get rel = a ++ s :: b ∧ a.length ≤ k

theorem Behind.append {rel : Option RelSessionIndex} {s : RequestState R} {k : Nat} {m m' : RequestManager R} {x}
    (h : Behind rel s k m) (he : m'.postQueues.get rel = m.postQueues.get rel ++ x) : Behind rel s k m' := by
  obtain ⟨a, b, h1, h2⟩ := h
  exact ⟨a, b ++ x, by rw [he, h1]; simp, h2⟩

/-- Popping the first of a queue. -/
theorem Behind.pop {rel : Option RelSessionIndex} {s s0 : RequestState R} {k : Nat} {m m' : RequestManager R} {rest x}
    (h : Behind rel s k m) (hq : m.postQueues.get rel = s0 :: rest) (he : m'.postQueues.get rel = rest ++ x) :
    s0 = s ∨ ∃ j, j + 1 = k ∧ Behind rel s j m' := by
  obtain ⟨a, b, h1, h2⟩ := h
  rw [hq] at h1
  cases a with
  | nil => simp only [List.nil_append, List.cons.injEq] at h1; exact .inl h1.1
  | cons a0 a =>
    simp only [List.cons_append, List.cons.injEq] at h1
    obtain ⟨-, rfl⟩ := h1
    simp only [List.length_cons] at h2
    exact .inr ⟨k - 1, by omega, a, b ++ x, by rw [he]; simp, by omega⟩

/-- A request has been tried, was removed, or waits behind at most `k` others. -/
def Placed (rel : Option RelSessionIndex) (s : RequestState R) (k : Nat) (c : Cfg R) : Prop :=
  TriedIn s c.log ∨ s.request ∈ c.removed ∨ Behind rel s k c.mgr

theorem triedIn_append {s : RequestState R} {log : List (LogEntry R)} (h : TriedIn s log) (l : List (LogEntry R)) :
    TriedIn s (log ++ l) := by
  obtain ⟨i, d, res, h1, h2⟩ := h
  exact ⟨i, d, res, List.mem_append_left _ h1, h2⟩

theorem Behind.mono {rel : Option RelSessionIndex} {s : RequestState R} {k j : Nat} {m : RequestManager R}
    (h : Behind rel s k m) (hk : k ≤ j) : Behind rel s j m := by
  obtain ⟨a, b, h1, h2⟩ := h
  exact ⟨a, b, h1, by omega⟩

theorem Behind.retry {rel : Option RelSessionIndex} {s s0 : RequestState R} {k : Nat} {m m' : RequestManager R} {l}
    (h : Behind rel s k m) (hr : Retry m s0 m' l) : Behind rel s k m' := by
  cases hr with
  | limit => exact h
  | @again s1 l1 rel' s2 l2 _ _ _ =>
    by_cases e : rel' = rel
    · subst e
      exact h.append (PostQueues.get_set ..)
    · exact h.append (x := []) (by rw [List.append_nil]; exact PostQueues.get_set_ne _ e _)

theorem placed_micro {rel : Option RelSessionIndex} {s : RequestState R} {k : Nat} {c c' : Cfg R}
    (h : Placed rel s k c) (hm : Micro c c') (hrel : rel = none ∨ c'.mgr.sessionStatus = c.mgr.sessionStatus) :
    Placed rel s k c' := by
  rcases h with h | h | h
  · left
    cases hm with
    | requeue => exact triedIn_append h _
    | wait => exact triedIn_append h _
    | refused => exact triedIn_append h _
    | failed => exact triedIn_append h _
    | pop => exact triedIn_append h _
    | insert => exact triedIn_append h _
    | update => exact triedIn_append h _
    | remove => exact h
    | removeRetry => exact h
  · right; left
    cases hm with
    | remove => exact List.mem_append_left _ h
    | removeRetry => exact List.mem_append_left _ h
    | _ => exact h
  · cases hm with
    | @requeue m log ins rem rel' s0 rest i n d t met h1 h2 h3 h4 h5 h6 =>
      by_cases e : rel' = rel
      · subst e
        have : ∃ x, ((m.postQueues.set rel' rest).set (m.nextQueue rel') ((m.postQueues.set rel' rest).get (m.nextQueue rel') ++
              [{ s0.posted i d t with postsRemaining := n }])).get rel' = rest ++ x := by
          by_cases e : m.nextQueue rel' = rel'
          · rw [e]; exact ⟨_, PostQueues.get_push ..⟩
          · exact ⟨[], by rw [PostQueues.get_set_ne _ e, PostQueues.get_set, List.append_nil]⟩
        obtain ⟨x, hx⟩ := this
        rcases h.pop h1 (m' := { m with postQueues := _ }) hx with rfl | ⟨j, hj, hb⟩
        · exact .inl ⟨i, d, _, List.mem_append_right _ List.mem_cons_self, fun h => (by cases h)⟩
        · exact .inr (.inr (hb.mono (by omega)))
      · right; right
        by_cases e' : m.nextQueue rel' = rel
        · refine h.append (x := [{ s0.posted i d t with postsRemaining := n }]) ?_
          show PostQueues.get _ _ = _
          rw [e', PostQueues.get_set, PostQueues.get_set_ne _ e]
        · refine h.append (x := []) ?_
          show PostQueues.get _ _ = _
          rw [PostQueues.get_set_ne _ e', PostQueues.get_set_ne _ e, List.append_nil]
    | @wait m log ins rem rel' s0 rest i d t met h1 h2 h3 h4 h5 h6 =>
      by_cases e : rel' = rel
      · subst e
        rcases h.pop h1 (m' := { m with postQueues := m.postQueues.set rel' rest }) (x := [])
          (by rw [List.append_nil]; exact PostQueues.get_set ..) with rfl | ⟨j, hj, hb⟩
        · exact .inl ⟨i, d, _, List.mem_append_right _ List.mem_cons_self, fun h => (by cases h)⟩
        · exact .inr (.inr (hb.mono (by omega)))
      · right; right
        exact h.append (x := []) (by rw [List.append_nil]; exact PostQueues.get_set_ne _ e _)
    | refused => exact .inr (.inr h)
    | @failed m log ins rem rel' s0 rest i er h1 h2 h3 =>
      by_cases e : rel' = rel
      · subst e
        rcases h.pop h1 (m' := { m with postQueues := m.postQueues.set rel' rest }) (x := [])
          (by rw [List.append_nil]; exact PostQueues.get_set ..) with rfl | ⟨j, hj, hb⟩
        · refine .inl ⟨i, _, _, List.mem_append_right _ List.mem_cons_self, fun h => ?_⟩
          cases h
          exact h3 rfl
        · exact .inr (.inr (hb.mono (by omega)))
      · right; right
        exact h.append (x := []) (by rw [List.append_nil]; exact PostQueues.get_set_ne _ e _)
    | pop h1 h2 h3 =>
      right; right
      refine Behind.retry ?_ h3
      exact h
    | insert h1 h2 h3 h4 h5 => exact .inr (.inr (h.retry h5))
    | @update m log ins rem status moved h1 h2 =>
      rcases hrel with rfl | e
      · obtain ⟨x, hx, -⟩ := moveQueues_default m.postQueues m.sessionStatus status
        right; right
        refine h.append (x := moved) ?_
        show (Work.moveQueues m.postQueues m.sessionStatus status).default.take m.postQueues.default.length ++ moved = _
        rw [hx, List.take_left]
        rfl
      · exact absurd e.symm h1
    | @remove m log ins rem rel' s0 a b h1 =>
      by_cases e : rel' = rel
      · subst e
        by_cases es : s0.request = s.request
        · exact .inr (.inl (List.mem_append_right _ (by rw [es]; exact List.mem_singleton.2 rfl)))
        · right; right
          obtain ⟨a', b', h3, h4⟩ := h
          rw [h1] at h3
          rcases List.append_eq_append_iff.1 h3 with ⟨z, rfl, hz⟩ | ⟨z, rfl, hz⟩
          · cases z with
            | nil => simp only [List.nil_append, List.cons.injEq] at hz; exact absurd (by rw [hz.1]) es
            | cons z0 z =>
              simp only [List.cons_append, List.cons.injEq] at hz
              obtain ⟨rfl, rfl⟩ := hz
              refine ⟨a ++ z, b', ?_, by simp at h4 ⊢; omega⟩
              show PostQueues.get _ _ = _
              rw [PostQueues.get_set]; simp
          · cases z with
            | nil => simp only [List.nil_append, List.cons.injEq] at hz; exact absurd (by rw [hz.1]) es
            | cons z0 z =>
              simp only [List.cons_append, List.cons.injEq] at hz
              obtain ⟨rfl, rfl⟩ := hz
              refine ⟨a', z ++ b, ?_, h4⟩
              show PostQueues.get _ _ = _
              rw [PostQueues.get_set]; simp
      · right; right
        exact h.append (x := []) (by rw [List.append_nil]; exact PostQueues.get_set_ne _ e _)
    | removeRetry => exact .inr (.inr h)

theorem placed_calms {rel : Option RelSessionIndex} {s : RequestState R} {k : Nat} {c c' : Cfg R}
    (h : Placed rel s k c) (hm : Calms c c') : Placed rel s k c' := by
  induction hm with
  | refl => exact h
  | tail _ hm ih => exact placed_micro ih hm.1 (.inr hm.2)

theorem triedIn_calms {s : RequestState R} {c c' : Cfg R} (h : Calms c c') (ht : TriedIn s c.log) : TriedIn s c'.log := by
  induction h with
  | refl => exact ht
  | tail _ hm ih =>
    have hm := hm.1
    cases hm with
    | remove => exact ih
    | removeRetry => exact ih
    | _ => exact triedIn_append ih _

theorem calms_log {c c' : Cfg R} (h : Calms c c') : ∃ l, c'.log = c.log ++ l := by
  induction h with
  | refl => exact ⟨[], by simp⟩
  | tail _ hm ih =>
    obtain ⟨l, hl⟩ := ih
    have hm := hm.1
    cases hm with
    | remove => exact ⟨l, hl⟩
    | removeRetry => exact ⟨l, hl⟩
    | _ =>
      dsimp only at hl ⊢
      rw [hl, List.append_assoc]
      exact ⟨_, rfl⟩

/-- Posting in a session does not fill the queue of another one. -/
theorem post_other {n n' : Node} {rng i d mid data k d' r} (h : n.postRequest C rng i d mid data k ns = .ok (n', d', r))
    {j : Nat} (hj : j ≠ i) (hb : Busy n' j) : Busy n j := by
  have key : ∀ {rel : RelSessionIndex} {t : Session}, RelSessionIndex.fromSessionIndex i n.sessionStatus.currentIndex = some rel →
      ∀ {n'' : Node}, n''.sessionStatus = n.sessionStatus → n''.sessions = n.sessions.set rel (.full t) → Busy n'' j → Busy n j := by
    rintro rel t h1 n'' h2 h3 ⟨s0, h0, hne⟩
    obtain ⟨rel0, a1, a2⟩ := Node.sessionAt_eq.1 h0
    rw [h2] at a1
    by_cases e : rel0 = rel
    · subst e
      exact absurd (Node.fromSessionIndex_inj a1 h1) hj
    · rw [h3, get_set_ne _ e] at a2
      exact ⟨s0, Node.sessionAt_eq.2 ⟨rel0, a1, a2⟩, hne⟩
  cases postRequest_cases h with
  | failed bps rel s b rng1 acc e h1 h2 h3 h4 h5 hf => exact key (postSession_ok h3).1 (by rfl) (by rfl) hb
  | posted bps rel s b rng1 acc infos met qd h1 h2 h3 h4 h5 hd h6 h7 => exact key (postSession_ok h3).1 (by rfl) (by rfl) hb
  | _ => exact hb

theorem postNext_other {rel : Option RelSessionIndex} {i : SessionIndex} {w w' : Work R} {again : Bool}
    {relOrDefault : RelSessionIndex} {x : Option SessionIndex}
    (h : Work.postNext C T ns ctx rel relOrDefault x i w = .ok (again, w')) {j : Nat} (hj : j ≠ i) (hb : Busy w'.mixnet j) :
    Busy w.mixnet j := by
  obtain ⟨m, n, env, log⟩ := w
  unfold Work.postNext Work.queue at h
  dsimp only at h ⊢
  obtain ⟨q, hq⟩ : ∃ q, m.postQueues.get rel = q := ⟨_, rfl⟩
  rw [hq] at h
  cases q with
  | nil =>
    simp only [Except.ok.injEq, Prod.mk.injEq] at h
    obtain ⟨rfl, rfl⟩ := h
    exact hb
  | cons s rest =>
    dsimp only at h
    rw [res_bind_eq_ok] at h
    obtain ⟨_, -, h⟩ := h
    rw [res_bind_eq_ok] at h
    obtain ⟨⟨n', d, res⟩, h2, h⟩ := h
    dsimp only [Work.setQueue, Work.draw, Work.note] at h h2
    refine post_other h2 hj ?_
    have : w'.mixnet = n' := by
      cases res with
      | ok met =>
        dsimp only at h
        obtain ⟨r, dr, ar, k, mi, si, di, rd⟩ := s
        dsimp only at h
        cases k <;> (cases h; rfl)
      | error e => cases e <;> (cases h; rfl)
    rw [← this]; exact hb

theorem postLoop_other {rel : Option RelSessionIndex} {i : SessionIndex} {relOrDefault : RelSessionIndex}
    {x : Option SessionIndex} {j : Nat} (hj : j ≠ i) : ∀ {k : Nat} {w w' : Work R},
    Work.postLoop C T ns ctx rel relOrDefault x i k w = .ok (some w') → Busy w'.mixnet j → Busy w.mixnet j
  | 0, w, w', h, _ => by cases h
  | k + 1, w, w', h, hb => by
    unfold Work.postLoop at h
    rw [res_bind_eq_ok] at h
    obtain ⟨⟨again, w1⟩, h1, h⟩ := h
    dsimp only at h
    refine postNext_other h1 hj ?_
    cases again with
    | true => rw [if_pos rfl] at h; exact postLoop_other hj h hb
    | false => rw [if_neg (by decide)] at h; cases h; exact hb

theorem processPostQueue_other {rel : Option RelSessionIndex} {w w' : Work R}
    (h : w.processPostQueue C T ns ctx rel = .ok w') {j : Nat} (hj : ¬ w.mgr.PostsIn rel j ∨ w.queue rel = [])
    (hb : Busy w'.mixnet j) : Busy w.mixnet j := by
  unfold Work.processPostQueue at h
  dsimp only at h
  split at h
  · rw [res_bind_eq_ok] at h
    obtain ⟨_, -, h⟩ := h
    cases h
    exact hb
  · rw [res_bind_eq_ok] at h
    obtain ⟨x, -, h⟩ := h
    rw [res_bind_eq_ok] at h
    obtain ⟨i, hi, h⟩ := h
    rw [res_bind_eq_ok] at h
    obtain ⟨o, ho, h⟩ := h
    cases o with
    | none => cases h
    | some w1 =>
      cases h
      rcases hj with hj | hj
      · exact postLoop_other (fun e => hj (by rw [e]; exact hi)) ho hb
      · rw [hj] at ho
        simp only [Work.iterations, List.map_nil, List.sum_nil, Nat.zero_add] at ho
        unfold Work.postLoop Work.postNext at ho
        rw [hj] at ho
        cases ho
        exact hb

/-- Processing a queue for a session without packets: the first request is tried. -/
theorem first_leaves {rel : Option RelSessionIndex} {w w' : Work R} {i : SessionIndex} {s : RequestState R} {k : Nat}
    (h : w.processPostQueue C T ns ctx rel = .ok w') (hi : w.mgr.PostsIn rel i) (hb : ¬ Busy w.mixnet i) (ins rem : List R)
    (hp : Behind rel s k w.mgr) :
    TriedIn s w'.log ∨ s.request ∈ rem ∨ ∃ j, j + 1 = k ∧ Behind rel s j w'.mgr := by
  unfold Work.processPostQueue at h
  dsimp only at h
  split at h
  · rename_i hn
    unfold RequestManager.PostsIn at hi
    rw [hn.1, hn.2] at hi
    cases hi
  · rw [res_bind_eq_ok] at h
    obtain ⟨x, hx, h⟩ := h
    rw [res_bind_eq_ok] at h
    obtain ⟨i', hi', h⟩ := h
    have e : i' = i := by
      have : (Except.ok i' : Res SessionIndex) = .ok i := hi'.symm.trans hi
      cases this; rfl
    subst e
    have hx : x = rel.map fun _ => i' := by
      cases rel with
      | none => cases hx; rfl
      | some r =>
        unfold Work.queueSession at hx
        dsimp only at hx
        rw [show r.add w.mgr.sessionStatus.currentIndex = .ok i' from hi'] at hx
        cases hx; rfl
    subst hx
    rw [res_bind_eq_ok] at h
    obtain ⟨o, ho, h⟩ := h
    cases o with
    | none => cases h
    | some w2 =>
      cases h
      unfold Work.iterations Work.postLoop at ho
      rw [res_bind_eq_ok] at ho
      obtain ⟨⟨again, w1⟩, h1, ho⟩ := ho
      obtain ⟨n1, n2, hcase⟩ := postNext_micro (by rfl) hi h1 ins rem
      obtain ⟨g1, g2, g3, g4⟩ := postNext_grows h1
      have hne : w.queue rel ≠ [] := by
        obtain ⟨a, b, e, -⟩ := hp
        unfold Work.queue
        rw [e]; simp
      dsimp only at ho
      rcases hcase with ⟨e, -, -⟩ | ⟨s0, rest, e1, rfl, e2, e3, -⟩ | ⟨s0, rest, e1, rfl, -, e3, -, d', res, l, e4, e5, -⟩
      · exact absurd e hne
      · exfalso
        rcases g3 rfl with g | g
        · unfold Work.queue at g hne
          rw [e2] at g
          exact hne g
        · rw [e3] at g; exact hb g
      · rw [if_pos rfl] at ho
        obtain ⟨-, hc⟩ := postLoop_micros (C := C) (T := T) (ns := ns) (ctx := ctx) ins rem (by rw [n1]) (by unfold RequestManager.PostsIn; rw [n1]; exact hi) ho
        obtain ⟨hc, -⟩ := hc _ rfl
        have hpop : ∃ x, w1.mgr.postQueues.get rel = rest ++ x := by
          rcases e3 with e3 | ⟨_, s', _, _, e3⟩
          · exact ⟨[], by rw [List.append_nil]; exact e3⟩
          · exact ⟨[s'], e3⟩
        obtain ⟨x, hx⟩ := hpop
        rcases hp.pop e1 hx with rfl | ⟨j, hj, hp'⟩
        · have : TriedIn s0 w1.log := ⟨i', d', res, by rw [e5]; exact List.mem_append_right _ List.mem_cons_self, e4⟩
          exact .inl (triedIn_calms hc this)
        · rcases placed_calms (rel := rel) (s := s) (k := j) (.inr (.inr hp')) hc with h | h | h
          · exact .inl h
          · exact .inr (.inl h)
          · exact .inr (.inr ⟨j, hj, h⟩)

/-- A call keeps the place of a request in its queue, or improves it. -/
theorem place_step {rel : Option RelSessionIndex} {s : RequestState R} {k : Nat} {m m' : RequestManager R} {n n' : Node} {env : Env}
    {call : ManagerCall R} {l : List (LogEntry R)} {out : ManagerOutcome R} (h : m.step C T n env ns ctx call = .ok (m', n', l, out))
    (hrel : rel = none ∨ m'.sessionStatus = m.sessionStatus) (hp : Behind rel s k m) :
    Round.Frees ⟨m, n, call, l, out⟩ s ∨ Behind rel s k m' := by
  by_cases h0 : call = .nextRetryDeadlineChanged
  · subst h0; cases h; exact .inr hp
  by_cases h1 : ∃ id, call = .remove id
  · obtain ⟨id, rfl⟩ := h1
    have h : (Except.ok ((m.remove id).1, n, [], ManagerOutcome.removed (m.remove id).2) : Res _) = .ok (m', n', l, out) := h
    have hc := remove_cases m id
    generalize m.remove id = x at h hc
    obtain ⟨m1, o⟩ := x
    cases h
    dsimp only at hc
    cases hc with
    | @post rel' s0 a b e1 e2 =>
      by_cases e : rel' = rel
      · subst e
        by_cases es : s0 = s
        · subst es
          exact .inl (.inr ⟨by rw [e2], rfl⟩)
        · right
          obtain ⟨a', b', h3, h4⟩ := hp
          rw [e1] at h3
          rcases List.append_eq_append_iff.1 h3 with ⟨z, rfl, hz⟩ | ⟨z, rfl, hz⟩
          · cases z with
            | nil => simp only [List.nil_append, List.cons.injEq] at hz; exact absurd hz.1 es
            | cons z0 z =>
              simp only [List.cons_append, List.cons.injEq] at hz
              obtain ⟨rfl, rfl⟩ := hz
              refine ⟨a ++ z, b', ?_, by simp at h4 ⊢; omega⟩
              show PostQueues.get _ _ = _
              rw [PostQueues.get_set]; simp
          · cases z with
            | nil => simp only [List.nil_append, List.cons.injEq] at hz; exact absurd hz.1.symm es
            | cons z0 z =>
              simp only [List.cons_append, List.cons.injEq] at hz
              obtain ⟨rfl, rfl⟩ := hz
              refine ⟨a', z ++ b, ?_, h4⟩
              show PostQueues.get _ _ = _
              rw [PostQueues.get_set]; simp
      · right
        exact hp.append (x := []) (by rw [List.append_nil]; exact PostQueues.get_set_ne _ e _)
    | retry => exact .inr hp
    | none => exact .inr hp
  have hrem : removed [out] = [] := by
    cases call with
    | remove id => exact absurd ⟨id, rfl⟩ h1
    | nextRetryDeadlineChanged => exact absurd rfl h0
    | updateSessionStatus =>
      unfold RequestManager.step at h; rw [res_bind_eq_ok] at h; obtain ⟨w, -, h⟩ := h; cases h; rfl
    | insert r =>
      unfold RequestManager.step at h; rw [res_bind_eq_ok] at h; obtain ⟨w, -, h⟩ := h; cases h; rfl
    | processPostQueues =>
      unfold RequestManager.step at h; rw [res_bind_eq_ok] at h; obtain ⟨w, -, h⟩ := h; cases h; rfl
    | popNextRetry =>
      unfold RequestManager.step at h; rw [res_bind_eq_ok] at h; obtain ⟨w, -, h⟩ := h; cases h; rfl
  have hP : Placed rel s k (⟨m', [] ++ l, [] ++ inserted [call], [] ++ removed [out]⟩ : Cfg R) := by
    have h0' : Placed rel s k (⟨m, [], [], []⟩ : Cfg R) := .inr (.inr hp)
    rcases manager_step_calms h0 h [] [] [] with hc | ⟨hne, c, hm, hc⟩
    · exact placed_calms h0' hc
    · refine placed_calms (placed_micro h0' hm (.inl ?_)) hc
      exact hrel.resolve_right hne
  rcases hP with h | h | h
  · exact .inl (.inl h)
  · rw [hrem] at h; cases h
  · exact .inr h

theorem add_lt {r r' : RelSessionIndex} {c i : Nat} (h : r.add c = .ok i) (h' : r'.add c = .ok i) : r = r' := by
  cases r <;> cases r' <;> first | rfl | skip
  all_goals (exfalso; simp only [RelSessionIndex.add] at h h'; revert h h'; repeat' split)
  all_goals (intro h h'; simp only [panic, reduceCtorEq, Except.ok.injEq] at h h'; try omega)

/-- A chance moves a request forward in its queue. -/
theorem place_chance {rel : Option RelSessionIndex} {s : RequestState R} {k : Nat} {m m' : RequestManager R} {n n' : Node} {env : Env}
    {call : ManagerCall R} {l : List (LogEntry R)} {out : ManagerOutcome R} (h : m.step C T n env ns ctx call = .ok (m', n', l, out))
    (hch : Round.Chance ⟨m, n, call, l, out⟩ rel) (hp : Behind rel s k m) :
    Round.Frees ⟨m, n, call, l, out⟩ s ∨ ∃ j, j + 1 = k ∧ Behind rel s j m' := by
  obtain ⟨hcall, ⟨i, hi, hb⟩, hdef⟩ := hch
  dsimp only at hcall hi hb hdef
  subst hcall
  unfold RequestManager.step at h
  rw [res_bind_eq_ok] at h
  obtain ⟨w', h, he⟩ := h
  cases he
  unfold Work.processPostQueues at h
  rw [res_bind_eq_ok] at h
  obtain ⟨w1, h1, h⟩ := h
  rw [res_bind_eq_ok] at h
  obtain ⟨w2, h2, h3⟩ := h
  obtain ⟨a1, a2, -, a4, -⟩ := processPostQueue_micros h1 [] []
  obtain ⟨b1, b2, -, b4, -⟩ := processPostQueue_micros h2 [] []
  obtain ⟨c1, c2, -, c4, -⟩ := processPostQueue_micros h3 [] []
  have fin : ∀ {w : Work R}, Calms (w.cfg [] []) (w'.cfg [] []) →
      (TriedIn s w.log ∨ s.request ∈ ([] : List R) ∨ ∃ j, j + 1 = k ∧ Behind rel s j w.mgr) →
      Round.Frees ⟨m, n, .processPostQueues, w'.log, .unit⟩ s ∨ ∃ j, j + 1 = k ∧ Behind rel s j w'.mgr := by
    intro w hc hx
    have done : ∀ j, Placed rel s j (w.cfg [] []) → Round.Frees ⟨m, n, .processPostQueues, w'.log, .unit⟩ s ∨ Behind rel s j w'.mgr := by
      intro j hj
      rcases placed_calms hj hc with h | h | h
      · exact .inl (.inl h)
      · cases h
      · exact .inr h
    rcases hx with hx | hx | ⟨j, hj, hx⟩
    · rcases triedIn_calms hc hx with h
      exact .inl (.inl h)
    · cases hx
    · rcases done j (.inr (.inr hx)) with h | h
      · exact .inl h
      · exact .inr ⟨j, hj, h⟩
  have pass : ∀ {w w3 : Work R}, Calms (w.cfg [] []) (w3.cfg [] []) → Calms (w3.cfg [] []) (w'.cfg [] []) →
      (TriedIn s w.log ∨ Behind rel s k w.mgr) →
      (Round.Frees ⟨m, n, .processPostQueues, w'.log, .unit⟩ s ∨ Behind rel s k w3.mgr) := by
    intro w w3 hc hc' hx
    have : Placed rel s k (w.cfg [] []) := hx.imp id .inr
    rcases placed_calms this hc with h | h | h
    · exact .inl (.inl (triedIn_calms hc' h))
    · cases h
    · exact .inr h
  match rel with
  | none => exact fin (b1.trans c1) (first_leaves h1 hi hb [] [] hp)
  | some .current =>
    rcases pass a1 (b1.trans c1) (.inr hp) with h | hp1
    · exact .inl h
    refine fin c1 (first_leaves h2 (by unfold RequestManager.PostsIn; rw [a2]; exact hi) (fun hb' => hb ?_) [] [] hp1)
    refine processPostQueue_other h1 ?_ hb'
    by_cases e : waitsFor m none = waitsFor m (some .current)
    · exact .inr (hdef (by simp) e)
    · exact .inl fun hi' => e (add_lt hi' hi)
  | some .prev =>
    rcases pass a1 (b1.trans c1) (.inr hp) with h | hp1
    · exact .inl h
    rcases pass b1 c1 (.inr hp1) with h | hp2
    · exact .inl h
    refine fin .refl (first_leaves h3 (by unfold RequestManager.PostsIn; rw [b2, a2]; exact hi) (fun hb' => hb ?_) [] [] hp2)
    refine processPostQueue_other h1 ?_ (processPostQueue_other h2 ?_ hb')
    · by_cases e : waitsFor m none = waitsFor m (some .prev)
      · exact .inr (hdef (by simp) e)
      · exact .inl fun hi' => e (add_lt hi' hi)
    · left
      unfold RequestManager.PostsIn
      rw [a2]
      intro hi'
      have := add_lt hi' hi
      cases this

end Mixnet
