import Verif.Props.Progress
import Verif.Props.Waiting
/-!
# C81: concrete cases
-/
namespace Mixnet.World
open Spec Props

/-- The narrow node in session 0, with its mixnodes; no packets are queued. -/
def narrowFresh : Res Node := do
  let n ← narrowRes
  let (n, _) ← n.step C (.maybeSetMixnodes .current (.ok mixes) rng)
  .ok n

/-- Calls of a manager; `true` says that all packets of the node have been sent before. -/
def runRounds (fresh n : Node) (m : RequestManager Nat) (t : Nat) :
    List (Bool × ManagerCall Nat) → Res (RequestManager Nat × List (Round Nat))
  | [] => .ok (m, [])
  | (b, c) :: cs => do
    let n := if b then fresh else n
    let (m1, n1, l, o) ← m.step C trait n (mgrEnv t) (ns 3) () c
    let (m', rs) ← runRounds fresh n1 m1 (t + 1) cs
    .ok (m', ⟨m, n, c, l, o⟩ :: rs)

theorem runRounds_rounds {fresh : Node} : ∀ {cs : List (Bool × ManagerCall Nat)} {n : Node} {m : RequestManager Nat} {t m' rs},
    runRounds fresh n m t cs = .ok (m', rs) → Rounds C trait m rs m'
  | [], n, m, t, m', rs, h => by cases h; exact .nil _
  | (b, c) :: cs, n, m, t, m', rs, h => by
    unfold runRounds at h
    dsimp only at h
    rw [res_bind_eq_ok] at h
    obtain ⟨⟨m1, n1, l, o⟩, h1, h⟩ := h
    rw [res_bind_eq_ok] at h
    obtain ⟨⟨m2, rs2⟩, h2, h⟩ := h
    cases h
    exact .cons h1 (runRounds_rounds h2)

/-- A test for a chance: session 0 is the current and the default one, and the node has no packets queued in it. -/
def chanceTest (r : Round Nat) : Bool :=
  (match r.call with | .processPostQueues => true | _ => false) &&
    decide (r.before.sessionStatus = ⟨0, .requestsToCurrent⟩) &&
    (match r.node.sessionAt 0 with | some s => s.authoredPacketQueue.queue.isEmpty | none => false)

theorem chanceTest_spec {r : Round Nat} (h : chanceTest r = true) : r.call = .processPostQueues ∧
    r.before.sessionStatus = ⟨0, .requestsToCurrent⟩ ∧ ¬ Busy r.node 0 := by
  unfold chanceTest at h
  rw [Bool.and_eq_true, Bool.and_eq_true] at h
  obtain ⟨⟨h1, h2⟩, h3⟩ := h
  refine ⟨?_, of_decide_eq_true h2, ?_⟩
  · split at h1
    · assumption
    · cases h1
  · rintro ⟨s, hs, hne⟩
    rw [hs] at h3
    exact hne (List.isEmpty_iff.1 h3)

/-- Three requests are inserted: 7 is posted, 8 and 9 wait. -/
def filled : List (Bool × ManagerCall Nat) := [(true, .updateSessionStatus), (true, .insert 7), (false, .insert 8), (false, .insert 9)]

/-- The manager after some calls, and then the calls that follow. -/
def twoParts (a b : List (Bool × ManagerCall Nat)) : Res (RequestManager Nat × RequestManager Nat × List (Round Nat)) := do
  let fresh ← narrowFresh
  let (m, rs0) ← runRounds fresh fresh (.new ⟨4, 1, 1, 2⟩ 5) 0 a
  let (m', rs) ← runRounds fresh (match rs0.getLast? with | some r => r.node | none => fresh) m 50 b
  .ok (m, m', rs)

theorem twoParts_rounds {a b} {p : RequestManager Nat × RequestManager Nat × List (Round Nat) → Bool}
    (h : (match twoParts a b with | .ok x => p x | .error _ => false) = true) :
    ∃ m m' rs, Rounds C trait m rs m' ∧ p (m, m', rs) = true := by
  obtain ⟨⟨m, m', rs⟩, h1, h2⟩ : ∃ x, twoParts a b = .ok x ∧ p x = true := by
    obtain ⟨x, h1⟩ : ∃ x, twoParts a b = x := ⟨_, rfl⟩
    rw [h1] at h
    cases x with
    | error e => cases h
    | ok a => exact ⟨a, h1, h⟩
  unfold twoParts at h1
  rw [res_bind_eq_ok] at h1
  obtain ⟨fresh, -, h1⟩ := h1
  rw [res_bind_eq_ok] at h1
  obtain ⟨⟨m0, rs0⟩, -, h1⟩ := h1
  rw [res_bind_eq_ok] at h1
  obtain ⟨⟨m1, rs1⟩, h3, h1⟩ := h1
  cases h1
  exact ⟨m, m', rs, runRounds_rounds h3, h2⟩

/-- The hypotheses of `tried_in_turn` are met: request 9 waits behind 8; another request is inserted, and then the queues are
processed twice, with the packets sent before. So it has been tried. -/
example : ∃ m m' rs s b, Rounds C trait m rs m' ∧ m.postQueues.default = b ++ s :: [] ∧ s.request = 9 ∧ b.map (·.request) = [8] ∧
    (∃ cs : List (Round Nat), cs.Sublist rs ∧ (∀ c ∈ cs, c.Chance none) ∧ cs.length = 2) ∧ rs.length = 3 ∧ ∃ r ∈ rs, r.Frees s := by
  obtain ⟨m, m', rs, hr, hp⟩ := twoParts_rounds (a := filled) (b := [(false, .insert 10), (true, .processPostQueues), (true, .processPostQueues)])
    (p := fun x => decide (x.1.postQueues.default.map (·.request) = [8, 9]) && (x.2.2.filter chanceTest).length == 2 && x.2.2.length == 3)
    (by decide +kernel)
  rw [Bool.and_eq_true, Bool.and_eq_true] at hp
  obtain ⟨⟨hq, hc⟩, hl⟩ := hp
  have hq := of_decide_eq_true hq
  have hc : (rs.filter chanceTest).length = 2 := by simpa using hc
  dsimp only at hq
  obtain ⟨s8, s9, e, e8, e9⟩ : ∃ s8 s9, m.postQueues.default = [s8, s9] ∧ s8.request = 8 ∧ s9.request = 9 := by
    generalize m.postQueues.default = l at hq
    match l with
    | [] => cases hq
    | [_] => simp at hq
    | [a, b] => simp only [List.map_cons, List.map_nil, List.cons.injEq, and_true] at hq; exact ⟨a, b, rfl, hq.1, hq.2⟩
    | _ :: _ :: _ :: _ => simp at hq
  have hch : ∀ c ∈ rs.filter chanceTest, c.Chance none := by
    intro c hcm
    obtain ⟨h1, h2, h3⟩ := chanceTest_spec (List.mem_filter.1 hcm).2
    refine ⟨h1, ⟨0, ?_, h3⟩, fun h => absurd rfl h⟩
    unfold waitsFor
    rw [h2]; rfl
  refine ⟨m, m', rs, s9, [s8], hr, e, e9, by rw [List.map_singleton, e8], ⟨rs.filter chanceTest, List.filter_sublist, hch, hc⟩,
    by simpa using hl, ?_⟩
  exact tried_in_turn hr (before := [s8]) (after := []) e List.filter_sublist hch (by rw [hc]; exact Nat.lt_succ_self 1)

/-- Why `bound_tried_in_turn` asks for the default queue to be empty: request 7 was posted once and waits, first in the queue of its
session, to be posted again. As long as new requests come in, they go first. -/
example : ∃ m m' rs s rest, Rounds C trait m rs m' ∧ m.postQueues.get (some .current) = s :: rest ∧ s.request = 7 ∧
    (∃ c ∈ rs, c.call = .processPostQueues ∧ ¬ Busy c.node 0) ∧ (∀ r ∈ rs, r.before.sessionStatus = m.sessionStatus) ∧
    m'.sessionStatus = m.sessionStatus ∧ ¬ ∃ r ∈ rs, r.Frees s := by
  obtain ⟨m, m', rs, hr, hp⟩ := twoParts_rounds (a := filled) (b := [(true, .processPostQueues), (true, .processPostQueues)])
    (p := fun x => decide (x.1.postQueues.current.map (·.request) = [7]) && (x.2.2.filter chanceTest).length == 2 &&
      decide (∀ r ∈ x.2.2, r.before.sessionStatus = x.1.sessionStatus) && decide (x.2.1.sessionStatus = x.1.sessionStatus) &&
      x.2.2.all fun r => (match r.call with | .remove _ => false | _ => true) && r.log.all fun e => match e with
        | .post q _ _ _ _ (.ok _) => q != 7
        | .post q _ _ _ _ (.error e) => q != 7 || decide (e = .notEnoughSpaceInQueue)
        | _ => true)
    (by decide +kernel)
  simp only [Bool.and_eq_true] at hp
  obtain ⟨⟨⟨⟨hq, hc⟩, hst⟩, hst'⟩, hall⟩ := hp
  have hq := of_decide_eq_true hq
  have hc : (rs.filter chanceTest).length = 2 := by simpa using hc
  obtain ⟨s, e, e7⟩ : ∃ s, m.postQueues.current = [s] ∧ s.request = 7 := by
    generalize m.postQueues.current = l at hq
    match l with
    | [] => cases hq
    | [a] => simp only [List.map_cons, List.map_nil, List.cons.injEq, and_true] at hq; exact ⟨a, rfl, hq⟩
    | _ :: _ :: _ => simp at hq
  obtain ⟨c, hcm⟩ : ∃ c, c ∈ rs.filter chanceTest := List.exists_mem_of_length_pos (by omega)
  obtain ⟨h1, -, h3⟩ := chanceTest_spec (List.mem_filter.1 hcm).2
  refine ⟨m, m', rs, s, [], hr, e, e7, ⟨c, (List.mem_filter.1 hcm).1, h1, h3⟩, of_decide_eq_true hst, of_decide_eq_true hst', ?_⟩
  rintro ⟨r, hrm, hf⟩
  have ha := List.all_eq_true.1 hall r hrm
  rw [Bool.and_eq_true] at ha
  rcases hf with ⟨i, d, res, hm, hne⟩ | ⟨hrem, -⟩
  · have := List.all_eq_true.1 ha.2 _ hm
    rw [e7] at this
    cases res with
    | ok x => cases this
    | error x =>
      dsimp only at this
      rw [Bool.or_eq_true] at this
      rcases this with h | h
      · cases h
      · exact hne (by rw [of_decide_eq_true h])
  · rw [hrem] at ha
    cases ha.1

end Mixnet.World
