import Verif.Spec.World
import Verif.Spec.RequestManager
/-!
# Managers at work

Concrete histories of request managers over the nodes of `Spec.World`, used to show that the hypotheses of
theorems can be met.
-/
namespace Mixnet.World
open Spec

/-- Requests are numbers; each asks for one SURB and has three bytes of data. -/
def trait : RequestTrait Nat Unit := ⟨fun _ _ => Scattered.ofSlice [1, 2, 3], fun _ _ => 1, fun _ _ _ => 10⟩

def mgrConfig : RequestManagerConfig := ⟨3, 1, 2, 1⟩

/-- Random numbers for the call number `t`. -/
def mgrEnv (t : Nat) : Env := fun k => ⟨fun n => 1000 * (10 * t + k) + n, t⟩

/-- Calls made one after the other, call number `t` on. -/
def runManager (node : Node) (m : RequestManager Nat) (t : Nat) : List (ManagerCall Nat) →
    Res (RequestManager Nat × List (ManagerOutcome Nat) × List (LogEntry Nat))
  | [] => .ok (m, [], [])
  | c :: cs => do
    let (m, _, l, o) ← m.step C trait node (mgrEnv t) (ns 3) () c
    let (m, os, ls) ← runManager node m (t + 1) cs
    .ok (m, o :: os, l ++ ls)

theorem runManager_runs {node : Node} : ∀ {m : RequestManager Nat} {t : Nat} {cs m' os ls},
    runManager node m t cs = .ok (m', os, ls) → RequestManager.Runs C trait m cs os ls m' := by
  intro m t cs
  induction cs generalizing m t with
  | nil =>
    intro m' os ls h
    cases h
    exact .nil _
  | cons c cs ih =>
    intro m' os ls h
    unfold runManager at h
    obtain ⟨x, hx⟩ : ∃ x, m.step C trait node (mgrEnv t) (ns 3) () c = x := ⟨_, rfl⟩
    rw [hx] at h
    cases x with
    | error e => cases h
    | ok p =>
      obtain ⟨m1, n1, l1, o⟩ := p
      obtain ⟨y, hy⟩ : ∃ y, runManager node m1 (t + 1) cs = y := ⟨_, rfl⟩
      replace h : (do let (m, os, ls) ← runManager node m1 (t + 1) cs; Except.ok (m, o :: os, l1 ++ ls)) =
        .ok (m', os, ls) := h
      rw [hy] at h
      cases y with
      | error e => cases h
      | ok q =>
        obtain ⟨m2, os2, ls2⟩ := q
        cases h
        exact .cons hx (ih hy)

theorem Res.of_check {α} {x : Res α} {p : α → Bool}
    (h : (match x with | .ok a => p a | .error _ => false) = true) : ∃ a, x = .ok a ∧ p a = true := by
  cases x with
  | error e => cases h
  | ok a => exact ⟨a, rfl, h⟩

/-- A request is inserted, posted twice and given up; another one is inserted and removed; a third is
waiting. -/
def mgrCalls : List (ManagerCall Nat) :=
  [.updateSessionStatus, .insert 7, .popNextRetry, .popNextRetry, .insert 8, .remove ((mgrEnv 4 0).rng.fillBytes 16).1,
    .insert 9, .insert 9]

theorem mgr_history : ∃ m os log, Reached C trait mgrConfig 5 mgrCalls os log m ∧
    (managed m = [9, 9] ∧ removed os = [8] ∧ Spec.exhausted log = [7] ∧ Spec.posted log = [7, 7, 8, 9, 9] ∧
      (drawn log).Nodup ∧ m.nextRetryDeadline.isSome) := by
  have h : (match runManager alice (.new mgrConfig 5) 0 mgrCalls with
      | .ok (m, os, log) => decide (managed m = [9, 9] ∧ removed os = [8] ∧ Spec.exhausted log = [7] ∧
          Spec.posted log = [7, 7, 8, 9, 9] ∧ (drawn log).Nodup ∧ m.nextRetryDeadline.isSome)
      | .error _ => false) = true := by decide +kernel
  obtain ⟨x, hx⟩ : ∃ x, runManager alice (.new mgrConfig 5) 0 mgrCalls = x := ⟨_, rfl⟩
  rw [hx] at h
  cases x with
  | error e => cases h
  | ok p =>
    obtain ⟨m, os, log⟩ := p
    exact ⟨m, os, log, runManager_runs hx, of_decide_eq_true h⟩

/-- Alice, with room for one packet only. -/
def busy : Node :=
  { alice with
    sessions := { alice.sessions with
      current := match alice.sessions.current with
        | .full s => .full { s with authoredPacketQueue := .new ⟨1, true⟩ }
        | s => s } }

def busyCalls : List (ManagerCall Nat) :=
  [.updateSessionStatus, .insert 7, .insert 8]

/-- With two posts per attempt, requests have to wait in the queues. -/
theorem busy_history : ∃ m os log, Reached C trait ⟨2, 1, 1, 2⟩ 5 busyCalls os log m ∧
    (m.postQueues.current.map (·.request) = [7] ∧ m.postQueues.default.map (·.request) = [8] ∧ m.sessionStatus = ⟨0, .requestsToCurrent⟩ ∧ m.hasSpace = false) := by
  have h : (match runManager busy (.new ⟨2, 1, 1, 2⟩ 5) 0 busyCalls with
      | .ok (m, os, log) => decide (m.postQueues.current.map (·.request) = [7] ∧ m.postQueues.default.map (·.request) = [8] ∧
          m.sessionStatus = ⟨0, .requestsToCurrent⟩ ∧ m.hasSpace = false)
      | .error _ => false) = true := by decide +kernel
  obtain ⟨x, hx⟩ : ∃ x, runManager busy (.new ⟨2, 1, 1, 2⟩ 5) 0 busyCalls = x := ⟨_, rfl⟩
  rw [hx] at h
  cases x with
  | error e => cases h
  | ok p =>
    obtain ⟨m, os, log⟩ := p
    exact ⟨m, os, log, runManager_runs hx, of_decide_eq_true h⟩

end Mixnet.World
