import Verif.Spec.World
import Verif.Spec.ReplyManager
/-!
# A reply manager at work

A concrete history of a reply manager over a node of `Spec.World`, used to show that the hypotheses of
theorems can be met.
-/
namespace Mixnet.World
open Spec

def replyConfig : ReplyManagerConfig := ⟨2, 2, 10⟩

/-- Calls made one after the other, at the times given. -/
def runReplies (node : Node) (m : ReplyManager) : List (Nat × ReplyCall) → Res (ReplyManager × List ReplyRecord)
  | [] => .ok (m, [])
  | (t, c) :: cs => do
    let (m, node, log, out) ← m.step C node (fun n => n + t) t c
    let (m, rs) ← runReplies node m cs
    .ok (m, ⟨c, t, log, out⟩ :: rs)

theorem runReplies_runs : ∀ {node : Node} {m : ReplyManager} {cs m' rs},
    runReplies node m cs = .ok (m', rs) → ReplyManager.Runs C m rs m' := by
  intro node m cs
  induction cs generalizing m node with
  | nil =>
    intro m' rs h
    cases h
    exact .nil _
  | cons c cs ih =>
    intro m' rs h
    obtain ⟨t, c⟩ := c
    unfold runReplies at h
    obtain ⟨x, hx⟩ : ∃ x, m.step C node (fun n => n + t) t c = x := ⟨_, rfl⟩
    rw [hx] at h
    cases x with
    | error e => cases h
    | ok p =>
      obtain ⟨m1, n1, l1, o⟩ := p
      obtain ⟨y, hy⟩ : ∃ y, runReplies n1 m1 cs = y := ⟨_, rfl⟩
      replace h : (do let (m, rs) ← runReplies n1 m1 cs; Except.ok (m, (⟨c, t, l1, o⟩ : ReplyRecord) :: rs)) =
        .ok (m', rs) := h
      rw [hy] at h
      cases y with
      | error e => cases h
      | ok q =>
        obtain ⟨m2, rs2⟩ := q
        cases h
        exact .cons hx (ih hy)

/-- A request with `n` SURBs. -/
def request (id : MessageId) (n : Nat) : RequestMessage := ⟨0, id, [1, 2, 3], (surbs ++ surbs).take n⟩

def replyCalls : List (Nat × ReplyCall) :=
  [(1000, .insert (request mid 1)), (1005, .insert (request mid 1)),
    (1010, .complete ⟨0, mid, surbs ++ surbs⟩ [7, 8]), (1015, .insert (request mid 1)),
    (1025, .insert (request mid 0)), (1026, .complete ⟨0, mid, surbs⟩ [9]),
    (1027, .insert (request (List.replicate 16 4) 0))]

theorem reply_history : ∃ records m, ReplyReached C replyConfig records m ∧
    records.map (fun r => (r.out.isSome, r.log.length)) =
      [(true, 0), (false, 0), (false, 2), (false, 0), (false, 1), (false, 0), (true, 0)] ∧
    kept m = [mid, List.replicate 16 4] ∧
    (answers mid records).map (·.time) = [1010, 1025] ∧ others mid records.tail = 1 := by
  have h : (match runReplies bob1 (.new replyConfig) replyCalls with
      | .ok (m, rs) => decide (rs.map (fun r => (r.out.isSome, r.log.length)) =
          [(true, 0), (false, 0), (false, 2), (false, 0), (false, 1), (false, 0), (true, 0)] ∧
          kept m = [mid, List.replicate 16 4] ∧ (answers mid rs).map (·.time) = [1010, 1025] ∧ others mid rs.tail = 1)
      | .error _ => false) = true := by decide +kernel
  obtain ⟨x, hx⟩ : ∃ x, runReplies bob1 (.new replyConfig) replyCalls = x := ⟨_, rfl⟩
  rw [hx] at h
  cases x with
  | error e => cases h
  | ok p =>
    obtain ⟨m, rs⟩ := p
    exact ⟨rs, m, runReplies_runs hx, of_decide_eq_true h⟩

end Mixnet.World
