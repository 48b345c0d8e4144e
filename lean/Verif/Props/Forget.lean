import Verif.Props.Sessions
import Verif.Spec.Forget
/-!
# C69: sessions that are over are forgotten
-/
namespace Mixnet.Props
open Mixnet Spec

/-- The slot of the next session. -/
def nextSlot : Option KxPair → SessionSlot
  | none => .empty
  | some k => .kxPair k

theorem shift_one (ss : Sessions) (next : Option KxPair) {old new : Nat} (h : new - old = 1) :
    Node.shiftSessions ss next old new = ⟨nextSlot next, ss.current⟩ := by
  unfold Node.shiftSessions nextSlot
  rw [h]
  cases next <;> rfl

theorem shift_two (ss : Sessions) (next : Option KxPair) {old new : Nat} (h : new - old = 2) :
    Node.shiftSessions ss next old new = ⟨.empty, nextSlot next⟩ := by
  unfold Node.shiftSessions nextSlot
  rw [h]
  cases next <;> rfl

theorem shift_far (ss : Sessions) (next : Option KxPair) {old new : Nat} (h1 : new - old ≠ 1) (h2 : new - old ≠ 2) :
    Node.shiftSessions ss next old new = ⟨.empty, .empty⟩ := by
  unfold Node.shiftSessions
  dsimp only
  generalize hn : new - old = n at h1 h2
  have key : ∀ x : SessionSlot, (if !ss.isEmpty || !x.isEmpty then ⟨.empty, .empty⟩ else ss : Sessions) = ⟨.empty, .empty⟩ := by
    intro x
    split
    · rfl
    · rename_i hno
      obtain ⟨c, p⟩ := ss
      cases c <;> cases p <;> first | rfl | exact absurd rfl hno
  match n, h1, h2 with
  | 0, _, _ => exact key _
  | 1, h, _ => exact absurd rfl h
  | 2, _, h => exact absurd rfl h
  | n + 3, _, _ => exact key _

/-- **C69.** When the session status changes, whatever a node holds for the sessions that are not kept is gone: two
nodes that differ in nothing else are in the same state afterwards. -/
theorem forgotten {P : SessionIndex → Prop} {m₁ m₂ : Node} (h : SameBut P m₁ m₂) {st : SessionStatus}
    (hne : m₁.sessionStatus ≠ st) (hP : ∀ i, P i → ¬ Keeps m₁.sessionStatus st i) :
    m₁.setSessionStatus st = m₂.setSessionStatus st := by
  obtain ⟨h1, h2, h3, h4, h5, h6, h7, h8, h9⟩ := h
  obtain ⟨c, st0, ⟨cur, prev⟩, next, fwd, ks, fa, ev⟩ := m₁
  obtain ⟨c', st0', ⟨cur', prev'⟩, next', fwd', ks', fa', ev'⟩ := m₂
  dsimp only at *
  subst h1 h2 h6 h7 h8 h9
  unfold Node.setSessionStatus
  dsimp only
  rw [if_neg hne, if_neg hne]
  by_cases hi : st0.currentIndex = st.currentIndex
  · have hcur : cur = cur' := h3.resolve_left fun hp => hP _ hp ⟨by omega, by omega, .inr (.inl hi)⟩
    have hnext : next = next' := h5.resolve_left fun hp => hP _ hp ⟨by omega, by omega, .inl (by omega)⟩
    subst hcur hnext
    rw [if_neg (not_not_intro hi), if_neg (not_not_intro hi)]
    by_cases hd : (!st.phase.needPrev || st.currentIndex == 0) = true
    · rw [if_pos hd, if_pos hd]
    · have hprev : prev = prev' := h4.resolve_left fun ⟨i, hi', hp⟩ => hP _ hp ⟨by omega, by omega, .inr (.inr ⟨by omega, fun hph => by
        rw [hph] at hd; exact hd rfl⟩)⟩
      rw [hprev]
  · rw [if_pos hi, if_pos hi]
    by_cases ha : st.currentIndex - st0.currentIndex = 1
    · have hnext : next = next' := h5.resolve_left fun hp => hP _ hp ⟨by omega, by omega, .inr (.inl (by omega))⟩
      subst hnext
      rw [shift_one _ _ ha, shift_one _ _ ha]
      by_cases hd : (!st.phase.needPrev || st.currentIndex == 0) = true
      · rw [if_pos hd, if_pos hd]
      · have hcur : cur = cur' := h3.resolve_left fun hp => hP _ hp ⟨by omega, by omega, .inr (.inr ⟨by omega, fun hph => by
          rw [hph] at hd; exact hd rfl⟩)⟩
        rw [if_neg hd, if_neg hd, hcur]
    by_cases hb : st.currentIndex - st0.currentIndex = 2
    · rw [shift_two _ _ hb, shift_two _ _ hb]
      by_cases hd : (!st.phase.needPrev || st.currentIndex == 0) = true
      · rw [if_pos hd, if_pos hd]
      · have hnext : next = next' := h5.resolve_left fun hp => hP _ hp ⟨by omega, by omega, .inr (.inr ⟨by omega, fun hph => by
          rw [hph] at hd; exact hd rfl⟩)⟩
        rw [if_neg hd, if_neg hd, hnext]
    · rw [shift_far _ _ ha hb, shift_far _ _ ha hb]

/-- **C69** (history). Whatever happens from then on does not depend on anything the node held for these sessions: not
on their keys, nor on packets queued or seen in them. -/
theorem forgotten_for_good {C : Crypto} {P : SessionIndex → Prop} {m₁ m₂ m' : Node} (h : SameBut P m₁ m₂)
    {st : SessionStatus} (hne : m₁.sessionStatus ≠ st) (hP : ∀ i, P i → ¬ Keeps m₁.sessionStatus st i)
    {calls : List Call} {outs : List Outcome} (hr : Node.Runs C m₁ (.setSessionStatus st :: calls) outs m') :
    Node.Runs C m₂ (.setSessionStatus st :: calls) outs m' := by
  generalize hcs : Call.setSessionStatus st :: calls = cs at hr
  cases hr with
  | nil => cases hcs
  | cons h1 h2 =>
    cases hcs
    cases h1
    refine .cons ?_ h2
    show (Except.ok (m₂.setSessionStatus st, Outcome.unit) : Res _) = _
    rw [← forgotten h hne hP]

section Examples
open World

/-- Alice with another key in session 0, and no longer the mixnodes of session 0. -/
def otherAlice : Node := { alice with sessions := { alice.sessions with current := .kxPair (.ofSecret World.C (sec 9)) } }

/-- After session 2 has begun, or once Alice has disconnected from session 0, this makes no difference any more: while
before, it did. -/
example : SameBut (· = 0) alice otherAlice ∧ alice.sessions.current ≠ otherAlice.sessions.current ∧
    alice.setSessionStatus ⟨2, .coverToCurrent⟩ = otherAlice.setSessionStatus ⟨2, .coverToCurrent⟩ ∧
    alice.setSessionStatus ⟨1, .disconnectFromPrev⟩ = otherAlice.setSessionStatus ⟨1, .disconnectFromPrev⟩ ∧
    alice.setSessionStatus ⟨1, .requestsToCurrent⟩ ≠ otherAlice.setSessionStatus ⟨1, .requestsToCurrent⟩ := by
  have hst : alice.sessionStatus = ⟨0, .requestsToCurrent⟩ := by decide +kernel
  have hs : SameBut (· = 0) alice otherAlice :=
    ⟨rfl, rfl, .inl (by rw [hst]), .inr rfl, .inr rfl, rfl, rfl, rfl, rfl⟩
  have hfull : (match alice.sessions.current with | .full _ => true | _ => false) = true := by decide +kernel
  have hc : alice.sessions.current ≠ otherAlice.sessions.current := by
    intro h
    rw [h] at hfull
    cases hfull
  refine ⟨hs, hc, forgotten hs (by rw [hst]; decide) ?_, forgotten hs (by rw [hst]; decide) ?_, ?_⟩
  · rintro i rfl
    rw [hst]
    unfold Keeps
    simp
  · rintro i rfl
    rw [hst]
    unfold Keeps
    simp
  · intro h
    have h1 : (match (alice.setSessionStatus ⟨1, .requestsToCurrent⟩).sessions.prev with
      | .full _ => true | _ => false) = true := by decide +kernel
    have h2 : (match (otherAlice.setSessionStatus ⟨1, .requestsToCurrent⟩).sessions.prev with
      | .full _ => true | _ => false) = false := by decide +kernel
    rw [h, h2] at h1
    cases h1

end Examples
end Mixnet.Props
