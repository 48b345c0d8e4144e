import Verif.Proofs.Split
import Verif.Props.Scattered
import Verif.Spec.Fragment
/-!
# C02: splitting arithmetic
-/
namespace Mixnet.Props
open Mixnet Spec

theorem canCarry_iff (n d s : Nat) : CanCarry n d s ↔ Feasible n d s := by
  constructor
  · rintro ⟨al, rfl, h, rfl, rfl⟩
    induction al with
    | nil => simp [Feasible]
    | cons p al ih =>
      have h1 := h p (by simp)
      have h2 := ih (fun q hq => h q (by simp [hq]))
      simp only [Feasible, List.map_cons, List.sum_cons, List.length_cons] at h2 ⊢
      omega
  · intro h
    induction n generalizing d s with
    | zero =>
      refine ⟨[], rfl, by simp, ?_, ?_⟩ <;> simp [Feasible] at h ⊢ <;> omega
    | succ n ih =>
      obtain ⟨al, h1, h2, h3, h4⟩ := ih _ _ (feasible_step h)
      refine ⟨(min d (2025 - min s 9 * 222), min s 9) :: al, by simp [h1], ?_, ?_, ?_⟩
      · intro p hp
        rcases List.mem_cons.1 hp with rfl | hp
        · simp only; omega
        · exact h2 p hp
      · simp only [List.map_cons, List.sum_cons, h3]; omega
      · simp only [List.map_cons, List.sum_cons, h4]; omega

/-- C02 (refusal). Splitting never panics, and it refuses exactly when no 65536 fragments could carry
the message. -/
theorem split_refuses_iff (id : MessageId) {data : Scattered Byte} {l : Bytes} (hd : Denotes data l)
    (numSurbs : Nat) :
    (∃ r, fragmentBlueprints id data numSurbs = .ok r) ∧
    (fragmentBlueprints id data numSurbs = .ok none ↔ ¬ CanCarry 65536 l.length numSurbs) := by
  obtain ⟨w, rfl⟩ := denotes_wf hd
  rw [canCarry_iff]
  rcases fragmentBlueprints_spec id data numSurbs w with ⟨e, h⟩ | ⟨bs, e, h1, h2, h3, h4, -⟩
  · exact ⟨⟨_, e⟩, by simp [e, h]⟩
  · refine ⟨⟨_, e⟩, ?_⟩
    rw [e]
    simp only [Except.ok.injEq, reduceCtorEq, false_iff, not_not]
    unfold Feasible at *; omega

/-- C02 (success). Otherwise the number of fragments is the smallest positive number that can carry the
message; the data pieces concatenate to the data, the SURB counts add up, every fragment has at most 9
SURBs and fits, and the fragments are numbered in order and carry the id. -/
theorem split_exact (id : MessageId) {data : Scattered Byte} {l : Bytes} (hd : Denotes data l)
    (numSurbs : Nat) {bs} (h : fragmentBlueprints id data numSurbs = .ok (some bs)) :
    (1 ≤ bs.length ∧ bs.length ≤ 65536 ∧ CanCarry bs.length l.length numSurbs ∧
      ∀ m, 1 ≤ m → CanCarry m l.length numSurbs → bs.length ≤ m) ∧
    (bs.map (fun b => b.data.toVec)).flatten = l ∧ (bs.map (·.numSurbs)).sum = numSurbs ∧
    ∀ j (h : j < bs.length), bs[j].messageId = id ∧ bs[j].lastIndex + 1 = bs.length ∧
      bs[j].index = j ∧ bs[j].data.len = bs[j].data.toVec.length ∧ bs[j].numSurbs ≤ 9 ∧
      bs[j].data.len + 222 * bs[j].numSurbs ≤ 2025 := by
  obtain ⟨w, rfl⟩ := denotes_wf hd
  simp only [canCarry_iff]
  rcases fragmentBlueprints_spec id data numSurbs w with ⟨e, -⟩ | ⟨bs', e, h1, h2, h3, h4, h5, h6, h7⟩
  · rw [h] at e; simp at e
  · rw [h] at e
    simp only [Except.ok.injEq, Option.some.injEq] at e
    subst e
    refine ⟨⟨h1, h2, h3, h4⟩, h6, h7, fun j hj => ?_⟩
    have := h5 j hj
    have hw : bs[j].data.len = bs[j].data.toVec.length := this.2.2.2.1
    refine ⟨this.1, by rw [this.2.1]; omega, this.2.2.1, hw, this.2.2.2.2.1, by rw [hw]; exact this.2.2.2.2.2⟩

/-- Non-vacuity: a 3000-byte message with 10 SURBs splits. -/
example : ∃ bs, fragmentBlueprints [] (Scattered.ofSlice (List.replicate 3000 0)) 10 = .ok (some bs) := by
  obtain ⟨⟨r, hr⟩, h2⟩ := split_refuses_iff [] (Denotes.ofSlice (List.replicate 3000 (0 : Byte))) 10
  cases r with
  | some bs => exact ⟨bs, hr⟩
  | none =>
    refine absurd ((canCarry_iff ..).2 ?_) (h2.1 hr)
    rw [List.length_replicate]; unfold Feasible; omega

/-- Non-vacuity: a message can be refused. -/
example : fragmentBlueprints [] (Scattered.ofSlice ([] : Bytes)) 1000000 = .ok none := by
  refine (split_refuses_iff [] (Denotes.ofSlice ([] : Bytes)) 1000000).2.2 ?_
  rw [canCarry_iff]; unfold Feasible; simp

end Mixnet.Props
