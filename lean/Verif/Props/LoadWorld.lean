import Verif.Props.Load
import Verif.Spec.World
/-!
# C79: examples
-/
namespace Mixnet.Props
open Mixnet Spec

/-! ### The hypotheses can be met -/

theorem first_unique {P : Bytes → Prop} {x y : Bytes} (hx : P x) (hy : P y) : ∀ {l1 l2 r1 r2 : List Bytes},
    l1 ++ x :: r1 = l2 ++ y :: r2 → (∀ z ∈ l1, ¬ P z) → (∀ z ∈ l2, ¬ P z) → l1 = l2 ∧ r1 = r2
  | [], [], r1, r2, h, _, _ => by cases h; exact ⟨rfl, rfl⟩
  | [], z :: l2, r1, r2, h, _, h2 => by cases h; exact absurd hx (h2 _ List.mem_cons_self)
  | z :: l1, [], r1, r2, h, h1, _ => by cases h; exact absurd hy (h1 _ List.mem_cons_self)
  | z :: l1, z' :: l2, r1, r2, h, h1, h2 => by
    simp only [List.cons_append, List.cons.injEq] at h
    obtain ⟨e1, e2⟩ := first_unique hx hy h.2 (fun z hz => h1 z (List.mem_cons_of_mem _ hz))
      (fun z hz => h2 z (List.mem_cons_of_mem _ hz))
    exact ⟨by rw [h.1, e1], e2⟩

/-- A 3000-byte message arrives at a receiver with the default limits (`/repo/src/core/config.rs`) whatever comes before,
whatever comes after, and with any 82 fragments of other messages between its two fragments. -/
example : ∃ f g, Sent (List.replicate 16 7) (List.replicate 3000 1) [] [f, g] ∧
    ∀ before between after : List Bytes, AllFragments before → AllFragments between → AllFragments after →
      (∀ z ∈ before ++ between ++ after, idOf z ≠ List.replicate 16 7) → between.length ≤ 82 →
      ∃ a outs, (FragmentAssembler.new 2000 2000 25).insertAll (before ++ g :: (between ++ f :: after)) = .ok (a, outs) ∧
        some ⟨List.replicate 16 7, List.replicate 3000 1, []⟩ ∈ outs := by
  have hs : ∀ s ∈ ([] : List Surb), s.length = 222 := fun s h => (by cases h)
  obtain ⟨fs, h⟩ := sent_exists (List.replicate 16 7) (List.replicate 3000 1) [] List.length_replicate hs
    ((canCarry_iff ..).2 (by rw [List.length_replicate]; unfold Feasible; simp))
  obtain ⟨c1, c2⟩ := sent_length_least List.length_replicate hs h
  have hmax : fs.length ≤ 2 := c2 2 (by omega) ((canCarry_iff ..).2 (by rw [List.length_replicate]; unfold Feasible; simp))
  obtain ⟨hw, has⟩ := sent_whole List.length_replicate hs h
  have h2 : fs.length = 2 := by
    have h0 : 0 < fs.length := List.length_pos_iff.2 hw.1
    have h1 : fs.length ≠ 1 := by
      intro e
      rw [e, List.length_replicate] at c1
      have := (canCarry_iff ..).1 c1
      unfold Feasible at this
      simp at this
    omega
  obtain ⟨f, g, rfl⟩ := List.length_eq_two.1 h2
  have hf := hw.mem (f := f) (by simp)
  have hg := hw.mem (f := g) (by simp)
  refine ⟨f, g, h, fun before between after l1 l2 l3 hother hlen => ?_⟩
  have hno : ∀ l : List Bytes, (∀ z ∈ l, idOf z ≠ List.replicate 16 7) →
      l.filter (fun x => idOf x = List.replicate 16 7) = [] := fun l hl =>
    List.filter_eq_nil_iff.2 fun z hz hd => hl z hz (of_decide_eq_true hd)
  have o1 := fun z hz => hother z (List.mem_append_left _ (List.mem_append_left _ hz))
  have o2 := fun z hz => hother z (List.mem_append_left _ (List.mem_append_right _ hz))
  have o3 := fun z hz => hother z (List.mem_append_right _ hz)
  have hfilter : ((before ++ g :: (between ++ f :: after)).filter (fun x => idOf x = List.replicate 16 7)).Perm [f, g] := by
    rw [List.filter_append, List.filter_cons, if_pos (decide_eq_true hg.2.1), List.filter_append, List.filter_cons,
      if_pos (decide_eq_true hf.2.1), hno _ o1, hno _ o2, hno _ o3]
    exact List.Perm.swap f g []
  obtain ⟨a, outs, e, hol, hout⟩ := reassembled_under_load List.length_replicate hs h
    (a := FragmentAssembler.new 2000 2000 25) ⟨2000, 2000, 25, [], [], by simp [AllFragments], rfl⟩
    (by simp [FragmentAssembler.new]) (gs := before ++ g :: (between ++ f :: after))
    (by
      intro z hz
      simp only [List.mem_append, List.mem_cons] at hz
      rcases hz with hz | rfl | hz | rfl | hz
      · exact l1 z hz
      · exact hg.1.1
      · exact l2 z hz
      · exact hf.1.1
      · exact l3 z hz) hfilter (by simp [FragmentAssembler.new]) (K := 82)
    (.inr (by unfold RoomFor; simp [FragmentAssembler.new])) (by
      intro before' x between' y after' e hx hy hz
      refine Nat.le_trans (List.dedup_sublist _).length_le ?_
      rw [List.length_map]
      refine Nat.le_trans (Nat.le_of_eq ?_) hlen
      -- the only gap is `between`
      have hlen2 := hfilter.length_eq
      rw [e, List.filter_append, List.filter_cons, if_pos (decide_eq_true hx), List.filter_append, List.filter_cons,
        if_pos (decide_eq_true hy)] at hlen2
      simp only [List.length_append, List.length_cons, List.length_nil] at hlen2
      have hb : before'.filter (fun x => idOf x = List.replicate 16 7) = [] :=
        List.eq_nil_of_length_eq_zero (by omega)
      obtain ⟨-, e1⟩ := first_unique (P := fun z => idOf z = List.replicate 16 7) hg.2.1 hx e o1
        (fun z hz hd => (List.filter_eq_nil_iff.1 hb) z hz (decide_eq_true hd))
      obtain ⟨e2, -⟩ := first_unique (P := fun z => idOf z = List.replicate 16 7) hf.2.1 hy e1 o2 hz
      rw [e2])
  refine ⟨a, outs, e, ?_⟩
  have : some ⟨List.replicate 16 7, List.replicate 3000 1, []⟩ ∈
      (((before ++ g :: (between ++ f :: after)).zip outs).filter (fun p => idOf p.1 = List.replicate 16 7)).map (·.2) := by
    rw [hout]; exact List.mem_append_right _ (List.mem_singleton_self _)
  obtain ⟨p, hp, hp2⟩ := List.mem_map.1 this
  rw [← hp2]
  exact (List.of_mem_zip (List.mem_of_mem_filter hp)).2


/-- The limit is sharp: with room for two incomplete messages, one other message in between does no harm, but two make the
receiver forget the first. -/
example : exRun 2 9 [(1, 1), (2, 0), (1, 0)] = some ([some 2], [none, none, some [1, 1]]) ∧
    exRun 2 9 [(1, 1), (2, 0), (3, 0), (1, 0)] = some ([some 3, some 1], [none, none, none, none]) := by
  decide +kernel

end Mixnet.Props

namespace Mixnet.World
open Spec

/-- Alice sends Bob a request of two fragments, by way of Carol. -/
def ask2 : Call := .postRequest rng 0 (some 1) (List.replicate 16 2) (Scattered.ofSlice (List.replicate 2100 4)) 0 (ns 3)
theorem ask2_ok : (alice.step C ask2).isOk = true := by decide +kernel
def half (i : Nat) : Bytes := ((waiting ((alice.step C ask2).get ask2_ok).1)[i]?.getD ⟨[], []⟩).packet
def passOn (i : Nat) : Bytes :=
  match carol.step C (.handlePacket 1000 (half i)) with
  | .ok (m, _) => (m.forwardPacketQueue.queue.headD ⟨0, ⟨[], []⟩⟩).packet.packet
  | _ => []
theorem halves_length : (passOn 0).length = 2252 ∧ (passOn 1).length = 2252 := by decide +kernel
/-- One of the two arrives, then a packet of another request, then the other one. -/
theorem half_ok : (bob.step C (.handlePacket 2000 (passOn 1))).isOk = true := by decide +kernel
def bobHalf : Node := ((bob.step C (.handlePacket 2000 (passOn 1))).get half_ok).1
theorem between_ok : (bobHalf.step C arrive).isOk = true := by decide +kernel
def bobBetween : Node := ((bobHalf.step C arrive).get between_ok).1
theorem whole_ok : (bobBetween.step C (.handlePacket 3000 (passOn 0))).isOk = true := by decide +kernel
def bobWhole : Node := ((bobBetween.step C (.handlePacket 3000 (passOn 0))).get whole_ok).1
def wholeOut : Outcome := ((bobBetween.step C (.handlePacket 3000 (passOn 0))).get whole_ok).2
def halfIm : IncompleteMessage := (storedOf bobHalf (List.replicate 16 2)).getD ⟨[], 0⟩
theorem stored_half : storedOf bob (List.replicate 16 2) = none ∧ storedOf bobHalf (List.replicate 16 2) = some halfIm ∧
    storedOf bobBetween (List.replicate 16 2) = some halfIm ∧ halfIm.numReceived = 1 ∧ halfIm.fragments.length = 2 := by
  decide +kernel

/-- The hypotheses of `not_dropped` are met when the second half arrives, which completes the request. -/
example : storedOf bobWhole (List.replicate 16 2) = none ∧ ∃ msg, wholeOut = .message (some msg) := by
  obtain ⟨s1, s2, s3, s4, s5⟩ := stored_half
  rcases Props.not_dropped (K := 82) toyLaws bob_reachable halves_length.2 (Res.eq_get2 _ half_ok) s2
    (by rw [s1]; exact fun h => (by cases h))
    (.packet (.start _) arrive_typed (Res.eq_get2 _ between_ok) (s3.trans s2.symm)) (by decide)
    (by unfold RoomFor; rw [s4]; decide) (call := .handlePacket 3000 (passOn 0)) halves_length.1 (Res.eq_get2 _ whole_ok) with h | ⟨im, h, -⟩ | ⟨h, -, h'⟩
  · exact absurd h (by decide +kernel)
  · have : storedOf bobWhole (List.replicate 16 2) = none := by decide +kernel
    exact absurd (this.symm.trans h) (fun h => (by cases h))
  · exact ⟨h, h'⟩

end Mixnet.World
