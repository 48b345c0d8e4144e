import Verif.Proofs.Scattered
/-!
# C07: scattered data behaves as one concatenated slice
-/
namespace Mixnet.Props
open Mixnet

/-- Specification. `Denotes s l`: the value `s`, obtained through the public constructors and any
chain of `split_at`s, stands for the contiguous slice `l`. -/
inductive Denotes {α : Type} : Scattered α → List α → Prop
  | ofSlice (l : List α) : Denotes (Scattered.ofSlice l) l
  | ofSlices (ls : List (List α)) : Denotes (Scattered.ofSlices ls) ls.flatten
  | left {s l mid a b} : Denotes s l → s.splitAt mid = .ok (a, b) → Denotes a (l.take mid)
  | right {s l mid a b} : Denotes s l → s.splitAt mid = .ok (a, b) → Denotes b (l.drop mid)

theorem denotes_wf {α : Type} {s : Scattered α} {l : List α} (h : Denotes s l) :
    s.WF ∧ s.toVec = l := by
  induction h with
  | ofSlice l => exact ⟨Scattered.wf_ofSlice l, Scattered.toVec_ofSlice l⟩
  | ofSlices ls => exact ⟨Scattered.wf_ofSlices ls, Scattered.toVec_ofSlices ls⟩
  | @left s l mid a b h1 h2 ih =>
    by_cases hm : mid ≤ s.toVec.length
    · obtain ⟨l', r', e, w1, w2, t1, t2⟩ := Scattered.splitAt_spec s ih.1 mid hm
      rw [h2] at e; simp at e; obtain ⟨rfl, rfl⟩ := e
      exact ⟨w1, by rw [t1, ih.2]⟩
    · rw [Scattered.splitAt_panics s ih.1 mid (by omega)] at h2; simp [panic] at h2
  | @right s l mid a b h1 h2 ih =>
    by_cases hm : mid ≤ s.toVec.length
    · obtain ⟨l', r', e, w1, w2, t1, t2⟩ := Scattered.splitAt_spec s ih.1 mid hm
      rw [h2] at e; simp at e; obtain ⟨rfl, rfl⟩ := e
      exact ⟨w2, by rw [t2, ih.2]⟩
    · rw [Scattered.splitAt_panics s ih.1 mid (by omega)] at h2; simp [panic] at h2

theorem splitMids_whole {s : Scattered UInt8} {mid r : Nat} {l : List UInt8} :
    ∀ (ms done : List (List UInt8)) (x : UInt8), s.splitMids mid r (ms.flatten.length + l.length) done (ms ++ [l ++ [x]]) =
      .ok (⟨mid, s.first, done ++ ms, l⟩, ⟨r, [x], [], s.last⟩)
  | [], done, x => by
    simp only [List.flatten_nil, List.length_nil, Nat.zero_add, List.nil_append, Scattered.splitMids]
    rw [if_neg (by simp)]
    simp only [Scattered.sliceSplitAt]
    rw [if_pos (by simp), res_bind_ok]
    simp
  | m :: ms, done, x => by
    simp only [List.cons_append, Scattered.splitMids, List.flatten_cons, List.length_append]
    rw [if_pos (by omega), show m.length + ms.flatten.length + l.length - m.length = ms.flatten.length + l.length from by omega,
      splitMids_whole ms (done ++ [m]) x]
    simp

/-- Every value whose length field is right can be made through the public constructors and `split_at`. -/
theorem Denotes.of_wf {s : Scattered UInt8} (h : s.WF) : Denotes s s.toVec := by
  obtain ⟨n, f, ms, l⟩ := s
  have htv : (⟨n, f, ms, l⟩ : Scattered UInt8).toVec = f ++ (ms.flatten ++ l) := by
    simp [Scattered.toVec_eq]
  have hn : n = f.length + (ms.flatten.length + l.length) := by
    have := h; unfold Scattered.WF at this; rw [htv] at this; simpa using this
  rw [htv]
  have hsum : ∀ ls : List (List UInt8), (ls.map List.length).sum = ls.flatten.length := by
    intro ls; simp [List.length_flatten]
  cases f with
  | nil =>
    have h0 := Denotes.ofSlices (ms ++ [l ++ [0]])
    have := Denotes.left (mid := n) h0 (a := ⟨n, [], ms, l⟩) (b := ⟨1, [0], [], []⟩) (by
      unfold Scattered.splitAt Scattered.ofSlices
      dsimp only
      rw [if_neg (by rw [hsum, hn]; simp), if_neg (by simp), hsum]
      have := splitMids_whole (s := Scattered.ofSlices (ms ++ [l ++ [0]])) (mid := n) (r := 1) (l := l) ms [] 0
      simp only [List.length_nil, Nat.zero_add] at hn
      rw [List.length_nil, Nat.sub_zero]
      have e1 : (ms ++ [l ++ [0]]).flatten.length - n = 1 := by rw [hn]; simp; omega
      rw [e1, hn]
      rw [hn] at this
      unfold Scattered.ofSlices at this
      rw [hsum] at this
      exact this)
    have e : (ms ++ [l ++ [0]]).flatten.take n = ms.flatten ++ l := by
      rw [List.flatten_append, List.flatten_singleton, ← List.append_assoc, List.take_left' (by simp [hn])]
    rw [e] at this
    exact this
  | cons a f =>
    have h0 := Denotes.ofSlices ((a :: f) :: (ms ++ [l ++ [0]]))
    have h1 := Denotes.right (mid := 0) h0 (a := ⟨0, [], [], []⟩) (b := ⟨n + 1, a :: f, ms ++ [l ++ [0]], []⟩) (by
      unfold Scattered.splitAt Scattered.ofSlices
      dsimp only
      rw [if_neg (by simp), if_neg (by simp), hsum]
      simp only [Scattered.splitMids, List.length_nil, Nat.sub_zero]
      rw [if_neg (by simp)]
      simp only [Scattered.sliceSplitAt]
      rw [if_pos (by simp), res_bind_ok]
      simp [hn]
      omega)
    have := Denotes.left (mid := n) h1 (a := ⟨n, a :: f, ms, l⟩) (b := ⟨1, [0], [], []⟩) (by
      unfold Scattered.splitAt
      dsimp only
      rw [if_neg (by simp), if_neg (by simp [hn])]
      have := splitMids_whole (s := ⟨n + 1, a :: f, ms ++ [l ++ [0]], []⟩) (mid := n) (r := 1) (l := l) ms [] 0
      rw [show n - (a :: f).length = ms.flatten.length + l.length from by omega, show n + 1 - n = 1 from by omega]
      exact this)
    have e : (((a :: f) :: (ms ++ [l ++ [0]])).flatten.drop 0).take n = (a :: f) ++ (ms.flatten ++ l) := by
      rw [List.drop_zero, List.flatten_cons, List.flatten_append, List.flatten_singleton, ← List.append_assoc, ← List.append_assoc,
        List.take_left' (by simp [hn]; omega), List.append_assoc]
    rw [e] at this
    exact this

/-- C07 (length and `to_vec`). -/
theorem scattered_len_toVec {α : Type} {s : Scattered α} {l : List α} (h : Denotes s l) :
    s.len = l.length ∧ s.toVec = l := by
  obtain ⟨w, e⟩ := denotes_wf h
  exact ⟨by rw [← e]; exact w, e⟩

/-- C07 (`split_at` in range): it succeeds and the halves denote the halves of the slice. -/
theorem scattered_splitAt {α : Type} {s : Scattered α} {l : List α} (h : Denotes s l)
    (mid : Nat) (hm : mid ≤ l.length) :
    ∃ a b, s.splitAt mid = .ok (a, b) ∧ Denotes a (l.take mid) ∧ Denotes b (l.drop mid) := by
  obtain ⟨w, e⟩ := denotes_wf h
  obtain ⟨a, b, e', -, -, -, -⟩ := Scattered.splitAt_spec s w mid (by rw [e]; exact hm)
  exact ⟨a, b, e', .left h e', .right h e'⟩

/-- C07 (`split_at` out of range panics). -/
theorem scattered_splitAt_panics {α : Type} {s : Scattered α} {l : List α} (h : Denotes s l)
    (mid : Nat) (hm : l.length < mid) : ∃ site, s.splitAt mid = panic site := by
  obtain ⟨w, e⟩ := denotes_wf h
  exact ⟨_, Scattered.splitAt_panics s w mid (by rw [e]; exact hm)⟩

/-- C07 (`copy_to_slice`): writes exactly the denoted slice if the destination has its length, and
panics otherwise. -/
theorem scattered_copyToSlice {α : Type} {s : Scattered α} {l : List α} (h : Denotes s l)
    (dst : List α) :
    (dst.length = l.length → s.copyToSlice dst = .ok l) ∧
    (dst.length ≠ l.length → ∃ site, s.copyToSlice dst = panic site) := by
  obtain ⟨w, e⟩ := denotes_wf h
  subst e
  exact ⟨Scattered.copyToSlice_ok s dst, Scattered.copyToSlice_panics s dst⟩

/-- Non-vacuity: three slices (one empty), split inside the third and then inside the first. -/
example : ∃ a b c d, (Scattered.ofSlices [[1, 2], [], [3, 4, 5]]).splitAt 3 = .ok (a, b) ∧
    a.splitAt 1 = .ok (c, d) ∧ Denotes b [4, 5] ∧ Denotes c [1] ∧ Denotes d [2, 3] := by
  obtain ⟨a, b, e1, ha, hb⟩ := scattered_splitAt (Denotes.ofSlices [[1, 2], [], [3, 4, 5]]) 3
    (by decide)
  obtain ⟨c, d, e2, hc, hd⟩ := scattered_splitAt ha 1 (by decide)
  exact ⟨a, b, c, d, e1, e2, hb, hc, hd⟩

end Mixnet.Props
