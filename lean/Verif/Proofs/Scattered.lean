import Verif.Model.Scattered
/-! Helper lemmas for `Scattered`. -/
namespace Mixnet

@[simp] theorem res_bind_ok {α β} (a : α) (f : α → Res β) : ((Except.ok a : Res α) >>= f) = f a := rfl
@[simp] theorem res_bind_error {α β} (p : Panic) (f : α → Res β) :
    ((Except.error p : Res α) >>= f) = Except.error p := rfl
@[simp] theorem res_bind_panic {α β} (s : String) (f : α → Res β) :
    ((panic s : Res α) >>= f) = panic s := rfl
@[simp] theorem res_pure {α} (a : α) : (pure a : Res α) = .ok a := rfl
@[simp] theorem panic_ne_ok {α} (s : String) (a : α) : (panic s : Res α) ≠ .ok a := by
  simp [panic]
@[simp] theorem ok_ne_panic {α} (s : String) (a : α) : (Except.ok a : Res α) ≠ panic s := by
  simp [panic]

namespace Scattered
variable {α : Type}

theorem foldl_append_flatten (ms : List (List α)) (a : List α) :
    ms.foldl (fun v m => v ++ m) a = a ++ ms.flatten := by
  induction ms generalizing a with
  | nil => simp
  | cons m ms ih => simp [ih]

theorem toVec_eq (s : Scattered α) : s.toVec = s.first ++ s.mids.flatten ++ s.last := by
  simp [toVec, foldl_append_flatten]

/-- The stored length is the real one. -/
def WF (s : Scattered α) : Prop := s.len = s.toVec.length

theorem splitMids_spec (s : Scattered α) (mid rightLen m : Nat) (done rest : List (List α))
    (hm : m ≤ rest.flatten.length + s.last.length) :
    ∃ l r, splitMids s mid rightLen m done rest = .ok (l, r) ∧ l.len = mid ∧ r.len = rightLen ∧
      l.toVec = s.first ++ done.flatten ++ (rest.flatten ++ s.last).take m ∧
      r.toVec = (rest.flatten ++ s.last).drop m := by
  induction rest generalizing m done with
  | nil =>
    have : m ≤ s.last.length := by simpa using hm
    refine ⟨⟨mid, s.first, done, s.last.take m⟩, ⟨rightLen, s.last.drop m, [], []⟩, ?_⟩
    simp [splitMids, sliceSplitAt, this, toVec_eq]
  | cons x rest ih =>
    by_cases hx : x.length ≤ m
    · obtain ⟨l, r, h1, h2, h3, h4, h5⟩ := ih (m - x.length) (done ++ [x]) (by
        simp [List.length_flatten] at hm ⊢; omega)
      refine ⟨l, r, by simp [splitMids, hx, h1], h2, h3, ?_, ?_⟩
      · rw [h4]; simp [List.take_append, List.take_of_length_le hx]
      · rw [h5]; simp [List.drop_append, List.drop_eq_nil_of_le hx]
    · have hx' : m ≤ x.length := by omega
      have e1 : (m : Nat) - x.length = 0 := by omega
      refine ⟨⟨mid, s.first, done, x.take m⟩, ⟨rightLen, x.drop m, rest, s.last⟩, ?_⟩
      simp [splitMids, hx, sliceSplitAt, hx', toVec_eq, List.take_append, List.drop_append, e1]

theorem splitAt_spec (s : Scattered α) (h : s.WF) (mid : Nat) (hm : mid ≤ s.toVec.length) :
    ∃ l r, splitAt s mid = .ok (l, r) ∧ l.WF ∧ r.WF ∧
      l.toVec = s.toVec.take mid ∧ r.toVec = s.toVec.drop mid := by
  have hl : s.len = s.toVec.length := h
  have hm' : ¬ mid > s.len := by omega
  unfold splitAt
  simp only [hm', if_false]
  by_cases hf : mid < s.first.length
  · refine ⟨⟨mid, s.first.take mid, [], []⟩, ⟨s.len - mid, s.first.drop mid, s.mids, s.last⟩, ?_⟩
    have e : mid - s.first.length = 0 := by omega
    have h4 : (Scattered.mk mid (s.first.take mid) [] [] : Scattered α).toVec
        = s.toVec.take mid := by simp [toVec_eq, List.take_append, e]
    have h5 : (Scattered.mk (s.len - mid) (s.first.drop mid) s.mids s.last : Scattered α).toVec
        = s.toVec.drop mid := by simp [toVec_eq, List.drop_append, e]
    refine ⟨by simp [hf, sliceSplitAt, Nat.le_of_lt hf], ?_, ?_, h4, h5⟩
    · simp only [WF, h4]; simp; omega
    · simp only [WF, h5]; simp; omega
  · rw [if_neg hf]
    obtain ⟨l, r, h1, h2, h3, h4, h5⟩ := splitMids_spec s mid (s.len - mid) (mid - s.first.length) []
      s.mids (by simp [toVec_eq] at hm ⊢; omega)
    have h4' : l.toVec = s.toVec.take mid := by
      have : s.first.length ≤ mid := by omega
      rw [h4, toVec_eq]
      simp [List.take_append, List.take_of_length_le this, Nat.sub_sub]
    have h5' : r.toVec = s.toVec.drop mid := by
      have : s.first.length ≤ mid := by omega
      rw [h5, toVec_eq]
      simp [List.drop_append, List.drop_eq_nil_of_le this, Nat.sub_sub]
    refine ⟨l, r, h1, ?_, ?_, h4', h5'⟩
    · simp only [WF, h4', h2]; simp; omega
    · simp only [WF, h5', h3]; simp; omega

theorem splitAt_panics (s : Scattered α) (h : s.WF) (mid : Nat) (hm : s.toVec.length < mid) :
    splitAt s mid = panic "mid must be <= len" := by
  have hl : s.len = s.toVec.length := h
  have : mid > s.len := by omega
  simp [splitAt, this]

theorem copyMids_spec (last : List α) (ms : List (List α)) (dst : List α) :
    (dst.length = ms.flatten.length + last.length →
      copyMids last ms dst = .ok (ms.flatten ++ last)) ∧
    (dst.length ≠ ms.flatten.length + last.length → ∃ site, copyMids last ms dst = panic site) := by
  induction ms generalizing dst with
  | nil =>
    constructor <;> intro h <;> simp at h
    · simp [copyMids, copyFromSlice, h]
    · exact ⟨_, by simp [copyMids, copyFromSlice, h]; rfl⟩
  | cons m ms ih =>
    constructor
    · intro h
      have h1 : m.length ≤ dst.length := by simp at h; omega
      have h2 := (ih (dst.drop m.length)).1 (by simp [List.length_flatten] at h ⊢; omega)
      simp [copyMids, sliceSplitAt, h1, copyFromSlice, h2]
    · intro h
      by_cases h1 : m.length ≤ dst.length
      · obtain ⟨site, h2⟩ := (ih (dst.drop m.length)).2 (by simp at h ⊢; omega)
        exact ⟨site, by simp [copyMids, sliceSplitAt, h1, copyFromSlice, h2]⟩
      · exact ⟨_, by simp [copyMids, sliceSplitAt, h1]; rfl⟩

theorem copyToSlice_ok (s : Scattered α) (dst : List α) (h : dst.length = s.toVec.length) :
    copyToSlice s dst = .ok s.toVec := by
  rw [toVec_eq] at h
  have h1 : s.first.length ≤ dst.length := by simp at h; omega
  have h2 := (copyMids_spec s.last s.mids (dst.drop s.first.length)).1 (by simp at h ⊢; omega)
  simp [copyToSlice, sliceSplitAt, h1, copyFromSlice, h2, toVec_eq]

theorem copyToSlice_panics (s : Scattered α) (dst : List α) (h : dst.length ≠ s.toVec.length) :
    ∃ site, copyToSlice s dst = panic site := by
  rw [toVec_eq] at h
  by_cases h1 : s.first.length ≤ dst.length
  · obtain ⟨site, h2⟩ := (copyMids_spec s.last s.mids (dst.drop s.first.length)).2
      (by simp at h ⊢; omega)
    exact ⟨site, by simp [copyToSlice, sliceSplitAt, h1, copyFromSlice, h2]⟩
  · exact ⟨_, by simp [copyToSlice, sliceSplitAt, h1]; rfl⟩

theorem wf_ofSlice (l : List α) : (ofSlice l).WF := by simp [WF, ofSlice, toVec_eq]
theorem toVec_ofSlice (l : List α) : (ofSlice l).toVec = l := by simp [ofSlice, toVec_eq]
theorem wf_ofSlices (ls : List (List α)) : (ofSlices ls).WF := by
  simp [WF, ofSlices, toVec_eq, List.length_flatten]
theorem toVec_ofSlices (ls : List (List α)) : (ofSlices ls).toVec = ls.flatten := by
  simp [ofSlices, toVec_eq]

end Scattered
end Mixnet
