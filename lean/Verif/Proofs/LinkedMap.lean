import Verif.Model.Prelude
import Mathlib.Data.List.Nodup
/-! Helper lemmas for the ordered map of the prelude. -/
set_option linter.unusedSectionVars false
namespace Mixnet
namespace LinkedMap
variable {κ υ : Type} [DecidableEq κ]

/-- The keys in link order. -/
def keys (m : LinkedMap κ υ) : List κ := m.map (·.1)

theorem get?_some_mem {m : LinkedMap κ υ} {k v} (h : m.get? k = some v) : (k, v) ∈ m := by
  simp only [get?, Option.map_eq_some_iff] at h
  obtain ⟨⟨k', v'⟩, h1, rfl⟩ := h
  have := List.find?_some h1
  simp at this; subst this
  exact List.mem_of_find?_eq_some h1

theorem get?_eq_none {m : LinkedMap κ υ} {k} : m.get? k = none ↔ k ∉ keys m := by
  simp only [get?, Option.map_eq_none_iff, List.find?_eq_none, keys, List.mem_map, not_exists, not_and]
  constructor
  · intro h x hx e; exact h x hx (by simp [e])
  · intro h x hx e; simp at e; exact h x hx e

theorem get?_of_mem {m : LinkedMap κ υ} (hn : (keys m).Nodup) {k v} (h : (k, v) ∈ m) :
    m.get? k = some v := by
  induction m with
  | nil => simp at h
  | cons e m ih =>
    simp only [keys, List.map_cons, List.nodup_cons] at hn
    by_cases he : e.1 = k
    · have : (k, v) = e := by
        rcases List.mem_cons.1 h with h | h
        · exact h
        · exact absurd (List.mem_map.2 ⟨(k, v), h, he.symm⟩) hn.1
      simp [get?, ← this]
    · have hm : (k, v) ∈ m := by
        rcases List.mem_cons.1 h with h | h
        · exact absurd (by rw [← h]) he
        · exact h
      have := ih hn.2 hm
      simpa [get?, List.find?_cons, he] using this

theorem keys_pushBack (m : LinkedMap κ υ) (k v) : keys (m.pushBack k v) = keys m ++ [k] := by
  simp [keys, pushBack]

theorem keys_remove (m : LinkedMap κ υ) (k) : keys (m.remove k) = (keys m).filter (fun x => !(x == k)) := by
  simp only [keys, remove, List.filter_map]; rfl

theorem remove_sublist (m : LinkedMap κ υ) (k) : (m.remove k).Sublist m := List.filter_sublist ..

theorem nodup_remove {m : LinkedMap κ υ} (hn : (keys m).Nodup) (k) : (keys (m.remove k)).Nodup := by
  rw [keys_remove]; exact hn.filter _

theorem not_mem_keys_remove (m : LinkedMap κ υ) (k) : k ∉ keys (m.remove k) := by
  rw [keys_remove]; simp

theorem nodup_pushBack {m : LinkedMap κ υ} (hn : (keys m).Nodup) {k v} (hk : k ∉ keys m) :
    (keys (m.pushBack k v)).Nodup := by
  rw [keys_pushBack]; exact List.nodup_append.2 ⟨hn, by simp, by
    intro a ha b hb e; simp at hb; subst hb; subst e; exact hk ha⟩

theorem remove_of_not_mem {m : LinkedMap κ υ} {k} (h : k ∉ keys m) : m.remove k = m := by
  simp only [remove]
  apply List.filter_eq_self.2
  intro e he
  simp
  intro e'
  exact h (List.mem_map.2 ⟨e, he, e'⟩)

/-- Removing a present key from a map with unique keys splits the list around it. -/
theorem split_of_get? {m : LinkedMap κ υ} (hn : (keys m).Nodup) {k v} (h : m.get? k = some v) :
    ∃ l r, m = l ++ (k, v) :: r ∧ m.remove k = l ++ r ∧ k ∉ keys l ∧ k ∉ keys r := by
  obtain ⟨l, r, rfl⟩ := List.append_of_mem (get?_some_mem h)
  simp only [keys, List.map_append, List.map_cons] at hn
  have h2 := List.nodup_middle.1 hn
  simp only [List.nodup_cons, List.mem_append, not_or] at h2
  refine ⟨l, r, rfl, ?_, h2.1.1, h2.1.2⟩
  have hl := remove_of_not_mem (m := l) (k := k) h2.1.1
  have hr := remove_of_not_mem (m := r) (k := k) h2.1.2
  simp only [remove] at hl hr ⊢
  simp [hl, hr]

theorem get?_remove_self (m : LinkedMap κ υ) (k) : (m.remove k).get? k = none :=
  get?_eq_none.2 (not_mem_keys_remove m k)

theorem get?_remove_ne (m : LinkedMap κ υ) {k k'} (h : k' ≠ k) : (m.remove k).get? k' = m.get? k' := by
  induction m with
  | nil => rfl
  | cons e m ih =>
    simp only [get?, remove, List.filter_cons, List.find?_cons] at ih ⊢
    by_cases h1 : e.1 = k
    · have h2 : ¬ e.1 = k' := by rw [h1]; exact fun x => h x.symm
      simp only [h1, beq_self_eq_true, Bool.not_true, Bool.false_eq_true, if_false]
      rw [ih]
      have : (k == k') = false := by simp; exact fun x => h x.symm
      simp [this]
    · have e1 : (e.1 == k) = false := by simpa using h1
      simp only [e1, Bool.not_false, if_true, List.find?_cons]
      cases e.1 == k'
      · exact ih
      · rfl

theorem get?_append (m m' : LinkedMap κ υ) (k) :
    get? (κ := κ) (υ := υ) (m ++ m') k = (m.get? k).or (m'.get? k) := by
  simp only [get?, List.find?_append]
  cases List.find? (fun e => e.1 == k) m <;> simp

theorem get?_pushBack_self {m : LinkedMap κ υ} {k} (v) (h : k ∉ keys m) :
    (m.pushBack k v).get? k = some v := by
  have h' := get?_eq_none.2 h
  rw [pushBack, get?_append, h']; simp [get?]

theorem get?_pushBack_ne (m : LinkedMap κ υ) {k k'} (v) (h : k' ≠ k) :
    (m.pushBack k v).get? k' = m.get? k' := by
  rw [pushBack, get?_append]
  have : get? (κ := κ) (υ := υ) [(k, v)] k' = none := by
    simp [get?]; exact fun e => h e.symm
  rw [this]; simp

end LinkedMap
end Mixnet
