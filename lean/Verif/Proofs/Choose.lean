import Verif.Model.Topology
import Verif.Proofs.Consts
import Verif.Proofs.Scattered
import Mathlib.Data.List.Nodup
import Mathlib.Data.List.Sort
/-!
# Choosing mixnodes: `skipExcluded`, `insertSorted`, sampling
-/
namespace Mixnet

/-- Sorted without duplicates. -/
abbrev Ascending (l : List Nat) : Prop := l.Pairwise (· < ·)

theorem skip_lt {d : Nat} : ∀ {es : List Nat}, (∀ e ∈ es, d < e) → skipExcluded d es = d
  | [], _ => rfl
  | e :: es, h => by
    unfold skipExcluded
    have := h e (by simp)
    rw [if_neg (by omega)]
    exact skip_lt fun e' he' => h e' (by simp [he'])

theorem skip_ge (es : List Nat) : ∀ d, d ≤ skipExcluded d es := by
  induction es with
  | nil => intro d; exact Nat.le_refl d
  | cons e es ih =>
    intro d
    unfold skipExcluded
    split
    · exact Nat.le_trans (Nat.le_succ d) (ih _)
    · exact ih _

theorem skip_le (es : List Nat) : ∀ d, skipExcluded d es ≤ d + es.length := by
  induction es with
  | nil => intro d; exact Nat.le_refl d
  | cons e es ih =>
    intro d
    unfold skipExcluded
    have h1 := ih (d + 1)
    have h2 := ih d
    simp only [List.length_cons]
    split <;> omega

theorem skip_not_mem {es : List Nat} (hs : Ascending es) : ∀ d, skipExcluded d es ∉ es := by
  induction es with
  | nil => simp
  | cons e es ih =>
    intro d
    have hs' := List.pairwise_cons.mp hs
    unfold skipExcluded
    by_cases h : d ≥ e
    · rw [if_pos h]
      have h1 := skip_ge es (d + 1)
      have h2 := ih hs'.2 (d + 1)
      simp only [List.mem_cons, not_or]
      exact ⟨by omega, h2⟩
    · rw [if_neg h, skip_lt fun e' he' => by have := hs'.1 e' he'; omega]
      simp only [List.mem_cons, not_or]
      refine ⟨by omega, fun hm => ?_⟩
      have := hs'.1 d hm; omega

theorem skip_strictMono {es : List Nat} (hs : Ascending es) :
    ∀ {d d'}, d < d' → skipExcluded d es < skipExcluded d' es := by
  induction es with
  | nil => intro d d' h; exact h
  | cons e es ih =>
    intro d d' h
    have hs' := List.pairwise_cons.mp hs
    unfold skipExcluded
    by_cases h1 : d ≥ e
    · rw [if_pos h1, if_pos (by omega)]; exact ih hs'.2 (by omega)
    · rw [if_neg h1, skip_lt fun e' he' => by have := hs'.1 e' he'; omega]
      by_cases h2 : d' ≥ e
      · rw [if_pos h2]; have := skip_ge es (d' + 1); omega
      · rw [if_neg h2]; have := skip_ge es d'; omega

theorem ascending_length {lo n : Nat} : ∀ {es : List Nat}, Ascending es → lo ≤ n → (∀ e ∈ es, lo ≤ e ∧ e < n) →
    lo + es.length ≤ n
  | [], _, hl, _ => by simpa using hl
  | e :: es, hs, hl, h => by
    have hs' := List.pairwise_cons.mp hs
    have he := h e (by simp)
    have := ascending_length (lo := e + 1) hs'.2 (by omega) fun e' he' =>
      ⟨by have := hs'.1 e' he'; omega, (h e' (by simp [he'])).2⟩
    simp only [List.length_cons]; omega

theorem skip_surj {n : Nat} : ∀ {es : List Nat} {lo i : Nat}, Ascending es → (∀ e ∈ es, lo ≤ e ∧ e < n) →
    i ∉ es → lo ≤ i → i < n → ∃ d, lo ≤ d ∧ skipExcluded d es = i ∧ d + es.length < n
  | [], lo, i, _, _, _, hl, hn => ⟨i, hl, rfl, hn⟩
  | e :: es, lo, i, hs, h, hi, hl, hn => by
    have hs' := List.pairwise_cons.mp hs
    have he := h e (by simp)
    simp only [List.mem_cons, not_or] at hi
    by_cases hlt : i < e
    · refine ⟨i, hl, ?_, ?_⟩
      · exact skip_lt fun e' he' => by
          rcases List.mem_cons.mp he' with rfl | he'
          · exact hlt
          · have := hs'.1 e' he'; omega
      · have := ascending_length (lo := i + 1) hs (by omega) fun e' he' => ⟨by
          rcases List.mem_cons.mp he' with rfl | he'
          · exact hlt
          · have := hs'.1 e' he'; omega, (h e' he').2⟩
        omega
    · obtain ⟨d, hd, hsk, hb⟩ := skip_surj (lo := e + 1) (i := i) hs'.2 (fun e' he' =>
        ⟨by have := hs'.1 e' he'; omega, (h e' (by simp [he'])).2⟩) hi.2 (by omega) hn
      refine ⟨d - 1, by omega, ?_, by simp only [List.length_cons]; omega⟩
      unfold skipExcluded
      rw [if_pos (by omega), show d - 1 + 1 = d by omega]
      exact hsk

/-! ### `insertSorted` -/

theorem mem_insertSorted (x i : Nat) (us : List Nat) :
    i ∈ UsedIndices.insertSorted x us ↔ i = x ∨ i ∈ us := by
  induction us with
  | nil => simp [UsedIndices.insertSorted]
  | cons u us ih =>
    unfold UsedIndices.insertSorted
    split
    · split
      · simp
      · rename_i _ h
        have h : u = x := by simpa using h
        subst h; simp
    · simp only [List.mem_cons, ih]
      constructor
      · rintro (h | h | h) <;> simp [h]
      · rintro (h | h | h) <;> simp [h]

theorem insertSorted_asc (x : Nat) {us : List Nat} (h : Ascending us) :
    Ascending (UsedIndices.insertSorted x us) := by
  induction us with
  | nil => simp [UsedIndices.insertSorted]
  | cons u us ih =>
    have h' := List.pairwise_cons.mp h
    unfold UsedIndices.insertSorted
    split
    · split
      · rename_i h1 h2
        refine List.pairwise_cons.mpr ⟨fun a ha => ?_, h⟩
        rcases List.mem_cons.mp ha with rfl | ha
        · omega
        · have := h'.1 a ha; omega
      · exact h
    · rename_i h1
      refine List.pairwise_cons.mpr ⟨fun a ha => ?_, ih h'.2⟩
      rcases (mem_insertSorted x a us).mp ha with rfl | ha
      · omega
      · exact h'.1 a ha

theorem insertSorted_length (x : Nat) {us : List Nat} (h : Ascending us) :
    (UsedIndices.insertSorted x us).length = if x ∈ us then us.length else us.length + 1 := by
  induction us with
  | nil => simp [UsedIndices.insertSorted]
  | cons u us ih =>
    have h' := List.pairwise_cons.mp h
    unfold UsedIndices.insertSorted
    split
    · rename_i h1
      split
      · rename_i h2
        rw [if_neg]
        · simp
        · simp only [List.mem_cons, not_or]
          exact ⟨fun e => h2 e.symm, fun hm => by have := h'.1 x hm; omega⟩
      · rename_i h2
        have h2 : u = x := by simpa using h2
        rw [if_pos (by simp [h2])]
    · rename_i h1
      simp only [List.length_cons, ih h'.2, List.mem_cons]
      have : ¬x = u := by omega
      simp only [this, false_or]
      split <;> rfl

theorem insert_ok {us : UsedIndices} {x : Nat} (h : Ascending us)
    (hl : (if x ∈ us then us.length else us.length + 1) ≤ 7) :
    UsedIndices.insert us x = .ok (UsedIndices.insertSorted x us) := by
  have e : assertP "ArrayVec is full" (decide ((UsedIndices.insertSorted x us).length ≤ MAX_HOPS + 1)) = .ok () := by
    rw [insertSorted_length x h]
    exact if_pos (decide_eq_true hl)
  unfold UsedIndices.insert
  simp only [e, res_bind_ok]

/-! ### Sampling -/

theorem sampleAux_spec (k : Nat) : ∀ (r : Rng) (l : List Nat), l.Nodup → k ≤ l.length →
    (Rng.sampleAux r l k).1.length = k ∧ (Rng.sampleAux r l k).1.Nodup ∧
    ∀ x ∈ (Rng.sampleAux r l k).1, x ∈ l := by
  induction k with
  | zero => intro r l _ _; simp [Rng.sampleAux]
  | succ k ih =>
    intro r l hl hk
    have hpos : 0 < l.length := by omega
    have hlt := Nat.mod_lt (r 0) hpos
    unfold Rng.sampleAux
    rw [List.getElem?_eq_getElem hlt]
    have hmem : l[r 0 % l.length] ∈ l := List.getElem_mem hlt
    have hlen := List.length_erase_of_mem hmem
    obtain ⟨h1, h2, h3⟩ := ih (fun k => r (k + 1)) (l.erase l[r 0 % l.length]) (hl.erase _) (by omega)
    refine ⟨by simp [h1], ?_, ?_⟩
    · refine List.nodup_cons.mpr ⟨fun hm => ?_, h2⟩
      have := h3 _ hm
      exact (List.Nodup.not_mem_erase hl) this
    · intro x hx
      rcases List.mem_cons.mp hx with rfl | hx
      · exact hmem
      · exact List.mem_of_mem_erase (h3 x hx)

theorem sample_spec (r : Rng) (n k : Nat) (h : k ≤ n) :
    (r.sample n k).1.length = k ∧ (r.sample n k).1.Nodup ∧ ∀ x ∈ (r.sample n k).1, x < n := by
  obtain ⟨h1, h2, h3⟩ := sampleAux_spec k r (List.range n) List.nodup_range (by simpa using h)
  exact ⟨h1, h2, fun x hx => List.mem_range.mp (h3 x hx)⟩

end Mixnet
