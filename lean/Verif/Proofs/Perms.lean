import Mathlib.Data.Fintype.Perm
import Mathlib.Data.Fintype.Vector
import Mathlib.Data.Set.Card
import Mathlib.Algebra.BigOperators.Group.Finset.Basic
import Mathlib.Algebra.Order.BigOperators.Group.Finset
import Mathlib.Tactic.Linarith
/-!
# Counting permutations with one value given
-/
namespace Mixnet

section
variable {α : Type} [Fintype α] [DecidableEq α]

/-- The permutations that take `x` to `y` and `x'` to `u`. -/
def both (x y x' u : α) : Finset (Equiv.Perm α) := Finset.univ.filter fun π => π x = y ∧ π x' = u

theorem both_card {x y x' u v : α} (hu : u ≠ y) (hv : v ≠ y) :
    (both x y x' u).card ≤ (both x y x' v).card := by
  refine Finset.card_le_card_of_injOn (fun π => π.trans (Equiv.swap u v)) ?_ ?_
  · intro π hπ
    simp only [both, Finset.coe_filter, Finset.mem_univ, true_and, Set.mem_ofPred_eq, Equiv.trans_apply] at hπ ⊢
    rw [hπ.1, hπ.2, Equiv.swap_apply_left, Equiv.swap_apply_of_ne_of_ne hu.symm hv.symm]
    exact ⟨rfl, rfl⟩
  · intro π _ π' _ h
    ext z
    have := congrArg (fun (σ : Equiv.Perm α) => σ z) h
    exact (Equiv.swap u v).injective this

theorem both_self {x y x' : α} (h : x ≠ x') : both x y x' y = ∅ := by
  refine Finset.filter_eq_empty_iff.mpr ?_
  rintro π - ⟨h1, h2⟩
  exact h (π.injective (h1.trans h2.symm))

/-- With `π x = y`, a different argument hits a set `T` containing `y`, one `k`-th of all values, in at most one `k`-th of
the cases. -/
theorem hits_card {x x' y : α} (hx : x ≠ x') {T : Finset α} (hy : y ∈ T) {k : Nat} (hk : 0 < k)
    (hT : k * T.card = Fintype.card α) :
    k * (Finset.univ.filter fun π : Equiv.Perm α => π x = y ∧ π x' ∈ T).card ≤
      (Finset.univ.filter fun π : Equiv.Perm α => π x = y).card := by
  have e1 : (Finset.univ.filter fun π : Equiv.Perm α => π x = y).card = ∑ u : α, (both x y x' u).card := by
    rw [Finset.card_eq_sum_card_fiberwise (f := fun π : Equiv.Perm α => π x') (t := Finset.univ)
      (fun _ _ => Finset.mem_coe.mpr (Finset.mem_univ _))]
    refine Finset.sum_congr rfl fun u _ => ?_
    rw [Finset.filter_filter]; rfl
  have e2 : (Finset.univ.filter fun π : Equiv.Perm α => π x = y ∧ π x' ∈ T).card = ∑ u ∈ T, (both x y x' u).card := by
    rw [Finset.card_eq_sum_card_fiberwise (f := fun π : Equiv.Perm α => π x') (t := T)
      (fun π hπ => by
        have := (Finset.mem_filter.mp (Finset.mem_coe.mp hπ)).2.2
        exact this)]
    refine Finset.sum_congr rfl fun u hu => ?_
    rw [Finset.filter_filter, both]
    congr 1
    refine Finset.filter_congr fun π _ => ?_
    constructor
    · rintro ⟨⟨h1, h2⟩, h3⟩; exact ⟨h1, h3⟩
    · rintro ⟨h1, h3⟩; exact ⟨⟨h1, by rw [h3]; exact hu⟩, h3⟩
  by_cases hex : ∃ w : α, w ≠ y
  · obtain ⟨w, hw⟩ := hex
    have hf : ∀ u, u ≠ y → (both x y x' u).card = (both x y x' w).card :=
      fun u hu => le_antisymm (both_card hu hw) (both_card hw hu)
    obtain ⟨f, hfw⟩ : ∃ f, (both x y x' w).card = f := ⟨_, rfl⟩
    rw [hfw] at hf
    have s1 : ∀ S : Finset α, y ∈ S → ∑ u ∈ S, (both x y x' u).card = (S.card - 1) * f := by
      intro S hS
      rw [← Finset.add_sum_erase S _ hS, both_self hx, Finset.card_empty, zero_add,
        Finset.sum_const_nat (fun u hu => hf u (Finset.ne_of_mem_erase hu)), Finset.card_erase_of_mem hS]
    rw [e1, e2, s1 T hy, s1 Finset.univ (Finset.mem_univ y), Finset.card_univ, ← hT, ← Nat.mul_assoc]
    refine Nat.mul_le_mul_right f ?_
    have : 0 < T.card := Finset.card_pos.mpr ⟨y, hy⟩
    obtain ⟨t, ht⟩ : ∃ t, T.card = t + 1 := ⟨T.card - 1, by omega⟩
    rw [ht, Nat.mul_add]
    simp only [Nat.add_sub_cancel]
    omega
  · exfalso
    have : ∀ w : α, w = y := fun w => Classical.not_not.mp fun h => hex ⟨w, h⟩
    exact hx ((this x).trans (this x').symm)

end

/-- As `hits_card`, with sets. -/
theorem hits_ncard {α : Type} [Finite α] {x x' y : α} (hx : x ≠ x') {T : Set α} (hy : y ∈ T) {k : Nat} (hk : 0 < k)
    (hT : k * T.ncard = Nat.card α) :
    k * {π : Equiv.Perm α | π x = y ∧ π x' ∈ T}.ncard ≤ {π : Equiv.Perm α | π x = y}.ncard := by
  classical
  haveI : Fintype α := Fintype.ofFinite α
  have h := hits_card hx (T := T.toFinset) (Set.mem_toFinset.mpr hy) hk
    (by rw [← Set.ncard_eq_toFinset_card', hT, Nat.card_eq_fintype_card])
  rw [Set.ncard_eq_toFinset_card', Set.ncard_eq_toFinset_card']
  convert h using 3
  · ext π; simp
  · ext π; simp

theorem card_byte : Nat.card UInt8 = 256 := by
  have e : UInt8 ≃ Fin 256 :=
    { toFun := fun b => b.toFin, invFun := fun i => UInt8.ofFin i
      left_inv := fun b => by simp, right_inv := fun i => by simp }
  rw [Nat.card_congr e, Nat.card_eq_fintype_card, Fintype.card_fin]

instance : Finite UInt8 := Nat.finite_of_card_ne_zero (by rw [card_byte]; decide)

/-- Strings of `n` bytes. -/
abbrev Strings (n : Nat) : Type := {l : List UInt8 // l.length = n}

instance (n : Nat) : Finite (Strings n) :=
  haveI : Fintype UInt8 := Fintype.ofFinite _
  inferInstanceAs (Finite (List.Vector UInt8 n))

theorem card_strings (n : Nat) : Nat.card (Strings n) = 256 ^ n := by
  haveI : Fintype UInt8 := Fintype.ofFinite _
  have : Nat.card (Strings n) = Nat.card (List.Vector UInt8 n) := rfl
  rw [this, Nat.card_eq_fintype_card, card_vector, ← Nat.card_eq_fintype_card, card_byte]

/-- The strings of `n + m` bytes that end in a given string of `m` bytes. -/
theorem card_ending (n m : Nat) (tag : List UInt8) (ht : tag.length = m) :
    {p : Strings (n + m) | p.1.drop n = tag}.ncard = 256 ^ n := by
  rw [← card_strings n, ← Nat.card_coe_set_eq]
  refine Nat.card_congr
    { toFun := fun p => ⟨p.1.1.take n, by rw [List.length_take, p.1.2]; omega⟩
      invFun := fun q => ⟨⟨q.1 ++ tag, by rw [List.length_append, q.2, ht]⟩, ?_⟩
      left_inv := ?_
      right_inv := ?_ }
  · show (q.1 ++ tag).drop n = tag
    exact List.drop_left' q.2
  · rintro ⟨⟨p, hp⟩, h⟩
    apply Subtype.ext; apply Subtype.ext
    show p.take n ++ tag = p
    rw [← show p.drop n = tag from h, List.take_append_drop]
  · rintro ⟨q, hq⟩
    apply Subtype.ext
    show (q ++ tag).take n = q
    exact List.take_left' hq

end Mixnet
