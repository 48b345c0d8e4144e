import Verif.Proofs.Perms
/-!
# Counting functions with some values given
-/
namespace Mixnet

section
variable {α β : Type} [Fintype α] [DecidableEq α] [Fintype β] [DecidableEq β]

/-- The functions in `A` with a given value at `x`, when `A` does not restrict the value at `x`. -/
theorem at_card {A : (α → β) → Prop} [DecidablePred A] {x : α} (hA : ∀ f v, A f → A (Function.update f x v)) (u v : β) :
    (Finset.univ.filter fun f => A f ∧ f x = u).card ≤ (Finset.univ.filter fun f => A f ∧ f x = v).card := by
  refine Finset.card_le_card_of_injOn (fun f => Function.update f x v) ?_ ?_
  · intro f hf
    simp only [Finset.coe_filter, Finset.mem_univ, true_and, Set.mem_ofPred_eq] at hf ⊢
    exact ⟨hA f v hf.1, Function.update_self ..⟩
  · intro f hf g hg h
    simp only [Finset.coe_filter, Finset.mem_univ, true_and, Set.mem_ofPred_eq] at hf hg
    funext y
    by_cases hy : y = x
    · rw [hy, hf.2, hg.2]
    · have := congrFun h y
      simpa only [Function.update_of_ne hy] using this

theorem at_share {A : (α → β) → Prop} [DecidablePred A] {x : α} (hA : ∀ f v, A f → A (Function.update f x v)) (v : β) :
    Fintype.card β * (Finset.univ.filter fun f => A f ∧ f x = v).card = (Finset.univ.filter fun f => A f).card := by
  rw [Finset.card_eq_sum_card_fiberwise (s := Finset.univ.filter fun f => A f) (f := fun f : α → β => f x) (t := Finset.univ)
    (fun _ _ => Finset.mem_coe.mpr (Finset.mem_univ _))]
  rw [Finset.sum_const_nat (m := (Finset.univ.filter fun f => A f ∧ f x = v).card), Finset.card_univ]
  intro u _
  rw [Finset.filter_filter]
  exact le_antisymm (at_card hA u v) (at_card hA v u)
end

/-- As `at_share`, with sets. -/
theorem at_ncard {α β : Type} [Finite α] [Finite β] [DecidableEq α] {A : Set (α → β)} {x : α}
    (hA : ∀ f v, f ∈ A → Function.update f x v ∈ A) (v : β) :
    Nat.card β * {f | f ∈ A ∧ f x = v}.ncard = A.ncard := by
  classical
  haveI : Fintype α := Fintype.ofFinite α
  haveI : Fintype β := Fintype.ofFinite β
  have h := at_share (A := fun f => f ∈ A) (x := x) hA v
  rw [Set.ncard_eq_toFinset_card', Set.ncard_eq_toFinset_card', Nat.card_eq_fintype_card]
  convert h using 3
  · ext π; simp
  · ext π; simp

/-- A permutation takes a given argument to each value equally often. -/
theorem perm_share {α : Type} [Finite α] (x y : α) :
    Nat.card α * {π : Equiv.Perm α | π x = y}.ncard = Nat.card (Equiv.Perm α) := by
  classical
  haveI : Fintype α := Fintype.ofFinite α
  have le : ∀ u v : α, (Finset.univ.filter fun π : Equiv.Perm α => π x = u).card ≤
      (Finset.univ.filter fun π : Equiv.Perm α => π x = v).card := by
    intro u v
    refine Finset.card_le_card_of_injOn (fun π => π.trans (Equiv.swap u v)) ?_ ?_
    · intro π hπ
      simp only [Finset.coe_filter, Finset.mem_univ, true_and, Set.mem_ofPred_eq, Equiv.trans_apply] at hπ ⊢
      rw [hπ, Equiv.swap_apply_left]
    · intro π _ π' _ h
      ext z
      have := congrArg (fun (σ : Equiv.Perm α) => σ z) h
      exact (Equiv.swap u v).injective this
  have e : (Finset.univ : Finset (Equiv.Perm α)).card = ∑ u : α, (Finset.univ.filter fun π : Equiv.Perm α => π x = u).card :=
    Finset.card_eq_sum_card_fiberwise (f := fun π : Equiv.Perm α => π x) (t := Finset.univ)
      (fun _ _ => Finset.mem_coe.mpr (Finset.mem_univ _))
  rw [Finset.sum_const_nat (m := (Finset.univ.filter fun π : Equiv.Perm α => π x = y).card)
    (fun u _ => le_antisymm (le u y) (le y u)), Finset.card_univ, Finset.card_univ] at e
  rw [Nat.card_eq_fintype_card, Nat.card_eq_fintype_card, e, Set.ncard_eq_toFinset_card']
  congr 2
  ext π; simp

/-- The strings of `n + m` bytes that begin with a given string of `n` bytes. -/
theorem card_beginning (n m : Nat) (pre : List UInt8) (hp : pre.length = n) :
    {p : Strings (n + m) | p.1.take n = pre}.ncard = 256 ^ m := by
  rw [← card_strings m, ← Nat.card_coe_set_eq]
  refine Nat.card_congr
    { toFun := fun p => ⟨p.1.1.drop n, by rw [List.length_drop, p.1.2]; omega⟩
      invFun := fun q => ⟨⟨pre ++ q.1, by rw [List.length_append, q.2, hp]⟩, ?_⟩
      left_inv := ?_
      right_inv := ?_ }
  · show (pre ++ q.1).take n = pre
    exact List.take_left' hp
  · rintro ⟨⟨p, hp'⟩, h⟩
    apply Subtype.ext
    apply Subtype.ext
    show pre ++ p.drop n = p
    rw [← (show p.take n = pre from h), List.take_append_drop]
  · rintro ⟨q, hq⟩
    apply Subtype.ext
    exact List.drop_left' hp

end Mixnet
