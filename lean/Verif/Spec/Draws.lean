import Verif.Model.Prelude
/-!
# Uniform random choices

A random choice is made with finitely many independent draws, the `i`-th one uniform below the `i`-th of a
list of bounds that does not depend on the outcome of the earlier draws. So all sequences of draws are
equally likely.
-/
namespace Mixnet.Spec

/-- The draws made with the bounds `ms` from a stream of random numbers. -/
def draws (rng : Rng) : List Nat → List Nat
  | [] => []
  | m :: ms => rng 0 % m :: draws (fun n => rng (n + 1)) ms

/-- `ds` is a possible sequence of draws with the bounds `ms`. -/
def Possible : List Nat → List Nat → Prop
  | [], [] => True
  | m :: ms, d :: ds => d < m ∧ Possible ms ds
  | _, _ => False

/-- With the bounds `ms`, each value in `allowed` is the result `F` of exactly one possible sequence of draws
and all results are in `allowed`: the result is uniform over `allowed`. -/
def EquallyLikely {α : Type} (ms : List Nat) (F : List Nat → α) (allowed : α → Prop) : Prop :=
  (∀ m ∈ ms, 0 < m) ∧ (∀ ds, Possible ms ds → allowed (F ds)) ∧
  ∀ a, allowed a → ∃ ds, (Possible ms ds ∧ F ds = a) ∧ ∀ ds', Possible ms ds' ∧ F ds' = a → ds' = ds

end Mixnet.Spec
