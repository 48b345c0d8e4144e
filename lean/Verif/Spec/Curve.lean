import Verif.Proofs.Prime25519
import Verif.Proofs.Montgomery
/-!
# Curve25519

The group in which keys are exchanged: the points of `y² = x³ + 486662 x² + x` over the integers modulo `2^255 - 19` (RFC 7748,
section 4.1), with Mathlib's addition of points.
-/
namespace Mixnet.X25519
open Montgomery WeierstrassCurve WeierstrassCurve.Affine

instance : Fact (Nat.Prime p) := ⟨prime_p⟩

/-- The field. -/
abbrev K := ZMod p

/-- `y² = x³ + 486662 x² + x` (RFC 7748, section 4.1). -/
abbrev E : Affine K := curve (486662 : K)

theorem p_pos : 0 < p := by decide

theorem cast_ne_zero {n : Nat} (h0 : 0 < n) (hn : n < p) : (n : K) ≠ 0 := by
  intro h
  rw [ZMod.natCast_eq_zero_iff] at h
  exact absurd (Nat.le_of_dvd h0 h) (by omega)

theorem two_ne : (2 : K) ≠ 0 := by exact_mod_cast cast_ne_zero (n := 2) (by decide) (by decide)

/-- The `x` coordinate of a point, 0 for the neutral element. -/
def xOf : E.Point → K
  | .zero => 0
  | .some x _ _ => x

/-- The `y` coordinate of the base point (RFC 7748, section 4.1). -/
def baseY : Nat := 14781619447589544791020593568409986887264606134616475288964881837755586237401

theorem base_equation : E.Equation ((base : Nat) : K) ((baseY : Nat) : K) := by
  rw [equation_iff]
  have : ((baseY ^ 2 : Nat) : K) = ((base ^ 3 + 486662 * base ^ 2 + base : Nat) : K) := by
    rw [ZMod.natCast_eq_natCast_iff']
    decide +kernel
  push_cast at this
  simp only [E, curve]
  linear_combination this

theorem baseY_ne : ((baseY : Nat) : K) ≠ 0 := cast_ne_zero (by decide) (by decide)

theorem base_nonsingular : E.Nonsingular ((base : Nat) : K) ((baseY : Nat) : K) := by
  rw [nonsingular_iff]
  refine ⟨base_equation, .inr ?_⟩
  simp only [E, curve]
  intro h
  have : (2 : K) * (baseY : K) = 0 := by linear_combination h
  rcases mul_eq_zero.1 this with h | h
  · exact two_ne h
  · exact baseY_ne h

/-- The base point. -/
def B : E.Point := .some _ _ base_nonsingular


end Mixnet.X25519
