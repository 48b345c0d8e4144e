import Mathlib.AlgebraicGeometry.EllipticCurve.Affine.Point
import Mathlib.Tactic.LinearCombination
import Mathlib.Tactic.FieldSimp
/-!
# Multiplying points of a Montgomery curve with x-coordinates only

The curve `y² = x³ + A x² + x` over a field. A point is represented by `X : Z` with `x = X / Z`, and `Z = 0` for the
neutral element.
-/
namespace Mixnet.Montgomery
open WeierstrassCurve WeierstrassCurve.Affine

variable {F : Type} [Field F] [DecidableEq F]

/-- The curve `y² = x³ + A x² + x`. -/
def curve (A : F) : Affine F := ⟨0, A, 0, 1, 0⟩

variable {A : F}

theorem on_curve {x y : F} (h : (curve A).Nonsingular x y) : y ^ 2 = x ^ 3 + A * x ^ 2 + x := by
  have := (equation_iff x y).1 h.1
  simp only [curve] at this
  linear_combination this

theorem negY_eq (x y : F) : (curve A).negY x y = -y := by simp [negY, curve]

/-- `X : Z` represents the point. -/
def Rep (X Z : F) (P : (curve A).Point) : Prop :=
  match P with
  | .zero => Z = 0 ∧ X ≠ 0
  | .some x _ _ => Z ≠ 0 ∧ X = x * Z

theorem rep_zero {X Z : F} : Rep X Z (0 : (curve A).Point) ↔ Z = 0 ∧ X ≠ 0 := Iff.rfl

theorem rep_some {X Z x y : F} {h : (curve A).Nonsingular x y} : Rep X Z (Point.some x y h) ↔ Z ≠ 0 ∧ X = x * Z := Iff.rfl

/-- Doubling. -/
theorem rep_double (h2 : (2 : F) ≠ 0) (hA1 : A ≠ 2) (hA2 : A ≠ -2) {X Z : F} {P : (curve A).Point} (h : Rep X Z P) :
    Rep ((X ^ 2 - Z ^ 2) ^ 2) (4 * X * Z * (X ^ 2 + A * X * Z + Z ^ 2)) (P + P) := by
  have h4 : (4 : F) ≠ 0 := by
    have : (4 : F) = 2 * 2 := by norm_num
    rw [this]; exact mul_ne_zero h2 h2
  match P, h with
  | .zero, h =>
    obtain ⟨hZ, hX⟩ := h
    have : (Point.zero : (curve A).Point) + .zero = 0 := add_zero (0 : (curve A).Point)
    rw [this, rep_zero, hZ]
    refine ⟨by ring, ?_⟩
    have : (X ^ 2 - 0 ^ 2) ^ 2 = X ^ 4 := by ring
    rw [this]
    exact pow_ne_zero _ hX
  | .some x y hn, h =>
    obtain ⟨hZ, rfl⟩ := h
    have hc := on_curve hn
    by_cases hy : y = 0
    · rw [Point.add_self_of_Y_eq (by rw [negY_eq, hy, neg_zero]), rep_zero]
      rw [hy] at hc
      have hf : x * (x ^ 2 + A * x + 1) = 0 := by linear_combination -hc
      constructor
      · linear_combination (4 * Z ^ 4) * hf
      · have : ((x * Z) ^ 2 - Z ^ 2) ^ 2 = (x ^ 2 - 1) ^ 2 * Z ^ 4 := by ring
        rw [this]
        refine mul_ne_zero (pow_ne_zero _ ?_) (pow_ne_zero _ hZ)
        intro h1
        rcases mul_eq_zero.1 hf with h0 | h0
        · rw [h0] at h1
          have : (1 : F) = 0 := by linear_combination -h1
          exact one_ne_zero this
        · have hx : (x - 1) * (x + 1) = 0 := by linear_combination h1
          rcases mul_eq_zero.1 hx with h3 | h3
          · have : x = 1 := by linear_combination h3
            rw [this] at h0
            exact hA2 (by linear_combination h0)
          · have : x = -1 := by linear_combination h3
            rw [this] at h0
            exact hA1 (by linear_combination -h0)
    · have hyn : y ≠ (curve A).negY x y := by
        rw [negY_eq]
        intro h
        have : 2 * y = 0 := by linear_combination h
        rcases mul_eq_zero.1 this with h | h
        · exact h2 h
        · exact hy h
      rw [Point.add_self_of_Y_ne hyn, rep_some]
      have hf : x * (x ^ 2 + A * x + 1) = y ^ 2 := by linear_combination -hc
      have hZ2 : 4 * (x * Z) * Z * ((x * Z) ^ 2 + A * (x * Z) * Z + Z ^ 2) = 4 * y ^ 2 * Z ^ 4 := by
        linear_combination (4 * Z ^ 4) * hf
      rw [hZ2]
      refine ⟨mul_ne_zero (mul_ne_zero h4 (pow_ne_zero _ hy)) (pow_ne_zero _ hZ), ?_⟩
      have hyy : (2 : F) * y ≠ 0 := mul_ne_zero h2 hy
      obtain ⟨s, hs, hs'⟩ : ∃ s, (curve A).slope x x y y = s ∧ s * (2 * y) = 3 * x ^ 2 + 2 * A * x + 1 := by
        refine ⟨_, rfl, ?_⟩
        rw [slope_of_Y_ne rfl hyn, negY_eq]
        have : y - -y = 2 * y := by ring
        rw [this, div_mul_cancel₀ _ hyy]
        simp [curve]
      rw [hs]
      simp only [addX, curve]
      linear_combination (-Z ^ 4 * (s * (2 * y) + 3 * x ^ 2 + 2 * A * x + 1)) * hs' + (4 * Z ^ 4 * (A + 2 * x)) * hc

/-- Adding two points whose difference is known. -/
theorem rep_add (h2 : (2 : F) ≠ 0) {X Z U V x y : F} {P Q : (curve A).Point}
    {hn : (curve A).Nonsingular x y} (hd : P - Q = .some x y hn) (hx : x ≠ 0) (hP : Rep X Z P) (hQ : Rep U V Q) :
    Rep (4 * (X * U - Z * V) ^ 2) (x * (4 * (X * V - Z * U) ^ 2)) (P + Q) := by
  have h4 : (4 : F) ≠ 0 := by
    have : (4 : F) = 2 * 2 := by norm_num
    rw [this]; exact mul_ne_zero h2 h2
  match P, Q, hd, hP, hQ with
  | .zero, .zero, hd, _, _ =>
    have : (Point.zero : (curve A).Point) - .zero = 0 := sub_self _
    rw [this] at hd
    exact absurd hd.symm (Point.some_ne_zero hn)
  | .zero, .some x2 y2 h2n, hd, hP, hQ =>
    have e : (Point.zero : (curve A).Point) - .some x2 y2 h2n = - .some x2 y2 h2n := zero_sub _
    rw [e, Point.neg_some] at hd
    have hxe : x2 = x := by injection hd
    clear hd
    subst hxe
    have e : (Point.zero : (curve A).Point) + .some x2 y2 h2n = .some x2 y2 h2n := zero_add _
    rw [e, rep_some]
    obtain ⟨hZ, hX⟩ := hP
    obtain ⟨hV, rfl⟩ := hQ
    subst hZ
    refine ⟨mul_ne_zero hx (mul_ne_zero h4 (pow_ne_zero _ ?_)), by ring⟩
    rw [zero_mul, sub_zero]
    exact mul_ne_zero hX hV
  | .some x1 y1 h1n, .zero, hd, hP, hQ =>
    have e : (Point.some x1 y1 h1n : (curve A).Point) - .zero = .some x1 y1 h1n := sub_zero _
    rw [e] at hd
    have hxe : x1 = x := by injection hd
    clear hd
    subst hxe
    have e : (Point.some x1 y1 h1n : (curve A).Point) + .zero = .some x1 y1 h1n := add_zero _
    rw [e, rep_some]
    obtain ⟨hZ, rfl⟩ := hP
    obtain ⟨hV, hU⟩ := hQ
    subst hV
    refine ⟨mul_ne_zero hx (mul_ne_zero h4 (pow_ne_zero _ ?_)), by ring⟩
    rw [mul_zero, zero_sub]
    exact neg_ne_zero.2 (mul_ne_zero hZ hU)
  | .some x1 y1 h1n, .some x2 y2 h2n, hd, hP, hQ =>
    obtain ⟨hZ, rfl⟩ := hP
    obtain ⟨hV, rfl⟩ := hQ
    have c1 := on_curve h1n
    have c2 := on_curve h2n
    rw [sub_eq_add_neg, Point.neg_some] at hd
    by_cases hxx : x1 = x2
    · subst hxx
      by_cases hyy : y1 = y2
      · -- the same point: the difference is zero
        subst hyy
        rw [Point.add_of_Y_eq rfl (by rw [negY_eq, negY_eq, neg_neg])] at hd
        exact absurd hd.symm (Point.some_ne_zero hn)
      · -- opposite points
        have ho : y1 = -y2 := by
          have : (y1 - y2) * (y1 + y2) = 0 := by linear_combination c1 - c2
          rcases mul_eq_zero.1 this with h | h
          · exact absurd (by linear_combination h) hyy
          · linear_combination h
        rw [Point.add_of_Y_eq rfl (by rw [negY_eq]; exact ho), rep_zero]
        refine ⟨by ring, ?_⟩
        have hy1 : y1 ≠ 0 := by
          intro h0
          apply hyy
          rw [h0] at ho ⊢
          linear_combination -ho
        have hyn : y1 ≠ (curve A).negY x1 ((curve A).negY x1 y2) := by
          rw [negY_eq, negY_eq, neg_neg]; exact hyy
        rw [Point.add_some (fun h => hyn h.2)] at hd
        have hxe : (curve A).addX x1 x1 ((curve A).slope x1 x1 y1 ((curve A).negY x1 y2)) = x := by
          injection hd
        have hy2 : (2 : F) * y1 ≠ 0 := mul_ne_zero h2 hy1
        obtain ⟨s, hs, hs'⟩ : ∃ s, (curve A).slope x1 x1 y1 ((curve A).negY x1 y2) = s ∧
            s * (2 * y1) = 3 * x1 ^ 2 + 2 * A * x1 + 1 := by
          refine ⟨_, rfl, ?_⟩
          rw [slope_of_Y_ne rfl hyn, negY_eq]
          have : y1 - -y1 = 2 * y1 := by ring
          rw [this, div_mul_cancel₀ _ hy2]
          simp [curve]
        rw [hs] at hxe
        simp only [addX, curve] at hxe
        have hkey : (x1 ^ 2 - 1) ^ 2 = x * (4 * y1 ^ 2) := by
          linear_combination (-(s * (2 * y1) + 3 * x1 ^ 2 + 2 * A * x1 + 1)) * hs' + (4 * (A + 2 * x1)) * c1 + (4 * y1 ^ 2) * hxe
        have hne : (x1 ^ 2 - 1) ^ 2 ≠ 0 := by
          rw [hkey]
          exact mul_ne_zero hx (mul_ne_zero h4 (pow_ne_zero _ hy1))
        have : 4 * (x1 * Z * (x1 * V) - Z * V) ^ 2 = (4 * (Z * V) ^ 2) * (x1 ^ 2 - 1) ^ 2 := by ring
        rw [this]
        exact mul_ne_zero (mul_ne_zero h4 (pow_ne_zero _ (mul_ne_zero hZ hV))) hne
    · rw [Point.add_of_X_ne hxx] at hd ⊢
      rw [rep_some]
      have hxe : (curve A).addX x1 x2 ((curve A).slope x1 x2 y1 ((curve A).negY x2 y2)) = x := by
        injection hd
      have hdx : x1 - x2 ≠ 0 := sub_ne_zero.2 hxx
      rw [slope_of_X_ne hxx, negY_eq] at hxe
      rw [slope_of_X_ne hxx]
      obtain ⟨s, hs⟩ : ∃ s, (y1 - -y2) / (x1 - x2) = s := ⟨_, rfl⟩
      obtain ⟨t, ht⟩ : ∃ t, (y1 - y2) / (x1 - x2) = t := ⟨_, rfl⟩
      rw [hs] at hxe
      rw [ht]
      rw [div_eq_iff hdx] at hs ht
      simp only [addX, curve] at hxe ⊢
      refine ⟨mul_ne_zero hx (mul_ne_zero h4 (pow_ne_zero _ ?_)), ?_⟩
      · have : x1 * Z * V - Z * (x2 * V) = (x1 - x2) * (Z * V) := by ring
        rw [this]
        exact mul_ne_zero hdx (mul_ne_zero hZ hV)
      · have key : (t ^ 2 - A - x1 - x2) * x * (x1 - x2) ^ 2 = (x1 * x2 - 1) ^ 2 := by
          refine mul_right_cancel₀ (pow_ne_zero 2 hdx) ?_
          have e1 : (t ^ 2 - A - x1 - x2) * (x1 - x2) ^ 2 = (y1 - y2) ^ 2 - (A + x1 + x2) * (x1 - x2) ^ 2 := by
            linear_combination (-(t * (x1 - x2) + (y1 - y2))) * ht
          have e2 : x * (x1 - x2) ^ 2 = (y1 + y2) ^ 2 - (A + x1 + x2) * (x1 - x2) ^ 2 := by
            linear_combination (-(s * (x1 - x2) + (y1 + y2))) * hs - (x1 - x2) ^ 2 * hxe
          have e3 : ((y1 - y2) ^ 2 - (A + x1 + x2) * (x1 - x2) ^ 2) * ((y1 + y2) ^ 2 - (A + x1 + x2) * (x1 - x2) ^ 2) =
              (x1 * x2 - 1) ^ 2 * (x1 - x2) ^ 2 := by
            linear_combination (y1 ^ 2 - y2 ^ 2 + (x1 ^ 3 + A * x1 ^ 2 + x1) - (x2 ^ 3 + A * x2 ^ 2 + x2) -
                2 * (A + x1 + x2) * (x1 - x2) ^ 2) * c1 +
              (-(y1 ^ 2 - y2 ^ 2 + (x1 ^ 3 + A * x1 ^ 2 + x1) - (x2 ^ 3 + A * x2 ^ 2 + x2)) -
                2 * (A + x1 + x2) * (x1 - x2) ^ 2) * c2
          have e4 := congrArg₂ (· * ·) e1 e2
          linear_combination e4 + e3
        linear_combination (-4 * (Z * V) ^ 2) * key

end Mixnet.Montgomery
