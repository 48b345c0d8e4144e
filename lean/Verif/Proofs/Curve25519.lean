import Verif.Spec.Curve
import Mathlib.FieldTheory.Finite.Basic
/-!
# The ladder computes multiples of points
-/
namespace Mixnet.X25519
open Montgomery WeierstrassCurve WeierstrassCurve.Affine

theorem A_ne_two : (486662 : K) ≠ 2 := by
  intro h
  have : ((486660 : Nat) : K) = 0 := by push_cast; linear_combination h
  exact cast_ne_zero (by decide) (by decide) this

theorem A_ne_neg_two : (486662 : K) ≠ -2 := by
  intro h
  have : ((486664 : Nat) : K) = 0 := by push_cast; linear_combination h
  exact cast_ne_zero (by decide) (by decide) this

theorem fadd_cast (a b : Nat) : (fadd a b : K) = a + b := by
  rw [fadd, ZMod.natCast_mod, Nat.cast_add]

theorem fsub_cast (a b : Nat) : (fsub a b : K) = a - b := by
  have := Nat.mod_lt b p_pos
  rw [fsub, ZMod.natCast_mod, Nat.cast_add, Nat.cast_sub (by omega), ZMod.natCast_self, ZMod.natCast_mod]
  ring

theorem fmul_cast (a b : Nat) : (fmul a b : K) = a * b := by
  rw [fmul, ZMod.natCast_mod, Nat.cast_mul]

/-- The formulas of a step. -/
theorem double_cast (u : Nat) (s : Ladder) :
    ((s.double u).u0 : K) = ((s.u0 : K) ^ 2 - (s.w0 : K) ^ 2) ^ 2 ∧
    ((s.double u).w0 : K) = 4 * s.u0 * s.w0 * ((s.u0 : K) ^ 2 + 486662 * s.u0 * s.w0 + (s.w0 : K) ^ 2) ∧
    ((s.double u).u1 : K) = 4 * ((s.u0 : K) * s.u1 - s.w0 * s.w1) ^ 2 ∧
    ((s.double u).w1 : K) = u * (4 * ((s.u0 : K) * s.w1 - s.w0 * s.u1) ^ 2) := by
  simp only [Ladder.double, force_eq, fadd_cast, fsub_cast, fmul_cast]
  push_cast
  refine ⟨by ring, by ring, by ring, by ring⟩

/-- The coordinates stand for two points. -/
def Stands (s : Ladder) (P Q : E.Point) : Prop := Rep (s.u0 : K) s.w0 P ∧ Rep (s.u1 : K) s.w1 Q

theorem double_stands {u : Nat} {s : Ladder} {P Q : E.Point} {y : K} {hn : E.Nonsingular (u : K) y}
    (hd : P - Q = .some (u : K) y hn) (hu : (u : K) ≠ 0) (h : Stands s P Q) : Stands (s.double u) (P + P) (P + Q) := by
  obtain ⟨e1, e2, e3, e4⟩ := double_cast u s
  refine ⟨?_, ?_⟩
  · rw [e1, e2]
    exact rep_double two_ne A_ne_two A_ne_neg_two h.1
  · rw [e3, e4]
    exact rep_add two_ne hd hu h.1 h.2

theorem swap_stands {s : Ladder} {P Q : E.Point} (h : Stands s P Q) : Stands s.swap Q P := ⟨h.2, h.1⟩

theorem step_stands {u : Nat} {s : Ladder} {y : K} {hn : E.Nonsingular (u : K) y} (hu : (u : K) ≠ 0) {k : Nat} (bit : Bool)
    (h : Stands s (k • Point.some (u : K) y hn) ((k + 1) • Point.some (u : K) y hn)) :
    Stands (s.step u bit) ((2 * k + (if bit then 1 else 0)) • Point.some (u : K) y hn)
      ((2 * k + (if bit then 1 else 0) + 1) • Point.some (u : K) y hn) := by
  generalize hP : Point.some (u : K) y hn = P at h ⊢
  cases bit with
  | false =>
    have hd : k • P - (k + 1) • P = .some (u : K) (E.negY u y) ((nonsingular_neg ..).2 hn) := by
      rw [← Point.neg_some hn, hP, succ_nsmul]
      abel
    have := double_stands hd hu h
    have e1 : (2 * k) • P = k • P + k • P := by rw [← add_nsmul]; congr 1; ring
    have e2 : (2 * k + 1) • P = k • P + (k + 1) • P := by rw [← add_nsmul]; congr 1; ring
    simpa [Ladder.step, e1, e2] using this
  | true =>
    have hd : (k + 1) • P - k • P = .some (u : K) y hn := by
      rw [succ_nsmul, hP]
      abel
    have := swap_stands (double_stands hd hu (swap_stands h))
    have e1 : (2 * k + 1) • P = (k + 1) • P + k • P := by rw [← add_nsmul]; congr 1; ring
    have e2 : (2 * k + 1 + 1) • P = (k + 1) • P + (k + 1) • P := by rw [← add_nsmul]; congr 1; ring
    simpa [Ladder.step, e1, e2] using this

theorem run_stands {u : Nat} {y : K} {hn : E.Nonsingular (u : K) y} (hu : (u : K) ≠ 0) (n : Nat) : ∀ (j : Nat) (s : Ladder),
    Stands s ((n / 2 ^ j) • Point.some (u : K) y hn) ((n / 2 ^ j + 1) • Point.some (u : K) y hn) →
    Stands (Ladder.run u n j s) (n • Point.some (u : K) y hn) ((n + 1) • Point.some (u : K) y hn)
  | 0, s, h => by simpa [Ladder.run] using h
  | j + 1, s, h => by
    rw [Ladder.run]
    refine run_stands hu n j _ ?_
    rw [div_pow_succ n j]
    exact step_stands hu _ h

theorem affine_of_rep {X Z : K} {P : E.Point} (h : Rep X Z P) : X * Z ^ (p - 2) = xOf P := by
  have hp : 2 < p := by decide
  match P, h with
  | .zero, h =>
    rw [h.1, zero_pow (by omega), mul_zero]
    rfl
  | .some x y hn, h =>
    obtain ⟨hZ, rfl⟩ := h
    have h1 : Z ^ (p - 1) = 1 := ZMod.pow_card_sub_one_eq_one hZ
    have : Z * Z ^ (p - 2) = 1 := by
      rw [← pow_succ', ← h1]
      congr 1
    show x * Z * Z ^ (p - 2) = x
    rw [mul_assoc, this, mul_one]

theorem multiple_lt (u n : Nat) : multiple u n < p := Nat.mod_lt _ p_pos

theorem multiple_cast_rep {u n : Nat} {P : E.Point}
    (h : Rep ((Ladder.run u n 255 ⟨1, 0, u, 1⟩).u0 : K) (Ladder.run u n 255 ⟨1, 0, u, 1⟩).w0 P) :
    (multiple u n : K) = xOf P := by
  rw [multiple]
  rw [fmul_cast, powMod_cast (by decide)]
  exact affine_of_rep h

theorem start_stands (u : Nat) (y : K) (hn : E.Nonsingular (u : K) y) : Stands ⟨1, 0, u, 1⟩ 0 (.some (u : K) y hn) := by
  refine ⟨?_, ?_⟩
  · rw [rep_zero]
    refine ⟨by norm_num, ?_⟩
    push_cast
    exact one_ne_zero
  · rw [rep_some]
    push_cast
    exact ⟨one_ne_zero, by ring⟩

theorem run_start {u : Nat} {y : K} (hn : E.Nonsingular (u : K) y) (hu : (u : K) ≠ 0) {n : Nat} (h : n < 2 ^ 255) :
    Stands (Ladder.run u n 255 ⟨1, 0, u, 1⟩) (n • Point.some (u : K) y hn) ((n + 1) • Point.some (u : K) y hn) := by
  refine run_stands hu n 255 _ ?_
  rw [Nat.div_eq_of_lt h, zero_nsmul, zero_add, one_nsmul]
  exact start_stands u y hn

theorem zero_of_rep {X Z : K} {P : E.Point} (hZ : Z = 0) (h : Rep X Z P) : P = 0 := by
  match P, h with
  | .zero, _ => rfl
  | .some x y hn, h => exact absurd hZ h.1

/-- The ladder from a point of the curve. -/
theorem multiple_cast {u : Nat} {y : K} (hn : E.Nonsingular (u : K) y) (hu : (u : K) ≠ 0) {n : Nat} (h : n < 2 ^ 255) :
    (multiple u n : K) = xOf (n • Point.some (u : K) y hn) := by
  exact multiple_cast_rep (run_start hn hu h).1

/-- The ladder from 0 stays at 0. -/
theorem run_zero (u n : Nat) (hu : (u : K) = 0) : ∀ (j : Nat) (s : Ladder), (s.w0 : K) = 0 → ((s.u1 : K) = 0 ∨ (s.w1 : K) = 0) →
    ((Ladder.run u n j s).w0 : K) = 0
  | 0, s, h, _ => h
  | j + 1, s, h, h' => by
    rw [Ladder.run]
    cases n.testBit j with
    | false =>
      obtain ⟨_, e2, _, e4⟩ := double_cast u s
      refine run_zero u n hu j _ ?_ (.inr ?_)
      · show ((s.double u).w0 : K) = 0
        rw [e2, h]; ring
      · show ((s.double u).w1 : K) = 0
        rw [e4, hu]; ring
    | true =>
      obtain ⟨_, e2, _, e4⟩ := double_cast u s.swap
      refine run_zero u n hu j _ ?_ (.inr ?_)
      · show ((s.swap.double u).w1 : K) = 0
        rw [e4, hu]; ring
      · show ((s.swap.double u).w0 : K) = 0
        rw [e2]
        rcases h' with h' | h'
        · have : (s.swap.u0 : K) = 0 := h'
          rw [this]; ring
        · have : (s.swap.w0 : K) = 0 := h'
          rw [this]; ring

theorem eq_of_cast {a b : Nat} (ha : a < p) (hb : b < p) (h : (a : K) = b) : a = b := by
  rw [ZMod.natCast_eq_natCast_iff', Nat.mod_eq_of_lt ha, Nat.mod_eq_of_lt hb] at h
  exact h

theorem multiple_zero (n : Nat) : multiple 0 n = 0 := by
  refine eq_of_cast (multiple_lt _ _) p_pos ?_
  rw [multiple]
  rw [fmul_cast, powMod_cast (by decide), run_zero 0 n (by simp) 255 _ (by simp) (.inl (by simp)),
    zero_pow (by decide), mul_zero, Nat.cast_zero]

/-! ## The base point -/

theorem base_ne : ((base : Nat) : K) ≠ 0 := cast_ne_zero (by decide) (by decide)

theorem killed {n : Nat} (hn : n < 2 ^ 255) (hw : (Ladder.run base n 255 ⟨1, 0, base, 1⟩).w0 = 0) : n • B = 0 := by
  have h := (run_start base_nonsingular base_ne hn).1
  rw [hw] at h
  exact zero_of_rep Nat.cast_zero h

/-- Its order. -/
theorem order_base : order • B = 0 := killed (by decide) (by decide +kernel)

theorem mod_order (n : Nat) : (n % order) • B = n • B := by
  conv_rhs => rw [← Nat.div_add_mod n order, add_nsmul, mul_comm, mul_nsmul', order_base, nsmul_zero, zero_add]

theorem multiple_base {n : Nat} (h : n < 2 ^ 255) : (multiple base n : K) = xOf (n • B) :=
  multiple_cast base_nonsingular base_ne h

/-- Only the neutral element of the subgroup has the coordinate 0. -/
theorem x_ne_zero {n : Nat} {x y : K} {hn : E.Nonsingular x y} (h : n • B = .some x y hn) : x ≠ 0 := by
  intro hx
  subst hx
  have hc := on_curve hn
  have hy : y = 0 := by
    have : y ^ 2 = 0 := by linear_combination hc
    exact pow_eq_zero_iff (by decide) |>.1 this
  have h2 : n • B + n • B = 0 := by
    rw [h]
    exact Point.add_self_of_Y_eq (by rw [negY_eq, hy, neg_zero])
  have h3 : order • (n • B) = 0 := by rw [← mul_nsmul, mul_comm, mul_nsmul, order_base, nsmul_zero]
  have h4 : order = 2 * (order / 2) + 1 := by decide +kernel
  rw [h4, add_nsmul, mul_comm, mul_nsmul', two_nsmul, h2, nsmul_zero, zero_add, one_nsmul, h] at h3
  exact absurd h3 (Point.some_ne_zero hn)

/-- A multiple of a multiple of the base point. -/
theorem multiple_multiple {a b : Nat} (ha : a < 2 ^ 255) (hb : b < 2 ^ 255) :
    (multiple (multiple base a) b : K) = xOf ((a * b) • B) := by
  have h1 := multiple_base ha
  rw [mul_nsmul]
  generalize hP : a • B = P at h1 ⊢
  match P, hP, h1 with
  | .zero, hP, h1 =>
    have h0 : multiple base a = 0 := eq_of_cast (multiple_lt _ _) p_pos (by rw [h1]; simp [xOf])
    have : (Point.zero : E.Point) = 0 := rfl
    rw [h0, multiple_zero, this, nsmul_zero]
    simp only [Nat.cast_zero]
    rfl
  | .some x y hn, hP, h1 =>
    have hx : ((multiple base a : Nat) : K) = x := h1
    have := x_ne_zero hP
    subst hx
    exact multiple_cast hn this hb

end Mixnet.X25519
