import Verif.Model.Curve25519
import Mathlib.NumberTheory.LucasPrimality
import Mathlib.Tactic.NormNum.Prime
/-!
# `2^255 - 19` is prime, and so is the order of the base point

Lucas's criterion with certificates for the prime factors (Pratt).
-/
namespace Mixnet.X25519

theorem force_eq {α : Type} (k : Nat) (f : Nat → α) : force k f = f k := by
  cases k <;> rfl

theorem div_pow_succ (e j : Nat) : e / 2 ^ j = 2 * (e / 2 ^ (j + 1)) + (if e.testBit j then 1 else 0) := by
  have h1 : e / 2 ^ (j + 1) = e / 2 ^ j / 2 := by rw [pow_succ, Nat.div_div_eq_div_mul]
  rw [h1, Nat.testBit_eq_decide_div_mod_eq]
  have := Nat.mod_lt (e / 2 ^ j) (show 0 < 2 by decide)
  by_cases h : e / 2 ^ j % 2 = 1
  · rw [if_pos (by simpa using h)]
    omega
  · rw [if_neg (by simpa using h)]
    omega

theorem powBits_cast (m b e : Nat) : ∀ (j acc : Nat), (acc : ZMod m) = (b : ZMod m) ^ (e / 2 ^ j) →
    (powBits m b e j acc : ZMod m) = (b : ZMod m) ^ e
  | 0, acc, h => by simpa [powBits] using h
  | j + 1, acc, h => by
    rw [powBits, force_eq]
    refine powBits_cast m b e j _ ?_
    rw [ZMod.natCast_mod, Nat.cast_mul, Nat.cast_mul, h, div_pow_succ e j]
    by_cases hb : e.testBit j
    · rw [if_pos hb, if_pos hb]; ring
    · rw [if_neg hb, if_neg hb, Nat.cast_one]; ring

theorem powMod_cast {m b e bits : Nat} (h : e < 2 ^ bits) : (powMod m b e bits : ZMod m) = (b : ZMod m) ^ e := by
  refine powBits_cast m b e bits 1 ?_
  rw [Nat.div_eq_of_lt h, pow_zero, Nat.cast_one]

theorem powBits_lt {m : Nat} (hm : 0 < m) (b e : Nat) : ∀ (j acc : Nat), acc < m → powBits m b e j acc < m
  | 0, _, h => h
  | j + 1, acc, h => by
    rw [powBits, force_eq]
    exact powBits_lt hm b e j _ (Nat.mod_lt _ hm)

theorem powMod_lt {m : Nat} (hm : 1 < m) (b e bits : Nat) : powMod m b e bits < m := powBits_lt (by omega) b e bits 1 hm

/-- Pratt's certificate: a witness and the prime factors of the number before. -/
theorem pratt {n : Nat} (a : Nat) (fs : List Nat) (hn : 1 < n) (hb : n < 2 ^ 256) (hf : ∀ q ∈ fs, q.Prime)
    (hp : fs.prod = n - 1) (h1 : powMod n a (n - 1) 256 = 1) (h2 : ∀ q ∈ fs, powMod n a ((n - 1) / q) 256 ≠ 1) : n.Prime := by
  have cast_one : ∀ e, e ≤ n - 1 → ((a : ZMod n) ^ e = 1 ↔ powMod n a e 256 = 1) := by
    intro e he
    rw [← powMod_cast (m := n) (b := a) (bits := 256) (by omega)]
    have hl := powMod_lt hn a e 256
    constructor
    · intro h
      have : ((powMod n a e 256 : Nat) : ZMod n) = ((1 : Nat) : ZMod n) := by rw [h, Nat.cast_one]
      rw [ZMod.natCast_eq_natCast_iff', Nat.mod_eq_of_lt hl, Nat.mod_eq_of_lt hn] at this
      exact this
    · intro h; rw [h, Nat.cast_one]
  refine lucas_primality n (a : ZMod n) ((cast_one _ (Nat.le_refl _)).2 h1) ?_
  intro q hq hd h
  rw [← hp] at hd
  obtain ⟨f, hfm, hqf⟩ := (Prime.dvd_prod_iff hq.prime).1 hd
  have : q = f := (Nat.prime_dvd_prime_iff_eq hq (hf f hfm)).1 hqf
  subst this
  exact h2 q hfm ((cast_one _ (Nat.div_le_self _ _)).1 h)

theorem prime569003 : Nat.Prime 569003 := by norm_num
theorem prime2773320623 : Nat.Prime 2773320623 := by
  refine pratt 5 [2, 2437, 569003] (by decide) (by decide) ?_ (by decide +kernel) (by decide +kernel) (by decide +kernel)
  simp only [List.forall_mem_cons]
  exact ⟨by norm_num, by norm_num, prime569003, by simp⟩
theorem prime72106336199 : Nat.Prime 72106336199 := by
  refine pratt 7 [2, 13, 2773320623] (by decide) (by decide) ?_ (by decide +kernel) (by decide +kernel) (by decide +kernel)
  simp only [List.forall_mem_cons]
  exact ⟨by norm_num, by norm_num, prime2773320623, by simp⟩
theorem prime8574133 : Nat.Prime 8574133 := by norm_num
theorem prime1919519569386763 : Nat.Prime 1919519569386763 := by
  refine pratt 2 [2, 3, 7, 19, 47, 47, 127, 8574133] (by decide) (by decide) ?_ (by decide +kernel) (by decide +kernel)
    (by decide +kernel)
  simp only [List.forall_mem_cons]
  exact ⟨by norm_num, by norm_num, by norm_num, by norm_num, by norm_num, by norm_num, by norm_num, prime8574133, by simp⟩
theorem prime75445702479781427272750846543864801 : Nat.Prime 75445702479781427272750846543864801 := by
  refine pratt 7 [2, 2, 2, 2, 2, 3, 3, 5, 5, 75707, 72106336199, 1919519569386763] (by decide) (by decide) ?_
    (by decide +kernel) (by decide +kernel) (by decide +kernel)
  simp only [List.forall_mem_cons]
  exact ⟨by norm_num, by norm_num, by norm_num, by norm_num, by norm_num, by norm_num, by norm_num, by norm_num, by norm_num,
    by norm_num, prime72106336199, prime1919519569386763, by simp⟩
theorem prime31757755568855353 : Nat.Prime 31757755568855353 := by
  refine pratt 10 [2, 2, 2, 3, 31, 107, 223, 4153, 430751] (by decide) (by decide) ?_
    (by decide +kernel) (by decide +kernel) (by decide +kernel)
  simp only [List.forall_mem_cons]
  exact ⟨by norm_num, by norm_num, by norm_num, by norm_num, by norm_num, by norm_num, by norm_num, by norm_num, by norm_num,
    by simp⟩
theorem prime236 : Nat.Prime 74058212732561358302231226437062788676166966415465897661863160754340907 := by
  refine pratt 2 [2, 3, 353, 57467, 132049, 1923133, 31757755568855353, 75445702479781427272750846543864801] (by decide)
    (by decide) ?_ (by decide +kernel) (by decide +kernel) (by decide +kernel)
  simp only [List.forall_mem_cons]
  exact ⟨by norm_num, by norm_num, by norm_num, by norm_num, by norm_num, by norm_num, prime31757755568855353,
    prime75445702479781427272750846543864801, by simp⟩
theorem prime_p : Nat.Prime p := by
  refine pratt 2 [2, 2, 3, 65147, 74058212732561358302231226437062788676166966415465897661863160754340907] (by decide)
    (by decide) ?_ (by decide +kernel) (by decide +kernel) (by decide +kernel)
  simp only [List.forall_mem_cons]
  exact ⟨by norm_num, by norm_num, by norm_num, by norm_num, prime236, by simp⟩

theorem prime3044861653679985063343 : Nat.Prime 3044861653679985063343 := by
  refine pratt 5 [2, 3, 11, 30703, 82163, 132667, 137849] (by decide)
    (by decide) ?_ (by decide +kernel) (by decide +kernel) (by decide +kernel)
  simp only [List.forall_mem_cons]
  exact ⟨by norm_num, by norm_num, by norm_num, by norm_num, by norm_num, by norm_num, by norm_num, by simp⟩
theorem prime58964693 : Nat.Prime 58964693 := by
  refine pratt 2 [2, 2, 14741173] (by decide)
    (by decide) ?_ (by decide +kernel) (by decide +kernel) (by decide +kernel)
  simp only [List.forall_mem_cons]
  exact ⟨by norm_num, by norm_num, by norm_num, by simp⟩
theorem prime198211423230930754013084525763697 : Nat.Prime 198211423230930754013084525763697 := by
  refine pratt 5 [2, 2, 2, 2, 3, 23, 58964693, 3044861653679985063343] (by decide)
    (by decide) ?_ (by decide +kernel) (by decide +kernel) (by decide +kernel)
  simp only [List.forall_mem_cons]
  exact ⟨by norm_num, by norm_num, by norm_num, by norm_num, by norm_num, by norm_num, prime58964693, prime3044861653679985063343, by simp⟩
theorem prime1257559732178653 : Nat.Prime 1257559732178653 := by
  refine pratt 2 [2, 2, 3, 7, 23, 531581, 1224481] (by decide)
    (by decide) ?_ (by decide +kernel) (by decide +kernel) (by decide +kernel)
  simp only [List.forall_mem_cons]
  exact ⟨by norm_num, by norm_num, by norm_num, by norm_num, by norm_num, by norm_num, by norm_num, by simp⟩
theorem prime4434155615661930479 : Nat.Prime 4434155615661930479 := by
  refine pratt 17 [2, 41, 43, 1257559732178653] (by decide)
    (by decide) ?_ (by decide +kernel) (by decide +kernel) (by decide +kernel)
  simp only [List.forall_mem_cons]
  exact ⟨by norm_num, by norm_num, by norm_num, prime1257559732178653, by simp⟩
theorem prime172054593956031949258510691 : Nat.Prime 172054593956031949258510691 := by
  refine pratt 2 [2, 5, 1361, 2851, 4434155615661930479] (by decide)
    (by decide) ?_ (by decide +kernel) (by decide +kernel) (by decide +kernel)
  simp only [List.forall_mem_cons]
  exact ⟨by norm_num, by norm_num, by norm_num, by norm_num, prime4434155615661930479, by simp⟩
theorem prime292386187 : Nat.Prime 292386187 := by
  refine pratt 2 [2, 3, 3, 3, 3, 307, 5879] (by decide)
    (by decide) ?_ (by decide +kernel) (by decide +kernel) (by decide +kernel)
  simp only [List.forall_mem_cons]
  exact ⟨by norm_num, by norm_num, by norm_num, by norm_num, by norm_num, by norm_num, by norm_num, by simp⟩
theorem prime213441916511 : Nat.Prime 213441916511 := by
  refine pratt 13 [2, 5, 73, 292386187] (by decide)
    (by decide) ?_ (by decide +kernel) (by decide +kernel) (by decide +kernel)
  simp only [List.forall_mem_cons]
  exact ⟨by norm_num, by norm_num, by norm_num, prime292386187, by simp⟩
theorem prime19757330305831588566944191468367130476339 : Nat.Prime 19757330305831588566944191468367130476339 := by
  refine pratt 2 [2, 269, 213441916511, 172054593956031949258510691] (by decide)
    (by decide) ?_ (by decide +kernel) (by decide +kernel) (by decide +kernel)
  simp only [List.forall_mem_cons]
  exact ⟨by norm_num, by norm_num, prime213441916511, prime172054593956031949258510691, by simp⟩
theorem prime276602624281642239937218680557139826668747 : Nat.Prime 276602624281642239937218680557139826668747 := by
  refine pratt 2 [2, 7, 19757330305831588566944191468367130476339] (by decide)
    (by decide) ?_ (by decide +kernel) (by decide +kernel) (by decide +kernel)
  simp only [List.forall_mem_cons]
  exact ⟨by norm_num, by norm_num, prime19757330305831588566944191468367130476339, by simp⟩
/-- The order of the base point is prime too. -/
theorem prime_order : Nat.Prime order := by
  refine pratt 2 [2, 2, 3, 11, 198211423230930754013084525763697, 276602624281642239937218680557139826668747] (by decide)
    (by decide) ?_ (by decide +kernel) (by decide +kernel) (by decide +kernel)
  simp only [List.forall_mem_cons]
  exact ⟨by norm_num, by norm_num, by norm_num, by norm_num, prime198211423230930754013084525763697,
    prime276602624281642239937218680557139826668747, by simp⟩

end Mixnet.X25519
