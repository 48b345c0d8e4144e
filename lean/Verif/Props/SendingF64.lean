import Verif.Props.Sending
import Verif.Props.QueueDelayF64
import Verif.Proofs.SendingF64
/-!
# C87: the sending rates, as computed in `f64` arithmetic

`next_authored_packet_delay` and the choice between sessions are stated with exact numbers in C51; here are their `f64` versions.
-/
set_option exponentiation.threshold 2000

namespace Mixnet.Props
open Mixnet Spec

noncomputable section

variable {m : Node}

/-- The periods are those of a `Duration`. -/
def PeriodsFit (m : Node) : Prop := ∀ s ∈ m.sessions.iter, s.meanAuthoredPacketPeriod < 2 ^ 94

theorem mean_close (hfit : PeriodsFit m) :
    match m.meanAuthoredPacketPeriod with
    | .error p => ∃ p', m.meanSecs = .error p'
    | .ok none => m.meanSecs = .ok none
    | .ok (some x) => ∃ y : Rat, m.meanSecs = .ok (some y) ∧ Binary64.Rel (1 - Binary64.ulp) 10 (y : ℝ) ((x : ℝ) / 10 ^ 9) ∧
        (x = 0 ∨ (1 : ℝ) / 2 ^ 100 ≤ x) := by
  unfold Node.meanAuthoredPacketPeriod Node.meanSecs
  unfold PeriodsFit at hfit
  generalize m.sessions.iter = l at hfit ⊢
  match l, hfit with
  | [], _ => rfl
  | [a], hfit =>
    dsimp only
    obtain ⟨p, hp⟩ : ∃ p, p = a.meanAuthoredPacketPeriod := ⟨_, rfl⟩
    rw [← hp]
    have hone : (p : ℝ) = 0 ∨ (1 : ℝ) ≤ p := by
      rcases Nat.eq_zero_or_pos p with h | h
      · left; exact_mod_cast h
      · right; exact_mod_cast h
    cases m.sessionStatus.phase.needPrev with
    | false =>
      simp only [Bool.false_eq_true, if_false]
      refine ⟨_, rfl, ?_, ?_⟩
      · have := (Binary64.asSecs_rel p).mono (l := 10) (by omega)
        push_cast; exact this
      · rcases hone with h | h
        · left; exact_mod_cast h
        · right; push_cast; exact le_trans (by norm_num) h
    | true =>
      simp only [if_true]
      refine ⟨_, rfl, ?_, ?_⟩
      · have h2 : Binary64.Rel (1 - Binary64.ulp) 0 (2 : ℝ) 2 := Binary64.Rel.refl (by norm_num)
        have h := h2.mul (Binary64.asSecs_rel p)
        have hb := Binary64.big_div (2 * p)
        push_cast at hb
        rw [mul_div_assoc] at hb
        have h3 := Binary64.Rel.round (q := 2 * Binary64.asSecs p) (k := 2) (by push_cast; simpa using h) (by omega) hb
        have := h3.mono (l := 10) (by omega)
        push_cast
        rw [mul_div_assoc]; exact this
      · rcases hone with h | h
        · left
          have : (p : Rat) = 0 := by exact_mod_cast h
          rw [this, mul_zero]
        · right; push_cast
          have : (1 : ℝ) / 2 ^ 100 ≤ 1 := by norm_num
          linarith
  | [a, b], hfit =>
    dsimp only
    have ha := hfit a (by simp)
    have hb := hfit b (by simp)
    obtain ⟨p, hp⟩ : ∃ p, p = a.meanAuthoredPacketPeriod := ⟨_, rfl⟩
    obtain ⟨q, hq⟩ : ∃ q, q = b.meanAuthoredPacketPeriod := ⟨_, rfl⟩
    rw [← hp] at ha ⊢
    rw [← hq] at hb ⊢
    by_cases h0 : (p : Rat) + q = 0
    · rw [if_pos h0, if_pos ((Binary64.sum_zero_iff p q).2 h0)]
      exact ⟨_, rfl⟩
    · rw [if_neg h0, if_neg (fun h => h0 ((Binary64.sum_zero_iff p q).1 h))]
      have hpos : 0 < p + q := by
        rcases Nat.eq_zero_or_pos (p + q) with h | h
        · exfalso; apply h0; exact_mod_cast h
        · exact h
      refine ⟨_, rfl, ?_, ?_⟩
      · have := Binary64.halfRate_rel p q hpos ha hb
        push_cast; exact this
      · rcases Nat.eq_zero_or_pos (p * q) with hz | hz
        · left
          have : (p : Rat) * q = 0 := by exact_mod_cast hz
          rw [mul_assoc, this]; simp
        · right
          have h1 : (1 : ℝ) ≤ p * q := by exact_mod_cast hz
          have hpos' : (0 : ℝ) < (p : ℝ) + q := by exact_mod_cast hpos
          have h2 : (p : ℝ) + q ≤ 2 ^ 95 := by
            have : p + q ≤ 2 ^ 95 := by omega
            exact_mod_cast this
          push_cast
          rw [le_div_iff₀ hpos']
          have h3 : (1 : ℝ) / 2 ^ 100 * (p + q) ≤ 1 / 2 ^ 100 * 2 ^ 95 := mul_le_mul_of_nonneg_left h2 (by positivity)
          have h4 : (1 : ℝ) / 2 ^ 100 * 2 ^ 95 ≤ 1 := by norm_num
          linarith
  | _ :: _ :: _ :: _, _ => rfl

/-- **C87** (delay). The delay until the next authored packet is computed to the nearest nanosecond, but for twelve rounding
errors; it is missing, or the call panics, exactly when the exact value says so. -/
theorem delay_close (hfit : PeriodsFit m) {e : Rat} (he : e = 0 ∨ 1 / 2 ^ 100 ≤ e) :
    match m.nextAuthoredPacketDelay e with
    | .error _ => ∃ p, m.nextAuthoredPacketDelay64 e = .error p
    | .ok none => m.nextAuthoredPacketDelay64 e = .ok none
    | .ok (some x) => ∃ d : ℕ, m.nextAuthoredPacketDelay64 e = .ok (some d) ∧ |(d : ℝ) - x| ≤ 12 * ulp * x + 1 / 2 := by
  have hmean := mean_close hfit
  unfold Node.nextAuthoredPacketDelay Node.nextAuthoredPacketDelay64
  cases hx : m.meanAuthoredPacketPeriod with
  | error p =>
    rw [hx] at hmean
    obtain ⟨p', h⟩ := hmean
    rw [h]
    exact ⟨_, rfl⟩
  | ok o =>
    cases o with
    | none =>
      rw [hx] at hmean
      replace hmean : m.meanSecs = .ok none := hmean
      rw [hmean]
      rfl
    | some x =>
      rw [hx] at hmean
      obtain ⟨y, hy, hrel, hbig⟩ := hmean
      rw [hy, res_bind_ok, res_bind_ok]
      obtain ⟨c, hc⟩ : ∃ c, c = if e < 10 then e else 10 := ⟨_, rfl⟩
      have hcb : c = 0 ∨ (1 : Rat) / 2 ^ 100 ≤ c := by
        rw [hc]
        split
        · exact he
        · right; norm_num
      rw [← hc]
      have hc0 : (0 : ℝ) ≤ c := by
        rcases hcb with h | h
        · rw [h]; simp
        · have h' := (Rat.cast_le (K := ℝ)).2 h
          push_cast at h'
          exact le_trans (by positivity) h'
      have hcr : Binary64.Rel (1 - Binary64.ulp) 0 (c : ℝ) c := Binary64.Rel.refl hc0
      have hB : Binary64.Big ((c : ℝ) * (x / 10 ^ 9)) := by
        rcases hcb with h | h
        · left; rw [h]; simp
        · rcases hbig with h' | h'
          · left; rw [h']; simp
          · refine Binary64.big_of_one ?_
            have h1 := (Rat.cast_le (K := ℝ)).2 h
            push_cast at h1
            have h2 : (1 : ℝ) / 2 ^ 100 / 10 ^ 9 ≤ x / 10 ^ 9 := div_le_div_of_nonneg_right h' (by positivity)
            have h3 := mul_le_mul h1 h2 (by positivity) hc0
            exact le_trans (by norm_num) h3
      have h11 := Binary64.Rel.round (q := c * y) (k := 10) (by push_cast; simpa using hcr.mul hrel) (by omega) hB
      have herr := h11.error (by omega)
      have h2 := Binary64.fromSecs_error (v := Binary64.round (c * y)) (by exact_mod_cast h11.nonneg')
      refine ⟨_, rfl, ?_⟩
      push_cast at herr ⊢
      rw [ulp_eq] at herr
      rw [abs_le] at h2 herr ⊢
      have e1 : (c : ℝ) * x = c * (x / 10 ^ 9) * 10 ^ 9 := by field_simp
      rw [e1]
      constructor <;> nlinarith

/-- How many of the `2^64` values of a draw make `gen_bool` say yes. -/
theorem threshold_close {p q : ℕ} (h0 : 0 < p + q) (hp : p < 2 ^ 94) (hq : q < 2 ^ 94) :
    |((Binary64.share p q * 2 ^ 64).floor - ((q : Rat) / (p + q) * 2 ^ 64).floor : ℤ)| ≤ 2 ^ 14 := by
  have h := (Binary64.share_rel p q h0 hp hq).error (by omega)
  have hpos : (0 : ℝ) < (p : ℝ) + q := by exact_mod_cast h0
  have hs1 : (q : ℝ) / (p + q) ≤ 1 := by
    rw [div_le_one hpos]
    have : (0 : ℝ) ≤ p := by positivity
    linarith
  obtain ⟨x, hx⟩ : ∃ x : Rat, x = Binary64.share p q * 2 ^ 64 := ⟨_, rfl⟩
  obtain ⟨y, hy⟩ : ∃ y : Rat, y = (q : Rat) / (p + q) * 2 ^ 64 := ⟨_, rfl⟩
  have hxy : |(x : ℝ) - y| ≤ 7 * 2 ^ 11 := by
    rw [hx, hy]
    push_cast
    rw [← sub_mul, abs_mul, abs_of_pos (show (0 : ℝ) < 2 ^ 64 by positivity)]
    push_cast at h
    have h1 : (6 + 1) * Binary64.ulp * ((q : ℝ) / (p + q)) ≤ 7 * Binary64.ulp := by
      have := Binary64.ulp_pos
      nlinarith
    have h2 := mul_le_mul_of_nonneg_right (le_trans h h1) (show (0 : ℝ) ≤ 2 ^ 64 by positivity)
    refine le_trans h2 (le_of_eq ?_)
    unfold Binary64.ulp
    norm_num
  rw [← hx, ← hy]
  have f1 : ((x.floor : ℤ) : Rat) ≤ x := Rat.floor_le x
  have f2 : x < ((x.floor : ℤ) : Rat) + 1 := by exact_mod_cast Rat.lt_floor_add_one x
  have f3 : ((y.floor : ℤ) : Rat) ≤ y := Rat.floor_le y
  have f4 : y < ((y.floor : ℤ) : Rat) + 1 := by exact_mod_cast Rat.lt_floor_add_one y
  have hxy' : |x - y| ≤ 7 * 2 ^ 11 := by
    have : ((|x - y| : Rat) : ℝ) ≤ ((7 * 2 ^ 11 : Rat) : ℝ) := by push_cast; exact hxy
    exact_mod_cast this
  rw [abs_le] at hxy' ⊢
  have g1 : ((x.floor : ℤ) : Rat) - y.floor ≤ 2 ^ 14 := by
    have : (7 * 2 ^ 11 : Rat) + 1 ≤ 2 ^ 14 := by norm_num
    linarith [hxy'.2]
  have g2 : -(2 ^ 14 : Rat) ≤ ((x.floor : ℤ) : Rat) - y.floor := by
    have : (7 * 2 ^ 11 : Rat) + 1 ≤ 2 ^ 14 := by norm_num
    linarith [hxy'.1]
  exact ⟨by exact_mod_cast g2, by exact_mod_cast g1⟩

/-- `gen_bool` says yes for the draws below the threshold. -/
theorem genBool_threshold {x : Rat} (h0 : 0 ≤ x) (h1 : x ≤ 1) (rng : Rng) : ∃ rng',
    rng.genBool x = .ok (decide (((rng 0 % 2 ^ 64 : ℕ) : ℤ) < (x * 2 ^ 64).floor), rng') := by
  unfold Rng.genBool
  by_cases h : x = 1
  · rw [if_pos h, h]
    refine ⟨rng, ?_⟩
    have e : ((1 : Rat) * 2 ^ 64).floor = 2 ^ 64 := by decide +kernel
    rw [e]
    have hlt : rng 0 % 2 ^ 64 < 2 ^ 64 := Nat.mod_lt _ (by norm_num)
    have : ((rng 0 % 2 ^ 64 : ℕ) : ℤ) < 2 ^ 64 := by exact_mod_cast hlt
    rw [decide_eq_true this]
  · rw [if_neg h, if_pos ⟨h0, lt_of_le_of_ne h1 h⟩]
    exact ⟨_, rfl⟩

/-- **C87** (choice). The choice between the two sessions panics if and only if both periods are zero; in particular the probability
handed to the random number generator, a quotient of rounded numbers, never exceeds 1. Apart from at most `2^14` of the `2^64` values
of the draw, the session is the one that the exact share of the rates says. -/
theorem choice_close (hfit : PeriodsFit m) :
    (∀ rng p, m.pickSession rng = .error p → ∃ p', m.pickSession64 rng = .error p') ∧
    ∃ lo : ℕ, ∀ rng c r, m.pickSession rng = .ok (c, r) → ∃ c' r', m.pickSession64 rng = .ok (c', r') ∧
      (c' ≠ c → lo ≤ rng 0 % 2 ^ 64 ∧ rng 0 % 2 ^ 64 < lo + 2 ^ 14) := by
  have hfit' : ∀ s ∈ m.sessions.enumerate, s.2.meanAuthoredPacketPeriod < 2 ^ 94 := by
    intro s hs
    refine hfit s.2 ?_
    unfold Sessions.enumerate at hs
    unfold Sessions.iter
    rw [List.mem_filterMap] at hs ⊢
    obtain ⟨x, hx, h⟩ := hs
    rw [Option.map_eq_some_iff] at h
    obtain ⟨y, hy, rfl⟩ := h
    refine ⟨x.2, ?_, hy⟩
    simp only [List.mem_cons, List.not_mem_nil, or_false] at hx ⊢
    rcases hx with rfl | rfl
    · exact .inl rfl
    · exact .inr rfl
  unfold Node.pickSession Node.pickSession64
  generalize m.sessions.enumerate = l at hfit' ⊢
  match l, hfit' with
  | [], _ => exact ⟨fun _ _ h => (by cases h), 0, fun rng c r h => by cases h; exact ⟨_, _, rfl, fun h => absurd rfl h⟩⟩
  | [a], _ => exact ⟨fun _ _ h => (by cases h), 0, fun rng c r h => by cases h; exact ⟨_, _, rfl, fun h => absurd rfl h⟩⟩
  | _ :: _ :: _ :: _, _ =>
    exact ⟨fun _ _ h => (by cases h), 0, fun rng c r h => by cases h; exact ⟨_, _, rfl, fun h => absurd rfl h⟩⟩
  | [a, b], hfit' =>
    dsimp only
    have ha := hfit' a (by simp)
    have hb := hfit' b (by simp)
    obtain ⟨p, hp⟩ : ∃ p, p = a.2.meanAuthoredPacketPeriod := ⟨_, rfl⟩
    obtain ⟨q, hq⟩ : ∃ q, q = b.2.meanAuthoredPacketPeriod := ⟨_, rfl⟩
    rw [← hp] at ha ⊢
    rw [← hq] at hb ⊢
    by_cases h0 : (p : Rat) + q = 0
    · simp only [if_pos h0, if_pos ((Binary64.sum_zero_iff p q).2 h0)]
      exact ⟨fun _ _ _ => ⟨_, rfl⟩, 0, fun _ _ _ h => (by cases h)⟩
    · have hn : ¬ Binary64.round (Binary64.asSecs p + Binary64.asSecs q) = 0 := fun h => h0 ((Binary64.sum_zero_iff p q).1 h)
      simp only [if_neg h0, if_neg hn]
      have hpos : 0 < p + q := by
        rcases Nat.eq_zero_or_pos (p + q) with h | h
        · exfalso; apply h0; exact_mod_cast h
        · exact h
      have hposR : (0 : Rat) < (p : Rat) + q := by exact_mod_cast hpos
      have hs0 : (0 : Rat) ≤ (q : Rat) / (p + q) := by positivity
      have hs1 : (q : Rat) / (p + q) ≤ 1 := by
        rw [div_le_one hposR]
        have : (0 : Rat) ≤ p := by positivity
        linarith
      have hthr := threshold_close hpos ha hb
      obtain ⟨t, ht⟩ : ∃ t, t = ((q : Rat) / (p + q) * 2 ^ 64).floor := ⟨_, rfl⟩
      obtain ⟨t', ht'⟩ : ∃ t', t' = (Binary64.share p q * 2 ^ 64).floor := ⟨_, rfl⟩
      have htpos : 0 ≤ t := by
        rw [ht, Rat.le_floor_iff]; push_cast; positivity
      have htpos' : 0 ≤ t' := by
        have := Binary64.share_nonneg p q
        rw [ht', Rat.le_floor_iff]; push_cast; positivity
      rw [← ht, ← ht'] at hthr
      constructor
      · intro rng e h
        obtain ⟨r1, h1⟩ := genBool_threshold hs0 hs1 rng
        rw [h1, res_bind_ok] at h
        cases h
      · refine ⟨(min t t').toNat, fun rng c r h => ?_⟩
        obtain ⟨r1, h1⟩ := genBool_threshold hs0 hs1 rng
        obtain ⟨r2, h2⟩ := genBool_threshold (Binary64.share_nonneg p q) (Binary64.share_le_one p q) rng
        rw [h1, res_bind_ok, ← ht] at h
        rw [h2, res_bind_ok, ← ht']
        refine ⟨_, _, rfl, fun hne => ?_⟩
        dsimp only at h
        replace h := congrArg (fun x => x.toOption.map (·.1)) h
        replace h : (some (if decide (((rng 0 % 2 ^ 64 : ℕ) : ℤ) < t) = true then some a else some b) : Option (Option _)) = some c := h
        have h := Option.some.inj h
        rw [← h] at hne
        obtain ⟨x, hx⟩ : ∃ x, x = rng 0 % 2 ^ 64 := ⟨_, rfl⟩
        rw [← hx] at hne ⊢
        rw [abs_le] at hthr
        by_cases c1 : (x : ℤ) < t <;> by_cases c2 : (x : ℤ) < t'
        · exfalso; apply hne; simp [c1, c2]
        · omega
        · omega
        · exfalso; apply hne; simp [c1, c2]

/-! ### A node with two sessions -/

theorem two_fit : PeriodsFit two := by
  have h : (two.sessions.iter.all fun s => decide (s.meanAuthoredPacketPeriod < 2 ^ 94)) = true := by decide +kernel
  intro s hs
  exact of_decide_eq_true (List.all_eq_true.1 h s hs)

/-- Two elevenths of a second, to the nearest nanosecond; and ten times that at most. -/
example : (match two.nextAuthoredPacketDelay64 1, two.nextAuthoredPacketDelay64 40 with
    | .ok (some d), .ok (some d') => d == 181818182 && d' == 1818181818
    | _, _ => false) = true := by decide +kernel

example : ∃ d : ℕ, ∃ x : Rat, two.nextAuthoredPacketDelay 1 = .ok (some x) ∧ two.nextAuthoredPacketDelay64 1 = .ok (some d) ∧
    |(d : ℝ) - x| ≤ 12 * ulp * x + 1 / 2 := by
  have h := delay_close two_fit (e := 1) (.inr (by norm_num))
  have hx : (match two.nextAuthoredPacketDelay 1 with | .ok (some _) => true | _ => false) = true := by decide +kernel
  generalize two.nextAuthoredPacketDelay 1 = y at h hx
  match y, h, hx with
  | .ok (some x), ⟨d, hd, he⟩, _ => exact ⟨d, x, rfl, hd, he⟩

/-- One eleventh as an `f64` is a little more than one eleventh, so 47 more of the `2^64` draws pick the current session. -/
example : Binary64.share 1000000000 100000000 = 6550690367084358 / 2 ^ 56 ∧
    (Binary64.share 1000000000 100000000 * 2 ^ 64).floor - ((1 : Rat) / 11 * 2 ^ 64).floor = 47 := by decide +kernel

/-- Shares that add up to more than 1 with rounding are still probabilities. -/
example : Binary64.share 1 (2 ^ 93) = 1 ∧ Binary64.share (2 ^ 93) 1 ≠ 0 ∧ Binary64.share 0 5 = 1 ∧ Binary64.share 5 0 = 0 := by
  decide +kernel

end
end Mixnet.Props
