import Verif.Proofs.Fragment
/-! Helper lemmas about splitting. -/
namespace Mixnet
open Spec

/-- Enough room: `n` fragments of 2025 payload bytes, at most 9 SURBs of 222 bytes each. -/
def Feasible (n d s : Nat) : Prop := s ≤ 9 * n ∧ d + 222 * s ≤ 2025 * n

theorem divCeil_mul_ge (x y : Nat) (hy : 0 < y) : x ≤ divCeil x y * y := by
  unfold divCeil
  split
  · omega
  · have := Nat.div_add_mod (x - 1) y
    have := Nat.mod_lt (x - 1) hy
    rw [Nat.add_mul, Nat.mul_comm ((x - 1) / y) y]; omega

theorem divCeil_le (x y m : Nat) (hy : 0 < y) (h : x ≤ m * y) : divCeil x y ≤ m := by
  unfold divCeil
  split
  · omega
  · have : (x - 1) / y < m := by
      rw [Nat.div_lt_iff_lt_mul hy]; omega
    omega

theorem subP_ok (site : String) {a b : Nat} (h : b ≤ a) : subP site a b = .ok (a - b) := by
  simp [subP, h]

theorem numFragmentsNeeded_spec (d s : Nat) :
    ∃ n, numFragmentsNeeded d s = .ok n ∧ 1 ≤ n ∧ (n ≤ 65536 → Feasible n d s) ∧
      ∀ m, 1 ≤ m → m ≤ 65536 → Feasible m d s → n ≤ m := by
  have h1 := divCeil_mul_ge s 9 (by omega)
  have h1' : ∀ m, s ≤ m * 9 → divCeil s 9 ≤ m := fun m => divCeil_le s 9 m (by omega)
  simp only [numFragmentsNeeded, satMul, satAdd]
  csimp
  generalize divCeil s 9 = a at *
  rw [subP_ok _ (by omega)]
  simp only [res_bind_ok]
  refine ⟨_, rfl, by omega, ?_, ?_⟩
  · intro h
    have ha : a ≤ 65536 := by omega
    have h2 := divCeil_mul_ge (d - (min (a * 2025) 18446744073709551615 - min (s * 222) 18446744073709551615)) 2025 (by omega)
    generalize divCeil (d - (min (a * 2025) 18446744073709551615 - min (s * 222) 18446744073709551615)) 2025 = b at *
    have hb : a + b ≤ 65536 := by omega
    rw [Nat.min_eq_left (by omega : a * 2025 ≤ 18446744073709551615), Nat.min_eq_left (by omega : s * 222 ≤ 18446744073709551615)] at h2
    unfold Feasible; omega
  · intro m hm1 hm2 hf
    obtain ⟨f1, f2⟩ := hf
    have ha : a ≤ m := h1' m (by omega)
    rw [Nat.min_eq_left (by omega : a * 2025 ≤ 18446744073709551615), Nat.min_eq_left (by omega : s * 222 ≤ 18446744073709551615)]
    have h2 : divCeil (d - (a * 2025 - s * 222)) 2025 ≤ m - a :=
      divCeil_le _ _ _ (by omega) (by omega)
    omega

theorem feasible_step {n d s : Nat} (h : Feasible (n + 1) d s) :
    Feasible n (d - min d (2025 - min s 9 * 222)) (s - min s 9) := by
  unfold Feasible at *; omega

theorem blueprintsLoop_spec (id : MessageId) (last : Nat) (n i : Nat) (data : Scattered Byte) (s : Nat)
    (hw : data.WF) (hf : Feasible n data.toVec.length s) (hl : last ≤ 65535) (hi : i + n ≤ last + 1) :
    ∃ bs, blueprintsLoop id last n i data s = .ok bs ∧ bs.length = n ∧
      (∀ j (h : j < bs.length), bs[j].messageId = id ∧ bs[j].lastIndex = last ∧ bs[j].index = i + j ∧
        bs[j].data.WF ∧ bs[j].numSurbs ≤ 9 ∧ bs[j].data.toVec.length + 222 * bs[j].numSurbs ≤ 2025) ∧
      (bs.map (fun b => b.data.toVec)).flatten = data.toVec ∧ (bs.map (·.numSurbs)).sum = s := by
  induction n generalizing i data s with
  | zero =>
    refine ⟨[], rfl, rfl, by simp, ?_, ?_⟩
    · have : data.toVec.length = 0 := by unfold Feasible at hf; omega
      simpa using this
    · unfold Feasible at hf; simp; omega
  | succ n ih =>
    have hw' : data.len = data.toVec.length := hw
    obtain ⟨l, r, e, wl, wr, tl, tr⟩ := Scattered.splitAt_spec data hw
      (min data.toVec.length (2025 - min s 9 * 222)) (by omega)
    have hst := feasible_step hf
    obtain ⟨bs, e2, len, hb, hd, hs⟩ := ih (i + 1) r (s - min s 9) wr (by
      rw [tr, List.length_drop]; exact hst) (by omega)
    refine ⟨⟨id, last % 65536, i % 65536, l, min s 9 % 256⟩ :: bs, ?_, by simp [len], ?_, ?_, ?_⟩
    · simp only [blueprintsLoop]
      csimp
      rw [subP_ok _ (by omega)]
      simp only [res_bind_ok, hw', e, e2]
    · intro j h
      cases j with
      | zero =>
        have hll : l.toVec.length = min data.toVec.length (2025 - min s 9 * 222) := by
          rw [tl, List.length_take]; omega
        simp only [List.getElem_cons_zero]
        refine ⟨trivial, by omega, by omega, wl, by omega, by rw [hll]; omega⟩
      | succ j =>
        simp only [List.getElem_cons_succ]
        have := hb j (by simpa using h)
        refine ⟨this.1, this.2.1, by rw [this.2.2.1]; omega, this.2.2.2⟩
    · simp only [List.map_cons, List.flatten_cons, hd, tl, tr, List.take_append_drop]
    · simp only [List.map_cons, List.sum_cons, hs]; omega

/-- `fragment_blueprints`, complete description. -/
theorem fragmentBlueprints_spec (id : MessageId) (data : Scattered Byte) (s : Nat) (hw : data.WF) :
    (fragmentBlueprints id data s = .ok none ∧ ¬ Feasible 65536 data.toVec.length s) ∨
    ∃ bs, fragmentBlueprints id data s = .ok (some bs) ∧ 1 ≤ bs.length ∧ bs.length ≤ 65536 ∧
      Feasible bs.length data.toVec.length s ∧
      (∀ m, 1 ≤ m → Feasible m data.toVec.length s → bs.length ≤ m) ∧
      (∀ j (h : j < bs.length), bs[j].messageId = id ∧ bs[j].lastIndex = bs.length - 1 ∧ bs[j].index = j ∧
        bs[j].data.WF ∧ bs[j].numSurbs ≤ 9 ∧ bs[j].data.toVec.length + 222 * bs[j].numSurbs ≤ 2025) ∧
      (bs.map (fun b => b.data.toVec)).flatten = data.toVec ∧ (bs.map (·.numSurbs)).sum = s := by
  have hw' : data.len = data.toVec.length := hw
  obtain ⟨n, en, n1, nf, nm⟩ := numFragmentsNeeded_spec data.toVec.length s
  unfold fragmentBlueprints
  rw [hw', en]
  simp only [res_bind_ok]
  csimp
  by_cases hn : n - 1 ≤ 65535
  · right
    obtain ⟨bs, e, len, hb, hd, hs⟩ := blueprintsLoop_spec id (n - 1) n 0 data s hw (nf (by omega)) hn
      (by omega)
    refine ⟨bs, by rw [if_pos hn, e]; rfl, by omega, by omega, by rw [len]; exact nf (by omega), ?_, ?_, hd, hs⟩
    · intro m hm hf
      by_cases h : m ≤ 65536
      · rw [len]; exact nm m hm h hf
      · omega
    · intro j h
      have := hb j h
      simpa [len] using this
  · left
    refine ⟨by rw [if_neg hn], fun hf => ?_⟩
    have := nm 65536 (by omega) (by omega) hf
    omega

end Mixnet
