import Verif.Proofs.Split
/-! Writing a fragment and reading it back. -/
namespace Mixnet
open Spec

theorem toNat_ofNat8 (n : Nat) : (UInt8.ofNat n).toNat = n % 256 := by simp

theorem flatten_slice {α} (L : List (List α)) (c i : Nat) (h : ∀ x ∈ L, x.length = c) (hi : i < L.length) :
    (L.flatten.drop (c * i)).take c = L[i] := by
  induction L generalizing i with
  | nil => simp at hi
  | cons x L ih =>
    have hx := h x (by simp)
    cases i with
    | zero => simp [List.take_append, hx]
    | succ i =>
      have := ih i (fun y hy => h y (by simp [hy])) (by simpa using hi)
      rw [List.flatten_cons, List.drop_append, hx]
      have e1 : List.drop (c * (i + 1)) x = [] := by
        apply List.drop_eq_nil_of_le; rw [hx]; exact Nat.le_mul_of_pos_right _ (by omega)
      have e2 : c * (i + 1) - c = c * i := by rw [Nat.mul_add]; omega
      rw [e1, e2, List.nil_append, this]
      simp

theorem flatten_length_const {α} (L : List (List α)) (c : Nat) (h : ∀ x ∈ L, x.length = c) :
    L.flatten.length = c * L.length := by
  induction L with
  | nil => simp
  | cons x L ih =>
    have hx := h x (by simp)
    rw [List.flatten_cons, List.length_append, ih (fun y hy => h y (by simp [hy])), hx, List.length_cons,
      Nat.mul_add]; omega

theorem splice_eq {α} (l : List α) (off : Nat) (xs : List α) :
    splice l off xs = l.take off ++ xs ++ l.drop (off + xs.length) := rfl

/-- Writing SURBs `ss` at places `i, i+1, ...`. -/
theorem writeSurbs_eq (f : Bytes) (hl : f.length = 2048) (ss : List Surb) (i : Nat)
    (hs : ∀ s ∈ ss, s.length = 222) (hk : i + ss.length ≤ 9) :
    writeSurbs f ((List.range' i ss.length).map (fun j => 23 + (2025 - (j + 1) * 222))) ss =
      f.take (2048 - 222 * (i + ss.length)) ++ ss.reverse.flatten ++ f.drop (2048 - 222 * i) := by
  induction ss generalizing f i with
  | nil => simp [writeSurbs]
  | cons s ss ih =>
    have h1 : s.length = 222 := hs s (by simp)
    simp only [List.length_cons] at hk
    simp only [List.length_cons, List.range'_succ, List.map_cons, writeSurbs]
    have eo : 23 + (2025 - (i + 1) * 222) = 2048 - 222 * (i + 1) := by omega
    rw [eo]
    have hsp : (splice f (2048 - 222 * (i + 1)) s).length = 2048 := by
      simp [splice, hl, h1]; omega
    rw [ih _ hsp (i + 1) (fun t ht => hs t (by simp [ht])) (by omega)]
    simp only [splice, h1, List.reverse_cons, List.flatten_append, List.flatten_cons, List.flatten_nil,
      List.append_nil]
    have e3 : 2048 - 222 * (i + 1) + 222 = 2048 - 222 * i := by omega
    rw [e3]
    have e4 : ((List.take (2048 - 222 * (i + 1)) f ++ s) ++ List.drop (2048 - 222 * i) f).drop (2048 - 222 * (i + 1))
        = s ++ List.drop (2048 - 222 * i) f := by
      have hll : (List.take (2048 - 222 * (i + 1)) f).length = 2048 - 222 * (i + 1) := by
        rw [List.length_take, hl]; omega
      rw [List.append_assoc, List.drop_append, List.drop_eq_nil_of_le (by rw [hll]; exact Nat.le_refl _), hll]
      rw [Nat.sub_self, List.drop_zero, List.nil_append]
    have e5 : ((List.take (2048 - 222 * (i + 1)) f ++ s) ++ List.drop (2048 - 222 * i) f).take
        (2048 - 222 * (i + 1 + ss.length)) = f.take (2048 - 222 * (i + (ss.length + 1))) := by
      have e6 : min (2048 - 222 * (i + 1 + ss.length)) (2048 - 222 * (i + 1)) = 2048 - 222 * (i + (ss.length + 1)) := by
        omega
      rw [List.append_assoc, List.take_append_of_le_length (by rw [List.length_take, hl]; omega), List.take_take, e6]
    rw [e4, e5]
    simp [List.append_assoc]

theorem surbOffsets_eq (b : FragmentBlueprint) (h : b.numSurbs ≤ 9) :
    b.surbOffsets = (List.range' 0 b.numSurbs).map (fun j => 23 + (2025 - (j + 1) * 222)) := by
  simp only [FragmentBlueprint.surbOffsets]
  csimp
  rw [← List.map_take, List.take_range, Nat.min_eq_left (by omega), List.range_eq_range']

theorem readBack {id d R : Bytes} {last idx ns : Nat} {ss : List Surb} (hid : id.length = 16)
    (hlast : last ≤ 65535) (hidx : idx ≤ last) (hns : ss.length = ns)
    (hs : ∀ s ∈ ss, s.length = 222) (hfit : d.length + 222 * ns ≤ 2025)
    (hR : R.length + (d.length + 222 * ns) = 2025) :
    let f := (id ++ toLe16 last ++ toLe16 idx ++ toLe16 d.length ++ toLe8 ns) ++ (d ++ (R ++ ss.reverse.flatten))
    Valid f ∧ idOf f = id ∧ countOf f = last + 1 ∧ indexOf f = idx ∧ dataOf f = d ∧ surbsOf f = ss := by
  intro f
  have hns9 : ns ≤ 9 := by omega
  have hH : (id ++ toLe16 last ++ toLe16 idx ++ toLe16 d.length ++ toLe8 ns).length = 23 := by
    simp [hid, toLe16, toLe8]
  have hSl : (ss.reverse.flatten).length = 222 * ns := by
    rw [flatten_length_const _ 222 (by simpa using hs), List.length_reverse, hns]
  have hlen : f.length = 2048 := by
    simp only [f, List.length_append] at hH ⊢; omega
  have hget : ∀ i, i < 7 → f.getD (16 + i) 0 =
      (toLe16 last ++ toLe16 idx ++ toLe16 d.length ++ toLe8 ns).getD i 0 := by
    intro i hi
    simp only [f, List.getD_eq_getElem?_getD, List.append_assoc]
    rw [List.getElem?_append_right (by omega), hid]
    have : 16 + i - 16 = i := by omega
    rw [this]
    rw [← List.append_assoc, ← List.append_assoc, ← List.append_assoc, ← List.append_assoc,
      ← List.append_assoc, List.append_assoc (((toLe16 last ++ toLe16 idx) ++ toLe16 d.length) ++ toLe8 ns), 
      List.append_assoc, List.getElem?_append_left (by simp [toLe16, toLe8]; omega)]
    simp
  have g : f.getD 16 0 = UInt8.ofNat last ∧ f.getD 17 0 = UInt8.ofNat (last / 256) ∧
      f.getD 18 0 = UInt8.ofNat idx ∧ f.getD 19 0 = UInt8.ofNat (idx / 256) ∧
      f.getD 20 0 = UInt8.ofNat d.length ∧ f.getD 21 0 = UInt8.ofNat (d.length / 256) ∧
      f.getD 22 0 = UInt8.ofNat ns :=
    ⟨hget 0 (by omega), hget 1 (by omega), hget 2 (by omega), hget 3 (by omega), hget 4 (by omega),
     hget 5 (by omega), hget 6 (by omega)⟩
  obtain ⟨g0, g1, g2, g3, g4, g5, g6⟩ := g
  have hcount : countOf f = last + 1 := by
    simp only [countOf, u16At, g0, g1, toNat_ofNat8]; omega
  have hindex : indexOf f = idx := by
    simp only [indexOf, u16At, g2, g3, toNat_ofNat8]; omega
  have hdsz : dataSizeOf f = d.length := by
    simp only [dataSizeOf, u16At, g4, g5, toNat_ofNat8]; omega
  have hsc : surbCountOf f = ns := by
    simp only [surbCountOf, g6, toNat_ofNat8]; omega
  have hdrop : f.drop 23 = d ++ (R ++ ss.reverse.flatten) := List.drop_left' hH
  refine ⟨⟨hlen, by omega, by omega⟩, ?_, hcount, hindex, ?_, ?_⟩
  · simp only [idOf, f, List.append_assoc]; exact List.take_left' hid
  · rw [dataOf, hdrop, hdsz, List.take_left]
  · rw [surbsOf, hsc]
    apply List.ext_getElem
    · simp [hns]
    · intro j h1 h2
      simp only [List.getElem_map, List.getElem_range]
      have hj : j < ns := by omega
      have hd2 : f.drop (2048 - 222 * (j + 1)) = ss.reverse.flatten.drop (222 * (ns - 1 - j)) := by
        have e1 : 2048 - 222 * (j + 1) = 23 + (d.length + (R.length + 222 * (ns - 1 - j))) := by omega
        rw [e1, ← List.drop_drop, hdrop, ← List.drop_drop, List.drop_left, ← List.drop_drop, List.drop_left]
      rw [hd2, flatten_slice ss.reverse 222 (ns - 1 - j) (by simpa using hs) (by simp; omega)]
      rw [List.getElem_reverse]
      have e7 : ss.length - 1 - (ns - 1 - j) = j := by omega
      simp only [e7]

theorem writeFragment_spec (b : FragmentBlueprint) (buf : Bytes) (ss : List Surb) (n : Nat)
    (hbuf : buf.length = 2048) (hid : b.messageId.length = 16) (hn : b.lastIndex + 1 = n) (hn' : n ≤ 65536)
    (hidx : b.index < n) (hw : b.data.WF) (hfit : b.data.toVec.length + 222 * b.numSurbs ≤ 2025)
    (hss : ss.length = b.numSurbs) (hs : ∀ s ∈ ss, s.length = 222) :
    ∃ f0, b.writeExceptSurbs buf = .ok f0 ∧
      let f := writeSurbs f0 b.surbOffsets ss
      Valid f ∧ idOf f = b.messageId ∧ countOf f = n ∧ indexOf f = b.index ∧
      dataOf f = b.data.toVec ∧ surbsOf f = ss := by
  have hw' : b.data.len = b.data.toVec.length := hw
  have hpl : (slice buf 23 2025).length = 2025 := by simp [slice, hbuf]
  refine ⟨_, by
    simp only [FragmentBlueprint.writeExceptSurbs]
    csimp
    rw [slicePrefix, if_pos (by rw [hpl, hw']; omega), res_bind_ok, Scattered.copyToSlice_ok _ _ (by
      rw [List.length_take, hpl, hw']; omega), res_bind_ok], ?_⟩
  intro f
  have hH : (b.messageId ++ toLe16 b.lastIndex ++ toLe16 b.index ++ toLe16 b.data.len ++ toLe8 b.numSurbs).length = 23 := by
    simp [hid, toLe16, toLe8]
  have hsp : (splice (slice buf 23 2025) 0 b.data.toVec) =
      b.data.toVec ++ (slice buf 23 2025).drop b.data.toVec.length := by simp [splice]
  let P := (slice buf 23 2025).drop b.data.toVec.length
  have hPl : P.length = 2025 - b.data.toVec.length := by simp only [P, List.length_drop, hpl]
  have hf : f = (b.messageId ++ toLe16 b.lastIndex ++ toLe16 b.index ++ toLe16 b.data.toVec.length ++ toLe8 b.numSurbs) ++
      (b.data.toVec ++ (P.take (2025 - b.data.toVec.length - 222 * b.numSurbs) ++ ss.reverse.flatten)) := by
    have hfull : (b.messageId ++ toLe16 b.lastIndex ++ toLe16 b.index ++ toLe16 b.data.len ++
        toLe8 b.numSurbs ++ splice (slice buf 23 2025) 0 b.data.toVec).length = 2048 := by
      rw [List.length_append, hH, hsp, List.length_append, List.length_drop, hpl]; omega
    have hwr := writeSurbs_eq _ hfull ss 0 hs (by omega)
    simp only [f]
    rw [hss] at hwr
    rw [surbOffsets_eq b (by omega), hwr]
    simp only [Nat.zero_add, Nat.mul_zero, Nat.sub_zero]
    rw [List.drop_eq_nil_of_le (Nat.le_of_eq hfull), List.append_nil, hw', hsp]
    have e1 : 2048 - 222 * b.numSurbs = 23 + (b.data.toVec.length + (2025 - b.data.toVec.length - 222 * b.numSurbs)) := by
      omega
    rw [hw'] at hH
    generalize hk : 2025 - b.data.toVec.length - 222 * b.numSurbs = k at e1 ⊢
    generalize hHH : b.messageId ++ toLe16 b.lastIndex ++ toLe16 b.index ++ toLe16 b.data.toVec.length ++ toLe8 b.numSurbs = H at hH ⊢
    have hPP : List.drop b.data.toVec.length (slice buf 23 2025) = P := rfl
    rw [hPP, e1, ← hH, List.take_length_add_append, List.take_length_add_append]
    simp only [List.append_assoc]
  have := readBack (id := b.messageId) (d := b.data.toVec)
    (R := P.take (2025 - b.data.toVec.length - 222 * b.numSurbs)) (last := b.lastIndex) (idx := b.index)
    (ns := b.numSurbs) (ss := ss) hid (by omega) (by omega) hss hs hfit (by
      rw [List.length_take, hPl]; omega)
  simp only at this
  rw [← hf, hn] at this
  exact this


/-- Splitting a list of SURBs over the blueprints and writing all fragments. -/
theorem writeFragments_spec (n : Nat) (hn' : n ≤ 65536) (id : Bytes) (hid : id.length = 16) (i : Nat)
    (bs : List FragmentBlueprint) (bufs : List Bytes) (ss : List Surb)
    (hb : ∀ j (h : j < bs.length), bs[j].messageId = id ∧ bs[j].lastIndex = n - 1 ∧ bs[j].index = i + j ∧
        bs[j].data.WF ∧ bs[j].numSurbs ≤ 9 ∧ bs[j].data.toVec.length + 222 * bs[j].numSurbs ≤ 2025)
    (hi : i + bs.length = n) (hbl : bufs.length = bs.length) (hbuf : ∀ b ∈ bufs, b.length = 2048)
    (hss : ss.length = (bs.map (·.numSurbs)).sum) (hs : ∀ s ∈ ss, s.length = 222) :
    ∃ fs, writeFragments bs bufs ss = .ok fs ∧ fs.length = bs.length ∧
      (∀ j (h : j < fs.length), Valid fs[j] ∧ idOf fs[j] = id ∧ countOf fs[j] = n ∧ indexOf fs[j] = i + j) ∧
      fs.map dataOf = bs.map (fun b => b.data.toVec) ∧ (fs.map surbsOf).flatten = ss := by
  induction bs generalizing i bufs ss with
  | nil => exact ⟨[], by simp [writeFragments], rfl, by simp, rfl, by simp at hss; simp [hss]⟩
  | cons b bs ih =>
    cases bufs with
    | nil => simp at hbl
    | cons buf bufs =>
      have h0 := hb 0 (by simp)
      simp only [List.getElem_cons_zero, Nat.add_zero] at h0
      obtain ⟨a1, a2, a3, a4, a5, a6⟩ := h0
      simp only [List.map_cons, List.sum_cons, List.length_cons] at hss hi hbl
      obtain ⟨f0, e0, hv⟩ := writeFragment_spec b buf (ss.take b.numSurbs) n (hbuf _ (by simp))
        (by rw [a1]; exact hid) (by omega) hn' (by omega) a4 a6 (by rw [List.length_take]; omega)
        (fun s h => hs s (List.mem_of_mem_take h))
      obtain ⟨fs, e1, l1, v1, d1, s1⟩ := ih (i + 1) bufs (ss.drop b.numSurbs)
        (fun j h => by
          have := hb (j + 1) (by simpa using h)
          simp only [List.getElem_cons_succ] at this
          refine ⟨this.1, this.2.1, by rw [this.2.2.1]; omega, this.2.2.2⟩)
        (by omega) (by omega) (fun b h => hbuf b (by simp [h])) (by rw [List.length_drop]; omega)
        (fun s h => hs s (List.mem_of_mem_drop h))
      simp only at hv
      refine ⟨writeSurbs f0 b.surbOffsets (ss.take b.numSurbs) :: fs, by simp only [writeFragments, e0, e1, res_bind_ok], by simp [l1], ?_, ?_, ?_⟩
      · intro j h
        cases j with
        | zero => simp only [List.getElem_cons_zero]; rw [← a1, Nat.add_zero, ← a3]; exact ⟨hv.1, hv.2.1, hv.2.2.1, hv.2.2.2.1⟩
        | succ j =>
          simp only [List.getElem_cons_succ]
          have := v1 j (by simpa using h)
          refine ⟨this.1, this.2.1, this.2.2.1, by rw [this.2.2.2]; omega⟩
      · simp only [List.map_cons, d1, hv.2.2.2.2.1]
      · simp only [List.map_cons, List.flatten_cons, s1, hv.2.2.2.2.2, List.take_append_drop]

end Mixnet
