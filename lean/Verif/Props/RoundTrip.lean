import Verif.Proofs.Reassemble
import Verif.Props.Splitting
import Verif.Props.Reassembly
/-!
# C01: splitting and reassembly is lossless for every arrival order
-/
namespace Mixnet.Props
open Mixnet Spec

/-- What the sender does with a message: `fs` are the fragments written for the message with this id,
data and SURBs (into buffers with any old content). -/
def Sent (id data : Bytes) (surbs : List Surb) (fs : List Bytes) : Prop :=
  ∃ (s : Scattered Byte) (bs : List FragmentBlueprint) (bufs : List Bytes),
    Denotes s data ∧ fragmentBlueprints id s surbs.length = .ok (some bs) ∧
    bufs.length = bs.length ∧ (∀ b ∈ bufs, b.length = 2048) ∧ writeFragments bs bufs surbs = .ok fs

/-- Writing the fragments never fails and gives a complete set of fragments which carry the message. -/
theorem sent_whole {id data : Bytes} {surbs : List Surb} {fs : List Bytes} (hid : id.length = 16)
    (hs : ∀ s ∈ surbs, s.length = 222) (h : Sent id data surbs fs) :
    IsWhole id fs ∧ assemble id fs = ⟨id, data, surbs⟩ := by
  obtain ⟨s, bs, bufs, hd, hb, hl, hbuf, hw⟩ := h
  obtain ⟨w, rfl⟩ := denotes_wf hd
  rcases fragmentBlueprints_spec id s surbs.length w with ⟨e, -⟩ | ⟨bs', e, h1, h2, h3, h4, h5, h6, h7⟩
  · rw [hb] at e; simp at e
  · rw [hb] at e; simp only [Except.ok.injEq, Option.some.injEq] at e; subst e
    obtain ⟨fs', e', l', v', d', s'⟩ := writeFragments_spec bs.length h2 id hid 0 bs bufs surbs
      (by simpa using h5) (by omega) hl hbuf h7.symm hs
    rw [hw] at e'; simp only [Except.ok.injEq] at e'; subst e'
    refine ⟨⟨fun h => by subst h; simp at l'; omega, fun i hi => ?_⟩, ?_⟩
    · have := v' i hi
      rw [l']
      simpa using this
    · simp only [assemble, s', d', h6]

/-- C01 (the sender). Any message that is not refused can be written. -/
theorem sent_exists (id data : Bytes) (surbs : List Surb) (hid : id.length = 16)
    (hs : ∀ s ∈ surbs, s.length = 222) (hc : CanCarry 65536 data.length surbs.length) :
    ∃ fs, Sent id data surbs fs := by
  have hd := Denotes.ofSlice data
  obtain ⟨w, hv⟩ := denotes_wf hd
  have h5 := split_refuses_iff id hd surbs.length
  rcases fragmentBlueprints_spec id (Scattered.ofSlice data) surbs.length w with ⟨e, -⟩ | ⟨bs, e, h1, h2, h3, h4, h5, h6, h7⟩
  · exact absurd hc (h5.2.1 e)
  · obtain ⟨fs', e', -⟩ := writeFragments_spec bs.length h2 id hid 0 bs
      (List.replicate bs.length (List.replicate 2048 0)) surbs
      (by simpa using h5) (by omega) List.length_replicate (by
        intro b hb; rw [List.eq_of_mem_replicate hb]; exact List.length_replicate) h7.symm hs
    exact ⟨fs', _, bs, _, hd, e, List.length_replicate, by
      intro b hb; rw [List.eq_of_mem_replicate hb]; exact List.length_replicate, e'⟩

/-- The number of fragments sent is the least possible. -/
theorem sent_length_least {id data : Bytes} {surbs : List Surb} {fs : List Bytes} (hid : id.length = 16)
    (hs : ∀ s ∈ surbs, s.length = 222) (h : Sent id data surbs fs) :
    CanCarry fs.length data.length surbs.length ∧
    ∀ m, 1 ≤ m → CanCarry m data.length surbs.length → fs.length ≤ m := by
  obtain ⟨s, bs, bufs, hd, hb, hl, hbuf, hw⟩ := h
  obtain ⟨⟨h1, h2, h3, h4⟩, h5, h6, h7⟩ := split_exact id hd surbs.length hb
  obtain ⟨fs', e', l', -⟩ := writeFragments_spec bs.length h2 id hid 0 bs bufs surbs
      (by
        intro j h
        obtain ⟨a1, a2, a3, a4, a5, a6⟩ := h7 j h
        exact ⟨a1, by omega, by omega, a4, a5, by omega⟩) (by omega) hl hbuf h6.symm hs
  rw [hw] at e'; simp only [Except.ok.injEq] at e'; subst e'
  rw [l']; exact ⟨h3, h4⟩

/-- The messages handed out, in order (`none` where a fragment completed nothing). -/
abbrev Outputs := List (Option GenericMessage)

/-- C01. A reachable receiver `a` that has nothing of message `id` gets the fragments of the message in
any order `gs`. If they are within its limits (number of fragments per message; one more incomplete
message and all fragments but the last fit into the buffer, if there is more than one fragment), it
hands out nothing until the last fragment, then exactly the message; and it ends up holding what it
held before. -/
theorem roundtrip {id data : Bytes} {surbs : List Surb} {fs : List Bytes} (hid : id.length = 16)
    (hs : ∀ s ∈ surbs, s.length = 222) (h : Sent id data surbs fs)
    {a : FragmentAssembler} (hr : ReachableReceiver a) (hfresh : ∀ e ∈ a.incomplete, e.1 ≠ id)
    {gs : List Bytes} (hperm : gs.Perm fs)
    (hmax : fs.length ≤ a.maxFragmentsPerMessage)
    (hroom : fs.length = 1 ∨ (a.incomplete.length + 1 ≤ a.maxIncompleteMessages ∧
      (storedFragments a).length + (fs.length - 1) ≤ a.maxIncompleteFragments)) :
    a.insertAll gs = .ok (a, List.replicate (fs.length - 1) none ++ [some ⟨id, data, surbs⟩]) := by
  obtain ⟨hw, has⟩ := sent_whole hid hs h
  have ha := hr.inv
  have hne : fs ≠ [] := hw.1
  have hnpos : 0 < fs.length := List.length_pos_iff.2 hne
  have hids : ∀ g ∈ gs, idOf g = id := fun g hg => (hw.mem (hperm.mem_iff.1 hg)).2.1
  have hnone : a.incomplete.get? id = none := by
    rw [LinkedMap.get?_eq_none]; intro hk
    obtain ⟨e, he, e1⟩ := List.mem_map.1 hk
    exact hfresh e he e1
  have hfilter : gs.filter (fun g => g.take 16 = id) = gs := by
    apply List.filter_eq_self.2; intro g hg; exact decide_eq_true (hids g hg)
  -- the room invariant
  let I : FragmentAssembler → List Bytes → Prop := fun b hs =>
    (∀ g ∈ hs, idOf g = id) ∧ (1 < fs.length →
      (b.incomplete.remove id).length + 1 ≤ b.maxIncompleteMessages ∧
      b.numIncompleteFragments + hs.length ≤ b.maxIncompleteFragments + 1) ∧
    (fs.length = 1 → hs.length ≤ 1)
  have hstep : ∀ b f hs b' o, FAInv b → I b (f :: hs) → InsertCase b f b' o → I b' hs := by
    intro b f hs b' o hb hI hc
    refine ⟨fun g hg => hI.1 g (by simp [hg]), fun hlt => ?_, fun h1 => ?_⟩
    · have h2 := hI.2.1 hlt
      have hf := hI.1 f (by simp)
      simp only [List.length_cons] at h2
      have hrm : ((b.incomplete.remove id).remove id) = b.incomplete.remove id :=
        LinkedMap.remove_of_not_mem (LinkedMap.not_mem_keys_remove _ _)
      cases hc with
      | completes => simp only [hf, hrm]; omega
      | stored hv k1 k2 g1 g2 g3 =>
        have hb2 := hb.frags
        have hrm2 : ((storeRaw b f).incomplete.remove id) = b.incomplete.remove id := by
          simp only [storeRaw, hf]
          have := hrm
          simp only [LinkedMap.remove, LinkedMap.pushBack, List.filter_append] at this ⊢
          rw [this]; simp
        by_cases hov : (storeRaw b f).incomplete.length > (storeRaw b f).maxIncompleteMessages ∨
          (storeRaw b f).numIncompleteFragments > (storeRaw b f).maxIncompleteFragments
        · simp only [evictRaw]
          rw [if_pos hov]
          simp only
          have hsub : (LinkedMap.remove ((storeRaw b f).incomplete.drop 1) id).length ≤
              ((storeRaw b f).incomplete.remove id).length := by
            simp only [LinkedMap.remove]
            exact (List.Sublist.filter _ (List.drop_sublist ..)).length_le
          rw [hrm2] at hsub
          constructor
          · have : (storeRaw b f).maxIncompleteMessages = b.maxIncompleteMessages := rfl
            omega
          · have e1 : (storeRaw b f).maxIncompleteFragments = b.maxIncompleteFragments := rfl
            have e2 : (storeRaw b f).numIncompleteFragments = b.numIncompleteFragments + 1 := rfl
            omega
        · simp only [evictRaw]
          rw [if_neg hov]
          constructor
          · rw [hrm2]; exact h2.1
          · simp only [storeRaw]; omega
      | _ => omega
    · have := hI.2.2 h1; simp only [List.length_cons] at this; omega
  have hquiet : ∀ b f hs, FAInv b → I b (f :: hs) → (idOf f = id → hs ≠ []) →
      (storeRaw b f).incomplete.length ≤ b.maxIncompleteMessages ∧
      (storeRaw b f).numIncompleteFragments ≤ b.maxIncompleteFragments := by
    intro b f hs hb hI hg
    have hf := hI.1 f (by simp)
    have hhs : 0 < hs.length := List.length_pos_iff.2 (hg hf)
    by_cases hlt : 1 < fs.length
    · have h2 := hI.2.1 hlt
      simp only [List.length_cons] at h2
      simp only [storeRaw, LinkedMap.pushBack, hf, List.length_append, List.length_singleton]
      omega
    · have := hI.2.2 (by omega); simp only [List.length_cons] at this; omega
  have hplen := hperm.length_eq
  have hI0 : I a gs := by
    refine ⟨hids, fun hlt => ?_, fun h1 => by omega⟩
    have hrm : a.incomplete.remove id = a.incomplete :=
      LinkedMap.remove_of_not_mem (LinkedMap.get?_eq_none.1 hnone)
    have := ha.count
    rcases hroom with h1 | h1
    · omega
    · rw [hrm]; omega
  obtain ⟨a', outs, e, hol, hout, -, hrest, m1, m2, m3, ha'⟩ := reassemble_run hw I hstep hquiet gs
    (fun g hg => ((hw.mem (hperm.mem_iff.1 hg)).1).1) a ha [] hnpos (by unfold Knows; rw [hnone]) hmax hI0
    (by rw [List.nil_append, hfilter]; exact hperm)
  have hinc : a'.incomplete = a.incomplete := by
    rw [hrest hids]; exact LinkedMap.remove_of_not_mem (LinkedMap.get?_eq_none.1 hnone)
  have haa : a' = a := by
    have h1 := ha'.count
    have h2 := ha.count
    have h3 : storedFragments a' = storedFragments a := by simp only [storedFragments, hinc]
    rw [h3, ← h2] at h1
    obtain ⟨i1, n1, x1, y1, z1⟩ := a'
    obtain ⟨i2, n2, x2, y2, z2⟩ := a
    simp only at hinc h1 m1 m2 m3
    rw [hinc, h1, m1, m2, m3]
  have hout' : outputsFor id gs outs = outs := by
    unfold outputsFor
    have : (gs.zip outs).filter (fun p => decide (p.1.take 16 = id)) = gs.zip outs := by
      apply List.filter_eq_self.2
      intro p hp
      exact decide_eq_true (hids p.1 (List.of_mem_zip hp).1)
    rw [this]
    exact List.map_snd_zip (by omega)
  rw [hout'] at hout
  rw [e, haa, hout, has]
  simp

/-- C01 with other traffic in between. The stream `gs` contains, in any order and in between any other
fragments with other ids, exactly the fragments of the message. If the receiver has room for
everything in the stream, then for the message's own fragments it hands out nothing but the message,
on the last one. -/
theorem roundtrip_interleaved {id data : Bytes} {surbs : List Surb} {fs : List Bytes} (hid : id.length = 16)
    (hs : ∀ s ∈ surbs, s.length = 222) (h : Sent id data surbs fs)
    {a : FragmentAssembler} (hr : ReachableReceiver a) (hfresh : ∀ e ∈ a.incomplete, e.1 ≠ id)
    {gs : List Bytes} (hl : AllFragments gs) (hperm : (gs.filter (fun g => idOf g = id)).Perm fs)
    (hmax : fs.length ≤ a.maxFragmentsPerMessage)
    (hroom : a.incomplete.length + gs.length ≤ a.maxIncompleteMessages ∧
      (storedFragments a).length + gs.length ≤ a.maxIncompleteFragments) :
    ∃ a' outs, a.insertAll gs = .ok (a', outs) ∧ outs.length = gs.length ∧
      ((gs.zip outs).filter (fun p => idOf p.1 = id)).map (·.2) =
        List.replicate (fs.length - 1) none ++ [some ⟨id, data, surbs⟩] := by
  obtain ⟨hw, has⟩ := sent_whole hid hs h
  have ha := hr.inv
  have hnpos : 0 < fs.length := List.length_pos_iff.2 hw.1
  have hnone : a.incomplete.get? id = none := by
    rw [LinkedMap.get?_eq_none]; intro hk
    obtain ⟨e, he, e1⟩ := List.mem_map.1 hk
    exact hfresh e he e1
  let I : FragmentAssembler → List Bytes → Prop := fun b hs =>
      b.incomplete.length + hs.length ≤ b.maxIncompleteMessages ∧
      b.numIncompleteFragments + hs.length ≤ b.maxIncompleteFragments
  have hrml : ∀ (b : FragmentAssembler) k, (b.incomplete.remove k).length ≤ b.incomplete.length :=
    fun b k => (LinkedMap.remove_sublist ..).length_le
  have hquiet : ∀ b f hs, FAInv b → I b (f :: hs) → (idOf f = id → hs ≠ []) →
      (storeRaw b f).incomplete.length ≤ b.maxIncompleteMessages ∧
      (storeRaw b f).numIncompleteFragments ≤ b.maxIncompleteFragments := by
    intro b f hs hb hI hg
    simp only [I, List.length_cons] at hI
    have := hrml b (idOf f)
    simp only [storeRaw, LinkedMap.pushBack, List.length_append, List.length_singleton]
    omega
  have hstep : ∀ b f hs b' o, FAInv b → I b (f :: hs) → InsertCase b f b' o → I b' hs := by
    intro b f hs b' o hb hI hc
    have hq := hI
    simp only [I, List.length_cons] at hI ⊢
    have := hrml b (idOf f)
    cases hc with
    | completes => simp only; omega
    | stored hv k1 k2 g1 g2 g3 =>
      rw [evictRaw_id]
      · simp only [storeRaw, LinkedMap.pushBack, List.length_append, List.length_singleton]; omega
      · simp only [storeRaw, LinkedMap.pushBack, List.length_append, List.length_singleton]; omega
      · simp only [storeRaw]; omega
    | _ => omega
  obtain ⟨a', outs, e, hol, hout, -⟩ := reassemble_run hw I hstep hquiet gs hl a ha [] hnpos
    (by unfold Knows; rw [hnone]) hmax (by simp only [I]; have := ha.count; omega)
    (by rw [List.nil_append]; exact hperm)
  refine ⟨a', outs, e, hol, ?_⟩
  rw [has] at hout
  exact hout

/-- Non-vacuity: a 5000-byte message with 12 SURBs can be sent; a fresh default receiver
(`/repo/src/core/config.rs`: 2000 messages, 2000 fragments, 25 per message) satisfies the hypotheses of
`roundtrip` for it, so it is received in any order. -/
example : ∃ fs, Sent (List.replicate 16 7) (List.replicate 5000 1) (List.replicate 12 (List.replicate 222 2)) fs ∧
    ∀ gs : List Bytes, gs.Perm fs →
      ∃ outs, (FragmentAssembler.new 2000 2000 25).insertAll gs = .ok (FragmentAssembler.new 2000 2000 25, outs) ∧
        outs.getLast? = some (some ⟨List.replicate 16 7, List.replicate 5000 1,
          List.replicate 12 (List.replicate 222 2)⟩) := by
  have hs : ∀ s ∈ List.replicate 12 (List.replicate 222 (2 : Byte)), s.length = 222 := by
    intro s h; rw [List.eq_of_mem_replicate h]; exact List.length_replicate
  obtain ⟨fs, h⟩ := sent_exists (List.replicate 16 7) (List.replicate 5000 1)
    (List.replicate 12 (List.replicate 222 2)) List.length_replicate hs
    ((canCarry_iff ..).2 (by rw [List.length_replicate, List.length_replicate]; unfold Feasible; omega))
  have hmax : fs.length ≤ 4 := (sent_length_least List.length_replicate hs h).2 4 (by omega)
    ((canCarry_iff ..).2 (by rw [List.length_replicate, List.length_replicate]; unfold Feasible; omega))
  refine ⟨fs, h, fun gs hp => ⟨_, roundtrip List.length_replicate hs h
    ⟨2000, 2000, 25, [], [], by simp [AllFragments], rfl⟩ (by simp [FragmentAssembler.new]) hp (by
      simp only [FragmentAssembler.new]; omega) ?_, List.getLast?_concat⟩⟩
  right
  have h0 : (storedFragments (FragmentAssembler.new 2000 2000 25)).length = 0 := rfl
  rw [h0]; simp only [FragmentAssembler.new, List.length_nil]; omega

end Mixnet.Props
