import Verif.Proofs.WriteFragment
import Mathlib.Data.List.Perm.Basic
/-! Reassembly of one complete message, in any order, with other traffic in between. -/
namespace Mixnet
open Spec

/-- The slots of a message after receiving the fragments `r` of `fs`. -/
def slotsOf (fs r : List Bytes) : List (Option Bytes) := fs.map (fun f => if f ∈ r then some f else none)

theorem Spec.IsWhole.nodup {id fs} (h : IsWhole id fs) : fs.Nodup := by
  rw [List.nodup_iff_injective_getElem]
  intro i j hij
  simp only at hij
  have h1 := (h.2 i.1 i.2).2.2.2
  have h2 := (h.2 j.1 j.2).2.2.2
  rw [hij] at h1
  exact Fin.ext (by omega)

theorem Spec.IsWhole.mem {id fs} (h : IsWhole id fs) {f} (hf : f ∈ fs) :
    Valid f ∧ idOf f = id ∧ countOf f = fs.length ∧ fs[indexOf f]? = some f := by
  obtain ⟨i, hi, rfl⟩ := List.getElem_of_mem hf
  obtain ⟨a, b, c, d⟩ := h.2 i hi
  exact ⟨a, b, c, by rw [d]; simp [hi]⟩

theorem slotsOf_set {id fs} (h : IsWhole id fs) {r f} (hf : f ∈ fs) :
    (slotsOf fs r).set (indexOf f) (some f) = slotsOf fs (f :: r) := by
  have hm := (h.mem hf).2.2.2
  have hi : indexOf f < fs.length := by rw [List.getElem?_eq_some_iff] at hm; exact hm.1
  apply List.ext_getElem?
  intro i
  rw [List.getElem?_set]
  by_cases hii : indexOf f = i
  · subst hii
    simp only [slotsOf, List.getElem?_map, hm, List.length_map, hi]; simp
  · rw [if_neg hii]
    simp only [slotsOf, List.getElem?_map]
    cases hg : fs[i]? with
    | none => rfl
    | some g =>
      have hgf : g ≠ f := by
        rintro rfl
        rw [List.getElem?_eq_some_iff] at hg
        obtain ⟨hg1, hg2⟩ := hg
        have := (h.2 i hg1).2.2.2
        rw [hg2] at this; exact hii this
      simp [hgf]

theorem slotsOf_nil (fs : List Bytes) : slotsOf fs [] = List.replicate fs.length none := by
  simp [slotsOf, List.map_const']

theorem slotsOf_all {fs r : List Bytes} (h : ∀ f ∈ fs, f ∈ r) : slotsOf fs r = fs.map some := by
  apply List.map_congr_left; intro f hf; simp [h f hf]

theorem slotsOf_filterMap (fs r : List Bytes) : (slotsOf fs r).filterMap id = fs.filter (· ∈ r) := by
  induction fs with
  | nil => rfl
  | cons f fs ih =>
    simp only [slotsOf, List.map_cons] at ih ⊢
    by_cases hf : f ∈ r
    · simp [hf, List.filter_cons] at ih ⊢; exact ih
    · simp [hf, List.filter_cons] at ih ⊢; exact ih

/-- What the receiver knows about message `id` after receiving `r`. -/
def Knows (a : FragmentAssembler) (id : Bytes) (fs r : List Bytes) : Prop :=
  match a.incomplete.get? id with
  | none => r = []
  | some im => r ≠ [] ∧ im.fragments = slotsOf fs r

theorem Knows.slotsBefore {a id fs r} (h : Knows a id fs r) : slotsBefore a id fs.length = slotsOf fs r := by
  unfold Knows at h; unfold Mixnet.slotsBefore
  cases hg : a.incomplete.get? id with
  | none => rw [hg] at h; simp only at h; subst h; simp [slotsOf_nil]
  | some im => rw [hg] at h; exact h.2

theorem evictRaw_id {a : FragmentAssembler} (h1 : a.incomplete.length ≤ a.maxIncompleteMessages)
    (h2 : a.numIncompleteFragments ≤ a.maxIncompleteFragments) : evictRaw a = a := by
  unfold evictRaw; rw [if_neg]; omega

/-- Effect of one fragment when nothing is evicted, on an arbitrary other message. -/
theorem get?_other {a f a' o} (hc : InsertCase a f a' o) {k} (hk : k ≠ idOf f)
    (hq : (storeRaw a f).incomplete.length ≤ a.maxIncompleteMessages ∧
      (storeRaw a f).numIncompleteFragments ≤ a.maxIncompleteFragments) :
    a'.incomplete.get? k = a.incomplete.get? k := by
  cases hc with
  | invalid => rfl
  | tooMany => rfl
  | single => rfl
  | inconsistent => rfl
  | duplicate => rfl
  | completes => exact LinkedMap.get?_remove_ne _ hk
  | stored =>
    rw [evictRaw_id hq.1 hq.2]
    simp only [storeRaw]
    rw [LinkedMap.get?_pushBack_ne _ _ hk, LinkedMap.get?_remove_ne _ hk]

/-- One fragment of the message arrives, before eviction. -/
theorem own_step' {a f a' o id} {fs r : List Bytes} (ha : FAInv a) (hw : IsWhole id fs) (hf : f ∈ fs) (hfr : f ∉ r)
    (hrs : ∀ x ∈ r, x ∈ fs) (hrn : r.Nodup)
    (hk : Knows a id fs r) (hmax : fs.length ≤ a.maxFragmentsPerMessage)
    (hc : InsertCase a f a' o) :
    (r.length + 1 < fs.length ∧ o = none ∧ a' = evictRaw (storeRaw a f) ∧ Knows (storeRaw a f) id fs (f :: r)) ∨
    (r.length + 1 = fs.length ∧ o = some (assemble id fs) ∧
      a'.incomplete = a.incomplete.remove id ∧ a'.maxFragmentsPerMessage = a.maxFragmentsPerMessage) := by
  obtain ⟨hv, hid, hcnt, hidx⟩ := hw.mem hf
  have hlen : (fs.filter (· ∈ r)).length = r.length := by
    apply List.Perm.length_eq
    rw [List.perm_ext_iff_of_nodup (hw.nodup.filter _) hrn]
    intro x; simp; exact hrs x
  have hslot : (slotsOf fs r)[indexOf f]? = some none := by
    simp [slotsOf, hidx, hfr]
  have hslotlen : (slotsOf fs r).length = fs.length := by simp [slotsOf]
  cases hc with
  | invalid h => exact absurd hv h
  | tooMany _ h => omega
  | single _ _ h1 hw1 =>
    right
    rw [hcnt] at h1
    obtain ⟨g, rfl⟩ := List.length_eq_one_iff.1 h1
    simp at hf; subst hf
    have hr : r = [] := by
      cases r with
      | nil => rfl
      | cons x r => have := hrs x (by simp); simp at this; simp [this] at hfr
    subst hr
    refine ⟨by simp, by rw [hid], ?_, rfl⟩
    unfold Knows at hk
    cases hg : a.incomplete.get? id with
    | none => exact (LinkedMap.remove_of_not_mem (LinkedMap.get?_eq_none.1 hg)).symm
    | some im => rw [hg] at hk; exact absurd rfl hk.1
  | inconsistent im _ _ _ hg h =>
    rw [hid] at hg
    unfold Knows at hk; rw [hg] at hk
    rw [hk.2, hslotlen, hcnt] at h; exact absurd rfl h
  | duplicate im f' _ _ _ hg _ h =>
    rw [hid] at hg
    unfold Knows at hk; rw [hg] at hk
    rw [hk.2, hslot] at h; simp at h
  | completes im fs' _ _ _ hg _ _ h6 h7 h8 =>
    right
    rw [hid] at hg
    have hkk := hk
    unfold Knows at hk; rw [hg] at hk
    have hinv : IMInv id im := ha.entries _ (LinkedMap.get?_some_mem hg)
    have hnr : im.numReceived = r.length := by
      rw [hinv.cnt, hk.2, slotsOf_filterMap, hlen]
    have hall : r.length + 1 = fs.length := by omega
    refine ⟨hall, ?_, by rw [hid], rfl⟩
    rw [hk.2, slotsOf_set hw hf] at h6
    have hall' : ∀ x ∈ fs, x ∈ f :: r := by
      have hp : (f :: r).Subperm fs := List.subperm_of_subset (List.nodup_cons.2 ⟨hfr, hrn⟩) (by
        intro x hx; rcases List.mem_cons.1 hx with rfl | hx
        · exact hf
        · exact hrs x hx)
      have := hp.perm_of_length_le (by simp; omega)
      exact fun x hx => this.mem_iff.2 hx
    rw [slotsOf_all hall'] at h6
    have : fs = fs' := List.map_injective_iff.2 (fun _ _ h => Option.some.inj h) h6
    rw [← this, hid]
  | stored _ _ _ _ _ g3 =>
    left
    have hsb := hk.slotsBefore
    rw [hcnt, hid, hsb, slotsOf_filterMap, hlen] at g3
    refine ⟨g3, rfl, rfl, ?_⟩
    unfold Knows
    have : (storeRaw a f).incomplete.get? id = some ⟨slotsOf fs (f :: r),
        ((slotsOf fs r).filterMap _root_.id).length + 1⟩ := by
      simp only [storeRaw, hid, hcnt]
      rw [LinkedMap.get?_pushBack_self _ (LinkedMap.not_mem_keys_remove _ _), hsb, slotsOf_set hw hf]
    rw [this]
    exact ⟨by simp, rfl⟩

/-- One fragment of the message arrives. -/
theorem own_step {a f a' o id} {fs r : List Bytes} (ha : FAInv a) (hw : IsWhole id fs) (hf : f ∈ fs) (hfr : f ∉ r)
    (hrs : ∀ x ∈ r, x ∈ fs) (hrn : r.Nodup)
    (hk : Knows a id fs r) (hmax : fs.length ≤ a.maxFragmentsPerMessage)
    (hc : InsertCase a f a' o)
    (hq : r.length + 1 < fs.length → (storeRaw a f).incomplete.length ≤ a.maxIncompleteMessages ∧
      (storeRaw a f).numIncompleteFragments ≤ a.maxIncompleteFragments) :
    (r.length + 1 < fs.length ∧ o = none ∧ a' = storeRaw a f ∧ Knows a' id fs (f :: r)) ∨
    (r.length + 1 = fs.length ∧ o = some (assemble id fs) ∧
      a'.incomplete = a.incomplete.remove id ∧ a'.maxFragmentsPerMessage = a.maxFragmentsPerMessage) := by
  rcases own_step' ha hw hf hfr hrs hrn hk hmax hc with ⟨h1, h2, h3, h4⟩ | h
  · have hq' := hq h1
    rw [evictRaw_id hq'.1 hq'.2] at h3
    exact .inl ⟨h1, h2, h3, h3 ▸ h4⟩
  · exact .inr h

/-- The outputs for the fragments of message `id`. -/
def outputsFor (id : Bytes) (gs : List Bytes) (outs : List (Option GenericMessage)) : List (Option GenericMessage) :=
  ((gs.zip outs).filter (fun p => p.1.take 16 = id)).map (·.2)

theorem reassemble_run {id : Bytes} {fs : List Bytes} (hw : IsWhole id fs)
    (I : FragmentAssembler → List Bytes → Prop)
    (hstep : ∀ a f gs a' o, FAInv a → I a (f :: gs) → InsertCase a f a' o → I a' gs)
    (hquiet : ∀ a f gs, FAInv a → I a (f :: gs) → (idOf f = id → gs ≠ []) →
      (storeRaw a f).incomplete.length ≤ a.maxIncompleteMessages ∧
      (storeRaw a f).numIncompleteFragments ≤ a.maxIncompleteFragments)
    (gs : List Bytes) (hl : ∀ g ∈ gs, g.length = 2048) (a : FragmentAssembler) (ha : FAInv a) (r : List Bytes)
    (hr : r.length < fs.length)
    (hk : Knows a id fs r) (hmax : fs.length ≤ a.maxFragmentsPerMessage) (hI : I a gs)
    (hp : (r ++ gs.filter (fun g => g.take 16 = id)).Perm fs) :
    ∃ a' outs, a.insertAll gs = .ok (a', outs) ∧ outs.length = gs.length ∧
      outputsFor id gs outs = List.replicate (fs.length - 1 - r.length) none ++ [some (assemble id fs)] ∧
      a'.incomplete.get? id = none ∧
      ((∀ g ∈ gs, idOf g = id) → a'.incomplete = a.incomplete.remove id) ∧
      a'.maxIncompleteMessages = a.maxIncompleteMessages ∧
      a'.maxIncompleteFragments = a.maxIncompleteFragments ∧
      a'.maxFragmentsPerMessage = a.maxFragmentsPerMessage ∧ FAInv a' := by
  induction gs generalizing a r with
  | nil =>
    have := hp.length_eq; simp at this; omega
  | cons f gs ih =>
    obtain ⟨a1, o, e1, c1⟩ := insert_cases ha f (hl f (by simp))
    have ha1 := c1.inv ha
    have hI1 := hstep a f gs a1 o ha hI c1
    have hm1 : a1.maxIncompleteMessages = a.maxIncompleteMessages ∧
        a1.maxIncompleteFragments = a.maxIncompleteFragments ∧
        a1.maxFragmentsPerMessage = a.maxFragmentsPerMessage := by
      cases c1 <;> simp [evictRaw, storeRaw] <;> split <;> simp
    have hl1 : ∀ g ∈ gs, g.length = 2048 := fun g hg => hl g (by simp [hg])
    by_cases hid : f.take 16 = id
    · -- a fragment of our message
      have hp' : ((f :: r) ++ gs.filter (fun g => g.take 16 = id)).Perm fs := by
        refine List.Perm.trans ?_ hp
        simp only [List.filter_cons, hid, decide_true, if_true]
        exact List.perm_middle.symm
      have hf : f ∈ fs := hp'.mem_iff.1 (by simp)
      have hnd := hp'.nodup_iff.2 hw.nodup
      have hnd' := (List.nodup_append.1 hnd).1
      have hfr : f ∉ r := (List.nodup_cons.1 hnd').1
      have hrn : r.Nodup := (List.nodup_cons.1 hnd').2
      have hrs : ∀ x ∈ r, x ∈ fs := fun x hx => hp'.mem_iff.1 (by simp [hx])
      have hplen := hp'.length_eq
      simp only [List.length_append, List.length_cons] at hplen
      have hq : r.length + 1 < fs.length → (storeRaw a f).incomplete.length ≤ a.maxIncompleteMessages ∧
          (storeRaw a f).numIncompleteFragments ≤ a.maxIncompleteFragments := by
        intro h
        refine hquiet a f gs ha hI (fun _ hgs => ?_)
        subst hgs; simp at hplen; omega
      rcases own_step ha hw hf hfr hrs hrn hk hmax c1 hq with ⟨h1, rfl, rfl, hk'⟩ | ⟨h1, rfl, hinc, hmm⟩
      · obtain ⟨a2, os, e2, hol, hout, hnone, hrest, m1, m2, m3, hinv⟩ := ih hl1 _ ha1 (f :: r)
          (by simpa using h1) hk' (by rw [hm1.2.2]; exact hmax) hI1 hp'
        refine ⟨a2, none :: os, by simp [FragmentAssembler.insertAll, e1, e2], by simp [hol], ?_, hnone, ?_,
          by rw [m1, hm1.1], by rw [m2, hm1.2.1], by rw [m3, hm1.2.2], hinv⟩
        · have e3 : fs.length - 1 - r.length = (fs.length - 1 - (f :: r).length) + 1 := by
            simp only [List.length_cons]; omega
          have : outputsFor id (f :: gs) (none :: os) = none :: outputsFor id gs os := by
            simp [outputsFor, List.filter_cons, hid]
          rw [this, hout, e3, List.replicate_succ]; rfl
        · intro hall
          rw [hrest (fun g hg => hall g (by simp [hg]))]
          simp only [storeRaw]
          have hidf : idOf f = id := hid
          rw [hidf]
          have hkn := LinkedMap.not_mem_keys_remove a.incomplete id
          have := LinkedMap.remove_of_not_mem hkn
          simp only [LinkedMap.remove, LinkedMap.pushBack, List.filter_append] at this ⊢
          rw [this]; simp
      · -- completed: the rest has no fragment of ours
        have hnil : gs.filter (fun g => g.take 16 = id) = [] := by
          apply List.eq_nil_of_length_eq_zero; omega
        have hnone1 : a1.incomplete.get? id = none := by rw [hinc]; exact LinkedMap.get?_remove_self ..
        -- run the rest
        have hrun : ∀ gs, (∀ g ∈ gs, g.length = 2048) → gs.filter (fun g => g.take 16 = id) = [] → ∀ a1 : FragmentAssembler,
            FAInv a1 → I a1 gs → a1.incomplete.get? id = none →
            ∃ a2 os, a1.insertAll gs = .ok (a2, os) ∧ os.length = gs.length ∧ outputsFor id gs os = [] ∧
              a2.incomplete.get? id = none ∧ (gs = [] → a2 = a1) ∧
              a2.maxIncompleteMessages = a1.maxIncompleteMessages ∧
              a2.maxIncompleteFragments = a1.maxIncompleteFragments ∧
              a2.maxFragmentsPerMessage = a1.maxFragmentsPerMessage ∧ FAInv a2 := by
          intro gs
          induction gs with
          | nil => intro _ _ a1 ha1 _ hn; exact ⟨a1, [], rfl, rfl, rfl, hn, fun _ => rfl, rfl, rfl, rfl, ha1⟩
          | cons g gs ih2 =>
            intro hlg hng a1 ha1 hI1 hn
            obtain ⟨a2, o2, e2, c2⟩ := insert_cases ha1 g (hlg g (by simp))
            have hgid : ¬ g.take 16 = id := by
              intro h; simp [List.filter_cons, h] at hng
            have hng' : gs.filter (fun g => g.take 16 = id) = [] := by
              simpa [List.filter_cons, hgid] using hng
            have hq2 := hquiet a1 g gs ha1 hI1 (fun h => absurd h hgid)
            have hn2 : a2.incomplete.get? id = none := by
              rw [get?_other c2 (fun h => hgid h.symm) hq2]; exact hn
            have hm2 : a2.maxIncompleteMessages = a1.maxIncompleteMessages ∧
                a2.maxIncompleteFragments = a1.maxIncompleteFragments ∧
                a2.maxFragmentsPerMessage = a1.maxFragmentsPerMessage := by
              cases c2 <;> simp [evictRaw, storeRaw] <;> split <;> simp
            obtain ⟨a3, os, e3, l3, o3, n3, -, k1, k2, k3, i3⟩ := ih2 (fun x hx => hlg x (by simp [hx])) hng' a2
              (c2.inv ha1) (hstep a1 g gs a2 o2 ha1 hI1 c2) hn2
            refine ⟨a3, o2 :: os, by simp [FragmentAssembler.insertAll, e2, e3], by simp [l3], ?_, n3, by simp,
              by rw [k1, hm2.1], by rw [k2, hm2.2.1], by rw [k3, hm2.2.2], i3⟩
            simp only [outputsFor, List.zip_cons_cons, List.filter_cons, hgid, decide_false] at o3 ⊢
            exact o3
        obtain ⟨a2, os, e2, l2, o2, n2, g2, k1, k2, k3, i2⟩ := hrun gs hl1 hnil a1 ha1 hI1 hnone1
        refine ⟨a2, some (assemble id fs) :: os, by simp [FragmentAssembler.insertAll, e1, e2], by simp [l2], ?_, n2, ?_,
          by rw [k1, hm1.1], by rw [k2, hm1.2.1], by rw [k3, hm1.2.2], i2⟩
        · have e3 : fs.length - 1 - r.length = 0 := by omega
          have : outputsFor id (f :: gs) (some (assemble id fs) :: os) = some (assemble id fs) :: outputsFor id gs os := by
            simp [outputsFor, List.filter_cons, hid]
          rw [this, o2, e3]; rfl
        · intro hall
          have : gs = [] := by
            cases gs with
            | nil => rfl
            | cons g gs =>
              have hg : g.take 16 = id := hall g (by simp)
              simp [List.filter_cons, hg] at hnil
          rw [g2 this, hinc]
    · -- other traffic
      have hq := hquiet a f gs ha hI (fun h => absurd h hid)
      have hk1 : Knows a1 id fs r := by
        unfold Knows; rw [get?_other c1 (fun h => hid h.symm) hq]; exact hk
      have hp1 : (r ++ gs.filter (fun g => g.take 16 = id)).Perm fs := by
        simpa [List.filter_cons, hid] using hp
      obtain ⟨a2, os, e2, l2, o2, n2, g2, k1, k2, k3, i2⟩ := ih hl1 a1 ha1 r hr hk1 (by rw [hm1.2.2]; exact hmax) hI1 hp1
      refine ⟨a2, o :: os, by simp [FragmentAssembler.insertAll, e1, e2], by simp [l2], ?_, n2, ?_,
          by rw [k1, hm1.1], by rw [k2, hm1.2.1], by rw [k3, hm1.2.2], i2⟩
      · simp only [outputsFor, List.zip_cons_cons, List.filter_cons, hid, decide_false] at o2 ⊢
        exact o2
      · intro hall; exact absurd (hall f (by simp)) hid

end Mixnet
