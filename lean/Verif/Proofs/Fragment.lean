import Verif.Spec.Fragment
import Verif.Proofs.Scattered
import Verif.Proofs.Consts
import Verif.Proofs.LinkedMap
/-! Helper lemmas about fragments and the assembler. -/
namespace Mixnet
open Spec

theorem getD_slice {α} (l : List α) (off n i : Nat) (d : α) (h : i < n) :
    (slice l off n).getD i d = l.getD (off + i) d := by
  simp [slice, List.getD_eq_getElem?_getD, List.getElem?_take, h]

theorem fromLe16_slice (f : Bytes) (off : Nat) : fromLe16 (slice f off 2) = u16At f off := by
  simp only [fromLe16, u16At]
  rw [getD_slice _ _ _ _ _ (by omega), getD_slice _ _ _ _ _ (by omega)]; rfl

theorem messageId_eq (f : Fragment) : messageId f = idOf f := by simp [messageId, idOf, slice]
theorem numFragments_eq (f : Fragment) : numFragments f = countOf f := by
  simp only [numFragments, countOf]; csimp; rw [fromLe16_slice]
theorem fragmentIndex_eq (f : Fragment) : fragmentIndex f = indexOf f := by
  simp only [fragmentIndex, indexOf]; csimp; rw [fromLe16_slice]
theorem fragmentDataSize_eq (f : Fragment) : fragmentDataSize f = dataSizeOf f := by
  simp only [fragmentDataSize, dataSizeOf]; csimp; rw [fromLe16_slice]
theorem fragmentNumSurbs_eq (f : Fragment) : fragmentNumSurbs f = surbCountOf f := by
  simp only [fragmentNumSurbs, surbCountOf, fromLe8]; csimp; rw [getD_slice _ _ _ _ _ (by omega)]

theorem checkFragment_ok_iff (f : Fragment) (hl : f.length = 2048) :
    checkFragment f = .ok () ↔ Valid f := by
  simp only [checkFragment, numFragments_eq, fragmentIndex_eq, fragmentDataSize_eq,
    fragmentNumSurbs_eq, Valid]
  csimp
  split
  · simp; omega
  · split
    · simp; omega
    · simp; omega

theorem fragmentOk_iff (f : Fragment) (hl : f.length = 2048) : fragmentOk f = true ↔ Valid f := by
  rw [← checkFragment_ok_iff f hl, fragmentOk]
  cases checkFragment f <;> simp

theorem checkFragment_cases (f : Fragment) (hl : f.length = 2048) :
    (checkFragment f = .ok () ∧ Valid f) ∨ ((∃ e, checkFragment f = .error e) ∧ ¬ Valid f) := by
  cases h : checkFragment f with
  | ok u => exact .inl ⟨by simp, (checkFragment_ok_iff f hl).1 h⟩
  | error e =>
    refine .inr ⟨⟨e, rfl⟩, fun hv => ?_⟩
    rw [(checkFragment_ok_iff f hl).2 hv] at h; simp at h

theorem payload_length (f : Fragment) (hl : f.length = 2048) : (fragmentPayload f).length = 2025 := by
  simp only [fragmentPayload, slice]; csimp; simp [hl]

theorem surbs_eq (f : Fragment) (hv : Valid f) :
    (rchunksExact SURB_SIZE (fragmentPayload f)).take (fragmentNumSurbs f) = surbsOf f := by
  obtain ⟨hl, -, hs⟩ := hv
  simp only [rchunksExact, payload_length f hl, fragmentNumSurbs_eq, surbsOf]
  csimp
  rw [← List.map_take, List.take_range, Nat.min_eq_left (by omega)]
  apply List.map_congr_left
  intro j hj
  simp at hj
  simp only [slice, fragmentPayload]; csimp
  rw [List.drop_take, List.drop_drop, List.take_take]
  have e1 : min 222 (2025 - (2025 - (j + 1) * 222)) = 222 := by omega
  have e2 : 23 + (2025 - (j + 1) * 222) = 2048 - 222 * (j + 1) := by omega
  rw [e1, e2]

theorem data_eq (f : Fragment) (hv : Valid f) :
    slicePrefix "payload[..fragment_data_size]" (fragmentPayload f) (fragmentDataSize f) = .ok (dataOf f) := by
  obtain ⟨hl, -, hs⟩ := hv
  simp only [slicePrefix, payload_length f hl, fragmentDataSize_eq, dataOf]
  rw [if_pos (by omega)]
  simp only [fragmentPayload, slice]; csimp
  rw [List.take_take, Nat.min_eq_left (by omega)]

theorem fromFragmentsLoop_eq (fs : List Fragment) (h : ∀ f ∈ fs, Valid f) (d : Bytes) (s : List Surb) :
    fromFragmentsLoop fs d s = .ok (d ++ (fs.map dataOf).flatten, s ++ (fs.map surbsOf).flatten) := by
  induction fs generalizing d s with
  | nil => simp [fromFragmentsLoop]
  | cons f fs ih =>
    have hv := h f (by simp)
    have := (fragmentOk_iff f hv.1).2 hv
    simp [fromFragmentsLoop, assertP, this, data_eq f hv, surbs_eq f hv,
      ih (fun f hf => h f (by simp [hf]))]

theorem fromFragments_eq (fs : List Fragment) (id : Bytes) (h : IsWhole id fs) :
    fromFragments fs = .ok (assemble id fs) := by
  obtain ⟨hne, h⟩ := h
  have hv : ∀ f ∈ fs, Valid f := by
    intro f hf
    obtain ⟨i, hi, rfl⟩ := List.getElem_of_mem hf
    exact (h i hi).1
  cases fs with
  | nil => exact absurd rfl hne
  | cons f fs =>
    have h0 : idOf f = id := (h 0 (by simp)).2.1
    simp [fromFragments, fromFragmentsLoop_eq _ hv, assemble, messageId_eq, h0]

theorem expectAll_map_some (fs : List Fragment) : IncompleteMessage.expectAll (fs.map some) = .ok fs := by
  induction fs with
  | nil => rfl
  | cons f fs ih => simp [IncompleteMessage.expectAll, ih]

/-! ### Counting received slots -/

theorem filterMap_id_length_le {α} (l : List (Option α)) : (l.filterMap id).length ≤ l.length :=
  List.length_filterMap_le ..

theorem eq_map_some_of_length {α} (l : List (Option α)) (h : (l.filterMap id).length = l.length) :
    l = (l.filterMap id).map some := by
  induction l with
  | nil => rfl
  | cons o l ih =>
    cases o with
    | none => have := filterMap_id_length_le l; simp at h; simp at this; omega
    | some a => simp at h ih ⊢; exact ih h

theorem filterMap_set_perm {α} (l : List (Option α)) (i : Nat) (a : α) (h : l[i]? = some none) :
    ((l.set i (some a)).filterMap id).Perm (a :: l.filterMap id) := by
  induction l generalizing i with
  | nil => simp at h
  | cons o l ih =>
    cases i with
    | zero => simp at h; subst h; simp
    | succ i =>
      simp at h
      cases o with
      | none => simpa using ih i h
      | some b => 
        simp only [List.set_cons_succ, List.filterMap_cons, id_eq]
        exact ((ih i h).cons b).trans (List.Perm.swap ..)

/-- Invariant of one partly received message. -/
structure IMInv (k : MessageId) (m : IncompleteMessage) : Prop where
  cnt : m.numReceived = (m.fragments.filterMap id).length
  pos : 0 < m.numReceived
  lt : m.numReceived < m.fragments.length
  slots : ∀ (i : Nat) f, m.fragments[i]? = some (some f) →
    Valid f ∧ idOf f = k ∧ countOf f = m.fragments.length ∧ indexOf f = i

/-- Invariant of the receiver. -/
structure FAInv (a : FragmentAssembler) : Prop where
  nodup : (LinkedMap.keys a.incomplete).Nodup
  entries : ∀ e ∈ a.incomplete, IMInv e.1 e.2
  count : a.numIncompleteFragments = (storedFragments a).length
  msgs : a.incomplete.length ≤ a.maxIncompleteMessages
  frags : a.numIncompleteFragments ≤ a.maxIncompleteFragments
  capped : ∀ e ∈ a.incomplete, e.2.fragments.length ≤ a.maxFragmentsPerMessage

/-- The slots before a fragment of message `id` of `n` fragments arrives. -/
def slotsBefore (a : FragmentAssembler) (id : Bytes) (n : Nat) : List (Option Fragment) :=
  match a.incomplete.get? id with
  | some im => im.fragments
  | none => List.replicate n none

/-- The state after storing, before eviction. -/
def storeRaw (a : FragmentAssembler) (f : Fragment) : FragmentAssembler :=
  let s := slotsBefore a (idOf f) (countOf f)
  { a with
    incomplete := (a.incomplete.remove (idOf f)).pushBack (idOf f)
      ⟨s.set (indexOf f) (some f), (s.filterMap id).length + 1⟩
    numIncompleteFragments := a.numIncompleteFragments + 1 }

/-- Eviction: drop the front message if over a limit. -/
def evictRaw (a : FragmentAssembler) : FragmentAssembler :=
  if a.incomplete.length > a.maxIncompleteMessages ∨ a.numIncompleteFragments > a.maxIncompleteFragments then
    { a with
      incomplete := a.incomplete.drop 1
      numIncompleteFragments := a.numIncompleteFragments - ((a.incomplete.head?.map (·.2.numReceived)).getD 0) }
  else a

/-- What `insert` does, by cases. -/
inductive InsertCase (a : FragmentAssembler) (f : Fragment) :
    FragmentAssembler → Option GenericMessage → Prop
  | invalid : ¬ Valid f → InsertCase a f a none
  | tooMany : Valid f → a.maxFragmentsPerMessage < countOf f → InsertCase a f a none
  | single : Valid f → countOf f ≤ a.maxFragmentsPerMessage → countOf f = 1 → IsWhole (idOf f) [f] →
      InsertCase a f a (some (assemble (idOf f) [f]))
  | inconsistent im : Valid f → countOf f ≤ a.maxFragmentsPerMessage → countOf f ≠ 1 →
      a.incomplete.get? (idOf f) = some im → im.fragments.length ≠ countOf f → InsertCase a f a none
  | duplicate im f' : Valid f → countOf f ≤ a.maxFragmentsPerMessage → countOf f ≠ 1 →
      a.incomplete.get? (idOf f) = some im → im.fragments.length = countOf f →
      im.fragments[indexOf f]? = some (some f') → InsertCase a f a none
  | completes im fs : Valid f → countOf f ≤ a.maxFragmentsPerMessage → countOf f ≠ 1 →
      a.incomplete.get? (idOf f) = some im → im.fragments.length = countOf f →
      im.fragments[indexOf f]? = some none →
      im.fragments.set (indexOf f) (some f) = fs.map some → IsWhole (idOf f) fs →
      im.numReceived + 1 = countOf f →
      InsertCase a f { a with
        incomplete := a.incomplete.remove (idOf f)
        numIncompleteFragments := a.numIncompleteFragments - im.numReceived }
        (some (assemble (idOf f) fs))
  | stored : Valid f → countOf f ≤ a.maxFragmentsPerMessage → countOf f ≠ 1 →
      (slotsBefore a (idOf f) (countOf f)).length = countOf f →
      (slotsBefore a (idOf f) (countOf f))[indexOf f]? = some none →
      ((slotsBefore a (idOf f) (countOf f)).filterMap id).length + 1 < countOf f →
      InsertCase a f (evictRaw (storeRaw a f)) none

theorem storedFragments_split {a : FragmentAssembler} (hn : (LinkedMap.keys a.incomplete).Nodup)
    {k im} (h : a.incomplete.get? k = some im) :
    (storedFragments a).Perm (im.fragments.filterMap id ++
      ((a.incomplete.remove k).map fun e => e.2.fragments.filterMap id).flatten) := by
  obtain ⟨l, r, e1, e2, -, -⟩ := LinkedMap.split_of_get? hn h
  rw [e2, storedFragments, e1]
  simp only [List.map_append, List.flatten_append, List.map_cons, List.flatten_cons]
  rw [← List.append_assoc, ← List.append_assoc]
  exact List.Perm.append_right _ List.perm_append_comm

theorem storeRaw_slots_inv {a : FragmentAssembler} (ha : FAInv a) {f : Fragment} (hv : Valid f)
    (h1 : (slotsBefore a (idOf f) (countOf f)).length = countOf f)
    (h2 : (slotsBefore a (idOf f) (countOf f))[indexOf f]? = some none) :
    ∀ (i : Nat) g, ((slotsBefore a (idOf f) (countOf f)).set (indexOf f) (some f))[i]? = some (some g) →
    Valid g ∧ idOf g = idOf f ∧ countOf g = countOf f ∧ indexOf g = i := by
  intro i g hg
  rw [List.getElem?_set] at hg
  split at hg
  · split at hg
    · simp at hg; subst hg; rename_i e _; exact ⟨hv, rfl, rfl, e⟩
    · simp at hg
  · unfold slotsBefore at hg h1
    split at hg
    · rename_i im him
      rw [him] at h1
      have := (ha.entries _ (LinkedMap.get?_some_mem him)).slots i g hg
      simp only at h1
      rw [h1] at this
      exact this
    · simp [List.getElem?_replicate] at hg

theorem storeRaw_stored {a : FragmentAssembler} (ha : FAInv a) {f : Fragment}
    (h2 : (slotsBefore a (idOf f) (countOf f))[indexOf f]? = some none) :
    (storedFragments (storeRaw a f)).Perm (f :: storedFragments a) := by
  have hs := filterMap_set_perm _ _ f h2
  simp only [storedFragments, storeRaw, LinkedMap.pushBack, List.map_append, List.flatten_append,
    List.map_cons, List.map_nil, List.flatten_cons, List.flatten_nil, List.append_nil]
  refine (List.Perm.append_left _ hs).trans ?_
  refine List.perm_middle.trans (List.Perm.cons _ ?_)
  unfold slotsBefore
  cases him : a.incomplete.get? (idOf f) with
  | some im => exact List.perm_append_comm.trans (storedFragments_split ha.nodup him).symm
  | none =>
    rw [LinkedMap.remove_of_not_mem (LinkedMap.get?_eq_none.1 him)]
    have : (List.replicate (countOf f) (none : Option Fragment)).filterMap id = [] := by
      simp [List.filterMap_replicate]
    simp only [this, List.append_nil]
    exact List.Perm.refl _

theorem maybeEvict_eq {a : FragmentAssembler}
    (he : ∀ e ∈ a.incomplete, e.2.numReceived = (e.2.fragments.filterMap id).length ∧ 0 < e.2.numReceived)
    (hc : a.numIncompleteFragments = (storedFragments a).length)
    (h1 : a.incomplete.length ≤ a.maxIncompleteMessages + 1)
    (h2 : a.numIncompleteFragments ≤ a.maxIncompleteFragments + 1) :
    a.maybeEvict = .ok (evictRaw a) := by
  unfold FragmentAssembler.maybeEvict evictRaw FragmentAssembler.needEviction
  by_cases hn : a.incomplete.length > a.maxIncompleteMessages ∨
      a.numIncompleteFragments > a.maxIncompleteFragments
  · have hb : (decide (a.incomplete.length > a.maxIncompleteMessages) ||
      decide (a.numIncompleteFragments > a.maxIncompleteFragments)) = true := by simpa using hn
    rw [if_pos hb, if_pos hn]
    cases hi : a.incomplete with
    | nil =>
      simp [storedFragments, hi] at hc
      simp [hi, hc] at hn
    | cons e rest =>
      obtain ⟨k, m⟩ := e
      have hm := he (k, m) (by simp [hi])
      simp only at hm
      have hle : m.numReceived ≤ a.numIncompleteFragments := by
        rw [hc, hm.1]; simp [storedFragments, hi]
      have g1 : a.maxIncompleteMessages ≥ rest.length := by simp [hi] at h1; omega
      have g2 : a.maxIncompleteFragments ≥ a.numIncompleteFragments - m.numReceived := by omega
      have g2' : a.numIncompleteFragments ≤ a.maxIncompleteFragments + m.numReceived := by omega
      simp [LinkedMap.popFront, assertP, hle, g1, g2']
  · have hb : ¬ (decide (a.incomplete.length > a.maxIncompleteMessages) ||
      decide (a.numIncompleteFragments > a.maxIncompleteFragments)) = true := by simpa using hn
    rw [if_neg hb, if_neg hn]

theorem storeRaw_pre {a : FragmentAssembler} (ha : FAInv a) {f : Fragment} (hv : Valid f)
    (h1 : (slotsBefore a (idOf f) (countOf f)).length = countOf f)
    (h2 : (slotsBefore a (idOf f) (countOf f))[indexOf f]? = some none)
    (h3 : ((slotsBefore a (idOf f) (countOf f)).filterMap id).length + 1 < countOf f) :
    (LinkedMap.keys (storeRaw a f).incomplete).Nodup ∧
    (∀ e ∈ (storeRaw a f).incomplete, IMInv e.1 e.2) ∧
    (storeRaw a f).numIncompleteFragments = (storedFragments (storeRaw a f)).length ∧
    (storeRaw a f).incomplete.length ≤ (storeRaw a f).maxIncompleteMessages + 1 ∧
    (storeRaw a f).numIncompleteFragments ≤ (storeRaw a f).maxIncompleteFragments + 1 := by
  refine ⟨?_, ?_, ?_, ?_, ?_⟩
  · exact LinkedMap.nodup_pushBack (LinkedMap.nodup_remove ha.nodup _) (LinkedMap.not_mem_keys_remove _ _)
  · intro e he
    simp only [storeRaw, LinkedMap.pushBack, List.mem_append, List.mem_singleton] at he
    rcases he with he | rfl
    · exact ha.entries e (List.mem_of_mem_filter he)
    · refine ⟨?_, by simp, by simpa [h1] using h3, ?_⟩
      · simpa using (filterMap_set_perm _ _ f h2).length_eq.symm
      · simpa [h1] using storeRaw_slots_inv ha hv h1 h2
  · rw [(storeRaw_stored ha h2).length_eq]; simp [storeRaw, ha.count]
  · have := ha.msgs
    have h' : (a.incomplete.remove (idOf f)).length ≤ a.incomplete.length := by
      simp only [LinkedMap.remove]; exact List.length_filter_le ..
    simp only [storeRaw, LinkedMap.pushBack, List.length_append, List.length_singleton]; omega
  · have := ha.frags
    simp only [storeRaw]; omega

theorem insert_cases {a : FragmentAssembler} (ha : FAInv a) (f : Fragment) (hl : f.length = 2048) :
    ∃ a' o, a.insert f = .ok (a', o) ∧ InsertCase a f a' o := by
  unfold FragmentAssembler.insert
  rcases checkFragment_cases f hl with ⟨hc, hv⟩ | ⟨⟨e, hc⟩, hv⟩
  swap
  · rw [hc]; exact ⟨a, none, rfl, .invalid hv⟩
  rw [hc]
  have hok := (fragmentOk_iff f hl).2 hv
  have hcpos : 1 ≤ countOf f := by simp [countOf]
  simp only [numFragments_eq, messageId_eq]
  by_cases hmax : countOf f > a.maxFragmentsPerMessage
  · exact ⟨a, none, by simp [hmax], .tooMany hv hmax⟩
  rw [if_neg hmax]
  have hmax' : countOf f ≤ a.maxFragmentsPerMessage := by omega
  by_cases h1 : countOf f = 1
  · have hw : IsWhole (idOf f) [f] := by
      refine ⟨by simp, fun i hi => ?_⟩
      simp at hi; subst hi
      have := hv.2.1
      simp [hv, h1]; omega
    exact ⟨a, _, by simp [h1, fromFragments_eq _ _ hw], .single hv hmax' h1 hw⟩
  rw [if_neg h1]
  cases him : a.incomplete.get? (idOf f) with
  | some im =>
    have hinv := ha.entries _ (LinkedMap.get?_some_mem him)
    simp only
    unfold IncompleteMessage.insert
    simp only [assertP, hok, if_true, res_bind_ok, numFragments_eq, fragmentIndex_eq]
    by_cases hlen : countOf f ≠ im.fragments.length
    · exact ⟨a, none, by simp [hlen], .inconsistent im hv hmax' h1 him (Ne.symm hlen)⟩
    rw [if_neg hlen]
    have hlen' : im.fragments.length = countOf f := by omega
    have hidx : indexOf f < im.fragments.length := by have := hv.2.1; omega
    have hslot : im.fragments[indexOf f]? = some im.fragments[indexOf f] := by simp [hidx]
    cases hs : im.fragments[indexOf f] with
    | some f' =>
      rw [hs] at hslot
      exact ⟨a, none, by simp [hslot], .duplicate im f' hv hmax' h1 him hlen' hslot⟩
    | none =>
      rw [hs] at hslot
      rw [hslot]
      have hsb : slotsBefore a (idOf f) (countOf f) = im.fragments := by simp [slotsBefore, him]
      have hcnt : im.numReceived = (im.fragments.filterMap id).length := hinv.cnt
      have hlt : im.numReceived < im.fragments.length := hinv.lt
      simp only [List.length_set]
      rw [if_pos (by simp; omega)]
      simp only [res_bind_ok, IncompleteMessage.completeFragments, List.length_set]
      by_cases hcomp : im.numReceived + 1 = im.fragments.length
      · have hperm := filterMap_set_perm _ _ f hslot
        have hall := eq_map_some_of_length (im.fragments.set (indexOf f) (some f)) (by
          rw [hperm.length_eq, List.length_cons, ← hcnt, hcomp, List.length_set])
        generalize hfs : (im.fragments.set (indexOf f) (some f)).filterMap id = fs at *
        have hslots := storeRaw_slots_inv ha hv (by rw [hsb]; exact hlen') (by rw [hsb]; exact hslot)
        rw [hsb] at hslots
        have hfl : fs.length = countOf f := by
          have := congrArg List.length hall; simp at this; omega
        have hw : IsWhole (idOf f) fs := by
          refine ⟨fun h => by simp [h] at hfl; omega, fun i hi => ?_⟩
          have := hslots i fs[i] (by rw [hall]; simp [hi])
          rw [hfl]; exact this
        have hpos : im.numReceived ≤ a.numIncompleteFragments := by
          rw [ha.count, hcnt, (storedFragments_split ha.nodup him).length_eq]; simp
        have e3 : a.numIncompleteFragments + 1 - (im.numReceived + 1) = a.numIncompleteFragments - im.numReceived := by omega
        refine ⟨_, _, ?_, .completes im fs hv hmax' h1 him hlen' hslot hall hw (by omega)⟩
        rw [if_pos hcomp, hall, expectAll_map_some]
        simp [fromFragments_eq _ _ hw, hpos]
      · rw [if_neg hcomp]
        have g1 : (slotsBefore a (idOf f) (countOf f)).length = countOf f := by rw [hsb]; exact hlen'
        have g2 : (slotsBefore a (idOf f) (countOf f))[indexOf f]? = some none := by rw [hsb]; exact hslot
        have g3 : ((slotsBefore a (idOf f) (countOf f)).filterMap id).length + 1 < countOf f := by
          rw [hsb, ← hcnt]; omega
        have hp := storeRaw_pre ha hv g1 g2 g3
        have he := maybeEvict_eq (a := storeRaw a f) (fun e he => ⟨(hp.2.1 e he).cnt, (hp.2.1 e he).pos⟩)
          hp.2.2.1 hp.2.2.2.1 hp.2.2.2.2
        refine ⟨_, _, ?_, .stored hv hmax' h1 g1 g2 g3⟩
        simp only [storeRaw, hsb, ← hcnt] at he
        simp only [res_bind_ok, LinkedMap.setToBack, storeRaw, hsb, ← hcnt, he]
  | none =>
    simp only
    have hsb : slotsBefore a (idOf f) (countOf f) = List.replicate (countOf f) none := by
      simp [slotsBefore, him]
    have hidx : indexOf f < countOf f := hv.2.1
    have hfm : (List.replicate (countOf f) (none : Option Fragment)).filterMap id = [] := by
      simp [List.filterMap_replicate]
    have g1 : (slotsBefore a (idOf f) (countOf f)).length = countOf f := by rw [hsb]; simp
    have g2 : (slotsBefore a (idOf f) (countOf f))[indexOf f]? = some none := by
      rw [hsb]; simp [List.getElem?_replicate, hidx]
    have g3 : ((slotsBefore a (idOf f) (countOf f)).filterMap id).length + 1 < countOf f := by
      rw [hsb, hfm]; simp; omega
    have hp := storeRaw_pre ha hv g1 g2 g3
    have he := maybeEvict_eq (a := storeRaw a f) (fun e he => ⟨(hp.2.1 e he).cnt, (hp.2.1 e he).pos⟩)
      hp.2.2.1 hp.2.2.2.1 hp.2.2.2.2
    refine ⟨_, _, ?_, .stored hv hmax' h1 g1 g2 g3⟩
    have hrm := LinkedMap.remove_of_not_mem (LinkedMap.get?_eq_none.1 him)
    simp only [storeRaw, hsb, hfm, List.length_nil, hrm] at he ⊢
    simp only [IncompleteMessage.insert, assertP, hok, if_true, res_bind_ok, numFragments_eq,
      fragmentIndex_eq, IncompleteMessage.new, List.length_replicate, ne_eq, not_true_eq_false, if_false,
      List.getElem?_replicate, hidx, List.length_set]
    rw [if_pos (by simp; omega)]
    simp only [res_bind_ok, he]

theorem evictRaw_inv {a : FragmentAssembler}
    (hn : (LinkedMap.keys a.incomplete).Nodup) (he : ∀ e ∈ a.incomplete, IMInv e.1 e.2)
    (hc : a.numIncompleteFragments = (storedFragments a).length)
    (h1 : a.incomplete.length ≤ a.maxIncompleteMessages + 1)
    (h2 : a.numIncompleteFragments ≤ a.maxIncompleteFragments + 1)
    (h3 : ∀ e ∈ a.incomplete, e.2.fragments.length ≤ a.maxFragmentsPerMessage) : FAInv (evictRaw a) := by
  unfold evictRaw
  split
  · rename_i hov
    cases hi : a.incomplete with
    | nil =>
      simp [storedFragments, hi] at hc
      simp [hi, hc] at hov
    | cons e rest =>
      have hm := he e (by simp [hi])
      refine ⟨?_, ?_, ?_, ?_, ?_, fun e' he' => h3 e' (by simp at he'; simp [hi, he'])⟩
      · rw [hi] at hn; simp [LinkedMap.keys] at hn ⊢; exact hn.2
      · intro e' he'; exact he e' (by simp at he'; simp [hi, he'])
      · simp [storedFragments, hi] at hc ⊢
        rw [hc, hm.cnt]; simp
      · simp [hi] at h1 ⊢; omega
      · have := hm.pos; simp; omega
  · rename_i hov
    exact ⟨hn, he, hc, by omega, by omega, h3⟩

theorem InsertCase.inv {a a' : FragmentAssembler} {f o} (ha : FAInv a) (h : InsertCase a f a' o) :
    FAInv a' := by
  cases h with
  | invalid => exact ha
  | tooMany => exact ha
  | single => exact ha
  | inconsistent => exact ha
  | duplicate => exact ha
  | completes im fs hv h1 h2 him h4 h5 h6 h7 h8 =>
    have hinv := ha.entries _ (LinkedMap.get?_some_mem him)
    refine ⟨LinkedMap.nodup_remove ha.nodup _, fun e he => ha.entries e (List.mem_of_mem_filter he), ?_, ?_, ?_,
      fun e he => ha.capped e (List.mem_of_mem_filter he)⟩
    · have := (storedFragments_split ha.nodup him).length_eq
      have hcnt : im.numReceived = (im.fragments.filterMap id).length := hinv.cnt
      simp only [ha.count, this, hcnt, List.length_append, Nat.add_sub_cancel_left]; rfl
    · have := ha.msgs
      have h' : (a.incomplete.remove (idOf f)).length ≤ a.incomplete.length := by
        simp only [LinkedMap.remove]; exact List.length_filter_le ..
      simp only; omega
    · have := ha.frags; simp only; omega
  | stored hv h1 h2 g1 g2 g3 =>
    have hp := storeRaw_pre ha hv g1 g2 g3
    refine evictRaw_inv hp.1 hp.2.1 hp.2.2.1 hp.2.2.2.1 hp.2.2.2.2 fun e he => ?_
    simp only [storeRaw, LinkedMap.pushBack, List.mem_append, List.mem_singleton] at he
    rcases he with he | rfl
    · exact ha.capped e (List.mem_of_mem_filter he)
    · simp only [List.length_set, g1]; exact h1

theorem faInv_new (m f p : Nat) : FAInv (FragmentAssembler.new m f p) := by
  refine ⟨?_, ?_, ?_, ?_, ?_, ?_⟩ <;> simp [FragmentAssembler.new, LinkedMap.keys, storedFragments]

theorem insert_inv {a a' : FragmentAssembler} {f o} (ha : FAInv a) (hl : f.length = 2048)
    (h : a.insert f = .ok (a', o)) : FAInv a' ∧ InsertCase a f a' o := by
  obtain ⟨b, o', e, hc⟩ := insert_cases ha f hl
  rw [h] at e; cases e
  exact ⟨hc.inv ha, hc⟩

end Mixnet
