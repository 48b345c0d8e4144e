import Verif.Proofs.Receive
import Mathlib.Data.List.Dedup
/-!
# What is stored of a message while other fragments arrive
-/
namespace Mixnet
open Spec

/-- The message `id` is stored as `im`, and the messages that got a fragment after it did are among `ids`. -/
def HeldSince (a : FragmentAssembler) (id : MessageId) (im : IncompleteMessage) (ids : List MessageId) : Prop :=
  ∃ l t, a.incomplete = l ++ (id, im) :: t ∧ ∀ e ∈ t, e.1 ∈ ids

/-- There is room for `n` fragments of a message together with `K` other messages. -/
def HasRoom (a : FragmentAssembler) (K n : Nat) : Prop :=
  K + 1 ≤ a.maxIncompleteMessages ∧ K * (a.maxFragmentsPerMessage - 1) + n ≤ a.maxIncompleteFragments

theorem HeldSince.get? {a : FragmentAssembler} {id im ids} (ha : FAInv a) (h : HeldSince a id im ids) :
    a.incomplete.get? id = some im := by
  obtain ⟨l, t, e, -⟩ := h
  exact LinkedMap.get?_of_mem ha.nodup (by rw [e]; simp)

theorem storeRaw_capped {a : FragmentAssembler} (ha : FAInv a) {f : Fragment}
    (h1 : countOf f ≤ a.maxFragmentsPerMessage)
    (g1 : (slotsBefore a (idOf f) (countOf f)).length = countOf f) :
    ∀ e ∈ (storeRaw a f).incomplete, e.2.fragments.length ≤ a.maxFragmentsPerMessage := by
  intro e he
  simp only [storeRaw, LinkedMap.pushBack, List.mem_append, List.mem_singleton] at he
  rcases he with he | rfl
  · exact ha.capped e (List.mem_of_mem_filter he)
  · simp only [List.length_set, g1]; exact h1

theorem flat_length_le {t : List (MessageId × IncompleteMessage)} {c : Nat}
    (h : ∀ e ∈ t, (e.2.fragments.filterMap id).length ≤ c) :
    ((t.map fun e => e.2.fragments.filterMap id).flatten).length ≤ t.length * c := by
  induction t with
  | nil => simp
  | cons e t ih =>
    have h1 := h e (by simp)
    have h2 := ih (fun e he => h e (by simp [he]))
    simp only [List.map_cons, List.flatten_cons, List.length_append, List.length_cons, Nat.add_mul, Nat.one_mul]
    omega

/-- A fragment of another message arrives. -/
theorem held_other {a a' : FragmentAssembler} {f o id im ids} {K : Nat} (ha : FAInv a) (hc : InsertCase a f a' o)
    (hf : idOf f ≠ id) (h : HeldSince a id im ids) (hk : (idOf f :: ids).dedup.length ≤ K)
    (hroom : HasRoom a K im.numReceived) : HeldSince a' id im (idOf f :: ids) := by
  obtain ⟨l, t, e, ht⟩ := h
  have same : HeldSince a id im (idOf f :: ids) := ⟨l, t, e, fun x hx => List.mem_cons_of_mem _ (ht x hx)⟩
  have hrem : a.incomplete.remove (idOf f) = LinkedMap.remove l (idOf f) ++ (id, im) :: LinkedMap.remove t (idOf f) := by
    rw [e]
    simp only [LinkedMap.remove, List.filter_append, List.filter_cons]
    rw [if_pos (by simpa using fun h => hf h.symm)]
  have hsub : ∀ x ∈ LinkedMap.remove t (idOf f), x.1 ∈ idOf f :: ids := fun x hx =>
    List.mem_cons_of_mem _ (ht x (List.mem_of_mem_filter hx))
  cases hc with
  | completes im' fs hv h1 h2 him h4 h5 h6 h7 h8 => exact ⟨_, _, hrem, hsub⟩
  | stored hv h1 h2 g1 g2 g3 =>
    have hp := storeRaw_pre ha hv g1 g2 g3
    have hcap := storeRaw_capped ha h1 g1
    obtain ⟨x, hx, hx1⟩ : ∃ x, (storeRaw a f).incomplete = LinkedMap.remove l (idOf f) ++ (id, im) ::
        (LinkedMap.remove t (idOf f) ++ [x]) ∧ x.1 = idOf f := by
      refine ⟨(idOf f, ⟨(slotsBefore a (idOf f) (countOf f)).set (indexOf f) (some f),
        ((slotsBefore a (idOf f) (countOf f)).filterMap _root_.id).length + 1⟩), ?_, rfl⟩
      show (a.incomplete.remove (idOf f)).pushBack _ _ = _
      rw [hrem]
      simp [LinkedMap.pushBack]
    have hsub' : ∀ y ∈ LinkedMap.remove t (idOf f) ++ [x], y.1 ∈ idOf f :: ids := by
      intro y hy
      rcases List.mem_append.1 hy with hy | hy
      · exact hsub y hy
      · rw [List.mem_singleton.1 hy, hx1]; exact List.mem_cons_self
    generalize LinkedMap.remove t (idOf f) ++ [x] = t' at hx hsub'
    generalize LinkedMap.remove l (idOf f) = l' at hx
    unfold evictRaw
    by_cases hov : (storeRaw a f).incomplete.length > (storeRaw a f).maxIncompleteMessages ∨
        (storeRaw a f).numIncompleteFragments > (storeRaw a f).maxIncompleteFragments
    · rw [if_pos hov]
      cases l' with
      | cons y l' => exact ⟨l', t', by rw [hx]; rfl, hsub'⟩
      | nil =>
        exfalso
        rw [List.nil_append] at hx
        have hn := hp.1
        rw [hx] at hn
        have hn' : (LinkedMap.keys t').Nodup := by
          simp only [LinkedMap.keys, List.map_cons, List.nodup_cons] at hn ⊢; exact hn.2
        have hle : t'.length ≤ K := by
          have := (List.subperm_of_subset hn' (l₂ := (idOf f :: ids).dedup) (by
            intro k hk
            obtain ⟨y, hy, rfl⟩ := List.mem_map.1 hk
            exact List.mem_dedup.2 (hsub' y hy))).length_le
          simp only [LinkedMap.keys, List.length_map] at this
          omega
        have hlen : (storeRaw a f).incomplete.length = t'.length + 1 := by rw [hx]; rfl
        have hfl : (storeRaw a f).numIncompleteFragments ≤ im.numReceived + t'.length * (a.maxFragmentsPerMessage - 1) := by
          rw [hp.2.2.1]
          unfold storedFragments
          rw [hx]
          simp only [List.map_cons, List.flatten_cons, List.length_append]
          have h3 : im.numReceived = (im.fragments.filterMap _root_.id).length := (hp.2.1 (id, im) (by rw [hx]; simp)).cnt
          have h4 := flat_length_le (t := t') (c := a.maxFragmentsPerMessage - 1) (by
            intro y hy
            have hy' : y ∈ (storeRaw a f).incomplete := by rw [hx]; simp [hy]
            have i1 := (hp.2.1 y hy').cnt
            have i2 := (hp.2.1 y hy').lt
            have i3 := hcap y hy'
            omega)
          omega
        have hmul : t'.length * (a.maxFragmentsPerMessage - 1) ≤ K * (a.maxFragmentsPerMessage - 1) :=
          Nat.mul_le_mul_right _ hle
        have e1 : (storeRaw a f).maxIncompleteMessages = a.maxIncompleteMessages := rfl
        have e2 : (storeRaw a f).maxIncompleteFragments = a.maxIncompleteFragments := rfl
        obtain ⟨r1, r2⟩ := hroom
        omega
    · rw [if_neg hov]; exact ⟨l', t', hx, hsub'⟩
  | _ => exact same

/-- A fragment that is stored makes its message the last of the list. -/
theorem held_own {a : FragmentAssembler} {f : Fragment} {im : IncompleteMessage}
    (h : (evictRaw (storeRaw a f)).incomplete.get? (idOf f) = some im) :
    HeldSince (evictRaw (storeRaw a f)) (idOf f) im [] := by
  obtain ⟨x, hx⟩ : ∃ x, (storeRaw a f).incomplete = a.incomplete.remove (idOf f) ++ [(idOf f, x)] := ⟨_, rfl⟩
  have hnk := LinkedMap.not_mem_keys_remove a.incomplete (idOf f)
  generalize a.incomplete.remove (idOf f) = l at hx hnk
  unfold evictRaw at h ⊢
  by_cases hov : (storeRaw a f).incomplete.length > (storeRaw a f).maxIncompleteMessages ∨
      (storeRaw a f).numIncompleteFragments > (storeRaw a f).maxIncompleteFragments
  · rw [if_pos hov] at h ⊢
    dsimp only at h ⊢
    cases l with
    | nil => rw [hx] at h; cases h
    | cons y l =>
      have hnk' : idOf f ∉ LinkedMap.keys l := fun h => hnk (List.mem_cons_of_mem _ h)
      have hd : (storeRaw a f).incomplete.drop 1 = LinkedMap.pushBack l (idOf f) x := by rw [hx]; rfl
      rw [hd, LinkedMap.get?_pushBack_self _ hnk'] at h
      cases h
      exact ⟨l, [], hd, by simp⟩
  · rw [if_neg hov] at h ⊢
    have hd : (storeRaw a f).incomplete = LinkedMap.pushBack l (idOf f) x := hx
    rw [hd, LinkedMap.get?_pushBack_self _ hnk] at h
    cases h
    exact ⟨l, [], hd, by simp⟩

theorem InsertCase.limits {a a' : FragmentAssembler} {f o} (c : InsertCase a f a' o) :
    a'.maxIncompleteMessages = a.maxIncompleteMessages ∧ a'.maxIncompleteFragments = a.maxIncompleteFragments ∧
      a'.maxFragmentsPerMessage = a.maxFragmentsPerMessage := by
  cases c <;> simp [evictRaw, storeRaw] <;> split <;> simp

theorem dedup_length_le {l l' : List MessageId} (h : ∀ x ∈ l, x ∈ l') : l.dedup.length ≤ l'.dedup.length :=
  (List.subperm_of_subset (List.nodup_dedup l) fun x hx => List.mem_dedup.2 (h x (List.mem_dedup.1 hx))).length_le

theorem insertAll_ok {a : FragmentAssembler} (ha : FAInv a) : ∀ {gs : List Bytes}, (∀ g ∈ gs, g.length = 2048) →
    ∃ a' outs, a.insertAll gs = .ok (a', outs) ∧ outs.length = gs.length := by
  intro gs
  induction gs generalizing a with
  | nil => exact fun _ => ⟨a, [], rfl, rfl⟩
  | cons g gs ih =>
    intro hl
    obtain ⟨a1, o, e1, c1⟩ := insert_cases ha g (hl g (by simp))
    obtain ⟨a2, os, e2, h2⟩ := ih (c1.inv ha) (fun x hx => hl x (by simp [hx]))
    exact ⟨a2, o :: os, by simp [FragmentAssembler.insertAll, e1, e2], by simp [h2]⟩

theorem knows_count {a : FragmentAssembler} {id : MessageId} {im : IncompleteMessage} {fs r : List Bytes} (ha : FAInv a)
    (hfn : fs.Nodup) (hrs : ∀ x ∈ r, x ∈ fs) (hrn : r.Nodup) (hk : Knows a id fs r)
    (hg : a.incomplete.get? id = some im) : im.numReceived = r.length := by
  unfold Knows at hk
  rw [hg] at hk
  have hinv : im.numReceived = (im.fragments.filterMap _root_.id).length := (ha.entries _ (LinkedMap.get?_some_mem hg)).cnt
  rw [hinv, hk.2, slotsOf_filterMap]
  apply List.Perm.length_eq
  rw [List.perm_ext_iff_of_nodup (hfn.filter _) hrn]
  intro x
  simp
  exact hrs x

/-- A message is reassembled from its fragments, if not too many other messages get fragments in between. -/
theorem load_run {id : Bytes} {fs : List Bytes} (hw : IsWhole id fs) {K : Nat}
    (gs : List Bytes) (hl : ∀ g ∈ gs, g.length = 2048) (a : FragmentAssembler) (ha : FAInv a) (r : List Bytes)
    (hr : r.length < fs.length) (hk : Knows a id fs r) (hmax : fs.length ≤ a.maxFragmentsPerMessage)
    (hroom : fs.length = 1 ∨ HasRoom a K (fs.length - 1))
    (hp : (r ++ gs.filter (fun g => idOf g = id)).Perm fs)
    (hgap : ∀ pre x mid y post, gs = pre ++ x :: (mid ++ y :: post) → idOf x = id → idOf y = id →
      (∀ z ∈ mid, idOf z ≠ id) → ((mid.map idOf).dedup).length ≤ K)
    (hheld : r ≠ [] → ∃ im ids, HeldSince a id im ids ∧ ∀ mid y post, gs = mid ++ y :: post → idOf y = id →
      (∀ z ∈ mid, idOf z ≠ id) → ((ids ++ mid.map idOf).dedup).length ≤ K) :
    ∃ a' outs, a.insertAll gs = .ok (a', outs) ∧ outs.length = gs.length ∧
      outputsFor id gs outs = List.replicate (fs.length - 1 - r.length) none ++ [some (assemble id fs)] := by
  induction gs generalizing a r with
  | nil =>
    have := hp.length_eq; simp at this; omega
  | cons f gs ih =>
    obtain ⟨a1, o, e1, c1⟩ := insert_cases ha f (hl f (by simp))
    have ha1 := c1.inv ha
    have hm1 := c1.limits
    have hl1 : ∀ g ∈ gs, g.length = 2048 := fun g hg => hl g (by simp [hg])
    have hroom1 : fs.length = 1 ∨ HasRoom a1 K (fs.length - 1) := by
      unfold HasRoom at hroom ⊢; rw [hm1.1, hm1.2.1, hm1.2.2]; exact hroom
    have hgap1 : ∀ pre x mid y post, gs = pre ++ x :: (mid ++ y :: post) → idOf x = id → idOf y = id →
        (∀ z ∈ mid, idOf z ≠ id) → ((mid.map idOf).dedup).length ≤ K :=
      fun pre x mid y post e => hgap (f :: pre) x mid y post (by rw [e]; rfl)
    by_cases hid : idOf f = id
    · have hp' : ((f :: r) ++ gs.filter (fun g => idOf g = id)).Perm fs := by
        refine List.Perm.trans ?_ hp
        simp only [List.filter_cons, hid, decide_true, if_true]
        exact List.perm_middle.symm
      have hf : f ∈ fs := hp'.mem_iff.1 (by simp)
      have hnd := hp'.nodup_iff.2 hw.nodup
      have hnd' := (List.nodup_append.1 hnd).1
      have hfr : f ∉ r := (List.nodup_cons.1 hnd').1
      have hrn : r.Nodup := (List.nodup_cons.1 hnd').2
      have hrs : ∀ x ∈ r, x ∈ fs := fun x hx => hp'.mem_iff.1 (by simp [hx])
      have hplen := hp'.length_eq
      simp only [List.length_append, List.length_cons] at hplen
      rcases own_step' ha hw hf hfr hrs hrn hk hmax c1 with ⟨h1, rfl, h3, h4⟩ | ⟨h1, rfl, -, -⟩
      · have hroom' : HasRoom a K (fs.length - 1) := by
          rcases hroom with h | h
          · omega
          · exact h
        have hk1 : Knows a1 id fs (f :: r) := by
          rw [h3]
          obtain ⟨q1, q2⟩ := hroom'
          exact evict_keeps ha hid hk h4 hrs hrn hw.nodup (by omega) (by
            have := Nat.zero_le (K * (a.maxFragmentsPerMessage - 1)); omega)
        obtain ⟨im, him⟩ : ∃ im, a1.incomplete.get? id = some im := by
          unfold Knows at hk1
          cases hg : a1.incomplete.get? id with
          | none => rw [hg] at hk1; cases hk1
          | some im => exact ⟨im, rfl⟩
        have hh : HeldSince a1 id im [] := by
          rw [h3, ← hid] at him ⊢
          exact held_own him
        obtain ⟨a2, os, e2, hol, hout⟩ := ih hl1 a1 ha1 (f :: r) (by simpa using h1) hk1 (by rw [hm1.2.2]; exact hmax)
          hroom1 hp' hgap1 (fun _ => ⟨im, [], hh, fun mid y post e hy hz => by
            rw [List.nil_append]; exact hgap [] f mid y post (by rw [e]; rfl) hid hy hz⟩)
        refine ⟨a2, none :: os, by simp [FragmentAssembler.insertAll, e1, e2], by simp [hol], ?_⟩
        have e3 : fs.length - 1 - r.length = (fs.length - 1 - (f :: r).length) + 1 := by
          simp only [List.length_cons]; omega
        have hid' : f.take 16 = id := hid
        have : outputsFor id (f :: gs) (none :: os) = none :: outputsFor id gs os := by
          simp [outputsFor, List.filter_cons, hid']
        rw [this, hout, e3, List.replicate_succ]; rfl
      · have hnil : gs.filter (fun g => idOf g = id) = [] := by
          apply List.eq_nil_of_length_eq_zero; omega
        obtain ⟨a2, os, e2, hol⟩ := insertAll_ok ha1 hl1
        refine ⟨a2, some (assemble id fs) :: os, by simp [FragmentAssembler.insertAll, e1, e2], by simp [hol], ?_⟩
        have e3 : fs.length - 1 - r.length = 0 := by omega
        have hid' : f.take 16 = id := hid
        have hrest : outputsFor id gs os = [] := by
          unfold outputsFor
          rw [List.map_eq_nil_iff, List.filter_eq_nil_iff]
          intro p hp hd
          rw [List.filter_eq_nil_iff] at hnil
          exact hnil p.1 (List.of_mem_zip hp).1 hd
        have : outputsFor id (f :: gs) (some (assemble id fs) :: os) = some (assemble id fs) :: outputsFor id gs os := by
          simp [outputsFor, List.filter_cons, hid']
        rw [this, hrest, e3]; rfl
    · have hp1 : (r ++ gs.filter (fun g => idOf g = id)).Perm fs := by
        simpa [List.filter_cons, hid] using hp
      have hnd' := hp1.nodup_iff.2 hw.nodup
      have hrn : r.Nodup := (List.nodup_append.1 hnd').1
      have hrs : ∀ x ∈ r, x ∈ fs := fun x hx => hp1.mem_iff.1 (by simp [hx])
      -- there is another fragment of the message to come
      have hlen := hp1.length_eq
      rw [List.length_append] at hlen
      have hstep : Knows a1 id fs r ∧ (r ≠ [] → ∃ im ids, HeldSince a1 id im ids ∧ ∀ mid y post, gs = mid ++ y :: post →
          idOf y = id → (∀ z ∈ mid, idOf z ≠ id) → ((ids ++ mid.map idOf).dedup).length ≤ K) := by
        by_cases hr0 : r = []
        · subst hr0
          refine ⟨?_, fun h => absurd rfl h⟩
          have hnone : a.incomplete.get? id = none := by
            unfold Knows at hk
            cases hg : a.incomplete.get? id with
            | none => rfl
            | some im => rw [hg] at hk; exact absurd rfl hk.1
          have hnone1 : a1.incomplete.get? id = none := by
            rw [LinkedMap.get?_eq_none] at hnone ⊢
            have hr1 : id ∉ LinkedMap.keys (a.incomplete.remove (idOf f)) := fun h => hnone
              (((LinkedMap.remove_sublist a.incomplete (idOf f)).map _).mem h)
            cases c1 with
            | completes => exact hr1
            | stored =>
              have hr2 : id ∉ LinkedMap.keys (storeRaw a f).incomplete := by
                simp only [storeRaw]
                rw [LinkedMap.keys_pushBack]
                simp only [List.mem_append, List.mem_singleton, not_or]
                exact ⟨hr1, fun h => hid h.symm⟩
              unfold evictRaw
              split
              · intro h; exact hr2 (((List.drop_sublist 1 _).map _).mem h)
              · exact hr2
            | _ => exact hnone
          unfold Knows
          rw [hnone1]
        · obtain ⟨im, ids, hh, hids⟩ := hheld hr0
          have hget := hh.get? ha
          have hcount := knows_count ha hw.nodup hrs hrn hk hget
          have hroom' : HasRoom a K im.numReceived := by
            rcases hroom with h | h
            · have := List.length_pos_iff.2 hr0; omega
            · obtain ⟨q1, q2⟩ := h
              exact ⟨q1, by omega⟩
          -- the gap up to the next fragment of the message
          obtain ⟨mid, y, post, e, hy, hz⟩ : ∃ mid y post, gs = mid ++ y :: post ∧ idOf y = id ∧ ∀ z ∈ mid, idOf z ≠ id := by
            have hne : gs.filter (fun g => idOf g = id) ≠ [] := by
              intro h; rw [h] at hlen; simp at hlen; omega
            clear hp hp1 hgap hgap1 hheld hids ih e1 hlen hl hl1 hnd'
            induction gs with
            | nil => exact absurd rfl hne
            | cons g gs ih =>
              by_cases hg : idOf g = id
              · exact ⟨[], g, gs, rfl, hg, by simp⟩
              · obtain ⟨mid, y, post, e, hy, hz⟩ := ih (by simpa [List.filter_cons, hg] using hne)
                refine ⟨g :: mid, y, post, by rw [e]; rfl, hy, fun z hz' => ?_⟩
                rcases List.mem_cons.1 hz' with rfl | h
                · exact hg
                · exact hz z h
          have hK := hids (f :: mid) y post (by rw [e]; rfl) hy (by
            intro z hz'
            rcases List.mem_cons.1 hz' with rfl | h
            · exact hid
            · exact hz z h)
          have hh1 := held_other ha c1 hid hh (Nat.le_trans (dedup_length_le (by
            intro x hx
            rcases List.mem_cons.1 hx with rfl | h
            · simp
            · simp [h])) hK) hroom'
          refine ⟨?_, fun _ => ⟨im, _, hh1, fun mid' y' post' e' hy' hz' => ?_⟩⟩
          · unfold Knows at hk ⊢
            rw [hh1.get? ha1]
            rw [hget] at hk
            exact hk
          · refine Nat.le_trans (dedup_length_le ?_) (hids (f :: mid') y' post' (by rw [e']; rfl) hy' (by
              intro z hz''
              rcases List.mem_cons.1 hz'' with rfl | h
              · exact hid
              · exact hz' z h))
            intro x hx
            simp only [List.cons_append, List.mem_cons, List.mem_append, List.map_cons] at hx ⊢
            tauto
      obtain ⟨hk1, hheld1⟩ := hstep
      obtain ⟨a2, os, e2, hol, hout⟩ := ih hl1 a1 ha1 r hr hk1 (by rw [hm1.2.2]; exact hmax) hroom1 hp1 hgap1 hheld1
      have hid' : ¬ f.take 16 = id := hid
      refine ⟨a2, o :: os, by simp [FragmentAssembler.insertAll, e1, e2], by simp [hol], ?_⟩
      simp only [outputsFor, List.zip_cons_cons, List.filter_cons, hid', decide_false] at hout ⊢
      exact hout

end Mixnet
