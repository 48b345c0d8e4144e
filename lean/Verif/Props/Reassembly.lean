import Verif.Proofs.Fragment
import Mathlib.Data.List.Forall2
import Mathlib.Data.List.Perm.Subperm
/-!
# C03, C04, C05, C06: the reassembly buffer under arbitrary traffic

A run of the receiver is `(FragmentAssembler.new m f p).insertAll fs`: any limits `m f p`, any list of
2048-byte strings `fs`.
-/
namespace Mixnet.Props
open Mixnet Spec

/-- Well-typed input: `Fragment = [u8; 2048]`. -/
def AllFragments (fs : List Bytes) : Prop := ∀ f ∈ fs, f.length = 2048

theorem run_inv {a : FragmentAssembler} (ha : FAInv a) {fs : List Bytes} (hl : AllFragments fs) :
    ∃ a' outs, a.insertAll fs = .ok (a', outs) ∧ FAInv a' ∧
      a'.maxIncompleteMessages = a.maxIncompleteMessages ∧
      a'.maxIncompleteFragments = a.maxIncompleteFragments := by
  induction fs generalizing a with
  | nil => exact ⟨a, [], rfl, ha, rfl, rfl⟩
  | cons f fs ih =>
    obtain ⟨a1, o, e1, c1⟩ := insert_cases ha f (hl f (by simp))
    obtain ⟨a2, os, e2, h2, m2, f2⟩ := ih (c1.inv ha) (fun g hg => hl g (by simp [hg]))
    have hm : a1.maxIncompleteMessages = a.maxIncompleteMessages ∧
        a1.maxIncompleteFragments = a.maxIncompleteFragments := by
      cases c1 <;> simp [evictRaw, storeRaw] <;> split <;> simp
    exact ⟨a2, o :: os, by simp [FragmentAssembler.insertAll, e1, e2], h2, by rw [m2, hm.1],
      by rw [f2, hm.2]⟩

/-- C04. No sequence of fragments, whatever their content, makes the receiver panic. -/
theorem reassembly_no_panic (maxMessages maxFragments maxPerMessage : Nat) (fs : List Bytes)
    (hl : AllFragments fs) :
    ∃ r, (FragmentAssembler.new maxMessages maxFragments maxPerMessage).insertAll fs = .ok r := by
  obtain ⟨a', outs, e, -⟩ := run_inv (faInv_new maxMessages maxFragments maxPerMessage) hl
  exact ⟨_, e⟩

/-- C03. After any sequence of fragments both limits hold, and the receiver's running count is the
number of fragments it stores. -/
theorem reassembly_bounded (maxMessages maxFragments maxPerMessage : Nat) (fs : List Bytes)
    (hl : AllFragments fs) {a outs}
    (h : (FragmentAssembler.new maxMessages maxFragments maxPerMessage).insertAll fs = .ok (a, outs)) :
    a.incomplete.length ≤ maxMessages ∧ (storedFragments a).length ≤ maxFragments ∧
      a.numIncompleteFragments = (storedFragments a).length := by
  obtain ⟨a', outs', e, hi, m2, f2⟩ := run_inv (faInv_new maxMessages maxFragments maxPerMessage) hl
  rw [h] at e; cases e
  have h1 := hi.msgs
  have h2 := hi.frags
  rw [m2] at h1; rw [f2, hi.count] at h2
  exact ⟨h1, h2, hi.count⟩

/-- C03/C04 non-vacuity: hostile bytes are admissible inputs. -/
example : AllFragments [List.replicate 2048 255, List.replicate 2048 0] := by
  intro f hf
  rcases List.mem_cons.1 hf with rfl | hf
  · exact List.length_replicate
  · rw [List.mem_singleton.1 hf]; exact List.length_replicate

/-! ### C05 -/

/-- The fragments an `insert` uses up and keeps are among those it had and the new one. -/
theorem insert_accounting {a a' : FragmentAssembler} {f o} (ha : FAInv a) (hc : InsertCase a f a' o) :
    match o with
    | none => (storedFragments a').Subperm (f :: storedFragments a)
    | some m => ∃ g, IsWhole m.id g ∧ m = assemble m.id g ∧ f ∈ g ∧
        (g ++ storedFragments a').Subperm (f :: storedFragments a) := by
  have hself : (storedFragments a).Subperm (f :: storedFragments a) :=
    (List.sublist_cons_self ..).subperm
  cases hc with
  | invalid => exact hself
  | tooMany => exact hself
  | inconsistent => exact hself
  | duplicate => exact hself
  | single hv h1 h2 hw => exact ⟨[f], hw, rfl, by simp, List.Subperm.refl _⟩
  | completes im fs hv h1 h2 him h4 h5 h6 h7 h8 =>
    have hp := filterMap_set_perm _ _ f h5
    rw [h6] at hp
    have hfs : (fs.map some).filterMap id = fs := by simp [List.filterMap_map]
    rw [hfs] at hp
    refine ⟨fs, h7, rfl, hp.symm.mem_iff.1 (by simp), List.Perm.subperm ?_⟩
    refine (List.Perm.append_right _ hp).trans ?_
    exact (storedFragments_split ha.nodup him).symm.cons f
  | stored hv h1 h2 g1 g2 g3 =>
    refine List.Subperm.trans (List.Sublist.subperm ?_) (storeRaw_stored ha g2).subperm
    unfold evictRaw
    split
    · simp only [storedFragments, List.map_drop]
      cases (storeRaw a f).incomplete with
      | nil => simp
      | cons e r => simp
    · exact List.Sublist.refl _

/-- C05. The messages handed out during a run are each made of a complete set of fragments (one for
each position, all well-formed, all with the message's id and count), assembled in position order; and
the fragments of all messages handed out together with those still stored were all received, none
used twice. -/
theorem reassembly_provenance (maxMessages maxFragments maxPerMessage : Nat) (fs : List Bytes)
    (hl : AllFragments fs) {a outs}
    (h : (FragmentAssembler.new maxMessages maxFragments maxPerMessage).insertAll fs = .ok (a, outs)) :
    ∃ groups : List (List Bytes),
      List.Forall₂ (fun m g => IsWhole m.id g ∧ m = assemble m.id g) (outs.filterMap id) groups ∧
      (groups.flatten ++ storedFragments a).Subperm fs := by
  suffices H : ∀ (a0 : FragmentAssembler), FAInv a0 → ∀ fs, AllFragments fs → ∀ a outs,
      a0.insertAll fs = .ok (a, outs) → ∃ groups : List (List Bytes),
      List.Forall₂ (fun m g => IsWhole m.id g ∧ m = assemble m.id g) (outs.filterMap id) groups ∧
      (groups.flatten ++ storedFragments a).Subperm (fs ++ storedFragments a0) by
    obtain ⟨g, h1, h2⟩ := H _ (faInv_new _ _ _) fs hl a outs h
    exact ⟨g, h1, by simpa [storedFragments, FragmentAssembler.new] using h2⟩
  intro a0 ha0 fs
  induction fs generalizing a0 with
  | nil =>
    intro _ a outs h
    simp only [FragmentAssembler.insertAll, Except.ok.injEq, Prod.mk.injEq] at h
    obtain ⟨rfl, rfl⟩ := h
    exact ⟨[], by simp, List.Subperm.refl _⟩
  | cons f fs ih =>
    intro hl a outs h
    obtain ⟨a1, o, e1, c1⟩ := insert_cases ha0 f (hl f (by simp))
    obtain ⟨a2, os, e2, -⟩ := run_inv (c1.inv ha0) (fs := fs) (fun g hg => hl g (by simp [hg]))
    simp [FragmentAssembler.insertAll, e1, e2] at h
    obtain ⟨rfl, rfl⟩ := h
    obtain ⟨gs, hg, hs⟩ := ih a1 (c1.inv ha0) (fun g hg => hl g (by simp [hg])) _ _ e2
    have hacc := insert_accounting ha0 c1
    cases o with
    | none =>
      refine ⟨gs, by simpa using hg, hs.trans ?_⟩
      refine ((List.subperm_append_left fs).2 hacc).trans ?_
      exact List.perm_middle.subperm
    | some m =>
      obtain ⟨g, w, e, -, sp⟩ := hacc
      refine ⟨g :: gs, by simpa using ⟨⟨w, e⟩, hg⟩, ?_⟩
      rw [List.flatten_cons, List.append_assoc]
      refine ((List.subperm_append_left g).2 hs).trans ?_
      have : (g ++ (fs ++ storedFragments a1)).Perm (fs ++ (g ++ storedFragments a1)) := by
        rw [← List.append_assoc, ← List.append_assoc]
        exact List.Perm.append_right _ List.perm_append_comm
      refine this.subperm.trans (((List.subperm_append_left fs).2 sp).trans ?_)
      exact List.perm_middle.subperm

/-- C05 (one step): a message is handed out only on receipt of one of its own fragments, the others
being stored already; those stored are given up. -/
theorem reassembly_completes_with (maxMessages maxFragments maxPerMessage : Nat) (fs : List Bytes)
    (hl : AllFragments fs) {a outs}
    (h : (FragmentAssembler.new maxMessages maxFragments maxPerMessage).insertAll fs = .ok (a, outs))
    (f : Bytes) (hf : f.length = 2048) {a' m} (hi : a.insert f = .ok (a', some m)) :
    ∃ g, IsWhole m.id g ∧ m = assemble m.id g ∧ f ∈ g ∧
      (g ++ storedFragments a').Subperm (f :: storedFragments a) := by
  obtain ⟨b, outs', e, hb, -⟩ := run_inv (faInv_new maxMessages maxFragments maxPerMessage) hl
  rw [h] at e; cases e
  exact insert_accounting hb (insert_inv hb hf hi).2

/-! ### C06 -/

/-- The states a receiver can be in. -/
def ReachableReceiver (a : FragmentAssembler) : Prop :=
  ∃ maxMessages maxFragments maxPerMessage fs outs, AllFragments fs ∧
    (FragmentAssembler.new maxMessages maxFragments maxPerMessage).insertAll fs = .ok (a, outs)

theorem ReachableReceiver.inv {a} (h : ReachableReceiver a) : FAInv a := by
  obtain ⟨m, f, p, fs, outs, hl, h⟩ := h
  obtain ⟨b, outs', e, hb, -⟩ := run_inv (faInv_new m f p) hl
  rw [h] at e; cases e; exact hb

/-- Specification of rejection: the fragment is malformed, belongs to a message with too many
fragments, has another fragment count than the partly received message with its id, or its place in
that message is taken. -/
def Unacceptable (a : FragmentAssembler) (f : Bytes) : Prop :=
  ¬ Valid f ∨ a.maxFragmentsPerMessage < countOf f ∨
    (countOf f ≠ 1 ∧ ∃ m, a.incomplete.get? (idOf f) = some m ∧
      (m.fragments.length ≠ countOf f ∨ ∃ g, m.fragments[indexOf f]? = some (some g)))

/-- C06 (rejection). A malformed fragment, one of a message with too many fragments, one whose
fragment count differs from that of the partly received message with its id, or one already there
changes nothing and yields nothing. -/
theorem reassembly_rejects (a : FragmentAssembler) (f : Bytes) (hf : f.length = 2048)
    (hr : ReachableReceiver a)
    (h : Unacceptable a f) : a.insert f = .ok (a, none) := by
  have hreach := hr.inv
  obtain ⟨a', o, e, c⟩ := insert_cases hreach f hf
  rw [e]
  cases c with
  | invalid => rfl
  | tooMany => rfl
  | inconsistent => rfl
  | duplicate => rfl
  | single hv h1 h2 hw => 
    exfalso
    rcases h with h | h | ⟨h, -⟩
    · exact h hv
    · omega
    · exact h h2
  | completes im fs hv h1 h2 him h4 h5 h6 h7 h8 =>
    exfalso
    rcases h with h | h | ⟨h, m, hm, h'⟩
    · exact h hv
    · omega
    · rw [him] at hm; cases hm
      rcases h' with h' | ⟨g, hg⟩
      · exact h' h4
      · rw [h5] at hg; simp at hg
  | stored hv h1 h2 g1 g2 g3 =>
    exfalso
    rcases h with h | h | ⟨h, m, hm, h'⟩
    · exact h hv
    · omega
    · rw [slotsBefore, hm] at g1 g2
      rcases h' with h' | ⟨g, hg⟩
      · exact h' g1
      · simp only at g2; rw [g2] at hg; simp at hg

theorem evictRaw_incomplete (b : FragmentAssembler) : (evictRaw b).incomplete =
    if b.incomplete.length > b.maxIncompleteMessages ∨ b.numIncompleteFragments > b.maxIncompleteFragments
    then b.incomplete.drop 1 else b.incomplete := by
  unfold evictRaw; split <;> rfl

/-- C06 (acceptance). Only the fragments listed there are rejected. If any other fragment does not
complete a message, then it is put into its message, which becomes the last of the list; nothing else changes except that if (and only if) this
exceeds a limit, the first message of the list is dropped. -/
theorem reassembly_evicts_first (a : FragmentAssembler) (f : Bytes) (hf : f.length = 2048)
    (hr : ReachableReceiver a) {a'} (hi : a.insert f = .ok (a', none)) :
    (Unacceptable a f ∧ a' = a) ∨ ¬ Unacceptable a f ∧ ∃ m : IncompleteMessage,
      m.fragments[indexOf f]? = some (some f) ∧
      (∀ j, j ≠ indexOf f → m.fragments[j]? =
        match a.incomplete.get? (idOf f) with
        | some old => old.fragments[j]?
        | none => if j < countOf f then some none else none) ∧
      let l := a.incomplete.filter (fun e => e.1 ≠ idOf f) ++ [(idOf f, m)]
      let stored := (storedFragments a).length + 1
      if l.length > a.maxIncompleteMessages ∨ stored > a.maxIncompleteFragments
      then a'.incomplete = l.tail else a'.incomplete = l := by
  have hreach := hr.inv
  obtain ⟨-, c⟩ := insert_inv hreach hf hi
  generalize ho : (none : Option GenericMessage) = o at c
  cases c with
  | invalid hv => exact .inl ⟨.inl hv, rfl⟩
  | tooMany _ h => exact .inl ⟨.inr (.inl h), rfl⟩
  | inconsistent im _ _ h1 h2 h3 => exact .inl ⟨.inr (.inr ⟨h1, im, h2, .inl h3⟩), rfl⟩
  | duplicate im g _ _ h1 h2 _ h3 => exact .inl ⟨.inr (.inr ⟨h1, im, h2, .inr ⟨g, h3⟩⟩), rfl⟩
  | single => simp at ho
  | completes => simp at ho
  | stored hv h1 h2 g1 g2 g3 =>
    right
    refine ⟨?_, ⟨(slotsBefore a (idOf f) (countOf f)).set (indexOf f) (some f),
      ((slotsBefore a (idOf f) (countOf f)).filterMap id).length + 1⟩, ?_, ?_, ?_⟩
    · rintro (h | h | ⟨h, m, hm, h'⟩)
      · exact h hv
      · omega
      · rw [slotsBefore, hm] at g1 g2
        rcases h' with h' | ⟨g, hg⟩
        · exact h' g1
        · simp only at g2; rw [g2] at hg; simp at hg
    · have : indexOf f < (slotsBefore a (idOf f) (countOf f)).length := by rw [g1]; exact hv.2.1
      simp [this]
    · intro j hj
      simp only [List.getElem?_set, if_neg (Ne.symm hj)]
      unfold slotsBefore
      cases a.incomplete.get? (idOf f) with
      | some im => rfl
      | none => simp [List.getElem?_replicate]
    · have e : a.incomplete.filter (fun e => decide (e.1 ≠ idOf f)) = a.incomplete.remove (idOf f) := by
        simp only [LinkedMap.remove]
        apply List.filter_congr; intro x _; by_cases hx : x.1 = idOf f <;> simp [hx]
      simp only [e, ← hreach.count]
      by_cases hov : (a.incomplete.remove (idOf f) ++ [(idOf f, (⟨(slotsBefore a (idOf f) (countOf f)).set
          (indexOf f) (some f), ((slotsBefore a (idOf f) (countOf f)).filterMap id).length + 1⟩ :
            IncompleteMessage))]).length > a.maxIncompleteMessages ∨
          a.numIncompleteFragments + 1 > a.maxIncompleteFragments
      · rw [if_pos hov]
        rw [evictRaw_incomplete]; exact (if_pos hov).trans (List.drop_one ..)
      · rw [if_neg hov]
        rw [evictRaw_incomplete]; exact if_neg hov

/-- C06 (completion). Handing out a message takes nothing from any other message: only the entry of the
message itself goes (a message of one fragment has none). -/
theorem reassembly_completion_keeps_others (a : FragmentAssembler) (f : Bytes) (hf : f.length = 2048)
    (hr : ReachableReceiver a) {a' m} (hi : a.insert f = .ok (a', some m)) :
    m.id = idOf f ∧ a'.incomplete = if countOf f = 1 then a.incomplete
      else a.incomplete.filter (fun e => e.1 ≠ idOf f) := by
  have hreach := hr.inv
  obtain ⟨-, c⟩ := insert_inv hreach hf hi
  generalize ho : some m = o at c
  cases c with
  | invalid => simp at ho
  | tooMany => simp at ho
  | inconsistent => simp at ho
  | duplicate => simp at ho
  | stored => simp at ho
  | single _ _ h1 => cases ho; exact ⟨rfl, (if_pos h1).symm⟩
  | completes im fs _ _ h1 =>
    cases ho
    refine ⟨rfl, ?_⟩
    rw [if_neg h1]
    simp only [LinkedMap.remove]
    apply List.filter_congr; intro x _; by_cases hx : x.1 = idOf f <;> simp [hx]

/-- C05 (promptness). A message whose fragments are all there is never kept back: every message a
reachable receiver holds lacks a fragment (and has at least one, each in its own place). -/
theorem reassembly_never_holds_whole (a : FragmentAssembler) (hr : ReachableReceiver a) :
    ∀ e ∈ a.incomplete, none ∈ e.2.fragments ∧ (∃ f, some f ∈ e.2.fragments) ∧
      ∀ (i : Nat) f, e.2.fragments[i]? = some (some f) →
        Valid f ∧ idOf f = e.1 ∧ countOf f = e.2.fragments.length ∧ indexOf f = i := by
  intro e he
  have hi := hr.inv.entries e he
  refine ⟨?_, ?_, hi.slots⟩
  · by_contra hn
    have : (e.2.fragments.filterMap id).length = e.2.fragments.length := by
      have : ∀ l : List (Option Fragment), none ∉ l → (l.filterMap id).length = l.length := by
        intro l; induction l with
        | nil => simp
        | cons o l ih =>
          intro h
          cases o with
          | none => simp at h
          | some x => simpa using ih (by simpa using h)
      exact this _ hn
    have h1 := hi.cnt; have h2 := hi.lt; omega
  · have h1 := hi.cnt; have h2 := hi.pos
    have : 0 < (e.2.fragments.filterMap id).length := by omega
    obtain ⟨x, hx⟩ := List.exists_mem_of_length_pos this
    rw [List.mem_filterMap] at hx
    obtain ⟨o, ho, hx⟩ := hx
    simp at hx; subst hx; exact ⟨x, ho⟩

/-- The log of a run: for each fragment its message id and whether it changed the receiver. -/
def touchLog (a : FragmentAssembler) : List Bytes → List (Bytes × Bool)
  | [] => []
  | f :: fs =>
    match a.insert f with
    | .ok (a', _) => (idOf f, decide (a' ≠ a)) :: touchLog a' fs
    | .error _ => []

/-- `p` is the time of the last fragment of message `k` that had an effect. -/
def LastTouch (log : List (Bytes × Bool)) (k : Bytes) (p : Nat) : Prop :=
  log[p]? = some (k, true) ∧ ∀ q, p < q → log[q]? ≠ some (k, true)

theorem LastTouch.snoc {log k p} (h : LastTouch log k p) {e : Bytes × Bool} (he : e ≠ (k, true)) :
    LastTouch (log ++ [e]) k p := by
  have hp : p < log.length := by
    have := h.1; rw [List.getElem?_eq_some_iff] at this; exact this.1
  refine ⟨by rw [List.getElem?_append_left hp]; exact h.1, fun q hq => ?_⟩
  by_cases hql : q < log.length
  · rw [List.getElem?_append_left hql]; exact h.2 q hq
  · rw [List.getElem?_append_right (by omega)]
    cases hq0 : q - log.length with
    | zero => simpa using he
    | succ n => simp

theorem LastTouch.last (log : List (Bytes × Bool)) (k) : LastTouch (log ++ [(k, true)]) k log.length := by
  refine ⟨by simp, fun q hq => ?_⟩
  rw [List.getElem?_append_right (by omega)]
  cases hq0 : q - log.length with
  | zero => omega
  | succ n => simp

def Recency (log : List (Bytes × Bool)) (a : FragmentAssembler) : Prop :=
  ∃ t : Bytes → Nat, (∀ e ∈ a.incomplete, LastTouch log e.1 (t e.1)) ∧
    (a.incomplete.map (·.1)).Pairwise (fun k k' => t k < t k')

theorem recency_step {log a f a' o} (ha : FAInv a) (hr : Recency log a) (c : InsertCase a f a' o) :
    Recency (log ++ [(idOf f, decide (a' ≠ a))]) a' := by
  have hsame : Recency (log ++ [(idOf f, decide (a ≠ a))]) a := by
    obtain ⟨t, h1, h2⟩ := hr
    exact ⟨t, fun e he => (h1 e he).snoc (by simp), h2⟩
  cases c with
  | invalid => exact hsame
  | tooMany => exact hsame
  | inconsistent => exact hsame
  | duplicate => exact hsame
  | single => exact hsame
  | completes im fs hv h1 h2 him h4 h5 h6 h7 h8 =>
    obtain ⟨t, h1, h2⟩ := hr
    refine ⟨t, fun e he => ?_, ?_⟩
    · have hk : e.1 ≠ idOf f := by
        intro hk
        exact LinkedMap.not_mem_keys_remove a.incomplete (idOf f) (List.mem_map.2 ⟨e, he, hk⟩)
      exact (h1 e (List.mem_of_mem_filter he)).snoc (by intro h; exact hk (by rw [Prod.ext_iff] at h; exact h.1.symm))
    · exact h2.sublist (List.Sublist.map _ (List.filter_sublist ..))
  | stored hv k1 k2 g1 g2 g3 =>
    obtain ⟨t, h1, h2⟩ := hr
    -- times in the state before eviction
    let t' : Bytes → Nat := fun k => if k = idOf f then log.length else t k
    have hsub : ((evictRaw (storeRaw a f)).incomplete).Sublist (storeRaw a f).incomplete := by
      unfold evictRaw; split
      · exact List.drop_sublist ..
      · exact List.Sublist.refl _
    refine ⟨t', fun e he => ?_, ?_⟩
    · have he' := hsub.subset he
      simp only [storeRaw, LinkedMap.pushBack, List.mem_append, List.mem_singleton] at he'
      rcases he' with he' | rfl
      · have hk : e.1 ≠ idOf f := by
          intro hk
          exact LinkedMap.not_mem_keys_remove a.incomplete (idOf f) (List.mem_map.2 ⟨e, he', hk⟩)
        simp only [t', if_neg hk]
        exact (h1 e (List.mem_of_mem_filter he')).snoc
          (by intro h; exact hk (by rw [Prod.ext_iff] at h; exact h.1.symm))
      · have hne : evictRaw (storeRaw a f) ≠ a := by
          intro heq
          rw [heq] at he
          have hg := LinkedMap.get?_of_mem ha.nodup he
          have hs : slotsBefore a (idOf f) (countOf f) =
              (slotsBefore a (idOf f) (countOf f)).set (indexOf f) (some f) := by
            conv_lhs => rw [slotsBefore, hg]
          rw [hs] at g2
          have : indexOf f < (slotsBefore a (idOf f) (countOf f)).length := by rw [g1]; exact hv.2.1
          simp [this] at g2
        simp only [t', if_true, decide_eq_true hne]
        exact LastTouch.last ..
    · refine List.Pairwise.sublist (List.Sublist.map _ hsub) ?_
      simp only [storeRaw, LinkedMap.pushBack, List.map_append, List.map_cons, List.map_nil]
      rw [List.pairwise_append]
      have hnot : ∀ k ∈ (a.incomplete.remove (idOf f)).map (·.1), k ≠ idOf f := by
        intro k hk e; subst e; exact LinkedMap.not_mem_keys_remove _ _ hk
      refine ⟨?_, by simp, ?_⟩
      · have := h2.sublist (List.Sublist.map (·.1) (LinkedMap.remove_sublist a.incomplete (idOf f)))
        refine List.Pairwise.imp_of_mem ?_ this
        intro x y hx hy hxy
        simp only [t', if_neg (hnot x hx), if_neg (hnot y hy)]; exact hxy
      · intro x hx y hy
        simp at hy; subst hy
        simp only [t', if_neg (hnot x hx), if_true]
        obtain ⟨e, he, rfl⟩ := List.mem_map.1 hx
        have := (h1 e (List.mem_of_mem_filter he)).1
        rw [List.getElem?_eq_some_iff] at this
        exact this.1

/-- C06 (order). In every reachable state the list of incomplete messages is ordered by the time of
the last fragment that was accepted for each: the first one, the one `reassembly_evicts_first` says is
dropped, is the one extended least recently. -/
theorem reassembly_recency_order (maxMessages maxFragments maxPerMessage : Nat) (fs : List Bytes)
    (hl : AllFragments fs) {a outs}
    (h : (FragmentAssembler.new maxMessages maxFragments maxPerMessage).insertAll fs = .ok (a, outs)) :
    ∃ t : Bytes → Nat,
      (∀ e ∈ a.incomplete, LastTouch
        (touchLog (FragmentAssembler.new maxMessages maxFragments maxPerMessage) fs) e.1 (t e.1)) ∧
      (a.incomplete.map (·.1)).Pairwise (fun k k' => t k < t k') := by
  suffices H : ∀ (a0 : FragmentAssembler), FAInv a0 → ∀ log, Recency log a0 → ∀ a outs,
      a0.insertAll fs = .ok (a, outs) → Recency (log ++ touchLog a0 fs) a by
    exact H _ (faInv_new _ _ _) [] ⟨fun _ => 0, by simp [FragmentAssembler.new], by simp [FragmentAssembler.new]⟩
      a outs h
  clear h
  induction fs with
  | nil =>
    intro a0 ha0 log hr a outs h
    simp only [FragmentAssembler.insertAll, Except.ok.injEq, Prod.mk.injEq] at h
    obtain ⟨rfl, rfl⟩ := h
    simpa [touchLog] using hr
  | cons f fs ih =>
    intro a0 ha0 log hr a outs h
    have hl' : AllFragments fs := fun g hg => hl g (by simp [hg])
    obtain ⟨a1, o, e1, c1⟩ := insert_cases ha0 f (hl f (by simp))
    obtain ⟨a2, os, e2, -⟩ := run_inv (c1.inv ha0) hl'
    simp [FragmentAssembler.insertAll, e1, e2] at h
    obtain ⟨rfl, rfl⟩ := h
    have := ih hl' a1 (c1.inv ha0) _ (recency_step ha0 hr c1) a2 os e2
    simpa [touchLog, e1] using this


/-! ### Non-vacuity of C05 and C06 -/

/-- Fragment `i` of 2 of the message with id `k k k ...` and one data byte. -/
def exFragment (k i : UInt8) : Bytes :=
  List.replicate 16 k ++ [1, 0, i, 0, 1, 0, 0] ++ k :: List.replicate 2024 0

theorem exFragments_ok (l : List (UInt8 × UInt8)) : AllFragments (l.map fun p => exFragment p.1 p.2) := by
  intro f hf
  obtain ⟨p, -, rfl⟩ := List.mem_map.1 hf
  simp only [exFragment, List.length_append, List.length_cons, List.length_replicate, List.length_nil]

/-- The run with ids and output lengths visible. -/
def exRun (m n : Nat) (l : List (UInt8 × UInt8)) : Option (List (Option UInt8) × List (Option Bytes)) :=
  match (FragmentAssembler.new m n 4).insertAll (l.map fun p => exFragment p.1 p.2) with
  | .ok (a, outs) => some (a.incomplete.map (·.1.head?), outs.map (·.map (·.data)))
  | .error _ => none

/-- A message is handed out after its two fragments came in reverse order, with a duplicate and a
fragment of another message in between. -/
example : exRun 2 5 [(1, 1), (2, 0), (1, 1), (1, 0)] =
    some ([some 2], [none, none, none, some [1, 1]]) := by decide +kernel

/-- With room for two messages the third one evicts the one extended least recently. -/
example : exRun 2 5 [(1, 1), (2, 0), (3, 0)] = some ([some 2, some 3], [none, none, none]) := by
  decide +kernel

end Mixnet.Props
