import Verif.Spec.Network
import Verif.Proofs.Reassemble
import Verif.Proofs.NodeStep
/-!
# Receiving the packets of a message
-/
namespace Mixnet
open Spec

/-- Eviction does not hit the message just stored, if there is room for it at all. -/
theorem evict_keeps {a : FragmentAssembler} {f : Fragment} {id : Bytes} {fs r : List Bytes} (ha : FAInv a)
    (hidf : idOf f = id) (hk : Knows a id fs r) (hk' : Knows (storeRaw a f) id fs (f :: r))
    (hrs : ∀ x ∈ r, x ∈ fs) (hrn : r.Nodup) (hfn : fs.Nodup)
    (hm : 1 ≤ a.maxIncompleteMessages) (hr : r.length + 1 ≤ a.maxIncompleteFragments) :
    Knows (evictRaw (storeRaw a f)) id fs (f :: r) := by
  unfold evictRaw
  split
  · rename_i hov
    unfold Knows at hk' ⊢
    have hinc : (storeRaw a f).incomplete = (a.incomplete.remove id).pushBack id
        ⟨(slotsBefore a id (countOf f)).set (indexOf f) (some f), ((slotsBefore a id (countOf f)).filterMap _root_.id).length + 1⟩ := by
      rw [← hidf]; rfl
    cases hrem : a.incomplete.remove id with
    | nil =>
      exfalso
      have hlen : (storeRaw a f).incomplete.length = 1 := by rw [hinc, hrem]; rfl
      have hmax : (storeRaw a f).maxIncompleteMessages = a.maxIncompleteMessages := rfl
      have hmax2 : (storeRaw a f).maxIncompleteFragments = a.maxIncompleteFragments := rfl
      have hnum : (storeRaw a f).numIncompleteFragments = a.numIncompleteFragments + 1 := rfl
      have hcount : a.numIncompleteFragments = r.length := by
        rw [ha.count]
        unfold Knows at hk
        obtain ⟨o, ho⟩ : ∃ o, a.incomplete.get? id = o := ⟨_, rfl⟩
        rw [ho] at hk
        cases o with
        | none =>
          dsimp only at hk
          subst hk
          have := LinkedMap.remove_of_not_mem (LinkedMap.get?_eq_none.1 ho)
          rw [hrem] at this
          unfold storedFragments
          rw [← this]; rfl
        | some im =>
          have hp := storedFragments_split ha.nodup ho
          rw [hrem] at hp
          rw [hp.length_eq, hk.2, slotsOf_filterMap]
          simp only [List.map_nil, List.flatten_nil, List.append_nil]
          apply List.Perm.length_eq
          rw [List.perm_ext_iff_of_nodup (hfn.filter _) hrn]
          intro x
          simp
          exact hrs x
      omega
    | cons e rest =>
      have hnk : id ∉ LinkedMap.keys (e :: rest : LinkedMap MessageId IncompleteMessage) := by
        rw [← hrem]; exact LinkedMap.not_mem_keys_remove a.incomplete id
      have hnk' : id ∉ LinkedMap.keys (rest : LinkedMap MessageId IncompleteMessage) := fun h =>
        hnk (List.mem_cons_of_mem _ h)
      rw [hinc, hrem] at hk' ⊢
      rw [LinkedMap.get?_pushBack_self _ hnk] at hk'
      have hd : List.drop 1 (LinkedMap.pushBack (e :: rest : LinkedMap MessageId IncompleteMessage) id
          ⟨(slotsBefore a id (countOf f)).set (indexOf f) (some f),
            ((slotsBefore a id (countOf f)).filterMap _root_.id).length + 1⟩) =
        LinkedMap.pushBack rest id ⟨(slotsBefore a id (countOf f)).set (indexOf f) (some f),
            ((slotsBefore a id (countOf f)).filterMap _root_.id).length + 1⟩ := rfl
      dsimp only
      rw [hd, LinkedMap.get?_pushBack_self _ hnk']
      exact hk'
  · exact hk'

/-- All packets of a message arrive. `g` makes the message returned. -/
theorem receive_run {C : Crypto} (hC : CryptoLaws C) {config : Config} {α : Type} {id : MessageId}
    {packetOf : α → Bytes} {Ready : Node → α → Prop} {fs : List Bytes} (hw : IsWhole id fs)
    (hhold : CanHold config fs.length) (g : GenericMessage → Message) {fr : α → Bytes} {P : α → Prop}
    (hown : ∀ n x now n1 o, Node.Reachable C config n → P x → Ready n x →
      n.step C (.handlePacket now (packetOf x)) = .ok (n1, .message o) →
      (packetOf x).length = PACKET_SIZE ∧
      ∃ o', InsertCase n.fragmentAssembler (fr x) n1.fragmentAssembler o' ∧ o = o'.map g)
    {n n' : Node} {xs : List α} {msgs : List (Option Message)}
    (h : Receives C id packetOf Ready n xs msgs n') :
    Node.Reachable C config n → (∀ x ∈ xs, P x) → ∀ r : List Bytes, (r ++ xs.map fr).Perm fs →
    (r.length < fs.length → Knows n.fragmentAssembler id fs r →
      msgs = List.replicate (fs.length - 1 - r.length) none ++ [some (g (assemble id fs))]) ∧
    (xs = [] → msgs = []) := by
  induction h with
  | done n =>
    intro _ _ r hp
    refine ⟨fun hr _ => ?_, fun _ => rfl⟩
    have := hp.length_eq
    simp at this
    omega
  | other hwt hs heq _ ih =>
    intro hre hP r hp
    obtain ⟨i1, i2⟩ := ih (hre.step hC hwt hs) hP r hp
    refine ⟨fun hr hk => i1 hr ?_, i2⟩
    unfold Knows at hk ⊢
    unfold storedOf at heq
    rw [heq]
    exact hk
  | @arrive n x now n1 msg xs msgs n2 hready hs _ ih =>
    intro hre hP r hp
    refine ⟨fun hr hk => ?_, fun h => (by cases h)⟩
    obtain ⟨hI, hcfg⟩ := hre.inv hC
    obtain ⟨hsize, o, hc, rfl⟩ := hown _ _ _ _ _ hre (hP x List.mem_cons_self) hready hs
    have hp' : ((fr x :: r) ++ xs.map fr).Perm fs := by
      refine List.Perm.trans ?_ hp
      exact List.perm_middle.symm
    have hf : fr x ∈ fs := hp'.mem_iff.1 (by simp)
    have hnd := hp'.nodup_iff.2 hw.nodup
    have hnd' := (List.nodup_append.1 hnd).1
    have hfr : fr x ∉ r := (List.nodup_cons.1 hnd').1
    have hrn : r.Nodup := (List.nodup_cons.1 hnd').2
    have hrs : ∀ y ∈ r, y ∈ fs := fun y hy => hp'.mem_iff.1 (by simp [hy])
    have hplen := hp'.length_eq
    simp only [List.length_append, List.length_cons, List.length_map] at hplen
    have hre' : Node.Reachable C config n1 := hre.step hC (call := .handlePacket now (packetOf x)) hsize hs
    obtain ⟨i1, i2⟩ := ih hre' (fun y hy => hP y (List.mem_cons_of_mem _ hy)) (fr x :: r) hp'
    rcases own_step' hI.assembler hw hf hfr hrs hrn hk (by rw [hI.maxPerMessage, hcfg]; exact hhold.1) hc with
      ⟨h1, rfl, h3, h4⟩ | ⟨h1, rfl, -, -⟩
    · have hk' : Knows n1.fragmentAssembler id fs (fr x :: r) := by
        rw [h3]
        have hh := hhold.2
        refine evict_keeps hI.assembler (hw.mem hf).2.1 hk h4 hrs hrn hw.nodup ?_ ?_
        · rw [hI.maxMessages, hcfg]; omega
        · rw [hI.maxFragments, hcfg]; omega
      rw [i1 (by simpa using h1) hk']
      have e3 : fs.length - 1 - r.length = (fs.length - 1 - (fr x :: r).length) + 1 := by
        simp only [List.length_cons]; omega
      rw [e3, List.replicate_succ]
      rfl
    · have : xs = [] := List.eq_nil_of_length_eq_zero (by omega)
      rw [i2 this]
      have e3 : fs.length - 1 - r.length = 0 := by omega
      rw [e3]
      rfl

end Mixnet
