import Verif.Spec.Memory
import Verif.Proofs.Sizes
import Verif.Props.Surbs
import Verif.Spec.World
/-!
# C96: a node's memory is bounded
-/
namespace Mixnet.Props
open Spec

variable {C : Crypto} {config : Config} {m m' : Node}

theorem map_sum_le {α : Type} (f : α → Nat) (n : Nat) : ∀ (l : List α), (∀ x ∈ l, f x ≤ n) → (l.map f).sum ≤ n * l.length
  | [], _ => by simp
  | a :: l, h => by
    have h1 := map_sum_le f n l fun x hx => h x (List.mem_cons_of_mem _ hx)
    have h2 := h a List.mem_cons_self
    rw [List.map_cons, List.sum_cons, List.length_cons, Nat.mul_add]
    omega

theorem mem_iter {ss : Sessions} {s : Session} (h : s ∈ ss.iter) : ∃ rel, ss.get rel = .full s := by
  obtain ⟨slot, h1, h2⟩ := List.mem_filterMap.1 h
  have hs : slot = .full s := by cases slot <;> simp_all [SessionSlot.asOption]
  subst hs
  rcases List.mem_cons.1 h1 with h1 | h1
  · exact ⟨.current, h1.symm⟩
  · exact ⟨.prev, (List.mem_singleton.1 h1).symm⟩

theorem iter_length (ss : Sessions) : ss.iter.length ≤ 2 := List.length_filterMap_le ..

theorem queue_limit (hI : m.Inv C) {s : Session} (h : s ∈ m.sessions.iter) :
    s.authoredPacketQueue.queue.length ≤ sessionLimit m.config := by
  obtain ⟨rel, h⟩ := mem_iter h
  have hs := hI.sessions rel s h
  obtain ⟨sc, h1, h2, -⟩ := hs.config
  refine hs.queue.trans ?_
  rw [h2]
  unfold Config.sessionConfig at h1
  unfold sessionLimit
  split at h1
  · cases h1; exact Nat.le_max_left ..
  · rw [h1]; exact Nat.le_max_right ..

theorem packets_limit (hI : m.Inv C) :
    (packetsKept m).length ≤ m.config.forwardPacketQueueCapacity + 2 * sessionLimit m.config := by
  unfold packetsKept
  rw [List.length_append, List.length_map, List.length_flatMap]
  have h1 := hI.forward
  rw [hI.forwardCapacity] at h1
  have h2 := map_sum_le (fun s : Session => (s.authoredPacketQueue.queue.map (·.packet)).length) (sessionLimit m.config)
    m.sessions.iter (fun s hs => by rw [List.length_map]; exact queue_limit hI hs)
  have h3 := iter_length m.sessions
  have h4 := Nat.mul_le_mul_left (sessionLimit m.config) h3
  omega

variable (hC : CryptoLaws C) (hk : config.numHops ≤ 6) (hr : Node.Reachable C config m)
include hC hk hr

/-- **C96.** Every packet kept has 2252 bytes. -/
theorem packet_size : ∀ p ∈ packetsKept m, p.length = 2252 := by
  have hs := sized hC hk hr
  intro p hp
  rcases List.mem_append.1 hp with hp | hp
  · obtain ⟨q, hq, rfl⟩ := List.mem_map.1 hp
    exact hs.forward q hq
  · obtain ⟨s, h1, hp⟩ := List.mem_flatMap.1 hp
    obtain ⟨q, hq, rfl⟩ := List.mem_map.1 hp
    obtain ⟨rel, h1⟩ := mem_iter h1
    exact hs.queued q ⟨rel, s, h1, hq⟩

/-- **C96.** In every reachable state, the packets, fragments, and SURB ids and keys that a node keeps have together at most
as many bytes as its configuration allows. -/
theorem memory_limited : bytesKept m ≤ memoryLimit config := by
  obtain ⟨hI, rfl⟩ := hr.inv hC
  have hs := sized hC hk hr
  have h1 := map_sum_le List.length 2252 (packetsKept m) fun p hp => (packet_size hC hk hr p hp).le
  have h1' := Nat.mul_le_mul_left 2252 (packets_limit hI)
  have h2 := map_sum_le List.length 2048 (storedFragments m.fragmentAssembler) (by
    intro f hf
    obtain ⟨l, hl, hf⟩ := List.mem_flatten.1 hf
    obtain ⟨e, he, rfl⟩ := List.mem_map.1 hl
    obtain ⟨o, ho, hf⟩ := List.mem_filterMap.1 hf
    obtain ⟨i, hi⟩ := List.getElem?_of_mem ho
    cases o with
    | none => cases hf
    | some g => cases hf; exact ((hI.assembler.entries e he).slots i f hi).1.1.le)
  have h2' : (storedFragments m.fragmentAssembler).length ≤ m.config.maxIncompleteFragments := by
    rw [← hI.maxFragments, ← hI.assembler.count]; exact hI.assembler.frags
  have h3 : ((m.surbKeystore.surbs.flatMap surbKept).map List.length).sum ≤ 1184 * m.surbKeystore.surbs.length := by
    have key : ∀ l : List (SurbId × SurbValue), ((l.flatMap surbKept).map List.length).sum =
        (l.map fun x => ((surbKept x).map List.length).sum).sum := by
      intro l
      induction l with
      | nil => rfl
      | cons a l ih => rw [List.flatMap_cons, List.map_append, List.sum_append, ih, List.map_cons, List.sum_cons]
    rw [key]
    refine map_sum_le _ 1184 _ fun y hy => ?_
    obtain ⟨k1, k2, k3, k4⟩ := hs.keys y hy
    have := map_sum_le List.length 192 y.2.keys fun k hk => (k4 k hk).le
    unfold surbKept
    rw [List.map_cons, List.map_cons, List.sum_cons, List.sum_cons]
    omega
  have h3' : m.surbKeystore.surbs.length ≤ m.config.surbKeystoreCapacity := by
    rw [← hI.keystoreCapacity]; exact hI.keystore.len
  unfold bytesKept keptStrings memoryLimit
  rw [List.map_append, List.map_append, List.sum_append, List.sum_append]
  omega

/-- **C96.** The tables of a node are bounded as well: places for fragments of incomplete messages, and mixnodes of a session. -/
theorem tables_limited : fragmentSlots m ≤ config.maxIncompleteMessages * config.maxFragmentsPerMessage ∧
    m.sessions.iter.length ≤ 2 ∧ ∀ s ∈ m.sessions.iter, s.topology.mixnodes.length ≤ 65280 := by
  obtain ⟨hI, rfl⟩ := hr.inv hC
  refine ⟨?_, iter_length _, fun s hs => ?_⟩
  · have := map_sum_le (fun e : MessageId × IncompleteMessage => e.2.fragments.length) m.config.maxFragmentsPerMessage
      m.fragmentAssembler.incomplete (fun e he => by rw [← hI.maxPerMessage]; exact hI.assembler.capped e he)
    refine this.trans ?_
    rw [Nat.mul_comm]
    refine Nat.mul_le_mul_right _ ?_
    rw [← hI.maxMessages]; exact hI.assembler.msgs
  · obtain ⟨rel, h⟩ := mem_iter hs
    exact (hI.sessions rel s h).topology.1

/-- **C96.** Every packet handed out to be sent has 2252 bytes. -/
theorem sent_size {call : Call} (hw : call.WellTyped) {out : Outcome} (h : m.step C call = .ok (m', out))
    {p : AddressedPacket} (hp : handedOut out = some p) : p.packet.length = 2252 := by
  have := (sized_step hC hr hk (sized hC hk hr) hw h).2
  cases out with
  | forwardPacket o => cases hp; exact this
  | authoredPacket o => cases hp; exact this
  | _ => cases hp

omit hC hk hr

/-! ### Concrete cases -/

/-- With the default configuration this is about 5 MB. -/
example : memoryLimit Config.default = 5233600 := by decide

open World

/-- Alice, having posted a request with a SURB, keeps a packet and keys. -/
example : bytesKept alice1 ≤ memoryLimit (cfg 3) ∧ 2252 < bytesKept alice1 :=
  ⟨memory_limited toyLaws (by decide) alice1_reachable, by decide +kernel⟩

/-- She sends the packet. -/
example : packet0.packet.length = 2252 :=
  sent_size toyLaws (by decide) alice1_reachable send_typed send_step (by decide +kernel)

end Mixnet.Props
