import Verif.Model.PacketQueues
import Mathlib.Data.List.Perm.Basic
import Mathlib.Data.List.Basic
/-!
# Facts about the packet queues
-/
namespace Mixnet

theorem minDeadline_eq_none {l : List ForwardPacket} : minDeadline l = none ↔ l = [] := by
  cases l with
  | nil => simp [minDeadline]
  | cons p l =>
    simp only [minDeadline, reduceCtorEq, iff_false]
    cases minDeadline l <;> simp

theorem minDeadline_some {l : List ForwardPacket} {d : Nat} :
    minDeadline l = some d ↔ (∃ p ∈ l, p.deadline = d) ∧ ∀ p ∈ l, d ≤ p.deadline := by
  induction l generalizing d with
  | nil => simp [minDeadline]
  | cons p l ih =>
    obtain ⟨o, ho⟩ : ∃ o, minDeadline l = o := ⟨_, rfl⟩
    simp only [minDeadline, ho]
    cases o with
    | none =>
      rw [minDeadline_eq_none] at ho
      subst ho
      simp only [Option.some.injEq, List.mem_singleton, exists_eq_left, forall_eq]
      constructor
      · rintro rfl; exact ⟨rfl, Nat.le_refl _⟩
      · exact fun h => h.1
    | some e =>
      obtain ⟨⟨q, hq, hqe⟩, hall⟩ := (ih (d := e)).1 ho
      simp only [Option.some.injEq, List.mem_cons, forall_eq_or_imp, exists_eq_or_imp]
      constructor
      · intro h
        split at h
        · rename_i hle
          subst h
          exact ⟨Or.inl rfl, Nat.le_refl _, fun x hx => Nat.le_trans hle (hall x hx)⟩
        · rename_i hle
          subst h
          exact ⟨Or.inr ⟨q, hq, hqe⟩, by omega, hall⟩
      · rintro ⟨h1, h2, h3⟩
        have := h3 q hq
        rcases h1 with h1 | ⟨x, hx, hxd⟩
        · rw [if_pos (by omega)]; exact h1
        · have := hall x hx
          split <;> omega

theorem minDeadline_isSome {l : List ForwardPacket} (h : l ≠ []) : ∃ d, minDeadline l = some d := by
  cases hd : minDeadline l with
  | none => exact absurd (minDeadline_eq_none.1 hd) h
  | some d => exact ⟨d, rfl⟩

namespace ForwardPacketQueue

/-- What `pop` does. -/
theorem pop_spec (q : ForwardPacketQueue) (tie : Nat) :
    (q.queue = [] ∧ q.pop tie = (none, q)) ∨
    ∃ p ∈ q.queue, (∀ p' ∈ q.queue, p.deadline ≤ p'.deadline) ∧
      q.pop tie = (some p.packet, { q with queue := q.queue.erase p }) := by
  by_cases hq : q.queue = []
  · left
    refine ⟨hq, ?_⟩
    obtain ⟨c, l⟩ := q
    subst hq
    simp [pop]
  · right
    obtain ⟨d, hd⟩ := minDeadline_isSome hq
    obtain ⟨⟨p0, hp0, hp0d⟩, hmin⟩ := minDeadline_some.1 hd
    obtain ⟨g, hg⟩ : ∃ g, q.queue.filter (fun p => some p.deadline == minDeadline q.queue) = g := ⟨_, rfl⟩
    have hmem : p0 ∈ g := by
      rw [← hg, List.mem_filter]
      exact ⟨hp0, by simp [hd, hp0d]⟩
    have hlen : 0 < g.length := List.length_pos_of_mem hmem
    have hlt : tie % g.length < g.length := Nat.mod_lt _ hlen
    have hp : g[tie % g.length] ∈ g := List.getElem_mem hlt
    generalize hx : g[tie % g.length] = p at hp
    have hpq : p ∈ q.queue ∧ p.deadline = d := by
      rw [← hg, List.mem_filter] at hp
      refine ⟨hp.1, ?_⟩
      have := hp.2
      simpa [hd] using this
    refine ⟨p, hpq.1, fun p' hp' => by rw [hpq.2]; exact hmin p' hp', ?_⟩
    simp only [pop, hg]
    rw [List.getElem?_eq_getElem hlt, hx]

theorem insert_spec {q : ForwardPacketQueue} (h : q.queue.length < q.capacity) (deadline : Nat)
    (packet : AddressedPacket) :
    q.insert deadline packet = .ok ({ q with queue := ⟨deadline, packet⟩ :: q.queue },
      decide ((⟨q.capacity, ⟨deadline, packet⟩ :: q.queue⟩ : ForwardPacketQueue).nextDeadline ≠ q.nextDeadline)) := by
  have : q.hasSpace = true := by simp [hasSpace, h]
  simp only [insert, this, assertP, if_true]
  rfl

end ForwardPacketQueue

namespace AuthoredPacketQueue

theorem push_spec {q : AuthoredPacketQueue} (h : q.queue.length < q.config.capacity) (p : AddressedPacket) :
    q.push p = .ok { q with queue := q.queue ++ [p] } := by
  simp only [push, h, decide_true, assertP, if_true]
  rfl

theorem push_ok {q q' : AuthoredPacketQueue} {p : AddressedPacket} (h : q.push p = .ok q') :
    q.queue.length < q.config.capacity ∧ q' = { q with queue := q.queue ++ [p] } := by
  by_cases hl : q.queue.length < q.config.capacity
  · rw [push_spec hl] at h
    injection h with h
    exact ⟨hl, h.symm⟩
  · simp only [push, hl, decide_false, assertP] at h
    cases h

theorem checkSpace_ok {q : AuthoredPacketQueue} {n : Nat} :
    q.checkSpace n = .ok () ↔ n ≤ q.config.capacity ∧
      (q.queue = [] ∨ (q.config.multipleMessages = true ∧ q.queue.length + n ≤ q.config.capacity)) := by
  have h0 : q.queue = [] ↔ q.queue.length = 0 := by simp
  rw [h0]
  unfold checkSpace
  by_cases h : q.config.capacity < n
  · rw [if_pos h]
    simp; omega
  · rw [if_neg h]
    dsimp only
    cases hm : q.config.multipleMessages
    · simp only [Bool.not_false, if_true]
      by_cases h2 : q.queue.length > 0
      · rw [if_pos h2]; simp only [reduceCtorEq, false_iff, true_iff, Bool.false_eq_true, false_and, or_false, true_and]; omega
      · rw [if_neg h2]; simp only [reduceCtorEq, false_iff, true_iff, Bool.false_eq_true, false_and, or_false, true_and]; omega
    · simp only [Bool.not_true, Bool.false_eq_true, if_false]
      by_cases h2 : q.queue.length > q.config.capacity - n
      · rw [if_pos h2]; simp only [reduceCtorEq, false_iff, true_iff, Bool.false_eq_true, false_and, or_false, true_and]; omega
      · rw [if_neg h2]; simp only [reduceCtorEq, false_iff, true_iff, Bool.false_eq_true, false_and, or_false, true_and]; omega

theorem checkSpace_capacity {q : AuthoredPacketQueue} {n : Nat} :
    q.checkSpace n = .error .capacity ↔ q.config.capacity < n := by
  unfold checkSpace
  split
  · rename_i h; simp [h]
  · rename_i h
    dsimp only
    split
    · split <;> simp [h]
    · split <;> simp [h]

theorem pop_spec (q : AuthoredPacketQueue) :
    (q.queue = [] ∧ q.pop = ((none, false), q)) ∨
    ∃ p rest, q.queue = p :: rest ∧
      q.pop = ((some p, q.config.multipleMessages || rest.isEmpty), { q with queue := rest }) := by
  obtain ⟨c, l⟩ := q
  cases l with
  | nil => left; simp [pop]
  | cons p rest => right; exact ⟨p, rest, rfl, by simp [pop]⟩

end AuthoredPacketQueue
end Mixnet
