import Verif.Proofs.ReplayFilter
/-!
# C15: the replay filter
-/
namespace Mixnet.Spec

/-- The bit of the filter that probe `k` of a tag looks at: `(base + k * inc)` as a 32-bit number, modulo
the number of bits of the filter. -/
def probe (t : ReplayTag) (k : Nat) : Nat := (t.base.toNat + k * t.inc.toNat) % 2 ^ 32 % 67108864

end Mixnet.Spec

namespace Mixnet.Props
open Mixnet ReplayFilter Spec

theorem addr_idx (t : ReplayTag) (k : Nat) : addr (idx t.base t.inc k) = probe t k := by
  unfold addr idx probe
  rw [UInt32.toNat_add, UInt32.toNat_mul, UInt32.toNat_ofNat']
  congr 1
  conv => rhs; rw [Nat.add_mod, Nat.mul_mod]
  conv => lhs; rw [Nat.add_mod]
  rw [Nat.mod_mod, Nat.mul_mod, Nat.mod_mod]

/-- The filter after inserting these tags in this order. -/
def insertTags (f : ReplayFilter) (ts : List ReplayTag) : ReplayFilter := ts.foldl ReplayFilter.insert f

theorem bits_insertTags (ts : List ReplayTag) : ∀ (f : ReplayFilter) (a : Nat),
    bits (insertTags f ts) a ↔ bits f a ∨ ∃ u ∈ ts, ∃ j < 8, a = probe u j := by
  induction ts with
  | nil => intro f a; simp [insertTags]
  | cons u ts ih =>
    intro f a
    show bits (insertTags (f.insert u) ts) a ↔ _
    rw [ih, bits_insert]
    simp only [addr_idx, List.mem_cons]
    constructor
    · rintro ((h | h) | ⟨v, hv, h⟩)
      · exact .inl h
      · exact .inr ⟨u, .inl rfl, h⟩
      · exact .inr ⟨v, .inr hv, h⟩
    · rintro (h | ⟨v, rfl | hv, h⟩)
      · exact .inl (.inl h)
      · exact .inl (.inr h)
      · exact .inr ⟨v, hv, h⟩

/-- C15, exactly: after any insertions into a new filter, a tag is reported iff each of its 8 probe bits
is a probe bit of some inserted tag. -/
theorem filter_contains_iff (rng : Rng) (ts : List ReplayTag) (t : ReplayTag) :
    (insertTags (ReplayFilter.new rng).1 ts).contains t = true ↔
      ∀ k < 8, ∃ u ∈ ts, ∃ j < 8, probe t k = probe u j := by
  rw [contains_iff]
  simp only [addr_idx, bits_insertTags]
  have h : ∀ a, ¬bits (ReplayFilter.new rng).1 a := by
    rintro a ⟨w, hw, _⟩; cases hw
  simp [h]

/-- C15: every inserted tag is reported. -/
theorem filter_no_false_negatives (rng : Rng) (ts : List ReplayTag) (t : ReplayTag) (h : t ∈ ts) :
    (insertTags (ReplayFilter.new rng).1 ts).contains t = true :=
  (filter_contains_iff rng ts t).mpr fun k hk => ⟨t, h, k, hk, rfl⟩

/-- C15: a filter into which nothing was inserted reports nothing. -/
theorem filter_fresh (rng : Rng) (t : ReplayTag) : (ReplayFilter.new rng).1.contains t = false := rfl

/-- C15: in any state of the filter, an insertion makes the inserted tag reported and makes no other tag
forgotten. -/
theorem filter_insert (f : ReplayFilter) (t u : ReplayTag) :
    (f.insert t).contains t = true ∧ (f.contains u = true → (f.insert t).contains u = true) := by
  constructor
  · rw [contains_iff]; intro k hk; rw [bits_insert]; exact .inr ⟨k, hk, rfl⟩
  · rw [contains_iff, contains_iff]; intro h k hk; rw [bits_insert]; exact .inl (h k hk)

/-- C15: the tag of a shared secret is the 64-bit hash of the filter's key and the secret, cut in two: two
secrets have the same tag only if their hashes collide. -/
theorem filter_tag (C : Crypto) (f : ReplayFilter) (sec sec' : SharedSecret) :
    (f.tag C sec).base.toNat + 2 ^ 32 * (f.tag C sec).inc.toNat = (C.replayHash (f.key ++ sec)).toNat ∧
    (f.tag C sec = f.tag C sec' ↔ C.replayHash (f.key ++ sec) = C.replayHash (f.key ++ sec')) := by
  have key : ∀ sec, (f.tag C sec).base.toNat + 2 ^ 32 * (f.tag C sec).inc.toNat =
      (C.replayHash (f.key ++ sec)).toNat := by
    intro sec
    have h := (C.replayHash (f.key ++ sec)).toNat_lt
    simp only [tag, UInt64.toNat_toUInt32, UInt64.toNat_shiftRight, Nat.shiftRight_eq_div_pow]
    simp
    omega
  refine ⟨key sec, fun h => ?_, fun h => by simp only [tag, h]⟩
  have h1 := key sec
  rw [h, key sec'] at h1
  exact (UInt64.toNat_inj.1 h1).symm

/-- Tags from different regions of the filter do not interfere (and a wrapping increment is handled):
the characterisation has content in both directions. -/
example : (insertTags (ReplayFilter.new (fun _ => 0)).1 [⟨5, 0xfffffff0⟩, ⟨7, 1⟩]).contains ⟨7, 1⟩ = true ∧
    (insertTags (ReplayFilter.new (fun _ => 0)).1 [⟨5, 0xfffffff0⟩, ⟨7, 1⟩]).contains ⟨100, 1⟩ = false := by
  refine ⟨filter_no_false_negatives _ _ _ (by simp), ?_⟩
  rw [← Bool.not_eq_true, filter_contains_iff]
  intro h
  obtain ⟨u, hu, j, hj, h⟩ := h 0 (by decide)
  simp only [List.mem_cons, List.not_mem_nil, or_false] at hu
  rcases hu with rfl | rfl
  · revert h; revert hj; revert j; decide
  · revert h; revert hj; revert j; decide

end Mixnet.Props
