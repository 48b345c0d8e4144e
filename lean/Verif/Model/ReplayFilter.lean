import Verif.Model.Crypto
/-!
# `src/core/replay_filter.rs`
-/
namespace Mixnet

/-- `/repo/src/core/replay_filter.rs:42-44` -/
abbrev FILTER_NUM_BITS : Nat := 64 * 1024 * 1024
abbrev FILTER_NUM_WORDS : Nat := FILTER_NUM_BITS / 64
abbrev FILTER_NUM_TAG_BITS : Nat := 8

/-- `ReplayTag`, `/repo/src/core/replay_filter.rs:46-50` -/
structure ReplayTag where
  base : UInt32
  inc : UInt32
deriving Repr, DecidableEq

/-- `ReplayFilter`, `/repo/src/core/replay_filter.rs:58-62`. The array of `NUM_WORDS` words is a function
of the word index. -/
structure ReplayFilter where
  key : Bytes
  words : Option (Nat → UInt64)

namespace ReplayFilter

/-- `ReplayFilter::new`, `/repo/src/core/replay_filter.rs:64-73` -/
def new (rng : Rng) : ReplayFilter × Rng :=
  let (key, rng) := rng.fillBytes 32
  (⟨key, none⟩, rng)

/-- `tag`, `/repo/src/core/replay_filter.rs:75-82` -/
def tag (C : Crypto) (f : ReplayFilter) (sec : SharedSecret) : ReplayTag :=
  let h := C.replayHash (f.key ++ sec)
  ⟨h.toUInt32, (h >>> 32).toUInt32⟩

/-- `((i as usize) >> 6) % NUM_WORDS`, `/repo/src/core/replay_filter.rs:90` -/
def wordIndex (i : UInt32) : Nat := (i.toNat >>> 6) % FILTER_NUM_WORDS

/-- `1 << (i & 63)` as a `u64`, `/repo/src/core/replay_filter.rs:90` -/
def mask (i : UInt32) : UInt64 := 1 <<< (i &&& 63).toUInt64

/-- The loop of `insert`, `/repo/src/core/replay_filter.rs:89-92`, for `n` more bits. -/
def insertLoop (inc : UInt32) : Nat → UInt32 → (Nat → UInt64) → (Nat → UInt64)
  | 0, _, w => w
  | n + 1, i, w =>
    insertLoop inc n (i + inc) (fun k => if k = wordIndex i then w k ||| mask i else w k)

/-- `insert`, `/repo/src/core/replay_filter.rs:84-93` -/
def insert (f : ReplayFilter) (t : ReplayTag) : ReplayFilter :=
  { f with words := some (insertLoop t.inc FILTER_NUM_TAG_BITS t.base (f.words.getD fun _ => 0)) }

/-- The loop of `contains`, `/repo/src/core/replay_filter.rs:99-106`, for `n` more bits. -/
def containsLoop (inc : UInt32) (w : Nat → UInt64) : Nat → UInt32 → Bool
  | 0, _ => true
  | n + 1, i => if w (wordIndex i) &&& mask i == 0 then false else containsLoop inc w n (i + inc)

/-- `contains`, `/repo/src/core/replay_filter.rs:95-109` -/
def contains (f : ReplayFilter) (t : ReplayTag) : Bool :=
  match f.words with
  | none => false
  | some w => containsLoop t.inc w FILTER_NUM_TAG_BITS t.base

end ReplayFilter
end Mixnet
