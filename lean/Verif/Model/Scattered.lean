import Verif.Model.Prelude
/-!
# `src/core/scattered.rs`
-/

namespace Mixnet

/-- `/repo/src/core/scattered.rs:21-29`. Borrowed slices become lists. -/
structure Scattered (α : Type) where
  len : Nat
  first : List α
  mids : List (List α)
  last : List α

namespace Scattered
variable {α : Type}

/-- `slice::split_at` of std: panics if `mid > len`. -/
def sliceSplitAt (site : String) (l : List α) (mid : Nat) : Res (List α × List α) :=
  if mid ≤ l.length then .ok (l.take mid, l.drop mid) else panic site

/-- The loop over `mid_slices` and the final case of `split_at`
(`/repo/src/core/scattered.rs:60-102`). `done` is `self.mid_slices[..i]`, `rest` is
`self.mid_slices[i..]`, `m` is `mid_in_remaining`. -/
def splitMids (s : Scattered α) (mid rightLen : Nat) :
    Nat → List (List α) → List (List α) → Res (Scattered α × Scattered α)
  | m, done, x :: rest =>
    if x.length ≤ m then splitMids s mid rightLen (m - x.length) (done ++ [x]) rest
    else do
      let (l, r) ← sliceSplitAt "mid_slice.split_at" x m
      .ok (⟨mid, s.first, done, l⟩, ⟨rightLen, r, rest, s.last⟩)
  | m, done, [] => do
    let (l, r) ← sliceSplitAt "last_slice.split_at" s.last m
    .ok (⟨mid, s.first, done, l⟩, ⟨rightLen, r, [], []⟩)

/-- `Scattered::split_at`, `/repo/src/core/scattered.rs:42-103`. -/
def splitAt (s : Scattered α) (mid : Nat) : Res (Scattered α × Scattered α) :=
  if mid > s.len then panic "mid must be <= len"
  else
    let rightLen := s.len - mid
    if mid < s.first.length then do
      let (l, r) ← sliceSplitAt "first_slice.split_at" s.first mid
      .ok (⟨mid, l, [], []⟩, ⟨rightLen, r, s.mids, s.last⟩)
    else
      splitMids s mid rightLen (mid - s.first.length) [] s.mids

/-- `copy_from_slice` of std: panics unless the lengths agree. Returns the new contents of `dst`. -/
def copyFromSlice (site : String) (dst src : List α) : Res (List α) :=
  if dst.length = src.length then .ok src else panic site

/-- The loop of `copy_to_slice` (`/repo/src/core/scattered.rs:111-116`). -/
def copyMids (last : List α) : List (List α) → List α → Res (List α)
  | [], dst => copyFromSlice "copy_from_slice" dst last
  | x :: xs, dst => do
    let (d, rest) ← sliceSplitAt "split_at_mut" dst x.length
    let d ← copyFromSlice "copy_from_slice" d x
    let rest ← copyMids last xs rest
    .ok (d ++ rest)

/-- `Scattered::copy_to_slice`, `/repo/src/core/scattered.rs:106-118`. Returns the new contents of
`dst`. -/
def copyToSlice (s : Scattered α) (dst : List α) : Res (List α) := do
  let (d, rest) ← sliceSplitAt "split_at_mut" dst s.first.length
  let d ← copyFromSlice "copy_from_slice" d s.first
  let rest ← copyMids s.last s.mids rest
  .ok (d ++ rest)

/-- `Scattered::to_vec`, `/repo/src/core/scattered.rs:120-131`. -/
def toVec (s : Scattered α) : List α :=
  (s.mids.foldl (fun v m => v ++ m) s.first) ++ s.last

/-- `From<&[T]>`, `/repo/src/core/scattered.rs:133-137`. -/
def ofSlice (l : List α) : Scattered α := ⟨l.length, l, [], []⟩

/-- `From<&[&[T]]>`, `/repo/src/core/scattered.rs:139-148`. -/
def ofSlices (ls : List (List α)) : Scattered α := ⟨(ls.map List.length).sum, [], ls, []⟩

end Scattered
end Mixnet
