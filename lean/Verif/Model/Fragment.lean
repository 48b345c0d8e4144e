import Verif.Model.Scattered
import Verif.Model.Consts
/-!
# `src/core/fragment.rs`

A `Fragment` (`[u8; FRAGMENT_SIZE]`) is a byte list; that it has `FRAGMENT_SIZE` bytes is a
hypothesis of the theorems.
-/
namespace Mixnet

abbrev MessageId := Bytes
abbrev Fragment := Bytes
abbrev Surb := Bytes

/-! ### Field access: `/repo/src/core/fragment.rs:54-98` (`split_fragment` and the accessors) -/

/-- `/repo/src/core/fragment.rs:76-78` -/
def messageId (f : Fragment) : MessageId := slice f 0 MESSAGE_ID_SIZE

/-- `/repo/src/core/fragment.rs:80-82` -/
def numFragments (f : Fragment) : Nat := fromLe16 (slice f MESSAGE_ID_SIZE FRAGMENT_INDEX_SIZE) + 1

/-- `/repo/src/core/fragment.rs:84-86` -/
def fragmentIndex (f : Fragment) : Nat :=
  fromLe16 (slice f (MESSAGE_ID_SIZE + FRAGMENT_INDEX_SIZE) FRAGMENT_INDEX_SIZE)

/-- `/repo/src/core/fragment.rs:88-90` -/
def fragmentDataSize (f : Fragment) : Nat :=
  fromLe16 (slice f (MESSAGE_ID_SIZE + FRAGMENT_INDEX_SIZE + FRAGMENT_INDEX_SIZE)
    FRAGMENT_DATA_SIZE_SIZE)

/-- `/repo/src/core/fragment.rs:92-94` -/
def fragmentNumSurbs (f : Fragment) : Nat :=
  fromLe8 (slice f (MESSAGE_ID_SIZE + FRAGMENT_INDEX_SIZE + FRAGMENT_INDEX_SIZE +
    FRAGMENT_DATA_SIZE_SIZE) FRAGMENT_NUM_SURBS_SIZE)

/-- `/repo/src/core/fragment.rs:96-98` -/
def fragmentPayload (f : Fragment) : Bytes := slice f FRAGMENT_HEADER_SIZE FRAGMENT_PAYLOAD_SIZE

/-- `/repo/src/core/fragment.rs:100-106` -/
inductive CheckFragmentErr where
  | index (index max : Nat)
  | payloadSize (size max : Nat)
deriving Repr, DecidableEq

/-- `check_fragment`, `/repo/src/core/fragment.rs:108-124` -/
def checkFragment (f : Fragment) : Except CheckFragmentErr Unit :=
  if fragmentIndex f ≥ numFragments f then
    .error (.index (fragmentIndex f) (numFragments f - 1))
  else
    let payloadSize := fragmentDataSize f + fragmentNumSurbs f * SURB_SIZE
    if payloadSize > FRAGMENT_PAYLOAD_SIZE then .error (.payloadSize payloadSize FRAGMENT_PAYLOAD_SIZE)
    else .ok ()

/-- `check_fragment(f).is_ok()` -/
def fragmentOk (f : Fragment) : Bool :=
  match checkFragment f with
  | .ok _ => true
  | .error _ => false

/-- `slice::rchunks_exact` of std: chunks of exactly `n` elements from the end, the last chunk first,
leaving out an incomplete chunk at the beginning. -/
def rchunksExact {α} (n : Nat) (l : List α) : List (List α) :=
  (List.range (l.length / n)).map (fun i => slice l (l.length - (i + 1) * n) n)

/-- `/repo/src/core/fragment.rs:126-131` -/
structure GenericMessage where
  id : MessageId
  data : Bytes
  surbs : List Surb
deriving Repr, DecidableEq

/-- Range slicing `&l[..n]` of std: panics if out of range. -/
def slicePrefix {α} (site : String) (l : List α) (n : Nat) : Res (List α) :=
  if n ≤ l.length then .ok (l.take n) else panic site

/-- The loop of `GenericMessage::from_fragments`, `/repo/src/core/fragment.rs:141-155`. The
`try_into` of each chunk cannot fail: `rchunks_exact` only yields chunks of that length. -/
def fromFragmentsLoop : List Fragment → Bytes → List Surb → Res (Bytes × List Surb)
  | [], data, surbs => .ok (data, surbs)
  | f :: fs, data, surbs => do
    assertP "check_fragment(fragment).is_ok()" (fragmentOk f)
    let payload := fragmentPayload f
    let d ← slicePrefix "payload[..fragment_data_size]" payload (fragmentDataSize f)
    fromFragmentsLoop fs (data ++ d)
      (surbs ++ (rchunksExact SURB_SIZE payload).take (fragmentNumSurbs f))

/-- `GenericMessage::from_fragments`, `/repo/src/core/fragment.rs:133-159`. Capacity reservations are
not modelled. -/
def fromFragments (fs : List Fragment) : Res GenericMessage :=
  match fs with
  | [] => panic "At least one fragment"
  | f :: _ => do
    let (data, surbs) ← fromFragmentsLoop fs [] []
    .ok ⟨messageId f, data, surbs⟩

/-- `/repo/src/core/fragment.rs:161-167` -/
inductive IncompleteMessageInsertErr where
  | inconsistentNumFragments (a b : Nat)
  | alreadyHave
deriving Repr, DecidableEq

/-- `/repo/src/core/fragment.rs:169-173` -/
structure IncompleteMessage where
  fragments : List (Option Fragment)
  numReceived : Nat
deriving Repr, DecidableEq

namespace IncompleteMessage

/-- `IncompleteMessage::new`, `/repo/src/core/fragment.rs:176-178` -/
def new (n : Nat) : IncompleteMessage := ⟨List.replicate n none, 0⟩

/-- `IncompleteMessage::insert`, `/repo/src/core/fragment.rs:180-202` -/
def insert (m : IncompleteMessage) (f : Fragment) :
    Res (Except IncompleteMessageInsertErr IncompleteMessage) := do
  assertP "check_fragment(fragment).is_ok()" (fragmentOk f)
  if numFragments f ≠ m.fragments.length then
    .ok (.error (.inconsistentNumFragments (numFragments f) m.fragments.length))
  else
    match m.fragments[fragmentIndex f]? with
    | none => panic "index out of bounds"
    | some (some _) => .ok (.error .alreadyHave)
    | some none => do
      let m' : IncompleteMessage :=
        ⟨m.fragments.set (fragmentIndex f) (some f), m.numReceived + 1⟩
      assertP "num_received_fragments <= fragments.len()"
        (decide (m'.numReceived ≤ m'.fragments.length))
      .ok (.ok m')

/-- The iterator returned by `complete_fragments`, consumed: every element must be present. -/
def expectAll : List (Option Fragment) → Res (List Fragment)
  | [] => .ok []
  | none :: _ => panic "All fragments received"
  | some f :: fs => do
    let fs ← expectAll fs
    .ok (f :: fs)

/-- `IncompleteMessage::complete_fragments`, `/repo/src/core/fragment.rs:204-212`. The iterator is
lazy in the code and consumed at once by its only caller. -/
def completeFragments (m : IncompleteMessage) : Res (Option (List Fragment)) :=
  if m.numReceived = m.fragments.length then do
    let fs ← expectAll m.fragments
    .ok (some fs)
  else .ok none

end IncompleteMessage

/-- `/repo/src/core/fragment.rs:215-229` -/
structure FragmentAssembler where
  incomplete : LinkedMap MessageId IncompleteMessage
  numIncompleteFragments : Nat
  maxIncompleteMessages : Nat
  maxIncompleteFragments : Nat
  maxFragmentsPerMessage : Nat
deriving Repr, DecidableEq

namespace FragmentAssembler

/-- `FragmentAssembler::new`, `/repo/src/core/fragment.rs:232-247` -/
def new (maxMessages maxFragments maxPerMessage : Nat) : FragmentAssembler :=
  ⟨[], 0, maxMessages, maxFragments, maxPerMessage⟩

/-- `need_eviction`, `/repo/src/core/fragment.rs:249-252` -/
def needEviction (a : FragmentAssembler) : Bool :=
  decide (a.incomplete.length > a.maxIncompleteMessages) ||
    decide (a.numIncompleteFragments > a.maxIncompleteFragments)

/-- `maybe_evict`, `/repo/src/core/fragment.rs:254-273` -/
def maybeEvict (a : FragmentAssembler) : Res FragmentAssembler :=
  if a.needEviction then
    match a.incomplete.popFront with
    | (none, _) => panic "Over messages or fragments limit, there must be at least one message"
    | (some (_, m), rest) => do
      assertP "num_incomplete_fragments >= num_received_fragments"
        (decide (a.numIncompleteFragments ≥ m.numReceived))
      let a' := { a with
        incomplete := rest, numIncompleteFragments := a.numIncompleteFragments - m.numReceived }
      assertP "!need_eviction" (!a'.needEviction)
      .ok a'
  else .ok a

/-- `FragmentAssembler::insert`, `/repo/src/core/fragment.rs:275-321`. Returns the new state and the
completed message, if any. -/
def insert (a : FragmentAssembler) (f : Fragment) :
    Res (FragmentAssembler × Option GenericMessage) :=
  match checkFragment f with
  | .error _ => .ok (a, none)
  | .ok () =>
    let n := numFragments f
    if n > a.maxFragmentsPerMessage then .ok (a, none)
    else if n = 1 then do
      let m ← fromFragments [f]
      .ok (a, some m)
    else
      match a.incomplete.get? (messageId f) with
      | some im => do
        match ← im.insert f with
        | .error _ => .ok (a, none)
        | .ok im' =>
          let a1 := { a with numIncompleteFragments := a.numIncompleteFragments + 1 }
          match ← im'.completeFragments with
          | some fs =>
            let msg ← fromFragments fs
            -- `entry.remove().num_received_fragments` is subtracted
            assertP "num_incomplete_fragments -= overflow"
              (decide (im'.numReceived ≤ a1.numIncompleteFragments))
            .ok ({ a1 with
              incomplete := a1.incomplete.remove (messageId f),
              numIncompleteFragments := a1.numIncompleteFragments - im'.numReceived }, some msg)
          | none =>
            let a2 ← ({ a1 with
              incomplete := a1.incomplete.setToBack (messageId f) im' } : FragmentAssembler).maybeEvict
            .ok (a2, none)
      | none => do
        match ← (IncompleteMessage.new n).insert f with
        | .error _ => panic "assertion failed: incomplete_message.insert(fragment).is_ok()"
        | .ok im =>
          let a' ← ({ a with
            incomplete := a.incomplete.pushBack (messageId f) im,
            numIncompleteFragments := a.numIncompleteFragments + 1 } : FragmentAssembler).maybeEvict
          .ok (a', none)

/-- Handing a list of fragments to the assembler one after the other; the outputs in order. -/
def insertAll (a : FragmentAssembler) :
    List Fragment → Res (FragmentAssembler × List (Option GenericMessage))
  | [] => .ok (a, [])
  | f :: fs => do
    let (a, o) ← a.insert f
    let (a, os) ← insertAll a fs
    .ok (a, o :: os)

end FragmentAssembler

/-! ### Splitting a message -/

/-- `/repo/src/core/fragment.rs:324-330`. `lastIndex`, `index` are `u16`, `numSurbs` is `u8`. -/
structure FragmentBlueprint where
  messageId : MessageId
  lastIndex : Nat
  index : Nat
  data : Scattered Byte
  numSurbs : Nat

namespace FragmentBlueprint

/-- `write_except_surbs`, `/repo/src/core/fragment.rs:333-353`. Returns the new fragment bytes. -/
def writeExceptSurbs (b : FragmentBlueprint) (f : Fragment) : Res Fragment := do
  let payload := slice f FRAGMENT_HEADER_SIZE FRAGMENT_PAYLOAD_SIZE
  let dst ← slicePrefix "payload[..self.data.len()]" payload b.data.len
  let d ← b.data.copyToSlice dst
  .ok (b.messageId ++ toLe16 b.lastIndex ++ toLe16 b.index ++ toLe16 b.data.len ++ toLe8 b.numSurbs ++
    splice payload 0 d)

/-- Offsets in the fragment of the SURBs yielded by `surbs`, in order:
`/repo/src/core/fragment.rs:355-367` (`rchunks_exact_mut(SURB_SIZE)` on the payload, `take`). -/
def surbOffsets (b : FragmentBlueprint) : List Nat :=
  ((List.range (FRAGMENT_PAYLOAD_SIZE / SURB_SIZE)).map
    (fun i => FRAGMENT_HEADER_SIZE + (FRAGMENT_PAYLOAD_SIZE - (i + 1) * SURB_SIZE))).take b.numSurbs

end FragmentBlueprint

/-- Overwriting the SURBs yielded by `surbs` one after the other with the given ones. -/
def writeSurbs (f : Fragment) : List Nat → List Surb → Fragment
  | off :: offs, s :: ss => writeSurbs (splice f off s) offs ss
  | _, _ => f

/-- `usize::saturating_mul`, `usize::saturating_add` on a 64-bit target. -/
def satMul (a b : Nat) : Nat := min (a * b) USIZE_MAX
def satAdd (a b : Nat) : Nat := min (a + b) USIZE_MAX

/-- `usize` subtraction: panics on underflow (debug build). -/
def subP (site : String) (a b : Nat) : Res Nat := if b ≤ a then .ok (a - b) else panic site

/-- `div_ceil`, `/repo/src/core/fragment.rs:371-377` -/
def divCeil (x y : Nat) : Nat := if x = 0 then 0 else (x - 1) / y + 1

/-- The number of fragments computed by `fragment_blueprints`,
`/repo/src/core/fragment.rs:390-397`. -/
def numFragmentsNeeded (dataLen numSurbs : Nat) : Res Nat := do
  let forSurbs := divCeil numSurbs MAX_SURBS_PER_FRAGMENT
  let unused ← subP "surb_fragments_unused_size" (satMul forSurbs FRAGMENT_PAYLOAD_SIZE)
    (satMul numSurbs SURB_SIZE)
  let remaining := dataLen - unused  -- saturating_sub
  let forData := divCeil remaining FRAGMENT_PAYLOAD_SIZE
  .ok (max (satAdd forSurbs forData) 1)

/-- The closure mapped over `0..num_fragments` (`/repo/src/core/fragment.rs:401-415`), run for
`n` more indices starting at `index`. -/
def blueprintsLoop (id : MessageId) (lastIndex : Nat) :
    Nat → Nat → Scattered Byte → Nat → Res (List FragmentBlueprint)
  | 0, _, _, _ => .ok []
  | n + 1, index, data, numSurbs => do
    let k := min numSurbs MAX_SURBS_PER_FRAGMENT
    let unused ← subP "fragment_unused_size" FRAGMENT_PAYLOAD_SIZE (k * SURB_SIZE)
    let size := min data.len unused
    let (d, rest) ← data.splitAt size
    let bs ← blueprintsLoop id lastIndex n (index + 1) rest (numSurbs - k)
    .ok (⟨id, lastIndex % 65536, index % 65536, d, k % 256⟩ :: bs)

/-- `fragment_blueprints`, `/repo/src/core/fragment.rs:379-417`. The code's iterator is lazy; it is
always consumed completely and in order, so it is modelled by the list it yields. -/
def fragmentBlueprints (id : MessageId) (data : Scattered Byte) (numSurbs : Nat) :
    Res (Option (List FragmentBlueprint)) := do
  let n ← numFragmentsNeeded data.len numSurbs
  let lastIndex := n - 1
  if lastIndex ≤ FRAGMENT_INDEX_MAX then do
    let bs ← blueprintsLoop id lastIndex n 0 data numSurbs
    .ok (some bs)
  else .ok none

end Mixnet

namespace Mixnet

/-- The sender's use of the blueprints, `/repo/src/core/request_builder.rs:83-87` and
`/repo/src/core/mod.rs:783-805`, without the packet around the fragment: for each blueprint in order,
`write_except_surbs` into a buffer with arbitrary old content, then the next `numSurbs` SURBs of
`surbs` into the places yielded by `surbs()`. -/
def writeFragments : List FragmentBlueprint → List Bytes → List Surb → Res (List Fragment)
  | b :: bs, buf :: bufs, surbs => do
    let f ← b.writeExceptSurbs buf
    let fs ← writeFragments bs bufs (surbs.drop b.numSurbs)
    .ok (writeSurbs f b.surbOffsets (surbs.take b.numSurbs) :: fs)
  | _, _, _ => .ok []

end Mixnet
