import Verif.Model.Fragment
/-!
# `src/core/surb_keystore.rs`
-/
namespace Mixnet

abbrev SurbId := Bytes

/-- `Value`, `/repo/src/core/surb_keystore.rs:31-34` -/
structure SurbValue where
  keys : List Bytes
  messageId : MessageId
deriving Repr, DecidableEq

/-- `SurbKeystore`, `/repo/src/core/surb_keystore.rs:52-57` -/
structure SurbKeystore where
  capacity : Nat
  surbs : LinkedMap SurbId SurbValue
deriving Repr, DecidableEq

namespace SurbKeystore

/-- `new`, `/repo/src/core/surb_keystore.rs:60-63` -/
def new (capacity : Nat) : Res SurbKeystore := do
  assertP "capacity != 0" (decide (capacity ≠ 0))
  .ok ⟨capacity, []⟩

/-- `insert`, `/repo/src/core/surb_keystore.rs:65-94`. The keys are empty until the caller fills them in
with `setKeys`. -/
def insert (k : SurbKeystore) (rng : Rng) (messageId : MessageId) : Res (SurbKeystore × SurbId × Rng) := do
  assertP "self.surbs.len() <= self.capacity" (decide (k.surbs.length ≤ k.capacity))
  let surbs := if k.surbs.length = k.capacity then k.surbs.popFront.2 else k.surbs
  let (id, rng) := rng.fillBytes SURB_ID_SIZE
  match surbs.get? id with
  | some _ => panic "Randomly generated SURB ID matches an existing SURB ID; something wrong with RNG?"
  | none => .ok ({ k with surbs := surbs.pushBack id ⟨[], messageId⟩ }, id, rng)

/-- Writing through the reference to the keys returned by `insert`,
`/repo/src/core/surb_keystore.rs:70`. -/
def setKeys (k : SurbKeystore) (id : SurbId) (keys : List Bytes) : SurbKeystore :=
  match k.surbs.get? id with
  | none => k
  | some v => { k with surbs := k.surbs.set id { v with keys := keys } }

/-- `entry`, `/repo/src/core/surb_keystore.rs:96-102`, with `Entry::keys` and `Entry::message_id`,
`/repo/src/core/surb_keystore.rs:39-45`. -/
def entry (k : SurbKeystore) (id : SurbId) : Option SurbValue := k.surbs.get? id

/-- `Entry::remove`, `/repo/src/core/surb_keystore.rs:47-49` -/
def remove (k : SurbKeystore) (id : SurbId) : SurbKeystore := { k with surbs := k.surbs.remove id }

end SurbKeystore
end Mixnet
