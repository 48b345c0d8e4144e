/-!
# Prelude: panics, bytes, randomness, ordered maps

Rust notions that the model of every file relies on. Nothing here is specific to mixnet except the
citations of the places where each notion is used.
-/

namespace Mixnet

/-- A Rust panic. `site` says which call panicked. `debug_assert!` failures are panics too: the
model follows a debug build. -/
structure Panic where
  site : String
deriving Repr, DecidableEq

/-- The result of a computation that may panic. -/
abbrev Res := Except Panic

/-- `panic!` / failing `expect` / out-of-range index. -/
def panic {α} (site : String) : Res α := .error ⟨site⟩

/-- `assert!` and `debug_assert!`. -/
def assertP (site : String) (b : Bool) : Res Unit := if b then .ok () else panic site

/-- `Option::expect`. -/
def expectSome {α} (site : String) : Option α → Res α
  | some a => .ok a
  | none => panic site

/-- `u8`, and byte strings (`[u8; N]`, `Vec<u8>`, `&[u8]`). Array sizes are hypotheses. -/
abbrev Byte := UInt8
abbrev Bytes := List UInt8

/-- `&l[off..off + n]` for an in-range slice of a fixed-size array (`array_ref!`). -/
def slice {α} (l : List α) (off n : Nat) : List α := (l.drop off).take n

/-- Overwrite `l[off..off + xs.len()]` with `xs`, for an in-range slice of a fixed-size array
(`*array_mut_ref![..] = xs`, `*mut_arr_at(..) = xs`; `/repo/src/core/sphinx/build.rs:33-37`). -/
def splice {α} (l : List α) (off : Nat) (xs : List α) : List α :=
  l.take off ++ xs ++ l.drop (off + xs.length)

/-- `u16::to_le_bytes`. The argument is reduced modulo 2^16, which is what `as u16` does. -/
def toLe16 (n : Nat) : Bytes := [UInt8.ofNat n, UInt8.ofNat (n / 256)]

/-- `u16::from_le_bytes` of the first two bytes. -/
def fromLe16 (b : Bytes) : Nat := (b.getD 0 0).toNat + 256 * (b.getD 1 0).toNat

/-- `u8::to_le_bytes` / `u8::from_le_bytes`. -/
def toLe8 (n : Nat) : Bytes := [UInt8.ofNat n]
def fromLe8 (b : Bytes) : Nat := (b.getD 0 0).toNat

/-- A random number generator is an arbitrary infinite stream of numbers. Every run of
`rand::thread_rng()` corresponds to some stream, so a theorem about all streams is a theorem about
all random choices. -/
abbrev Rng := Nat → Nat

/-- Next raw draw. -/
def Rng.next (r : Rng) : Nat × Rng := (r 0, fun k => r (k + 1))

/-- `rng.gen_range(0..n)`, `n > 0`: some number below `n`. -/
def Rng.genRange (r : Rng) (n : Nat) : Nat × Rng := (r 0 % n, fun k => r (k + 1))

/-- `rng.gen_bool(p)` (`rand::distributions::Bernoulli`): panics unless `0 ≤ p ≤ 1`; draws a `u64` and
compares it with `p * 2^64`, except that `p = 1` needs no draw. Used at `/repo/src/core/mod.rs:696, 710`.
`p` is an exact number, not an `f64`. -/
def Rng.genBool (r : Rng) (p : Rat) : Res (Bool × Rng) :=
  if p = 1 then .ok (true, r)
  else if 0 ≤ p ∧ p < 1 then
    .ok (decide (((r 0 % 2 ^ 64 : Nat) : Int) < (p * 2 ^ 64).floor), fun k => r (k + 1))
  else .error ⟨"gen_bool: p is outside range"⟩

/-- `rng.fill_bytes` on a buffer of `n` bytes. -/
def Rng.fillBytes (r : Rng) (n : Nat) : Bytes × Rng :=
  ((List.range n).map (fun k => UInt8.ofNat (r k)), fun k => r (k + n))

/-- `slice.choose(rng)`: `None` on an empty slice. -/
def Rng.choose {α} (r : Rng) (l : List α) : Option α × Rng :=
  if l.isEmpty then (none, r) else (l[r 0 % l.length]?, fun k => r (k + 1))

/-- `rand::seq::index::sample(rng, length, amount)`: `amount` distinct indices below `length`, in some
order. Modelled as repeatedly removing a random element from the list of remaining indices; every
sequence of distinct indices is produced by some stream. -/
def Rng.sampleAux (r : Rng) (remaining : List Nat) : Nat → List Nat × Rng
  | 0 => ([], r)
  | k + 1 =>
    match remaining[r 0 % remaining.length]? with
    | none => ([], r)
    | some x =>
      let (rest, r') := Rng.sampleAux (fun k => r (k + 1)) (remaining.erase x) k
      (x :: rest, r')

def Rng.sample (r : Rng) (length amount : Nat) : List Nat × Rng :=
  Rng.sampleAux r (List.range length) amount

/-! ### `hashlink::LinkedHashMap`

A map with a linked order: an association list, front first. Keys are unique (an invariant the
operations preserve, proved in `Proofs/LinkedMap`). -/

abbrev LinkedMap (κ υ : Type) := List (κ × υ)

namespace LinkedMap
variable {κ υ : Type} [DecidableEq κ]

/-- `entry(k)`: `some v` for `Entry::Occupied`, `none` for `Entry::Vacant`. -/
def get? (m : LinkedMap κ υ) (k : κ) : Option υ := (m.find? (fun e => e.1 == k)).map (·.2)

/-- `VacantEntry::insert`: new entries go to the back. -/
def pushBack (m : LinkedMap κ υ) (k : κ) (v : υ) : LinkedMap κ υ := m ++ [(k, v)]

/-- `OccupiedEntry::remove`. -/
def remove (m : LinkedMap κ υ) (k : κ) : LinkedMap κ υ := m.filter (fun e => !(e.1 == k))

/-- Assigning through `OccupiedEntry::get_mut`: the position does not change. -/
def set (m : LinkedMap κ υ) (k : κ) (v : υ) : LinkedMap κ υ :=
  m.map (fun e => if e.1 == k then (e.1, v) else e)

/-- `OccupiedEntry::to_back` after assigning `v`. -/
def setToBack (m : LinkedMap κ υ) (k : κ) (v : υ) : LinkedMap κ υ := (remove m k).pushBack k v

/-- `pop_front`. -/
def popFront (m : LinkedMap κ υ) : Option (κ × υ) × LinkedMap κ υ :=
  match m with
  | [] => (none, [])
  | e :: m => (some e, m)

end LinkedMap
end Mixnet
