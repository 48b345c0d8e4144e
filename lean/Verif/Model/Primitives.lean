import Verif.Model.Curve25519
import Verif.Model.Crypto
import Verif.Model.Blake
/-!
# BLAKE2b, ChaCha20 and LIONESS

The functions that `/repo/src/core/sphinx/crypto.rs:74-228` and `/repo/src/core/replay_filter.rs:75-81` call in the crates
`blake2`, `c2-chacha` and `lioness`. The crates are not part of `/repo`: BLAKE2b follows RFC 7693, ChaCha20 Bernstein's
specification (a 64-bit counter and a 64-bit nonce), LIONESS Anderson and Biham's, with the key layout of the crate `lioness`.
`Props/Primitives.lean` checks them on known vectors. Words are natural numbers. `force` changes nothing but the order of
evaluation.
-/
namespace Mixnet
open X25519 (force fromLe toLe)

/-- Evaluates the numbers of a list. Used by `/repo/src/core/sphinx/crypto.rs:77-227`. -/
def forceList {α : Type} : List Nat → (List Nat → α) → α
  | [], k => k []
  | x :: xs, k => force x fun x => forceList xs fun xs => k (x :: xs)

/-- The words of `size` bytes in a byte string, `n` of them. Used by `/repo/src/core/sphinx/crypto.rs:77-227`. -/
def leWords (size : Nat) : Nat → Bytes → List Nat
  | 0, _ => []
  | n + 1, b => fromLe (b.take size) :: leWords size n (b.drop size)

namespace Blake2b

/-- Rotation to the right of a 64-bit word (`/repo/src/core/sphinx/crypto.rs:77`, in `blake2`). -/
def rotr (w n : Nat) : Nat := (w >>> n) ||| ((w <<< (64 - n)) % 2 ^ 64)

/-- Addition of 64-bit words. Used by `/repo/src/core/sphinx/crypto.rs:77, 133, 188, 195`. -/
def add (a b : Nat) : Nat := (a + b) % 2 ^ 64

/-- RFC 7693, section 2.6. Used by `/repo/src/core/sphinx/crypto.rs:77, 133, 188, 195`. -/
def iv : List Nat := [0x6a09e667f3bcc908, 0xbb67ae8584caa73b, 0x3c6ef372fe94f82b, 0xa54ff53a5f1d36f1,
  0x510e527fade682d1, 0x9b05688c2b3e6c1f, 0x1f83d9abfb41bd6b, 0x5be0cd19137e2179]

/-- RFC 7693, section 2.7: the message schedules of the twelve rounds. Used by `/repo/src/core/sphinx/crypto.rs:77, 133, 188, 195`. -/
def sigma : List (List Nat) :=
  let s0 := [0, 1, 2, 3, 4, 5, 6, 7, 8, 9, 10, 11, 12, 13, 14, 15]
  let s1 := [14, 10, 4, 8, 9, 15, 13, 6, 1, 12, 0, 2, 11, 7, 5, 3]
  [s0, s1,
   [11, 8, 12, 0, 5, 2, 15, 13, 10, 14, 3, 6, 7, 1, 9, 4],
   [7, 9, 3, 1, 13, 12, 11, 14, 2, 6, 5, 10, 4, 0, 15, 8],
   [9, 0, 5, 7, 2, 4, 10, 15, 14, 1, 11, 12, 6, 8, 3, 13],
   [2, 12, 6, 10, 0, 11, 8, 3, 4, 13, 7, 5, 15, 14, 1, 9],
   [12, 5, 1, 15, 14, 13, 4, 10, 0, 7, 6, 3, 9, 2, 8, 11],
   [13, 11, 7, 14, 12, 1, 3, 9, 5, 0, 15, 4, 8, 6, 2, 10],
   [6, 15, 14, 9, 11, 3, 0, 8, 12, 2, 13, 7, 1, 4, 10, 5],
   [10, 2, 8, 4, 7, 6, 1, 5, 15, 11, 9, 14, 3, 12, 13, 0],
   s0, s1]

/-- The mixing function, RFC 7693, section 3.1. Used by `/repo/src/core/sphinx/crypto.rs:77, 133, 188, 195`. -/
def mix {α : Type} (a b c d x y : Nat) (k : Nat → Nat → Nat → Nat → α) : α :=
  force (add (add a b) x) fun a =>
  force (rotr (d ^^^ a) 32) fun d =>
  force (add c d) fun c =>
  force (rotr (b ^^^ c) 24) fun b =>
  force (add (add a b) y) fun a =>
  force (rotr (d ^^^ a) 16) fun d =>
  force (add c d) fun c =>
  force (rotr (b ^^^ c) 63) fun b =>
  k a b c d

/-- The rounds of the compression function, RFC 7693, section 3.2, on the sixteen words of the state; `h` is the state before,
`m` the sixteen words of the block. Used by `/repo/src/core/sphinx/crypto.rs:77, 133, 188, 195`. -/
def rounds (h m : List Nat) : List (List Nat) → Nat → Nat → Nat → Nat → Nat → Nat → Nat → Nat → Nat → Nat → Nat → Nat →
    Nat → Nat → Nat → Nat → List Nat
  | [], v0, v1, v2, v3, v4, v5, v6, v7, v8, v9, v10, v11, v12, v13, v14, v15 =>
    [h.getD 0 0 ^^^ v0 ^^^ v8, h.getD 1 0 ^^^ v1 ^^^ v9, h.getD 2 0 ^^^ v2 ^^^ v10, h.getD 3 0 ^^^ v3 ^^^ v11,
     h.getD 4 0 ^^^ v4 ^^^ v12, h.getD 5 0 ^^^ v5 ^^^ v13, h.getD 6 0 ^^^ v6 ^^^ v14, h.getD 7 0 ^^^ v7 ^^^ v15]
  | s :: ss, v0, v1, v2, v3, v4, v5, v6, v7, v8, v9, v10, v11, v12, v13, v14, v15 =>
    let w := fun i => m.getD (s.getD i 0) 0
    mix v0 v4 v8 v12 (w 0) (w 1) fun v0 v4 v8 v12 =>
    mix v1 v5 v9 v13 (w 2) (w 3) fun v1 v5 v9 v13 =>
    mix v2 v6 v10 v14 (w 4) (w 5) fun v2 v6 v10 v14 =>
    mix v3 v7 v11 v15 (w 6) (w 7) fun v3 v7 v11 v15 =>
    mix v0 v5 v10 v15 (w 8) (w 9) fun v0 v5 v10 v15 =>
    mix v1 v6 v11 v12 (w 10) (w 11) fun v1 v6 v11 v12 =>
    mix v2 v7 v8 v13 (w 12) (w 13) fun v2 v7 v8 v13 =>
    mix v3 v4 v9 v14 (w 14) (w 15) fun v3 v4 v9 v14 =>
    rounds h m ss v0 v1 v2 v3 v4 v5 v6 v7 v8 v9 v10 v11 v12 v13 v14 v15

/-- The compression function, RFC 7693, section 3.2, for a block of at most 128 bytes, which is padded with zeros. `t` counts the
bytes up to the end of the block. Used by `/repo/src/core/sphinx/crypto.rs:77, 133, 188, 195`. -/
def compress (h : List Nat) (block : Bytes) (t : Nat) (last : Bool) : List Nat :=
  forceList (leWords 8 16 block) fun m =>
  let i := fun j => iv.getD j 0
  let g := fun j => h.getD j 0
  rounds h m sigma (g 0) (g 1) (g 2) (g 3) (g 4) (g 5) (g 6) (g 7) (i 0) (i 1) (i 2) (i 3) (i 4 ^^^ (t % 2 ^ 64))
    (i 5 ^^^ (t / 2 ^ 64)) (if last then i 6 ^^^ (2 ^ 64 - 1) else i 6) (i 7)

/-- The blocks of a message (RFC 7693, section 3.3), `t` bytes having gone before; `fuel` is at least the number of blocks. Used by `/repo/src/core/sphinx/crypto.rs:77, 133, 188, 195`. -/
def blocks : Nat → List Nat → Nat → Bytes → List Nat
  | 0, h, _, _ => h
  | fuel + 1, h, t, data =>
    if data.length ≤ 128 then compress h data (t + data.length) true
    else forceList (compress h (data.take 128) (t + 128) false) fun h => blocks fuel h (t + 128) (data.drop 128)

/-- The state at the start: the parameter block with the sizes of the output and the key, fanout and depth 1, the salt and the
personalisation (the parameters of `new_with_salt_and_personal`, `/repo/src/core/sphinx/crypto.rs:77,133`). -/
def start (size : Nat) (key salt personal : Bytes) : List Nat :=
  List.zipWith (· ^^^ ·) iv
    ([size + 256 * key.length + 2 ^ 16 + 2 ^ 24, 0, 0, 0] ++ leWords 8 2 (salt ++ List.replicate 16 0) ++
      leWords 8 2 (personal ++ List.replicate 16 0))

/-- A key is a first block of its own, padded with zeros (RFC 7693, section 3.3). Used by `/repo/src/core/sphinx/crypto.rs:77, 133, 188, 195`. -/
def keyed (key msg : Bytes) : Bytes :=
  if key.length = 0 then msg else key ++ List.replicate (128 - key.length) 0 ++ msg

/-- `Blake2bMac`, for all outputs, keys, salts and personalisations of allowed sizes (`/repo/src/core/sphinx/crypto.rs:77, 133,
188, 195` and `/repo/src/core/replay_filter.rs:78`). -/
def hash : Blake := fun size key salt personal msg =>
  ((forceList (blocks ((keyed key msg).length + 1) (start size key salt personal) 0 (keyed key msg)) fun h =>
    h.flatMap (toLe 8)).take size)

end Blake2b

namespace ChaCha

/-- Rotation to the left, addition and exclusive or of 32-bit words (in `c2-chacha`, `/repo/src/core/sphinx/crypto.rs:206`). -/
def rotl (w n : Nat) : Nat := ((w <<< n) % 2 ^ 32) ||| (w >>> (32 - n))
def add (a b : Nat) : Nat := (a + b) % 2 ^ 32

/-- The quarter round. Used by `/repo/src/core/sphinx/crypto.rs:206-207`. -/
def quarter {α : Type} (a b c d : Nat) (k : Nat → Nat → Nat → Nat → α) : α :=
  force (add a b) fun a =>
  force (rotl (d ^^^ a) 16) fun d =>
  force (add c d) fun c =>
  force (rotl (b ^^^ c) 12) fun b =>
  force (add a b) fun a =>
  force (rotl (d ^^^ a) 8) fun d =>
  force (add c d) fun c =>
  force (rotl (b ^^^ c) 7) fun b =>
  k a b c d

/-- Double rounds on the sixteen words of the state. Used by `/repo/src/core/sphinx/crypto.rs:206-207`. -/
def rounds : Nat → Nat → Nat → Nat → Nat → Nat → Nat → Nat → Nat → Nat → Nat → Nat → Nat → Nat → Nat → Nat → Nat → List Nat
  | 0, x0, x1, x2, x3, x4, x5, x6, x7, x8, x9, x10, x11, x12, x13, x14, x15 =>
    [x0, x1, x2, x3, x4, x5, x6, x7, x8, x9, x10, x11, x12, x13, x14, x15]
  | n + 1, x0, x1, x2, x3, x4, x5, x6, x7, x8, x9, x10, x11, x12, x13, x14, x15 =>
    quarter x0 x4 x8 x12 fun x0 x4 x8 x12 =>
    quarter x1 x5 x9 x13 fun x1 x5 x9 x13 =>
    quarter x2 x6 x10 x14 fun x2 x6 x10 x14 =>
    quarter x3 x7 x11 x15 fun x3 x7 x11 x15 =>
    quarter x0 x5 x10 x15 fun x0 x5 x10 x15 =>
    quarter x1 x6 x11 x12 fun x1 x6 x11 x12 =>
    quarter x2 x7 x8 x13 fun x2 x7 x8 x13 =>
    quarter x3 x4 x9 x14 fun x3 x4 x9 x14 =>
    rounds n x0 x1 x2 x3 x4 x5 x6 x7 x8 x9 x10 x11 x12 x13 x14 x15

/-- Block `i` of the keystream for a 32-byte key and nonce 0: 64 bytes. Used by `/repo/src/core/sphinx/crypto.rs:206-207`. -/
def block (key : Bytes) (i : Nat) : Bytes :=
  forceList (leWords 4 8 key) fun k =>
  force (i % 2 ^ 32) fun c0 =>
  force (i / 2 ^ 32 % 2 ^ 32) fun c1 =>
  let s := [0x61707865, 0x3320646e, 0x79622d32, 0x6b206574] ++ k ++ [c0, c1, 0, 0]
  let x := fun j => s.getD j 0
  (List.zipWith add s
    (rounds 10 (x 0) (x 1) (x 2) (x 3) (x 4) (x 5) (x 6) (x 7) (x 8) (x 9) (x 10) (x 11) (x 12) (x 13) (x 14) (x 15))).flatMap
      (toLe 4)

/-- Byte `i` of the keystream (`ChaCha20::new(key, &[0; 8])`, `/repo/src/core/sphinx/crypto.rs:206`). -/
def byte (key : Bytes) (i : Nat) : Byte := (block key (i / 64)).getD (i % 64) 0

/-- The first `n` blocks of the keystream, from block `i` on. Used by `/repo/src/core/sphinx/crypto.rs:206-207`. -/
def stream (key : Bytes) : Nat → Nat → Bytes
  | 0, _ => []
  | n + 1, i => block key i ++ stream key n (i + 1)

end ChaCha

namespace Lioness

/-- The stream cipher part: exclusive or of the right half with the keystream of ChaCha20 for the key `left ^ k` (in `lioness`,
`/repo/src/core/sphinx/crypto.rs:222, 227`). -/
def streamStep (k left right : Bytes) : Bytes :=
  applyKeystream right (ChaCha.stream (applyKeystream left k) ((right.length + 63) / 64) 0)

/-- The hash part: exclusive or of the left half with keyed BLAKE2b of the right half, 32 bytes. Used by `/repo/src/core/sphinx/crypto.rs:222, 227`. -/
def hashStep (k right left : Bytes) : Bytes := applyKeystream left (Blake2b.hash 32 k [] [] right)

/-- `LionessDefault::new_raw(key).encrypt`, `/repo/src/core/sphinx/crypto.rs:221-222`: the key is split into 32, 64, 32 and 64
bytes, the payload into the first 32 bytes and the rest. -/
def encrypt (key payload : Bytes) : Bytes :=
  let l := payload.take 32
  let r := payload.drop 32
  let r := streamStep (slice key 0 32) l r
  let l := hashStep (slice key 32 64) r l
  let r := streamStep (slice key 96 32) l r
  let l := hashStep (slice key 128 64) r l
  l ++ r

/-- `LionessDefault::new_raw(key).decrypt`, `/repo/src/core/sphinx/crypto.rs:226-227` -/
def decrypt (key payload : Bytes) : Bytes :=
  let l := payload.take 32
  let r := payload.drop 32
  let l := hashStep (slice key 128 64) r l
  let r := streamStep (slice key 96 32) l r
  let l := hashStep (slice key 32 64) r l
  let r := streamStep (slice key 0 32) l r
  l ++ r

end Lioness
end Mixnet
