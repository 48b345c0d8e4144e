import Verif.Model.Prelude
/-!
# X25519: the key exchange primitive

`/repo/src/core/sphinx/crypto.rs:64-119` calls `curve25519-dalek` 4.0: `MontgomeryPoint::mul_base_clamped`, `mul_clamped`,
`mul_base`, `MontgomeryPoint * Scalar`, `Scalar::from_bytes_mod_order`, `clamp_integer` and `Scalar *= Scalar`. The crate is not
part of `/repo`; this is the algorithm of RFC 7748 that it implements, on natural numbers. The vectors of RFC 7748 are checked in
`Props/Primitives.lean`. `mul_base` uses tables of multiples of the base point on the birationally equivalent Edwards curve; here
it is the ladder from the base point, and `Props/Primitives.lean` proves that the ladder computes multiples in the group.
-/
namespace Mixnet.X25519

/-- The prime of the field, `2^255 - 19` (RFC 7748, section 4.1). Used by `/repo/src/core/sphinx/crypto.rs:70, 84-90, 103-119`. -/
def p : Nat := 2 ^ 255 - 19

/-- The order of the base point (RFC 7748, section 4.1); `curve25519_dalek::Scalar` is the integers modulo it
(`/repo/src/core/sphinx/crypto.rs:103`). -/
def order : Nat := 2 ^ 252 + 27742317777372353535851937790883648493

/-- Field operations on numbers below `p`; called from `/repo/src/core/sphinx/crypto.rs:70` and the other places named above. -/
def fadd (a b : Nat) : Nat := (a + b) % p
def fsub (a b : Nat) : Nat := (a + (p - b % p)) % p
def fmul (a b : Nat) : Nat := a * b % p

/-- `k f` where `k` is the value of a computation: gives `f k`, but evaluates `k` first when the kernel computes. Used by `/repo/src/core/sphinx/crypto.rs:70, 84-90, 103-119`. -/
def force {α : Type} (k : Nat) (f : Nat → α) : α :=
  match k with
  | 0 => f 0
  | n + 1 => f (n + 1)

/-- The bits `j - 1, …, 0` of `e`, from the highest on, in square-and-multiply modulo `m`. Used by `/repo/src/core/sphinx/crypto.rs:70, 84-90, 103-119`. -/
def powBits (m b e : Nat) : Nat → Nat → Nat
  | 0, acc => acc
  | j + 1, acc => force (acc * acc * (if e.testBit j then b else 1) % m) fun acc => powBits m b e j acc

/-- `b ^ e` modulo `m`, for `e` below `2 ^ bits`. Used by `/repo/src/core/sphinx/crypto.rs:70, 84-90, 103-119`. -/
def powMod (m b e bits : Nat) : Nat := powBits m b e bits 1

/-- Two points of the ladder in projective coordinates: `u0 : w0` and `u1 : w1`. Used by `/repo/src/core/sphinx/crypto.rs:70, 84-90, 103-119`. -/
structure Ladder where
  u0 : Nat
  w0 : Nat
  u1 : Nat
  w1 : Nat
deriving Repr, DecidableEq

/-- One step: doubles the first point and adds the second to it, when their difference is the point with coordinate `u`
(`differential_add_and_double` behind `/repo/src/core/sphinx/crypto.rs:85, 90, 119`). `121666` is `(486662 + 2) / 4`. -/
def Ladder.double (u : Nat) (s : Ladder) : Ladder :=
  force (fadd s.u0 s.w0) fun t0 =>
  force (fsub s.u0 s.w0) fun t1 =>
  force (fadd s.u1 s.w1) fun t2 =>
  force (fsub s.u1 s.w1) fun t3 =>
  force (fmul t0 t0) fun t4 =>
  force (fmul t1 t1) fun t5 =>
  force (fsub t4 t5) fun t6 =>
  force (fmul t0 t3) fun t7 =>
  force (fmul t1 t2) fun t8 =>
  force (fadd t7 t8) fun t9 =>
  force (fsub t7 t8) fun t10 =>
  force (fmul t9 t9) fun t11 =>
  force (fmul t10 t10) fun t12 =>
  force (fmul 121666 t6) fun t13 =>
  force (fmul t4 t5) fun t14 =>
  force (fadd t13 t5) fun t15 =>
  force (fmul t6 t15) fun t16 =>
  force (fmul u t12) fun t17 =>
  ⟨t14, t16, t11, t17⟩

/-- Exchange of the two points. Used by `/repo/src/core/sphinx/crypto.rs:70, 84-90, 103-119`. -/
def Ladder.swap (s : Ladder) : Ladder := ⟨s.u1, s.w1, s.u0, s.w0⟩

/-- A step for one bit of the scalar (the conditional swaps of `mul_bits_be`, done before and after the step). Used by `/repo/src/core/sphinx/crypto.rs:70, 84-90, 103-119`. -/
def Ladder.step (u : Nat) (bit : Bool) (s : Ladder) : Ladder :=
  if bit then (s.swap.double u).swap else s.double u

/-- The steps for the bits `j - 1, …, 0` of `n`. Used by `/repo/src/core/sphinx/crypto.rs:70, 84-90, 103-119`. -/
def Ladder.run (u n : Nat) : Nat → Ladder → Ladder
  | 0, s => s
  | j + 1, s => Ladder.run u n j (s.step u (n.testBit j))

/-- `MontgomeryPoint * n` on coordinates (`/repo/src/core/sphinx/crypto.rs:85, 90, 119`): 255 bits of the scalar, then
`as_affine`, where the inverse of 0 is 0. -/
def multiple (u n : Nat) : Nat :=
  let s := Ladder.run u n 255 ⟨1, 0, u, 1⟩
  fmul s.u0 (powMod p s.w0 (p - 2) 255)

/-- The number with these bytes, the lowest first. Used by `/repo/src/core/sphinx/crypto.rs:70, 84-90, 103-119`. -/
def fromLe : Bytes → Nat
  | [] => 0
  | b :: bs => b.toNat + 256 * fromLe bs

/-- The lowest `k` bytes of a number. Used by `/repo/src/core/sphinx/crypto.rs:70, 84-90, 103-119`. -/
def toLe : Nat → Nat → Bytes
  | 0, _ => []
  | k + 1, n => UInt8.ofNat n :: toLe k (n / 256)

/-- `MontgomeryPoint(bytes)` as a field element (`FieldElement::from_bytes`: the highest bit is ignored). Used by `/repo/src/core/sphinx/crypto.rs:70, 84-90, 103-119`. -/
def decode (b : Bytes) : Nat := fromLe (b.take 32) % 2 ^ 255 % p

/-- `MontgomeryPoint::to_bytes` (`/repo/src/core/sphinx/crypto.rs:70`) -/
def encode (u : Nat) : Bytes := toLe 32 u

/-- `clamp_integer` (`/repo/src/core/sphinx/crypto.rs:103, 114`) on bytes, then the integer. -/
def clamp (b : Bytes) : Nat :=
  fromLe ((b.getD 0 0 &&& 0xf8) :: ((List.range 30).map fun i => b.getD (i + 1) 0) ++
    [(b.getD 31 0 &&& 0x7f) ||| 0x40])

/-- The coordinate of the base point. Used by `/repo/src/core/sphinx/crypto.rs:70, 84-90, 103-119`. -/
def base : Nat := 9

/-- `curve25519_dalek::Scalar`. Used by `/repo/src/core/sphinx/crypto.rs:70, 84-90, 103-119`. -/
abbrev Scalar := Fin order

/-- `Scalar::from_bytes_mod_order(clamp_integer(b))`, `/repo/src/core/sphinx/crypto.rs:103, 114` -/
def scalarOfClamped (b : Bytes) : Scalar := ⟨clamp b % order, Nat.mod_lt _ (by decide)⟩

/-- `Scalar *= Scalar`, `/repo/src/core/sphinx/crypto.rs:114` -/
def scalarMul (a b : Scalar) : Scalar := ⟨a.val * b.val % order, Nat.mod_lt _ (by decide)⟩

/-- `MontgomeryPoint::mul_base(&s).to_bytes()`, `/repo/src/core/sphinx/crypto.rs:109` -/
def mulBase (s : Scalar) : Bytes := encode (multiple base s.val)

/-- `MontgomeryPoint::mul_base_clamped(b).to_bytes()`, `/repo/src/core/sphinx/crypto.rs:70` -/
def mulBaseClamped (b : Bytes) : Bytes := encode (multiple base (clamp b))

/-- `(MontgomeryPoint(q) * s).to_bytes()`, `/repo/src/core/sphinx/crypto.rs:119` -/
def mul (q : Bytes) (s : Scalar) : Bytes := encode (multiple (decode q) s.val)

/-- `MontgomeryPoint(q).mul_clamped(b).to_bytes()`, `/repo/src/core/sphinx/crypto.rs:83-91` -/
def mulClamped (q : Bytes) (b : Bytes) : Bytes := encode (multiple (decode q) (clamp b))

end Mixnet.X25519
