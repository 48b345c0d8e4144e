import Verif.Model.Primitives
import Mathlib.Data.Int.Log
import Mathlib.Data.Rat.Floor
/-!
# The primitives put together

`Model/Crypto.lean` has the primitives as parameters. Here is the instance with the functions of `Model/Curve25519.lean` and
`Model/Primitives.lean`, and `f64` arithmetic for delays.
-/
namespace Mixnet

namespace Binary64

/-- The nearest integer, the even one of two. Used by `/repo/src/core/sphinx/delay.rs:64, 82, 88`. -/
def roundEven (q : Rat) : Int :=
  if q - q.floor < 1 / 2 then q.floor
  else if 1 / 2 < q - q.floor then q.floor + 1
  else if q.floor % 2 = 0 then q.floor else q.floor + 1

/-- The nearest `f64` to a positive number: 53 bits, exponents from -1022 (IEEE 754). Simplification: there is no largest number;
the numbers here are far below `2^1024`. Used by `/repo/src/core/sphinx/delay.rs:64, 82, 88`. -/
def roundPos (q : Rat) : Rat :=
  let e := max (Int.log 2 q) (-1022) - 52
  roundEven (q / 2 ^ e) * 2 ^ e

/-- The nearest `f64` (`+` in `/repo/src/core/sphinx/delay.rs:82, 88` is exact addition and this rounding). -/
def round (q : Rat) : Rat := if q = 0 then 0 else if 0 < q then roundPos q else - roundPos (-q)

/-- `Duration::as_secs_f64` of a number of nanoseconds; part of `mul_f64`, `/repo/src/core/sphinx/delay.rs:64`. -/
def asSecs (ns : Nat) : Rat := round (round ((ns / 10 ^ 9 : Nat) : Rat) + round (((ns % 10 ^ 9 : Nat) : Rat) / 10 ^ 9))

/-- `unit.mul_f64(d)`, `/repo/src/core/sphinx/delay.rs:64`: `Duration::from_secs_f64(d * unit.as_secs_f64())`, which rounds to the
nearest nanosecond. Simplification: the panics on negative numbers and on overflow are left out (0 and no limit instead). -/
def mulDuration (d : Rat) (unit : Nat) : Nat := (roundEven (round (d * asSecs unit) * 10 ^ 9)).toNat

end Binary64

/-- The primitives that the code uses. `sample` is `rand_distr::Exp1` on the 32-byte seed (`/repo/src/core/sphinx/delay.rs:54-55`),
`estimate` the `f64` formula of `/repo/src/core/mod.rs:188-231`: both are left open. Delays are rational numbers; a sum is rounded to
an `f64` (`/repo/src/core/sphinx/delay.rs:78-90`). -/
def realCrypto (sample : Bytes → Rat) (estimate : Rat → Nat → Nat → Nat → Nat → Nat) : Crypto :=
  Crypto.withBlake
    { Scalar := X25519.Scalar
      scalarOfClamped := X25519.scalarOfClamped
      scalarMul := X25519.scalarMul
      mulBase := X25519.mulBase
      mulBaseClamped := X25519.mulBaseClamped
      mul := X25519.mul
      mulClamped := X25519.mulClamped
      blake32 := fun _ _ => []
      blake64 := fun _ _ _ => []
      blakeMac := fun _ _ => []
      replayHash := fun _ => 0
      chacha := ChaCha.byte
      lionessEncrypt := Lioness.encrypt
      lionessDecrypt := Lioness.decrypt
      Delay := Rat
      delayZero := 0
      delayAdd := fun a b => Binary64.round (a + b)
      delayTen := 10
      expSample := sample
      delayLe := fun a b => decide (a ≤ b)
      delayToDuration := Binary64.mulDuration
      queueDelayEstimate := estimate }
    Blake2b.hash

end Mixnet
