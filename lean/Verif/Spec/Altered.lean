import Verif.Model.Api
import Mathlib.Logic.Equiv.Basic
/-!
# Packets altered on the way, and payload ciphers
-/
namespace Mixnet.Spec

/-- `packet'` is `packet` with another payload (the last 2064 bytes): what someone on the way can do to a packet without
touching its header. -/
structure Altered (packet packet' : Bytes) : Prop where
  size : packet.length = 2252
  size' : packet'.length = 2252
  header : packet.take 188 = packet'.take 188
  payload : packet.drop 188 ≠ packet'.drop 188

/-- What the payload cipher works on. -/
abbrev Block : Type := {l : Bytes // l.length = 2064}

/-- The same primitives, except that the payload cipher with this one key is the permutation `π`. -/
def withCipher (C : Crypto) (key : Bytes) (π : Equiv.Perm Block) : Crypto :=
  { C with
    lionessEncrypt := fun k p =>
      if k = key then (if h : p.length = 2064 then (π ⟨p, h⟩).1 else p) else C.lionessEncrypt k p
    lionessDecrypt := fun k p =>
      if k = key then (if h : p.length = 2064 then (π.symm ⟨p, h⟩).1 else p) else C.lionessDecrypt k p }

/-- The permutations that decrypt `p` as the actual cipher does. -/
def decryptsAlike (C : Crypto) (key p : Bytes) : Set (Equiv.Perm Block) :=
  {π | (withCipher C key π).lionessDecrypt key p = C.lionessDecrypt key p}

/-- The permutations that encrypt `p` as the actual cipher does. -/
def encryptsAlike (C : Crypto) (key p : Bytes) : Set (Equiv.Perm Block) :=
  {π | (withCipher C key π).lionessEncrypt key p = C.lionessEncrypt key p}

/-- The hops with these shared secrets in turn peel `packet` to `forward` actions, with these targets and delays; the last
one hands on `last`. -/
inductive Handed (C : Crypto) : Bytes → List (SharedSecret × Target × C.Delay) → Bytes → Prop
  | here packet : Handed C packet [] packet
  | hop {packet sec target delay out hops last} :
      peel C zeroPacket packet sec = .ok (out, .ok (.forwardTo target delay)) → Handed C out hops last →
      Handed C packet ((sec, target, delay) :: hops) last

end Mixnet.Spec
