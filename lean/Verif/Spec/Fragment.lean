import Verif.Model.Fragment
/-!
# Specification vocabulary for fragments (independent of the assembler and the splitter)

The wire format, in numbers: a fragment has 2048 bytes: 16 bytes message id, 2 bytes last index,
2 bytes index, 2 bytes data size, 1 byte SURB count, 2025 bytes payload. Data is at the start of the
payload; SURBs (222 bytes each) are at its end, the first SURB last.
-/
namespace Mixnet.Spec
open Mixnet

/-- Little-endian number in bytes `off`, `off + 1`. -/
def u16At (f : Bytes) (off : Nat) : Nat := (f.getD off 0).toNat + 256 * (f.getD (off + 1) 0).toNat

def idOf (f : Bytes) : Bytes := f.take 16
def countOf (f : Bytes) : Nat := u16At f 16 + 1
def indexOf (f : Bytes) : Nat := u16At f 18
def dataSizeOf (f : Bytes) : Nat := u16At f 20
def surbCountOf (f : Bytes) : Nat := (f.getD 22 0).toNat

/-- The data bytes a fragment carries. -/
def dataOf (f : Bytes) : Bytes := (f.drop 23).take (dataSizeOf f)

/-- The SURBs a fragment carries. -/
def surbsOf (f : Bytes) : List Bytes :=
  (List.range (surbCountOf f)).map fun j => (f.drop (2048 - 222 * (j + 1))).take 222

/-- A well-formed fragment: index in range, contents fit. -/
def Valid (f : Bytes) : Prop :=
  f.length = 2048 ∧ indexOf f < countOf f ∧ dataSizeOf f + 222 * surbCountOf f ≤ 2025

/-- `fs` are all the fragments of one message with this id, in position order. -/
def IsWhole (id : Bytes) (fs : List Bytes) : Prop :=
  fs ≠ [] ∧ ∀ i (h : i < fs.length),
    Valid fs[i] ∧ idOf fs[i] = id ∧ countOf fs[i] = fs.length ∧ indexOf fs[i] = i

/-- The message made of these fragments. -/
def assemble (id : Bytes) (fs : List Bytes) : GenericMessage :=
  ⟨id, (fs.map dataOf).flatten, (fs.map surbsOf).flatten⟩

/-- The fragments kept by a receiver. -/
def storedFragments (a : FragmentAssembler) : List Bytes :=
  (a.incomplete.map fun e => e.2.fragments.filterMap id).flatten

/-- `n` fragments can carry `d` bytes and `s` SURBs: there is a way to give each
fragment some bytes and at most 9 SURBs of 222 bytes so that it has at most 2025 bytes. -/
def CanCarry (n d s : Nat) : Prop :=
  ∃ alloc : List (Nat × Nat), alloc.length = n ∧
    (∀ p ∈ alloc, p.2 ≤ 9 ∧ p.1 + 222 * p.2 ≤ 2025) ∧
    (alloc.map (·.1)).sum = d ∧ (alloc.map (·.2)).sum = s

end Mixnet.Spec
