import Verif.Model.Api
/-!
# Which key a node has for which session
-/
namespace Mixnet.Spec

/-- The public key in a slot, if any. -/
def slotKey : SessionSlot → Option KxPublic
  | .kxPair k => some k.pub
  | .full s => some s.kxPair.pub
  | _ => none

/-- The public key a node has for session `j`: the next, the current or the previous one. -/
def keyAt (m : Node) (j : Nat) : Option KxPublic :=
  if j = m.sessionStatus.currentIndex + 1 then m.nextKxPair.map (·.pub)
  else if j = m.sessionStatus.currentIndex then slotKey m.sessions.current
  else if j + 1 = m.sessionStatus.currentIndex then slotKey m.sessions.prev
  else none

/-- The call makes a key pair with public key `k` for session `j`, which has none: `next_kx_public` for
the session after the current one, or `maybe_set_mixnodes` for the current or previous one. -/
def MakesKey (C : Crypto) (m : Node) (j : Nat) (call : Call) (k : KxPublic) : Prop :=
  keyAt m j = none ∧ ∃ rng, k = C.deriveKxPublic (Crypto.genKxSecret rng).1 ∧
    ((call = .nextKxPublic rng ∧ j = m.sessionStatus.currentIndex + 1) ∨
      ∃ ms, (call = .maybeSetMixnodes .current (.ok ms) rng ∧ j = m.sessionStatus.currentIndex) ∨
        (call = .maybeSetMixnodes .prev (.ok ms) rng ∧ j + 1 = m.sessionStatus.currentIndex))

/-- A history during all of which the node has a key for session `j`. -/
inductive KeepsKey (C : Crypto) (j : Nat) : Node → List Call → List Outcome → Node → Prop
  | nil {m} : (keyAt m j).isSome → KeepsKey C j m [] [] m
  | cons {m call m' out calls outs m''} : (keyAt m j).isSome → m.step C call = .ok (m', out) →
      KeepsKey C j m' calls outs m'' → KeepsKey C j m (call :: calls) (out :: outs) m''

end Mixnet.Spec
