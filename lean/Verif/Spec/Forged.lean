import Verif.Spec.Node
import Verif.Proofs.Perms
/-!
# Forged packets, and MAC functions
-/
namespace Mixnet.Spec

/-- A MAC function: from keys of 16 bytes and routing fields of 140 bytes to MACs of 16 bytes. -/
abbrev MacFunction : Type := Strings 16 × Strings 140 → Strings 16

/-- The same primitives with another MAC function. -/
def withMac (C : Crypto) (f : MacFunction) : Crypto :=
  { C with
    blakeMac := fun k a => if h : k.length = 16 ∧ a.length = 140 then (f (⟨k, h.1⟩, ⟨a, h.2⟩)).1 else C.blakeMac k a }

/-- The MAC functions that agree with the actual one on these pairs of a key and a routing field: those for which
somebody may have seen the MAC. -/
def agreeing (C : Crypto) (seen : Set (Bytes × Bytes)) : Set MacFunction :=
  {f | ∀ x ∈ seen, (withMac C f).blakeMac x.1 x.2 = C.blakeMac x.1 x.2}

/-- What the MAC of a packet is checked against in a session: a key derived from the session's secret and the packet's first
32 bytes, and the packet's routing field. -/
def checked (C : Crypto) (s : Session) (packet : Bytes) : Bytes × Bytes :=
  (C.macKey (s.secretFor C packet), (packet.drop 48).take 140)

/-- None of the node's sessions checks the packet's MAC against something in `seen`. -/
def Forged (C : Crypto) (m : Node) (seen : Set (Bytes × Bytes)) (packet : Bytes) : Prop :=
  packet.length = 2252 ∧ ∀ i s, m.sessionAt i = some s → checked C s packet ∉ seen

end Mixnet.Spec
