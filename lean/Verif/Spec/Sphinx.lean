import Verif.Model.Sphinx
/-!
# Specification: what it means for a packet to travel a path

Written with `peel` (the function under test) and the hops' secret keys only.
-/
namespace Mixnet.Spec

/-- `Travels C packet keys targets delays fin`: nodes with secret keys `keys` (first hop first) peel
`packet` one after the other, each with the shared secret it derives itself from the packet's public
key and its own secret key, each with an arbitrary old content of its output buffer. Every node but the
last is told to forward to the corresponding element of `targets` with the corresponding element of
`delays`, and hands the output packet to the next. The last node ends with buffer `out` and action
`action` such that `fin out action`. -/
def Travels (C : Crypto) : Bytes → List KxSecret → List Target → List C.Delay →
    (Bytes → Action C → Prop) → Prop
  | packet, [key], [], [], fin =>
    ∀ old : Bytes, old.length = PACKET_SIZE →
      ∃ out action, peel C old packet (C.deriveKxSharedSecret (kxPublicOf packet) key) = .ok (out, .ok action) ∧
        fin out action
  | packet, key :: keys, target :: targets, delay :: delays, fin =>
    ∀ old : Bytes, old.length = PACKET_SIZE →
      ∃ out, peel C old packet (C.deriveKxSharedSecret (kxPublicOf packet) key)
          = .ok (out, .ok (.forwardTo target delay)) ∧
        out.length = PACKET_SIZE ∧ Travels C out keys targets delays fin
  | _, _, _, _, _ => False

/-- A path of 1 to 6 hops given by the nodes' secret keys and the targets after the first hop: every
target is a mixnode index in range or a 32-byte peer ID, and at most one is a peer ID. -/
structure ValidPath (keys : List KxSecret) (targets : List Target) : Prop where
  length : keys.length = targets.length + 1
  hops : keys.length ≤ 6
  target : ∀ t ∈ targets, match t with
    | .mixnodeIndex i => i ≤ 0xfeff
    | .peerId p => p.length = 32
  onePeerId : (targets.filter (fun t => match t with | .peerId _ => true | _ => false)).length ≤ 1

/-- Sum of delays in hop order, starting from zero. -/
def totalDelay {C : Crypto} (ds : List C.Delay) : C.Delay := ds.foldl C.delayAdd C.delayZero

end Mixnet.Spec
