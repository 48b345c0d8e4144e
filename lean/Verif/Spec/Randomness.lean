import Verif.Spec.Posting
import Verif.Spec.Wire
/-!
# Which random numbers are used for what

Positions are counted from the beginning of the stream of random numbers given to a call.
-/
namespace Mixnet.Spec

/-- The stream from position `n` on. -/
def skip (rng : Rng) (n : Nat) : Rng := fun k => rng (k + n)

/-- The `n` bytes of the stream at position `a`. -/
def bytesAt (rng : Rng) (a n : Nat) : Bytes := (List.range n).map fun k => UInt8.ofNat (rng (a + k))

/-- The step uses exactly the numbers at positions `a` to `b - 1`: it goes the same way, and ends at `b`, with any
stream that agrees with `rng` there. -/
def Uses (rng : Rng) (a b : Nat) (step : Rng → Rng → Prop) : Prop :=
  a ≤ b ∧ ∀ rng', (∀ k, a ≤ k → k < b → rng' k = rng k) → step (skip rng' a) (skip rng' b)

/-- One thing after the other, the first from position `a` on, each from where the one before ended, the last up to
position `b`. -/
def Chain {α : Type} (P : Nat → α → Nat → Prop) : Nat → List α → Nat → Prop
  | a, [], b => a = b
  | a, x :: xs, b => ∃ c, P a x c ∧ Chain P c xs b

/-- The SURB is made of the numbers from `a` to `b - 1` only, each used for one purpose: 16 for the ID, then those for
the route, then 32 for the secret key of the packet, then those that fill the header up, then 32 for the secret that
encrypts the reply. -/
def SurbDraws {C : Crypto} (g : RouteGenerator) (dest numHops : Nat) (rng : Rng) (a : Nat) (x : NewSurb C) (b : Nat) :
    Prop :=
  let size := fillerSize x.route.targets (.reply x.id)
  ∃ c, b = c + 32 + size + 32 ∧
    x.id = bytesAt rng a 16 ∧
    Uses rng (a + 16) c (fun r r' => g.genRoute r (.fromMixnode dest) numHops = .ok (.ok (x.route, r'))) ∧
    x.surb = surbBytes C (bytesAt rng c 32) (bytesAt rng (c + 32) size) x.route.first x.route.targets x.route.kxPublics
      x.id (bytesAt rng (c + 32 + size) 32) ∧
    x.keys = surbPayloadKeys C (bytesAt rng c 32) x.route.kxPublics (bytesAt rng (c + 32 + size) 32) ∧
    x.delay = packetDelay C (bytesAt rng c 32) x.route.kxPublics

/-- The packet is made of the numbers from `a` to `b - 1` only, each used for one purpose: first those for the route,
then those for the SURBs one after the other, then 32 for the secret key of the packet, then those that fill the header
up. -/
def PacketDraws {C : Crypto} (g : RouteGenerator) (dest numHops : Nat) (rng : Rng) (a : Nat) (p : NewPacket C) (b : Nat) :
    Prop :=
  let size := fillerSize p.route.targets .request
  ∃ c e, b = e + 32 + size ∧
    Uses rng a c (fun r r' => g.genRoute r (.toMixnode dest) numHops = .ok (.ok (p.route, r'))) ∧
    Chain (SurbDraws g dest numHops rng) c p.surbs e ∧
    p.packet.packet = requestPacketBytes C (bytesAt rng e 32) (bytesAt rng (e + 32) size) p.route.targets
      p.route.kxPublics p.fragment ∧
    p.delay = packetDelay C (bytesAt rng e 32) p.route.kxPublics

/-- The request is made of the random numbers of the call, each used for one purpose: first those for the destination,
if it is to be chosen, then those for the packets one after the other. -/
def RequestDraws {C : Crypto} (t : Topology) (ns : NetworkStatus) (d : Option MixnodeIndex) (dest numHops : Nat)
    (rng : Rng) (packets : List (NewPacket C)) : Prop :=
  ∃ g a b, RouteGenerator.new t ns = .ok g ∧ (d ≠ none → a = 0) ∧
    (d = none → Uses rng 0 a (fun r r' => g.chooseDestinationIndex r = .ok (.ok (dest, r')))) ∧
    Chain (PacketDraws g dest numHops rng) a packets b

end Mixnet.Spec
