import Verif.Spec.Posting
/-!
# What is sent, and how often
-/
namespace Mixnet.Spec

/-- The current session, if its mixnodes are known and it is not disabled. -/
def currentSession (m : Node) : Option Session := m.sessionAt m.sessionStatus.currentIndex

/-- The previous session, likewise. -/
def previousSession (m : Node) : Option Session :=
  match m.sessionStatus.currentIndex with
  | 0 => none
  | i + 1 => m.sessionAt i

/-- The peers a node has to stay connected to because of a session: for a mixnode all the others, otherwise
the configured number of different mixnodes, if there are as many; these are its gateways. -/
def PeersOf (numGateways : Nat) (s : Session) (ps : List Mixnode) : Prop :=
  (∃ i mx, s.topology.mixnodes[i]? = some mx ∧ mx.kxPublic = s.kxPair.pub ∧ s.topology.localNode = .mixnode i ∧
    ps = s.topology.mixnodes.eraseIdx i) ∨
  ((∀ mx ∈ s.topology.mixnodes, mx.kxPublic ≠ s.kxPair.pub) ∧
    ∃ gateways : List Nat, s.topology.localNode = .nonMixnode gateways ∧ gateways.Nodup ∧
      gateways.length = min numGateways s.topology.mixnodes.length ∧
      ps.map some = gateways.map (s.topology.mixnodes[·]?))

/-- A mixnode cover packets may be sent to: not the local one, nor the only connected gateway. -/
def CoverDestination (t : Topology) (ns : NetworkStatus) (d : Nat) : Prop :=
  d < t.mixnodes.length ∧ t.localNode ≠ .mixnode d ∧ ¬ ConnectedGateways t ns [d]

/-- A cover packet: built, without an identifier, for a generated route that is a loop or leads to a random
mixnode (not the local one, nor the only connected gateway), and addressed to the first hop. -/
def CoverBuilt (C : Crypto) (t : Topology) (ns : NetworkStatus) (numHops : Nat) (loop : Bool) (p : AddressedPacket) : Prop :=
  ∃ kind route, Generated t ns kind numHops route ∧
    (loop = true → kind = .loop) ∧
    (loop = false → ∃ d, kind = .toMixnode d ∧ CoverDestination t ns d) ∧
    (∃ mx, t.mixnodes[route.first]? = some mx ∧ p.peerId = mx.peerId) ∧
    ∃ (old : Bytes) (rng rng' : Rng) (delay : C.Delay), old.length = PACKET_SIZE ∧
      buildCoverPacket C old rng route.targets route.kxPublics none = .ok (p.packet, delay, rng')

/-- There is a route for a cover packet. -/
def CoverPossible (t : Topology) (ns : NetworkStatus) (numHops : Nat) : (loop : Bool) → Prop
  | true => ∃ inner, Fits t ns .loop numHops inner
  | false => ∃ d inner, CoverDestination t ns d ∧ Fits t ns (.toMixnode d) numHops inner

/-- How many packets per nanosecond a session should send on its own. -/
def rate (s : Session) : Rat := 1 / (s.meanAuthoredPacketPeriod : Rat)

/-- Out of the `2 ^ 64` equally likely values of a draw, those below `n` give `true`, for `n` the largest
number with `n / 2 ^ 64 ≤ p`; so `true` has probability `p`, rounded down to a multiple of `2 ^ -64`. -/
def WithProbability (p : Rat) (f : Nat → Bool) : Prop :=
  ∃ n : Nat, (n : Rat) ≤ p * 2 ^ 64 ∧ p * 2 ^ 64 < n + 1 ∧ ∀ x < 2 ^ 64, f x = decide (x < n)

end Mixnet.Spec
