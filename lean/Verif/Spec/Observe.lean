import Verif.Spec.Sending
/-!
# What somebody watching a node's network traffic sees

Not a model of any code: vocabulary for the property that this does not depend on what the user posts.
-/
namespace Mixnet.Spec

/-- The calls that the user of a node decides on privately: posting, and looking at the pending events. All other
calls are driven by the clock, by the chain and by the network. -/
def Private : Call → Bool
  | .postRequest .. | .postReply .. | .takeEvents => true
  | _ => false

/-- What can be seen of a call from outside. -/
inductive Seen where
  /-- A forwarded packet: when, to whom and what. `none`: nothing was due. -/
  | forwarded (p : Option AddressedPacket)
  /-- Whether a packet authored by the node was sent. (All packets have the same size; the bytes are
  encrypted.) -/
  | authored (sent : Bool)
  /-- The public key announced for the next session. -/
  | key (k : KxPublic)
deriving DecidableEq

/-- What is seen of one call. -/
def seenOf : Call × Outcome → Option Seen
  | (_, .forwardPacket p) => some (.forwarded p)
  | (_, .authoredPacket p) => some (.authored p.isSome)
  | (_, .kxPublic k) => some (.key k)
  | _ => none

/-- What is seen of a history. -/
def observed (calls : List Call) (outs : List Outcome) : List Seen := (calls.zip outs).filterMap seenOf

/-- Whenever in this history a packet is due to be sent, there would be a route for a cover packet of either
kind, in either session. -/
def CoverAlwaysPossible (C : Crypto) (m : Node) (calls : List Call) : Prop :=
  ∀ before outs rng ns rest now, calls = before ++ .popNextAuthoredPacket rng ns :: rest →
    Node.Runs C m before outs now → ∀ s loop, (currentSession now = some s ∨ previousSession now = some s) →
    CoverPossible s.topology ns now.config.numHops loop

end Mixnet.Spec
