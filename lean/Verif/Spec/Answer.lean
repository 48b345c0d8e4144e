import Verif.Spec.Posting
import Mathlib.Data.Nat.Lattice
/-!
# What posting answers

The answer to a request, from the configuration, the phase, the topology, the connectivity and the length of
the queue. No random numbers.
-/
namespace Mixnet.Spec
open Classical

/-- The session with index `i`, or why it cannot be used for posting. -/
noncomputable def sessionAnswer (m : Node) (i : Nat) : Except PostErr Session :=
  if NoLonger m.sessionStatus i then .error (.sessionNoLongerActive i)
  else if NotYet m.sessionStatus i then .error (.sessionNotActiveYet i)
  else match slotOf m i with
    | .empty => .error (.sessionMixnodesNotKnown i)
    | .kxPair _ => .error (.sessionMixnodesNotKnown i)
    | .disabled => .error (.sessionDisabled i)
    | .full s => .ok s

/-- Whether a message of `len` bytes with `n` SURBs has room in the queue: refused for good if it cannot even
fit into the empty queue. -/
noncomputable def queueAnswer (q : AuthoredPacketQueue) (len n : Nat) : Except PostErr Unit :=
  if ∃ k, 1 ≤ k ∧ CanCarry k len n ∧ Admits q.config q.queue.length k then .ok ()
  else if ∃ k, 1 ≤ k ∧ CanCarry k len n ∧ k ≤ q.config.capacity then .error .notEnoughSpaceInQueue
  else .error .tooManyFragments

/-- A destination that may be used: the given one; if none is given any mixnode but the local node and the
only connected gateway. -/
def Candidate (t : Topology) (ns : NetworkStatus) (d : Option Nat) (dest : Nat) : Prop :=
  match d with
  | some j => dest = j
  | none => dest < t.mixnodes.length ∧ t.localNode ≠ .mixnode dest ∧ ¬ ConnectedGateways t ns [dest]

/-- Whether there is a route to the destination, or if none is given to any candidate. -/
noncomputable def routeAnswer (t : Topology) (ns : NetworkStatus) (d : Option Nat) (numHops : Nat) : Except PostErr Unit :=
  if ∃ dest inner, Candidate t ns d dest ∧ Fits t ns (.toMixnode dest) numHops inner then .ok ()
  else if ConnectedGateways t ns [] ∧ t.mixnodes ≠ [] then .error (.topology .noConnectedGatewayMixnodes)
  else .error (.topology .tooFewMixnodes)

/-- The answer to a request of `len` bytes with `n` SURBs. -/
noncomputable def requestAnswer (m : Node) (i : Nat) (d : Option Nat) (len n : Nat) (ns : NetworkStatus) :
    Except PostErr Unit :=
  if ¬ ∃ k, 1 ≤ k ∧ k ≤ m.config.maxFragmentsPerMessage ∧ k ≤ 65536 ∧ CanCarry k len n then .error .tooManyFragments
  else match sessionAnswer m i with
    | .error e => .error e
    | .ok s => match queueAnswer s.authoredPacketQueue len n with
      | .error e => .error e
      | .ok () => routeAnswer s.topology ns d m.config.numHops

/-- The least number of packets for a message of `len` bytes with `n` SURBs. -/
noncomputable def fewest (len n : Nat) : Nat := sInf {k | 1 ≤ k ∧ CanCarry k len n}

/-- Whether a SURB can be used: the first hop it names must be a mixnode of the session. -/
def surbAnswer (t : Topology) (surb : Surb) : Except PostErr Unit :=
  if 0xfeff < u16At surb 0 then .error .badSurb
  else if t.mixnodes.length ≤ u16At surb 0 then .error (.topology (.badMixnodeIndex (u16At surb 0)))
  else .ok ()

/-- The first error of a list of answers. -/
def firstError : List (Except PostErr Unit) → Except PostErr Unit
  | [] => .ok ()
  | .error e :: _ => .error e
  | .ok () :: rest => firstError rest

/-- The answer to a reply of `len` bytes. The SURBs are used from the end of the list. -/
noncomputable def replyAnswer (m : Node) (surbs : List Surb) (i : Nat) (len : Nat) : Except PostErr Unit :=
  if ¬ ∃ k, 1 ≤ k ∧ k ≤ m.config.maxFragmentsPerMessage ∧ k ≤ surbs.length ∧ k ≤ 65536 ∧ CanCarry k len 0 then
    .error .tooManyFragments
  else match sessionAnswer m i with
    | .error e => .error e
    | .ok s => match queueAnswer s.authoredPacketQueue len 0 with
      | .error e => .error e
      | .ok () => firstError ((surbs.reverse.take (fewest len 0)).map (surbAnswer s.topology))

end Mixnet.Spec
