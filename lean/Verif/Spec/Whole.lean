import Verif.Spec.Network
import Verif.Props.Posting
/-!
# A whole network

Any number of machines, each with a node, and everything that happens at them, in the order in which it happens. The
network between them may lose, delay, reorder, duplicate and misdeliver packets.
-/
namespace Mixnet.Spec

/-- Who is who: for every session, the mixnodes and their keys; for every machine and session, its secret key; and which
machine each mixnode is. -/
structure Layout (C : Crypto) where
  net : SessionIndex → Network C
  key : Nat → SessionIndex → KxSecret
  host : SessionIndex → MixnodeIndex → Nat
  indexed : ∀ i, (net i).session = i
  hosted : ∀ i d k, (net i).keys[d]? = some k → k = key (host i d) i

/-- A call made at a machine and its outcome. If a request was posted, `packets` are the packets made. -/
structure Event (C : Crypto) where
  machine : Nat
  call : Call
  out : Outcome
  packets : List (NewPacket C)

/-- `packets` are the packets made by the call, which took the node from `m` to `m'`. -/
def Event.Records {C : Crypto} (e : Event C) (m m' : Node) : Prop :=
  match e.call, e.out with
  | .postRequest _ i d mid data n ns, .posted d' (.ok met) =>
    ∃ s dest, Props.PostedRequest C m i d mid data.toVec n ns m' d' met s dest e.packets
  | _, _ => e.packets = []

variable {C : Crypto}

/-- The packets sent so far. -/
def sentPackets (es : List (Event C)) : List Bytes :=
  es.flatMap fun e => match e.out with
    | .forwardPacket (some p) => [p.packet]
    | .authoredPacket (some p) => [p.packet]
    | _ => []

/-- The SURBs that came with the requests delivered to machine `j` so far. -/
def deliveredSurbs (j : Nat) (es : List (Event C)) : List Surb :=
  es.flatMap fun e => match e.out with
    | .message (some (.request msg)) => if e.machine = j then msg.surbs else []
    | _ => []

/-- What may be called at machine `j` after `es` has happened: packets to be handled have been sent (by any machine, to
any machine), and replies are posted with SURBs that have been delivered to the machine. -/
def Allowed (es : List (Event C)) (j : Nat) : Call → Prop
  | .handlePacket _ packet => packet ∈ sentPackets es
  | .postReply surbs _ _ _ => ∀ s ∈ surbs, s ∈ deliveredSurbs j es
  | _ => True

/-- The node, of machine `j`, knows the right mixnodes in its sessions, and has the right keys. -/
def Agrees (L : Layout C) (j : Nat) (n : Node) : Prop :=
  ∀ i s, n.sessionAt i = some s → s.kxPair.secret = L.key j i ∧ s.topology.mixnodes = (L.net i).mixnodes

/-- What can happen in a network, and the nodes afterwards. -/
inductive History (C : Crypto) (L : Layout C) (config : Nat → Config) : List (Event C) → (Nat → Node) → Prop
  | start {nodes} : (∀ j, Node.new C (config j) = .ok (nodes j)) → History C L config [] nodes
  | step {es nodes n'} (e : Event C) : History C L config es nodes → e.call.WellTyped → Allowed es e.machine e.call →
      (nodes e.machine).step C e.call = .ok (n', e.out) → e.Records (nodes e.machine) n' → Agrees L e.machine n' →
      History C L config (es ++ [e]) (Function.update nodes e.machine n')

/-- The holder of the key can open the packet. -/
def Opens (C : Crypto) (key : KxSecret) (packet : Bytes) : Prop :=
  ∃ out a, peel C zeroPacket packet (C.deriveKxSharedSecret (kxPublicOf packet) key) = .ok (out, .ok a)

/-- No packet sent can be opened by two machines, or in two sessions. (It needs a collision of MACs.) -/
def OpenedByOne (L : Layout C) (es : List (Event C)) : Prop :=
  ∀ p ∈ sentPackets es, ∀ j i j' i', Opens C (L.key j i) p → Opens C (L.key j' i') p → j = j' ∧ i = i'

/-- A request posted: session, destination, message ID, data, number of SURBs. -/
def Event.request (e : Event C) : Option (SessionIndex × MixnodeIndex × MessageId × Bytes × Nat) :=
  match e.call, e.out with
  | .postRequest _ i _ mid data n _, .posted (some dest) (.ok _) => some (i, dest, mid, data.toVec, n)
  | _, _ => none

/-- A reply posted, or tried to: SURBs, message ID, data. -/
def Event.reply (e : Event C) : Option (List Surb × MessageId × Bytes) :=
  match e.call with
  | .postReply surbs _ mid data => some (surbs, mid, data.toVec)
  | _ => none

/-- The SURBs made by a call. -/
def Event.surbs (e : Event C) : List (NewSurb C) := e.packets.flatMap (·.surbs)

/-- The request posted, if any, was posted to machine `j`. -/
def Event.RequestTo (L : Layout C) (e : Event C) (j : Nat) : Prop :=
  ∃ i d mid l n, e.request = some (i, d, mid, l, n) ∧ L.host i d = j

/-- The request `r` that machine `j` got was posted to it: some event in `es` posted it, in the session the request claims,
to a mixnode that is the machine, with the same message ID and data, and asking for as many SURBs as came with it. And
all these SURBs were made when it was posted (maybe more than once) to this machine. -/
def RequestCaused (L : Layout C) (es : List (Event C)) (j : Nat) (r : RequestMessage) : Prop :=
  ∃ e ∈ es, ∃ d n, e.request = some (r.sessionIndex, d, r.id, r.data, n) ∧ L.host r.sessionIndex d = j ∧
    r.surbs.length = n ∧
    ∀ s ∈ r.surbs, ∃ e' ∈ es, ∃ x ∈ e'.surbs, x.surb = s ∧
      ∃ i' d', e'.request = some (i', d', r.id, r.data, n) ∧ L.host i' d' = j

/-- The reply `r` that machine `j` got was posted for it: some event in `es` posted at this machine a request with the ID
the reply claims to answer, and some event at the machine that the request was posted to posted a reply with the same
data, using a SURB that was made for the request. -/
def ReplyCaused (L : Layout C) (es : List (Event C)) (j : Nat) (r : ReplyMessage) : Prop :=
  ∃ e ∈ es, ∃ e' ∈ es, e.machine = j ∧ ∃ i d l n, e.request = some (i, d, r.requestId, l, n) ∧ L.host i d = e'.machine ∧
    ∃ surbs mid, e'.reply = some (surbs, mid, r.data) ∧ ∃ x ∈ e.surbs, x.surb ∈ surbs

/-- How often machine `j` got a request with this message ID. -/
def timesDelivered (es : List (Event C)) (j : Nat) (mid : MessageId) : Nat :=
  es.countP fun e => decide (e.machine = j) && match e.out with
    | .message (some (.request r)) => decide (r.id = mid)
    | _ => false

/-- How often a request with this message ID was posted to machine `j`. -/
def timesPosted (L : Layout C) (es : List (Event C)) (j : Nat) (mid : MessageId) : Nat :=
  es.countP fun e => match e.request with
    | some (i, d, mid', _, _) => decide (L.host i d = j ∧ mid' = mid)
    | none => false

/-- No machine goes back to an earlier session. -/
def SessionsAdvance (es : List (Event C)) : Prop :=
  ∀ a e b, es = a ++ e :: b → ∀ st, e.call = .setSessionStatus st →
    ∀ e' ∈ a, e'.machine = e.machine → ∀ st', e'.call = .setSessionStatus st' → st'.currentIndex ≤ st.currentIndex

/-- A message ID stands for one message: what is posted with the same ID is the same. -/
structure IdsMean (es : List (Event C)) : Prop where
  requests : ∀ e ∈ es, ∀ e' ∈ es, ∀ i d i' d' mid l l' n n', e.request = some (i, d, mid, l, n) →
    e'.request = some (i', d', mid, l', n') → l = l' ∧ n = n'
  replies : ∀ e ∈ es, ∀ e' ∈ es, ∀ surbs surbs' mid l l', e.reply = some (surbs, mid, l) →
    e'.reply = some (surbs', mid, l') → l = l'
  kinds : ∀ e ∈ es, ∀ e' ∈ es, ∀ i d mid l n surbs l', e.request = some (i, d, mid, l, n) →
    e'.reply ≠ some (surbs, mid, l')

/-- A SURB ID stands for one SURB: no machine has made two with the same ID. -/
def SurbsDiffer (es : List (Event C)) : Prop :=
  ∀ e ∈ es, ∀ e' ∈ es, ∀ x ∈ e.surbs, ∀ x' ∈ e'.surbs, e.machine = e'.machine → x.id = x'.id → e = e' ∧ x = x'

end Mixnet.Spec
