import Verif.Model.Topology
import Verif.Model.ReplayFilter
/-!
# `src/core/kx_pair.rs` and `src/core/sessions.rs`
-/
namespace Mixnet

/-- `KxPair`, `/repo/src/core/kx_pair.rs:29-33` -/
structure KxPair where
  secret : KxSecret
  pub : KxPublic
deriving Repr, DecidableEq

namespace KxPair

/-- `From<KxSecret>`, `/repo/src/core/kx_pair.rs:49-58` -/
def ofSecret (C : Crypto) (secret : KxSecret) : KxPair := ⟨secret, C.deriveKxPublic secret⟩

/-- `gen`, `/repo/src/core/kx_pair.rs:36-38` -/
def gen (C : Crypto) (rng : Rng) : KxPair × Rng :=
  let (secret, rng) := Crypto.genKxSecret rng
  (ofSecret C secret, rng)

/-- `exchange`, `/repo/src/core/kx_pair.rs:44-46` -/
def exchange (C : Crypto) (k : KxPair) (theirPublic : KxPublic) : SharedSecret :=
  C.deriveKxSharedSecret theirPublic k.secret

end KxPair

/-- `Session`, `/repo/src/core/sessions.rs:33-47` -/
structure Session where
  kxPair : KxPair
  topology : Topology
  authoredPacketQueue : AuthoredPacketQueue
  meanAuthoredPacketPeriod : Nat
  replayFilter : ReplayFilter

/-- `SessionIndex`, `/repo/src/core/sessions.rs:50`. A `u32`; the code only compares and subtracts
indices, so its bound plays no role. -/
notation "SessionIndex" => Nat

/-- `RelSessionIndex`, `/repo/src/core/sessions.rs:52-59` -/
inductive RelSessionIndex where
  | current
  | prev
deriving Repr, DecidableEq

namespace RelSessionIndex

/-- `from_session_index`, `/repo/src/core/sessions.rs:64-73` -/
def fromSessionIndex (index current : SessionIndex) : Option RelSessionIndex :=
  if current < index then none  -- checked_sub
  else
    match current - index with
    | 0 => some .current
    | 1 => some .prev
    | _ => none

/-- `Add<SessionIndex>`, `/repo/src/core/sessions.rs:76-85` -/
def add : RelSessionIndex → SessionIndex → Res SessionIndex
  | .current, other => .ok other
  | .prev, other => if 1 ≤ other then .ok (other - 1) else panic "Session index underflow"

end RelSessionIndex

/-- `SessionSlot`, `/repo/src/core/sessions.rs:87-93` -/
inductive SessionSlot where
  | empty
  | kxPair (k : KxPair)
  | disabled
  | full (s : Session)

namespace SessionSlot

/-- `is_empty`, `/repo/src/core/sessions.rs:96-98` -/
def isEmpty : SessionSlot → Bool
  | .empty => true
  | _ => false

/-- `as_option`, `as_mut_option`, `/repo/src/core/sessions.rs:100-112` -/
def asOption : SessionSlot → Option Session
  | .full s => some s
  | _ => none

end SessionSlot

/-- `Sessions`, `/repo/src/core/sessions.rs:115-118` -/
structure Sessions where
  current : SessionSlot
  prev : SessionSlot

namespace Sessions

/-- `is_empty`, `/repo/src/core/sessions.rs:121-123` -/
def isEmpty (s : Sessions) : Bool := s.current.isEmpty && s.prev.isEmpty

/-- `iter`, `/repo/src/core/sessions.rs:125-129` -/
def iter (s : Sessions) : List Session := [s.current, s.prev].filterMap SessionSlot.asOption

/-- `enumerate_mut`, `/repo/src/core/sessions.rs:132-136`. Writing through the references is `set`. -/
def enumerate (s : Sessions) : List (RelSessionIndex × Session) :=
  [(RelSessionIndex.current, s.current), (RelSessionIndex.prev, s.prev)].filterMap
    fun e => e.2.asOption.map fun session => (e.1, session)

/-- `Index`, `/repo/src/core/sessions.rs:139-148` -/
def get (s : Sessions) : RelSessionIndex → SessionSlot
  | .current => s.current
  | .prev => s.prev

/-- `IndexMut`, `/repo/src/core/sessions.rs:150-157` -/
def set (s : Sessions) (i : RelSessionIndex) (slot : SessionSlot) : Sessions :=
  match i with
  | .current => { s with current := slot }
  | .prev => { s with prev := slot }

end Sessions

/-- `SessionPhase`, `/repo/src/core/sessions.rs:159-173` -/
inductive SessionPhase where
  | coverToCurrent
  | requestsToCurrent
  | coverToPrev
  | disconnectFromPrev
deriving Repr, DecidableEq

namespace SessionPhase

/-- The derived order, `/repo/src/core/sessions.rs:160` -/
def rank : SessionPhase → Nat
  | .coverToCurrent => 0
  | .requestsToCurrent => 1
  | .coverToPrev => 2
  | .disconnectFromPrev => 3

/-- `need_prev`, `/repo/src/core/sessions.rs:177-179` -/
def needPrev (p : SessionPhase) : Bool := decide (p.rank < rank .disconnectFromPrev)

/-- `allow_requests_and_replies`, `/repo/src/core/sessions.rs:183-188` -/
def allowRequestsAndReplies (p : SessionPhase) : RelSessionIndex → Bool
  | .prev => decide (p.rank < rank .coverToPrev)
  | .current => decide (p.rank ≥ rank .requestsToCurrent)

/-- `default_request_session`, `/repo/src/core/sessions.rs:191-197` -/
def defaultRequestSession (p : SessionPhase) : RelSessionIndex :=
  if p.rank ≥ rank .requestsToCurrent then .current else .prev

end SessionPhase

/-- `SessionStatus`, `/repo/src/core/sessions.rs:211-218` -/
structure SessionStatus where
  currentIndex : SessionIndex
  phase : SessionPhase
deriving Repr, DecidableEq

end Mixnet
