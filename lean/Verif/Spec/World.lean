import Verif.Model.ToyCrypto
import Verif.Model.Api
/-!
# A small concrete network

Three mixnodes with the toy primitives, to show beside the theorems that their hypotheses can be met. Not a
model of any code.
-/
namespace Mixnet

/-- The value of a computation that does not panic. -/
def Res.get {α} (x : Res α) (h : x.isOk = true) : α :=
  match x, h with
  | .ok a, _ => a

theorem Res.eq_get {α} (x : Res α) (h : x.isOk = true) : x = .ok (x.get h) := by
  cases x with
  | error e => cases h
  | ok a => rfl

theorem Res.eq_get2 {α β} (x : Res (α × β)) (h : x.isOk = true) : x = .ok ((x.get h).1, (x.get h).2) := by
  cases x with
  | error e => cases h
  | ok a => rfl

/-- The computation does not panic and its outcome satisfies `p`. -/
def Res.says {α β} (x : Res (α × β)) (p : β → Bool) : Bool :=
  match x with
  | .ok a => p a.2
  | .error _ => false

theorem Res.of_says {α β} {x : Res (α × β)} {p : β → Bool} (h : x.says p = true) : ∃ a b, x = .ok (a, b) ∧ p b = true := by
  cases x with
  | error e => cases h
  | ok a => exact ⟨a.1, a.2, rfl, h⟩

namespace World

abbrev C := toyCrypto
def sec (b : UInt8) : Bytes := List.replicate 32 b
def peer (b : UInt8) : Bytes := List.replicate 32 (100 + b)
def mix (b : UInt8) : Mixnode := ⟨C.deriveKxPublic (sec b), peer b, 0⟩
/-- The mixnodes of session 0. Index 0 has secret key 3, index 1 has 5, index 2 has 7. -/
def mixes : List Mixnode := [mix 3, mix 5, mix 7]
def cfg (b : UInt8) : Config := { Config.default with session0KxSecret := some (sec b), numHops := 2 }
def ns (b : UInt8) : NetworkStatus := ⟨peer b, fun _ => true⟩
def rng : Rng := fun n => n

/-- Calls made one after the other. -/
def runAll (m : Node) : List Call → Res (Node × List Outcome)
  | [] => .ok (m, [])
  | c :: cs => do
    let (m, o) ← m.step C c
    let (m, os) ← runAll m cs
    .ok (m, o :: os)

theorem runAll_runs : ∀ {m : Node} {cs m' os}, runAll m cs = .ok (m', os) → Node.Runs C m cs os m' := by
  intro m cs
  induction cs generalizing m with
  | nil =>
    intro m' os h
    simp only [runAll, Except.ok.injEq, Prod.mk.injEq] at h
    obtain ⟨rfl, rfl⟩ := h
    exact .nil _
  | cons c cs ih =>
    intro m' os h
    unfold runAll at h
    obtain ⟨x, hx⟩ : ∃ x, m.step C c = x := ⟨_, rfl⟩
    rw [hx] at h
    cases x with
    | error e => cases h
    | ok p =>
      obtain ⟨m1, o⟩ := p
      obtain ⟨y, hy⟩ : ∃ y, runAll m1 cs = y := ⟨_, rfl⟩
      replace h : (do let (m, os) ← runAll m1 cs; Except.ok (m, o :: os)) = .ok (m', os) := h
      rw [hy] at h
      cases y with
      | error e => cases h
      | ok q =>
        obtain ⟨m2, os2⟩ := q
        replace h : (Except.ok (m2, o :: os2) : Res _) = .ok (m', os) := h
        simp only [Except.ok.injEq, Prod.mk.injEq] at h
        obtain ⟨rfl, rfl⟩ := h
        exact .cons hx (ih hy)

/-- Calls that make a node an active mixnode of session 0. -/
def setup : List Call :=
  [.setSessionStatus ⟨0, .requestsToCurrent⟩, .maybeSetMixnodes .current (.ok mixes) rng]

def startRes (b : UInt8) (calls : List Call) : Res (Node × List Outcome) := do
  let m ← Node.new C (cfg b)
  runAll m calls

theorem startRes_reachable {b calls m os} (h : startRes b calls = .ok (m, os))
    (hw : ∀ c ∈ calls, c.WellTyped) : Node.Reachable C (cfg b) m := by
  unfold startRes at h
  obtain ⟨x, hx⟩ : ∃ x, Node.new C (cfg b) = x := ⟨_, rfl⟩
  rw [hx] at h
  cases x with
  | error e => cases h
  | ok m0 => exact ⟨m0, calls, os, hx, hw, runAll_runs h⟩

theorem setup_typed : ∀ c ∈ setup, c.WellTyped := by
  intro c hc
  simp only [setup, List.mem_cons, List.not_mem_nil, or_false] at hc
  rcases hc with rfl | rfl
  · trivial
  · intro m hm
    simp only [mixes, List.mem_cons, List.not_mem_nil, or_false] at hm
    rcases hm with rfl | rfl | rfl <;> exact ⟨rfl, rfl⟩

/-- The mixnodes, set up. Alice (index 0) will post a request to Bob (index 1); it will be forwarded by
Carol (index 2). -/
theorem alice_ok : (startRes 3 setup).isOk = true := by decide +kernel
theorem bob_ok : (startRes 5 setup).isOk = true := by decide +kernel
theorem carol_ok : (startRes 7 setup).isOk = true := by decide +kernel
def alice : Node := ((startRes 3 setup).get alice_ok).1
def bob : Node := ((startRes 5 setup).get bob_ok).1
def carol : Node := ((startRes 7 setup).get carol_ok).1

theorem alice_reachable : Node.Reachable C (cfg 3) alice :=
  startRes_reachable (Res.eq_get2 _ alice_ok) setup_typed
theorem bob_reachable : Node.Reachable C (cfg 5) bob :=
  startRes_reachable (Res.eq_get2 _ bob_ok) setup_typed
theorem carol_reachable : Node.Reachable C (cfg 7) carol :=
  startRes_reachable (Res.eq_get2 _ carol_ok) setup_typed

/-- Alice's request, with one SURB. -/
def mid : Bytes := List.replicate 16 1
def ask : Call := .postRequest rng 0 (some 1) mid (Scattered.ofSlice [1, 2, 3]) 1 (ns 3)
theorem ask_typed : ask.WellTyped := ⟨by intro i hi; cases hi; decide, rfl, rfl, rfl⟩
theorem ask_ok : (alice.step C ask).isOk = true := by decide +kernel
/-- Alice after posting. -/
def alice1 : Node := ((alice.step C ask).get ask_ok).1
def askOut : Outcome := ((alice.step C ask).get ask_ok).2
theorem ask_step : alice.step C ask = .ok (alice1, askOut) := Res.eq_get2 _ ask_ok

/-- The packets waiting in a node's current session. -/
def waiting (m : Node) : List AddressedPacket :=
  match m.sessions.current with
  | .full s => s.authoredPacketQueue.queue
  | _ => []

/-- The packet of the request. -/
def packet0 : AddressedPacket := (waiting alice1).headD ⟨[], []⟩
theorem packet0_length : packet0.packet.length = 2252 := by decide +kernel
theorem packet0_peer : packet0.peerId = peer 7 := by decide +kernel

/-- Alice sends it. -/
def send : Call := .popNextAuthoredPacket (fun _ => 2 ^ 64 - 1) (ns 3)
theorem send_typed : send.WellTyped := rfl
theorem send_ok : (alice1.step C send).isOk = true := by decide +kernel
def aliceSent : Node := ((alice1.step C send).get send_ok).1
def sendOut : Outcome := ((alice1.step C send).get send_ok).2
theorem send_step : alice1.step C send = .ok (aliceSent, sendOut) := Res.eq_get2 _ send_ok
theorem sent : waiting alice1 = [packet0] ∧ waiting aliceSent = [] ∧
    (match sendOut with | .authoredPacket p => decide (p = some packet0) | _ => false) = true ∧
    aliceSent.events.spaceInAuthoredPacketQueue = true := by decide +kernel

/-- Carol forwards it. -/
def relay : Call := .handlePacket 1000 packet0.packet
theorem relay_typed : relay.WellTyped := packet0_length
theorem relay_ok : (carol.step C relay).isOk = true := by decide +kernel
def carol1 : Node := ((carol.step C relay).get relay_ok).1
def relayOut : Outcome := ((carol.step C relay).get relay_ok).2
theorem relay_step : carol.step C relay = .ok (carol1, relayOut) := Res.eq_get2 _ relay_ok
def packet1 : ForwardPacket := carol1.forwardPacketQueue.queue.headD ⟨0, ⟨[], []⟩⟩
theorem packet1_length : packet1.packet.packet.length = 2252 := by decide +kernel
theorem carol1_queue : carol1.forwardPacketQueue.queue = [packet1] ∧ packet1.packet.peerId = peer 5 ∧
    packet1.deadline = 6000001000 := by decide +kernel

/-- Bob gets it. -/
def arrive : Call := .handlePacket 5000 packet1.packet.packet
theorem arrive_typed : arrive.WellTyped := packet1_length
theorem arrive_ok : (bob.step C arrive).isOk = true := by decide +kernel
def bob1 : Node := ((bob.step C arrive).get arrive_ok).1
def arriveOut : Outcome := ((bob.step C arrive).get arrive_ok).2
theorem arrive_step : bob.step C arrive = .ok (bob1, arriveOut) := Res.eq_get2 _ arrive_ok

/-- The SURBs that came with the request. -/
def surbs : List Surb :=
  match arriveOut with
  | .message (some (.request r)) => r.surbs
  | _ => []

theorem arrived : (match arriveOut with
    | .message (some (.request r)) => decide (r.sessionIndex = 0 ∧ r.id = mid ∧ r.data = [1, 2, 3] ∧ r.surbs.length = 1 ∧
        ∀ s ∈ r.surbs, s.length = 222)
    | _ => false) = true := by decide +kernel

/-- Bob replies. -/
def answer : Call := .postReply surbs 0 (List.replicate 16 9) (Scattered.ofSlice [7, 8])
theorem answer_typed : answer.WellTyped := ⟨by decide +kernel, rfl, rfl⟩
theorem answer_ok : (bob1.step C answer).isOk = true := by decide +kernel
def bob2 : Node := ((bob1.step C answer).get answer_ok).1
def answerOut : Outcome := ((bob1.step C answer).get answer_ok).2
theorem answer_step : bob1.step C answer = .ok (bob2, answerOut) := Res.eq_get2 _ answer_ok
def packet2 : AddressedPacket := (waiting bob2).headD ⟨[], []⟩
theorem packet2_length : packet2.packet.length = 2252 := by decide +kernel

theorem packet2_peer : packet2.peerId = peer 7 := by decide +kernel

/-- Carol forwards the reply. -/
def relay2 : Call := .handlePacket 6000 packet2.packet
theorem relay2_typed : relay2.WellTyped := packet2_length
theorem relay2_ok : (carol1.step C relay2).isOk = true := by decide +kernel
def carol2 : Node := ((carol1.step C relay2).get relay2_ok).1
def relay2Out : Outcome := ((carol1.step C relay2).get relay2_ok).2
theorem relay2_step : carol1.step C relay2 = .ok (carol2, relay2Out) := Res.eq_get2 _ relay2_ok
def packet3 : ForwardPacket := carol2.forwardPacketQueue.queue.headD ⟨0, ⟨[], []⟩⟩
theorem packet3_length : packet3.packet.packet.length = 2252 := by decide +kernel
theorem packet3_peer : packet3.packet.peerId = peer 3 := by decide +kernel

/-- Alice gets it. -/
def back : Call := .handlePacket 7000 packet3.packet.packet
theorem back_typed : back.WellTyped := packet3_length
theorem back_ok : (alice1.step C back).isOk = true := by decide +kernel
def alice2 : Node := ((alice1.step C back).get back_ok).1
def backOut : Outcome := ((alice1.step C back).get back_ok).2
theorem back_step : alice1.step C back = .ok (alice2, backOut) := Res.eq_get2 _ back_ok

theorem came_back : (match backOut with
    | .message (some (.reply r)) => decide (r.requestId = mid ∧ r.data = [7, 8])
    | _ => false) = true := by decide +kernel

/-- What `arrived` says. -/
theorem arriveOut_eq : ∃ r, arriveOut = .message (some (.request r)) ∧ r.sessionIndex = 0 ∧ r.id = mid ∧
    r.data = [1, 2, 3] ∧ r.surbs.length = 1 := by
  have h := arrived
  generalize arriveOut = o at *
  match o, h with
  | .message (some (.request r)), h =>
    have := of_decide_eq_true h
    exact ⟨r, rfl, this.1, this.2.1, this.2.2.1, this.2.2.2.1⟩

theorem backOut_eq : ∃ r, backOut = .message (some (.reply r)) ∧ r.requestId = mid ∧ r.data = [7, 8] := by
  have h := came_back
  generalize backOut = o at *
  match o, h with
  | .message (some (.reply r)), h =>
    have := of_decide_eq_true h
    exact ⟨r, rfl, this.1, this.2⟩

theorem askOut_eq : ∃ met, askOut = .posted (some 1) (.ok met) := by
  have h : (match askOut with | .posted d (.ok _) => decide (d = some 1) | _ => false) = true := by decide +kernel
  generalize askOut = o at *
  match o, h with
  | .posted d (.ok met), h => rw [of_decide_eq_true h]; exact ⟨met, rfl⟩

theorem answerOut_eq : ∃ surbs', answerOut = .replied surbs' (.ok ()) := by
  have h : (match answerOut with | .replied _ (.ok _) => true | _ => false) = true := by decide +kernel
  generalize answerOut = o at *
  match o, h with
  | .replied s (.ok ()), h => exact ⟨s, rfl⟩

/-- Alice, with nothing to send, sends a cover packet to Bob by way of Carol. -/
def idle : Call := .popNextAuthoredPacket (fun n => 2 ^ 64 - 1 - n) (ns 3)
theorem idle_typed : idle.WellTyped := rfl
theorem idle_ok : (alice.step C idle).isOk = true := by decide +kernel
def aliceIdle : Node := ((alice.step C idle).get idle_ok).1
def idleOut : Outcome := ((alice.step C idle).get idle_ok).2
theorem idle_step : alice.step C idle = .ok (aliceIdle, idleOut) := Res.eq_get2 _ idle_ok
def cover0 : Bytes :=
  match idleOut with
  | .authoredPacket (some p) => p.packet
  | _ => []
theorem cover0_length : cover0.length = 2252 := by decide +kernel
def relayCover : Call := .handlePacket 1000 cover0
theorem relayCover_typed : relayCover.WellTyped := cover0_length
theorem relayCover_ok : (carol.step C relayCover).isOk = true := by decide +kernel
def carolCover : Node := ((carol.step C relayCover).get relayCover_ok).1
def cover1 : ForwardPacket := carolCover.forwardPacketQueue.queue.headD ⟨0, ⟨[], []⟩⟩
theorem cover1_length : cover1.packet.packet.length = 2252 := by decide +kernel
theorem cover1_peer : cover1.packet.peerId = peer 5 := by decide +kernel

attribute [irreducible] aliceIdle idleOut cover0 carolCover cover1 alice bob carol alice1 askOut packet0 aliceSent sendOut carol1 relayOut packet1 bob1 arriveOut
  surbs bob2 answerOut packet2 carol2 relay2Out packet3 alice2 backOut

end World
end Mixnet
