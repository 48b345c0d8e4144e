import Verif.Proofs.WholeOnce
/-!
# C73, C74: a whole network
-/
namespace Mixnet.Props
open Mixnet.Spec

variable {C : Crypto} {L : Layout C} {config : Nat → Config} {es : List (Event C)} {nodes : Nat → Node}

/-! ### C73 -/

/-- Every request a machine gets was posted to it, with the same message ID and data, in the session it claims, and comes
with as many SURBs as were asked for, all of them made for it. -/
theorem requests_have_cause (hC : CryptoLaws C) (hk : ∀ j, (config j).numHops ≤ 6) (h : History C L config es nodes)
    (hids : IdsMean es) (hdiff : SurbsDiffer es) (hone : OpenedByOne L es) {before after : List (Event C)} {e : Event C}
    (he : es = before ++ e :: after) {r : RequestMessage} (hout : e.out = .message (some (.request r))) :
    RequestCaused L before e.machine r :=
  ((whole_sound hC hk h hids hdiff hone).caused before e after he).request r hout

/-- Every reply a machine gets was posted, with the same data, by the machine that the request it claims to answer was
posted to, using one of the SURBs made for that request, and that request was posted by the machine that gets the
reply. -/
theorem replies_have_cause (hC : CryptoLaws C) (hk : ∀ j, (config j).numHops ≤ 6) (h : History C L config es nodes)
    (hids : IdsMean es) (hdiff : SurbsDiffer es) (hone : OpenedByOne L es) {before after : List (Event C)} {e : Event C}
    (he : es = before ++ e :: after) {r : ReplyMessage} (hout : e.out = .message (some (.reply r))) :
    ReplyCaused L before e.machine r :=
  ((whole_sound hC hk h hids hdiff hone).caused before e after he).reply r hout

/-- Nothing is assumed by recording packets: what was made by a call can always be recorded. -/
theorem records_exist (hC : CryptoLaws C) {c : Config} {m m' : Node} (hk : c.numHops ≤ 6) (hreach : Node.Reachable C c m)
    {call : Call} {out : Outcome} (hw : call.WellTyped) (h : m.step C call = .ok (m', out)) (j : Nat) :
    ∃ packets, (⟨j, call, out, packets⟩ : Event C).Records m m' := by
  cases call with
  | postRequest rng i d mid data n ns =>
    obtain ⟨d', r, rfl⟩ : ∃ d' r, out = .posted d' r := by
      have hc := Node.step_cases hC (hreach.inv hC).1 hw h
      cases hc with
      | post _ _ _ _ _ _ _ _ d' r => exact ⟨d', r, rfl⟩
    cases r with
    | error => exact ⟨[], rfl⟩
    | ok met =>
      obtain ⟨s, dest, packets, hp, -⟩ := request_posted hC hreach hk hw (Denotes.of_wf hw.2.2.1) h
      exact ⟨packets, s, dest, hp⟩
  | _ => exact ⟨[], rfl⟩

/-- The nodes in a network are nodes: what is proved of any node that is used in any way holds of them. -/
theorem nodes_reachable (hC : CryptoLaws C) (h : History C L config es nodes) (j : Nat) :
    Node.Reachable C (config j) (nodes j) := by
  induction h with
  | start hnew => exact ⟨_, [], [], hnew j, fun c h => (by cases h), .nil _⟩
  | step e hh hw hal hstep hrec hagree ih =>
    by_cases hj : j = e.machine
    · subst hj; rw [Function.update_self]; exact ih.step hC hw hstep
    · rw [Function.update_of_ne hj]; exact ih

/-! ### C74 -/

/-- A machine gets a request at most as often as it was posted to it, whatever the network does with the packets. -/
theorem delivered_at_most_as_posted (hC : CryptoLaws C) (hk : ∀ j, (config j).numHops ≤ 6)
    (h : History C L config es nodes) (hids : IdsMean es) (hdiff : SurbsDiffer es) (hone : OpenedByOne L es)
    (hadv : SessionsAdvance es) (j : Nat) (mid : MessageId) :
    timesDelivered es j mid ≤ timesPosted L es j mid :=
  at_most_as_posted hC hk h hids hdiff hone hadv j mid

end Mixnet.Props

/-! ### The hypotheses can be met -/
namespace Mixnet.World
open Mixnet.Spec Mixnet.Props

/-- Machines 0, 1 and 2 are Alice, Bob and Carol; there are mixnodes in session 0 only. -/
def layout : Layout C where
  net i := if i = 0 then net0 else ⟨i, [], [], rfl, List.nodup_nil⟩
  key j i := if i = 0 then (if j = 0 then sec 3 else if j = 1 then sec 5 else if j = 2 then sec 7 else sec 9) else sec 9
  host _ d := d
  indexed i := by by_cases h : i = 0 <;> simp [h, net0]
  hosted i d k h := by
    by_cases hi : i = 0
    · subst hi
      rw [if_pos rfl] at h ⊢
      match d, h with
      | 0, h => cases h; rfl
      | 1, h => cases h; rfl
      | 2, h => cases h; rfl
    · rw [if_neg hi] at h
      cases h

def configs (j : Nat) : Config := if j = 0 then cfg 3 else if j = 1 then cfg 5 else cfg 7

/-- Alice, Bob, Carol, and everybody else. -/
def put (a b c rest : Node) (j : Nat) : Node := if j = 0 then a else if j = 1 then b else if j = 2 then c else rest

theorem put_alice {a b c rest a'} : Function.update (put a b c rest) 0 a' = put a' b c rest := by
  funext j
  by_cases h : j = 0
  · subst h; rw [Function.update_self]; rfl
  · rw [Function.update_of_ne h]; simp [put, h]
theorem put_bob {a b c rest a'} : Function.update (put a b c rest) 1 a' = put a a' c rest := by
  funext j
  by_cases h : j = 1
  · subst h; rw [Function.update_self]; rfl
  · rw [Function.update_of_ne h]; simp [put, h]
theorem put_carol {a b c rest a'} : Function.update (put a b c rest) 2 a' = put a b a' rest := by
  funext j
  by_cases h : j = 2
  · subst h; rw [Function.update_self]; rfl
  · rw [Function.update_of_ne h]; simp [put, h]

/-- The node's session 0, if it has it, is the right one, and it has no other. -/
def agreesB (key : KxSecret) (n : Node) : Bool :=
  decide (n.sessionStatus.currentIndex = 0) &&
  match n.sessions.current with
  | .full s => decide (s.kxPair.secret = key) && decide (s.topology.mixnodes = mixes)
  | _ => true

theorem agrees_of {key n j} (hk : layout.key j 0 = key) (h : agreesB key n = true) : Agrees layout j n := by
  unfold agreesB at h
  rw [Bool.and_eq_true] at h
  obtain ⟨h1, h2⟩ := h
  have h1 := of_decide_eq_true h1
  intro i s hs
  obtain ⟨rel, hrel, hslot⟩ := Node.sessionAt_eq.1 hs
  rw [h1] at hrel
  rcases fromSessionIndex_some.1 hrel with ⟨rfl, hi⟩ | ⟨rfl, hi⟩
  · subst hi
    have hslot : n.sessions.current = .full s := hslot
    rw [hslot] at h2
    simp only [Bool.and_eq_true, decide_eq_true_eq] at h2
    rw [hk]
    exact h2
  · omega

theorem new_ok (b : UInt8) : (Node.new C (cfg b)).isOk = true := by
  rfl
def new (b : UInt8) : Node := (Node.new C (cfg b)).get (new_ok b)

def status0 : Call := .setSessionStatus ⟨0, .requestsToCurrent⟩
def mixes0 : Call := .maybeSetMixnodes .current (.ok mixes) rng
def ready (b : UInt8) : Node := (new b).setSessionStatus ⟨0, .requestsToCurrent⟩

theorem set_up {b : UInt8} {m : Node} {os} (h : startRes b setup = .ok (m, os)) :
    Node.new C (cfg b) = .ok (new b) ∧ (new b).step C status0 = .ok (ready b, .unit) ∧
      ∃ x, (ready b).step C mixes0 = .ok (m, .consulted x) := by
  have hnew : Node.new C (cfg b) = .ok (new b) := Res.eq_get _ _
  refine ⟨hnew, rfl, ?_⟩
  unfold startRes at h
  rw [hnew] at h
  have hr := runAll_runs (m := new b) h
  unfold setup at hr
  cases hr with
  | cons h1 hr =>
    cases hr with
    | cons h2 hr =>
      cases hr
      have h1 : (Except.ok (ready b, Outcome.unit) : Res _) = _ := h1
      cases h1
      have h2' := h2
      unfold Node.step at h2'
      rw [res_bind_eq_ok] at h2'
      obtain ⟨⟨m1, x⟩, -, h3⟩ := h2'
      cases h3
      exact ⟨x, h2⟩

/-! What happens after the setup: as in `Verif.Spec.World`, but the packets are taken out of the queues when they are
sent. -/

def popF : Call := .popNextForwardPacket 0
def sendBob : Call := .popNextAuthoredPacket (fun _ => 2 ^ 64 - 1) (ns 5)
theorem popF_ok : (carol1.step C popF).isOk = true := by decide +kernel
def carolP : Node := ((carol1.step C popF).get popF_ok).1
theorem sendBob_ok : (bob2.step C sendBob).isOk = true := by decide +kernel
def bobSent : Node := ((bob2.step C sendBob).get sendBob_ok).1
theorem relay3_ok : (carolP.step C relay2).isOk = true := by decide +kernel
def carol3 : Node := ((carolP.step C relay2).get relay3_ok).1
theorem popF3_ok : (carol3.step C popF).isOk = true := by decide +kernel
def carolP3 : Node := ((carol3.step C popF).get popF3_ok).1
theorem home_ok : (aliceSent.step C back).isOk = true := by decide +kernel
def aliceHome : Node := ((aliceSent.step C back).get home_ok).1

theorem popF_out : ((carol1.step C popF).get popF_ok).2 = .forwardPacket (some packet1.packet) := by
  have h : (match ((carol1.step C popF).get popF_ok).2 with
    | .forwardPacket p => decide (p = some packet1.packet) | _ => false) = true := by decide +kernel
  generalize ((carol1.step C popF).get popF_ok).2 = o at *
  match o, h with
  | .forwardPacket _, h => rw [of_decide_eq_true h]

theorem popF3_out : ((carol3.step C popF).get popF3_ok).2 = .forwardPacket (some packet3.packet) := by
  have h : (match ((carol3.step C popF).get popF3_ok).2 with
    | .forwardPacket p => decide (p = some packet3.packet) | _ => false) = true := by decide +kernel
  generalize ((carol3.step C popF).get popF3_ok).2 = o at *
  match o, h with
  | .forwardPacket _, h => rw [of_decide_eq_true h]

theorem sendOut_eq : sendOut = .authoredPacket (some packet0) := by
  have h := sent.2.2.1
  generalize sendOut = o at *
  match o, h with
  | .authoredPacket _, h => rw [of_decide_eq_true h]

theorem sendBob_out : ((bob2.step C sendBob).get sendBob_ok).2 = .authoredPacket (some packet2) := by
  have h : (match ((bob2.step C sendBob).get sendBob_ok).2 with
    | .authoredPacket p => decide (p = some packet2) | _ => false) = true := by decide +kernel
  generalize ((bob2.step C sendBob).get sendBob_ok).2 = o at *
  match o, h with
  | .authoredPacket _, h => rw [of_decide_eq_true h]

theorem relay3_out : ((carolP.step C relay2).get relay3_ok).2 = .message none := by
  have h : (match ((carolP.step C relay2).get relay3_ok).2 with | .message none => true | _ => false) = true := by
    decide +kernel
  generalize ((carolP.step C relay2).get relay3_ok).2 = o at *
  match o, h with
  | .message none, _ => rfl

theorem home_out : ∃ r, ((aliceSent.step C back).get home_ok).2 = .message (some (.reply r)) ∧ r.requestId = mid ∧
    r.data = [7, 8] := by
  have h : (match ((aliceSent.step C back).get home_ok).2 with
    | .message (some (.reply r)) => decide (r.requestId = mid ∧ r.data = [7, 8])
    | _ => false) = true := by decide +kernel
  generalize ((aliceSent.step C back).get home_ok).2 = o at *
  match o, h with
  | .message (some (.reply r)), h => exact ⟨r, rfl, of_decide_eq_true h⟩

theorem popF_step : carol1.step C popF = .ok (carolP, .forwardPacket (some packet1.packet)) := by
  rw [← popF_out]; exact Res.eq_get2 _ _
theorem popF3_step : carol3.step C popF = .ok (carolP3, .forwardPacket (some packet3.packet)) := by
  rw [← popF3_out]; exact Res.eq_get2 _ _
theorem sendBob_step : bob2.step C sendBob = .ok (bobSent, .authoredPacket (some packet2)) := by
  rw [← sendBob_out]; exact Res.eq_get2 _ _
theorem relay3_step : carolP.step C relay2 = .ok (carol3, .message none) := by
  rw [← relay3_out]; exact Res.eq_get2 _ _
theorem home_step : ∃ r, aliceSent.step C back = .ok (aliceHome, .message (some (.reply r))) ∧ r.requestId = mid ∧
    r.data = [7, 8] := by
  obtain ⟨r, h1, h2⟩ := home_out
  exact ⟨r, by rw [← h1]; exact Res.eq_get2 _ _, h2⟩

theorem all_agree : ([ready 3, alice, alice1, aliceSent, aliceHome].all (agreesB (sec 3)) &&
    [ready 5, bob, bob1, bob2, bobSent].all (agreesB (sec 5)) &&
    [ready 7, carol, carol1, carolP, carol3, carolP3].all (agreesB (sec 7))) = true := by decide +kernel

def opensB (key : KxSecret) (p : Bytes) : Bool :=
  match peel C zeroPacket p (C.deriveKxSharedSecret (kxPublicOf p) key) with
  | .ok (_, .ok _) => true
  | _ => false

theorem opens_of {key p} (h : Opens C key p) : opensB key p = true := by
  obtain ⟨out, a, h⟩ := h
  unfold opensB
  rw [h]

/-- Only the machine with index `j` (of three) can open the packet. -/
theorem opened_by_one {p : Bytes} {j : Nat}
    (h : opensB (sec 9) p = false ∧ ∀ j' ∈ [0, 1, 2], opensB (layout.key j' 0) p = true → j' = j) :
    ∀ j1 i, Opens C (layout.key j1 i) p → j1 = j ∧ i = 0 := by
  intro j1 i ho
  have ho := opens_of ho
  by_cases hi : i = 0
  · subst hi
    by_cases h3 : j1 ∈ [0, 1, 2]
    · exact ⟨h.2 j1 h3 ho, rfl⟩
    · have : layout.key j1 0 = sec 9 := by
        simp only [List.mem_cons, List.not_mem_nil, or_false, not_or] at h3
        simp [layout, h3]
      rw [this, h.1] at ho
      cases ho
  · have : layout.key j1 i = sec 9 := by simp [layout, hi]
    rw [this, h.1] at ho
    cases ho

theorem open0 : opensB (sec 9) packet0.packet = false ∧
    ∀ j' ∈ [0, 1, 2], opensB (layout.key j' 0) packet0.packet = true → j' = 2 := by decide +kernel
theorem open1 : opensB (sec 9) packet1.packet.packet = false ∧
    ∀ j' ∈ [0, 1, 2], opensB (layout.key j' 0) packet1.packet.packet = true → j' = 1 := by decide +kernel
theorem open2 : opensB (sec 9) packet2.packet = false ∧
    ∀ j' ∈ [0, 1, 2], opensB (layout.key j' 0) packet2.packet = true → j' = 2 := by decide +kernel
theorem open3 : opensB (sec 9) packet3.packet.packet = false ∧
    ∀ j' ∈ [0, 1, 2], opensB (layout.key j' 0) packet3.packet.packet = true → j' = 0 := by decide +kernel

attribute [irreducible] carolP bobSent carol3 carolP3 aliceHome

end Mixnet.World
