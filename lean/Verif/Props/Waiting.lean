import Verif.Proofs.Waiting
import Verif.Props.Together
/-!
# C65: a request waiting in a request manager is never stranded
-/
namespace Mixnet.Props
open Mixnet Spec

variable {R Ctx : Type} {C : Crypto} {T : RequestTrait R Ctx} {config : Config} {mc : RequestManagerConfig}
  {m : RequestManager R} {n : Node} {told : Bool}

theorem attended (hC : CryptoLaws C) (h : Attended C T config mc m n told) :
    n.Inv C ∧ BoundQ m ∧ (m.sessionStatus = n.sessionStatus →
      AllWait m n ∨ n.events.spaceInAuthoredPacketQueue = true ∨ told = true) := by
  induction h with
  | start hn =>
    have hempty : ∀ now rel, (RequestManager.new (R := R) mc now).postQueues.get rel = [] := by
      rintro now (_ | _ | _) <;> rfl
    refine ⟨(Node.inv_new hn).1, ⟨fun rel s hs => ?_, fun s hs => (by cases hs)⟩, fun _ => .inl fun rel hq => ?_⟩
    · rw [hempty] at hs; cases hs
    · exact absurd (hempty _ rel) hq
  | @node m n told call n' out _ hw hne hs ih =>
    obtain ⟨hI, hb, hi⟩ := ih
    have hc := Node.step_cases hC hI hw hs
    refine ⟨Node.inv_stepCase hI hc, hb, fun hst => ?_⟩
    rw [(slots_keep hc hne).1] at hst
    have hev := Node.events_step hc
    rcases hi hst with hi | hi | hi
    · by_cases hsp : n'.events.spaceInAuthoredPacketQueue = true
      · exact .inr (.inl hsp)
      · refine .inl fun rel hq => (hi rel hq).mono rfl fun i hbusy => ?_
        exact (busy_step hc hne hbusy).resolve_right hsp
    · rcases hev with ⟨rfl, rfl, -⟩ | ⟨-, -, h⟩
      · refine .inr (.inr ?_)
        show (told || n.events.spaceInAuthoredPacketQueue) = true
        rw [hi, Bool.or_true]
      · exact .inr (.inl (h.2.2.2 hi))
    · exact .inr (.inr (by rw [hi, Bool.true_or]))
  | @status m n told st n' out _ hst hs ih =>
    obtain ⟨hI, hb, hi⟩ := ih
    have hc := Node.step_cases (call := .setSessionStatus st) hC hI trivial hs
    refine ⟨Node.inv_stepCase hI hc, hb, fun hst' => ?_⟩
    cases hs
    have hcase := setSessionStatus_cases n st
    generalize n.setSessionStatus st = n1 at *
    cases hcase with
    | same => exact hi hst
    | phase h1 h2 => exact absurd (hst.symm.trans hst') h1
    | shift h1 =>
      change m.sessionStatus = st at hst'
      exact absurd (by rw [← hst, hst']) h1
  | @manager m n told env ns ctx call m' n' log out _ hs ih =>
    obtain ⟨hI, hb, hi⟩ := ih
    obtain ⟨hg, k1, k2, k3⟩ := manager_waiting hs
    refine ⟨hg.inv hI, ?_, fun hst => ?_⟩
    · by_cases hcall : call = .nextRetryDeadlineChanged
      · subst hcall
        cases hs
        exact hb
      · exact bound_micros hb (manager_step_micros hcall hs [] [] [])
    · by_cases hp : processes call = true
      · exact .inl (k1 (.inl hp))
      by_cases hsame : m'.sessionStatus = m.sessionStatus
      · rw [hsame, hg.status] at hst
        rcases hi hst with hi | hi | hi
        · exact .inl (k2 hsame hi)
        · exact .inr (.inl (by rw [hg.events]; exact hi))
        · exact .inr (.inr (by simp [hi, hp]))
      · exact .inl (k1 (.inr ⟨k3 hsame, hsame⟩))

/-- **C65.** Let a manager and a node be used together, the manager being told of every change of the session status. If
at some moment the manager is up to date with the session status, and the node has no event
`SPACE_IN_AUTHORED_PACKET_QUEUE` to tell of that was not told and followed by `process_post_queues`, then requests
that wait in the manager's queues, for whichever session, wait for something that will come: for the first session
to begin, or for one of the packets queued in that session to be sent, in a session in which requests may be
posted. -/
theorem never_stranded (hC : CryptoLaws C) (h : Attended C T config mc m n false)
    (hst : m.sessionStatus = n.sessionStatus) (hev : n.events.spaceInAuthoredPacketQueue = false)
    (rel : Option RelSessionIndex) (hq : m.postQueues.get rel ≠ []) :
    n.sessionStatus.phase.allowRequestsAndReplies (waitsFor m rel) = true ∧
    ((waitsFor m rel = .prev ∧ n.sessionStatus.currentIndex = 0) ∨
      ∃ i, (waitsFor m rel).add n.sessionStatus.currentIndex = .ok i ∧ Busy n i) := by
  obtain ⟨-, hb, hi⟩ := attended hC h
  refine ⟨?_, ?_⟩
  · rw [← hst]
    cases rel with
    | none => exact default_open _
    | some r =>
      obtain ⟨s, hs⟩ := List.exists_mem_of_ne_nil _ hq
      exact ((hb.1 (some r) s hs).2.2 :)
  · rcases hi hst with hi | hi | hi
    · have := hi rel hq
      unfold WaitsIn RequestManager.NoSession RequestManager.PostsIn at this
      rw [← hst]
      exact this
    · rw [hev] at hi; cases hi
    · cases hi

end Mixnet.Props

/-! ### Concrete cases -/
namespace Mixnet.World
open Spec Props

/-- Alice's configuration with room for one packet. -/
def narrow : Config := { cfg 3 with mixnodeSession := { (cfg 3).mixnodeSession with authoredPacketQueue := ⟨1, true⟩ } }

/-- What `play` does is attended if the manager is told of every change of status; the answers are collected. -/
def playAttended (m : RequestManager Nat) (n : Node) (told : Bool) (t : Nat) :
    List Move → Res (RequestManager Nat × Node × Bool)
  | [] => .ok (m, n, told)
  | .inl c :: cs => do
    let (n, o) ← n.step C c
    playAttended m n (told || tellsOfSpace o) (t + 1) cs
  | .inr c :: cs => do
    let (m, n, _) ← m.step C trait n (mgrEnv t) (ns 3) () c
    playAttended m n (told && !processes c) (t + 1) cs

theorem playAttended_ok {mc : RequestManagerConfig} : ∀ {moves : List Move} {m : RequestManager Nat} {n : Node} {told t m' n' told'},
    Attended C trait narrow mc m n told → (∀ c, .inl c ∈ moves → c.WellTyped ∧ ∀ st, c ≠ .setSessionStatus st) →
    playAttended m n told t moves = .ok (m', n', told') → Attended C trait narrow mc m' n' told'
  | [], m, n, told, t, m', n', told', h, _, hp => by cases hp; exact h
  | .inl c :: cs, m, n, told, t, m', n', told', h, hw, hp => by
    unfold playAttended at hp
    rw [res_bind_eq_ok] at hp
    obtain ⟨⟨n1, o⟩, h1, hp⟩ := hp
    obtain ⟨w1, w2⟩ := hw c List.mem_cons_self
    exact playAttended_ok (.node h w1 w2 h1) (fun c h => hw c (List.mem_cons_of_mem _ h)) hp
  | .inr c :: cs, m, n, told, t, m', n', told', h, hw, hp => by
    unfold playAttended at hp
    rw [res_bind_eq_ok] at hp
    obtain ⟨⟨m1, n1, l, o⟩, h1, hp⟩ := hp
    exact playAttended_ok (.manager h h1) (fun c h => hw c (List.mem_cons_of_mem _ h)) hp

/-- The narrow node in session 0. -/
def narrowRes : Res Node := do
  let n ← Node.new C narrow
  let (n, _) ← n.step C (.setSessionStatus ⟨0, .requestsToCurrent⟩)
  .ok n

theorem narrowRes_attended (mc : RequestManagerConfig) {n : Node} (h : narrowRes = .ok n) :
    Attended C trait narrow mc (RequestManager.new mc 5) n false := by
  unfold narrowRes at h
  rw [res_bind_eq_ok] at h
  obtain ⟨n0, h0, h⟩ := h
  rw [res_bind_eq_ok] at h
  obtain ⟨⟨n1, o⟩, h1, h⟩ := h
  cases h
  refine .status (.start h0) ?_ h1
  unfold Node.new at h0
  rw [res_bind_eq_ok] at h0
  obtain ⟨k, -, h0⟩ := h0
  cases h0; rfl

/-- Two requests are inserted; each is to be posted twice, and there is room for one packet. -/
def twoRequests : List Move :=
  [.inl (.maybeSetMixnodes .current (.ok mixes) rng), .inr .updateSessionStatus, .inr (.insert 7), .inr (.insert 8)]

theorem typed (moves : List Move) (h : ∀ c, .inl c ∈ moves → c = .maybeSetMixnodes .current (.ok mixes) rng ∨ c = send) :
    ∀ c, .inl c ∈ moves → c.WellTyped ∧ ∀ st, c ≠ .setSessionStatus st := by
  intro c hc
  rcases h c hc with rfl | rfl
  · exact ⟨setup_typed _ (by unfold setup; exact List.mem_cons_of_mem _ List.mem_cons_self), by intro st h; cases h⟩
  · exact ⟨send_typed, by intro st h; cases h⟩

def queuesOf (m : RequestManager Nat) : List Nat × List Nat :=
  (m.postQueues.default.map (·.request), m.postQueues.current.map (·.request))

/-- The narrow node and its manager after some calls. -/
def narrowPlay (moves : List Move) : Res (RequestManager Nat × Node × Bool) :=
  narrowRes >>= fun n => playAttended (.new ⟨2, 1, 1, 2⟩ 5) n false 0 moves

theorem narrowPlay_attended {moves : List Move} {p : RequestManager Nat × Node × Bool → Bool}
    (ht : ∀ c, .inl c ∈ moves → c = .maybeSetMixnodes .current (.ok mixes) rng ∨ c = send)
    (h : (match narrowPlay moves with | .ok a => p a | .error _ => false) = true) :
    ∃ m n told, Attended C trait narrow ⟨2, 1, 1, 2⟩ m n told ∧ p (m, n, told) = true := by
  obtain ⟨⟨m, n, told⟩, h1, h2⟩ : ∃ a, narrowPlay moves = .ok a ∧ p a = true := by
    obtain ⟨x, h1⟩ : ∃ x, narrowPlay moves = x := ⟨_, rfl⟩
    rw [h1] at h
    cases x with
    | error e => cases h
    | ok a => exact ⟨a, h1, h⟩
  unfold narrowPlay at h1
  rw [res_bind_eq_ok] at h1
  obtain ⟨n0, h0, h1⟩ := h1
  exact ⟨m, n, told, playAttended_ok (narrowRes_attended _ h0) (typed _ ht) h1, h2⟩

/-- The hypotheses of `never_stranded` are met: both requests wait, and a packet is queued. -/
example : ∃ m n, Attended C trait narrow ⟨2, 1, 1, 2⟩ m n false ∧ m.sessionStatus = n.sessionStatus ∧
    n.events.spaceInAuthoredPacketQueue = false ∧ queuesOf m = ([8], [7]) ∧ Busy n 0 := by
  obtain ⟨m, n, told, ha, hp⟩ := narrowPlay_attended (moves := twoRequests) (p := fun p =>
      decide (p.2.2 = false ∧ p.1.sessionStatus = p.2.1.sessionStatus ∧ p.2.1.events.spaceInAuthoredPacketQueue = false ∧
        queuesOf p.1 = ([8], [7]) ∧ p.2.1.sessionStatus = ⟨0, .requestsToCurrent⟩))
    (by
      intro c hc
      simp only [twoRequests, List.mem_cons, reduceCtorEq, List.not_mem_nil, or_false, Sum.inl.injEq] at hc
      exact .inl hc)
    (by decide +kernel)
  obtain ⟨rfl, h2, h3, h4, h5⟩ := of_decide_eq_true hp
  refine ⟨m, n, ha, h2, h3, h4, ?_⟩
  have hq : m.postQueues.get none ≠ [] := by
    intro h0
    have h6 : (queuesOf m).1 = [] := by unfold queuesOf; rw [show m.postQueues.default = [] from h0]; rfl
    rw [show queuesOf m = _ from h4] at h6; cases h6
  obtain ⟨-, h6⟩ := never_stranded toyLaws ha h2 h3 none hq
  unfold waitsFor at h6
  rw [show m.sessionStatus = _ from h2, show n.sessionStatus = _ from h5] at h6
  rcases h6 with ⟨h6, -⟩ | ⟨i, h6, h7⟩
  · cases h6
  · cases h6; exact h7

/-- And without the call of `process_post_queues` that the event asks for, requests can be stranded: the packet is sent,
nothing is queued, and both requests still wait (the event is pending). -/
example : ∃ m n, Attended C trait narrow ⟨2, 1, 1, 2⟩ m n false ∧ m.sessionStatus = n.sessionStatus ∧
    n.events.spaceInAuthoredPacketQueue = true ∧ queuesOf m = ([8], [7]) ∧ waiting n = [] := by
  obtain ⟨m, n, told, ha, hp⟩ := narrowPlay_attended (moves := twoRequests ++ [.inl send]) (p := fun p =>
      decide (p.2.2 = false ∧ p.1.sessionStatus = p.2.1.sessionStatus ∧ p.2.1.events.spaceInAuthoredPacketQueue = true ∧
        queuesOf p.1 = ([8], [7]) ∧ waiting p.2.1 = []))
    (by
      intro c hc
      simp only [twoRequests, List.cons_append, List.nil_append, List.mem_cons, reduceCtorEq, List.not_mem_nil,
        or_false, false_or, Sum.inl.injEq] at hc
      exact hc)
    (by decide +kernel)
  obtain ⟨rfl, h2, h3, h4, h5⟩ := of_decide_eq_true hp
  exact ⟨m, n, ha, h2, h3, h4, h5⟩

end Mixnet.World
