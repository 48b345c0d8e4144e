import Verif.Props.System
import Verif.Props.WholeWorld
import Verif.Spec.ManagerWorld
import Verif.Spec.ReplyWorld
/-!
# The hypotheses of C76, C77 and C78 can be met

A request is inserted into Alice's request manager, which posts it; it is relayed, delivered and handed out by a reply
manager; the program there completes it; the reply is relayed and delivered to Alice, whose request manager gives back
the request.
-/
namespace Mixnet.World
open Mixnet.Spec Mixnet.Props

abbrev Told := Story Nat Unit

/-- The machines: Alice, Bob, Carol, and everybody else; and what has happened. -/
structure Sim where
  a : Machine Nat
  b : Machine Nat
  c : Machine Nat
  rest : Machine Nat
  told : Told

def Sim.machines (s : Sim) (j : Nat) : Machine Nat := if j = 0 then s.a else if j = 1 then s.b else if j = 2 then s.c else s.rest

/-- The packets that were sent according to the story. -/
def sentIn (ds : Told) : List Bytes := ds.flatMap fun x => match x.2 with
  | .node _ (.forwardPacket (some p)) => [p.packet]
  | .node _ (.authoredPacket (some p)) => [p.packet]
  | _ => []

/-- The requests delivered to machine `j`. -/
def gotIn (j : Nat) (ds : Told) : List RequestMessage := ds.flatMap fun x => match x.2 with
  | .node _ (.message (some (.request r))) => if x.1 = j then [r] else []
  | _ => []

/-- The replies delivered to machine `j`. -/
def repliesIn (j : Nat) (ds : Told) : List ReplyMessage := ds.flatMap fun x => match x.2 with
  | .node _ (.message (some (.reply r))) => if x.1 = j then [r] else []
  | _ => []

/-- What was handed out at machine `j`. -/
def handedIn (j : Nat) (ds : Told) : List (ReplyContext × Bytes) := ds.flatMap fun x => match x.2 with
  | .reply _ _ (.insert _) _ (some y) => if x.1 = j then [y] else []
  | _ => []

/-- What may be done at a machine. -/
inductive Act where
  | status | mixes | send | forward
  /-- The packet sent last is delivered. -/
  | deliver (t : Nat)
  | update (t : Nat)
  | insert (t : Nat) (r : Nat)
  /-- The reply delivered last is taken to the request manager. -/
  | settle (t : Nat)
  /-- The request delivered last is taken to the reply manager. -/
  | take (t : Nat)
  /-- The request handed out last is abandoned. -/
  | abandon (t : Nat)
  /-- The request handed out last is completed. -/
  | finish (t : Nat) (data : Bytes)

def keyOf (j : Nat) : UInt8 := if j = 0 then 3 else if j = 1 then 5 else 7

inductive Input where
  | node (call : Call)
  | request (t : Nat) (call : ManagerCall Nat)
  | reply (t : Nat) (call : ReplyCall)

def Act.input (j : Nat) (n : Node) (ds : Told) : Act → Option Input
  | .status => if n.sessionStatus.currentIndex ≤ 0 then some (.node status0) else none
  | .mixes => some (.node mixes0)
  | .send => some (.node (.popNextAuthoredPacket (fun _ => 2 ^ 64 - 1) (ns 3)))
  | .forward => some (.node popF)
  | .deliver t => match (sentIn ds).getLast? with
    | some p => if p.length = 2252 then some (.node (.handlePacket t p)) else none
    | none => none
  | .update t => some (.request t .updateSessionStatus)
  | .insert t r => some (.request t (.insert r))
  | .settle t => match (repliesIn j ds).getLast? with
    | some r => some (.request t (.remove r.requestId))
    | none => none
  | .take t => match (gotIn j ds).getLast? with
    | some r => if r.surbs.all (fun s => s.length = 222) then some (.reply t (.insert r)) else none
    | none => none
  | .abandon t => match (handedIn j ds).getLast? with
    | some r => some (.reply t (.abandon r.1))
    | none => none
  | .finish t data => match (handedIn j ds).getLast? with
    | some r => if r.1.surbs.all (fun s => s.length = 222) then some (.reply t (.complete r.1 data)) else none
    | none => none

/-- What machine `m` does. -/
def Input.run (m : Machine Nat) : Input → Res (Machine Nat × Deed Nat Unit)
  | .node call => do
    let (n, out) ← m.node.step C call
    .ok ({ m with node := n }, .node call out)
  | .request t call => do
    let (r, n, log, out) ← m.requests.step C trait m.node (mgrEnv t) (ns 3) () call
    .ok ({ m with node := n, requests := r }, .request (mgrEnv t) (ns 3) () call log out)
  | .reply t call => do
    let (r, n, log, out) ← m.replies.step C m.node (fun n => n + t) t call
    .ok ({ m with node := n, replies := r }, .reply (fun n => n + t) t call log out)

def Sim.act (s : Sim) (j : Nat) (x : Act) : Option Sim :=
  match x.input j (s.machines j).node s.told with
  | none => none
  | some i => match i.run (s.machines j) with
    | .error _ => none
    | .ok (m, d) =>
      if agreesB (sec (keyOf j)) m.node then
        match j with
        | 0 => some { s with a := m, told := s.told ++ [(j, d)] }
        | 1 => some { s with b := m, told := s.told ++ [(j, d)] }
        | 2 => some { s with c := m, told := s.told ++ [(j, d)] }
        | _ => none
      else none

def Sim.acts (s : Sim) : List (Nat × Act) → Option Sim
  | [] => some s
  | (j, x) :: xs => match s.act j x with
    | none => none
    | some s' => s'.acts xs

def newMachine (b : UInt8) : Machine Nat := ⟨new b, .new mgrConfig 5, .new replyConfig⟩

def sim0 : Sim := ⟨newMachine 3, newMachine 5, newMachine 7, newMachine 7, []⟩

def script : List (Nat × Act) :=
  [(0, .status), (0, .mixes), (1, .status), (1, .mixes), (2, .status), (2, .mixes), (0, .update 0), (0, .insert 1 7),
   (0, .send), (2, .deliver 1000), (2, .forward), (1, .deliver 5000), (1, .take 5001), (1, .abandon 5002), (1, .take 5003),
   (1, .finish 5002 [7, 8]), (1, .send),
   (2, .deliver 6000), (2, .forward), (0, .deliver 7000), (0, .settle 7001)]

/-- The numbers of posts in the story, tried or done. -/
def postsIn (ds : Told) : Nat := (ds.map fun x => match x.2 with
  | .request _ _ _ _ log _ => (log.filter isPost).length
  | _ => 0).sum

/-- Only one of the machines can open the packet. -/
def oneOpens (p : Bytes) : Bool :=
  !opensB (sec 9) p && [0, 1, 2].any fun j => [0, 1, 2].all fun j' => !opensB (layout.key j' 0) p || j' == j

def lastIs (s : Sim) : Bool := match s.told.getLast? with
  | some (0, .request _ _ _ (.remove id) _ (.removed (some 7))) => (repliesIn 0 s.told).map (fun r => (r.requestId, r.data)) == [(id, [7, 8])]
  | _ => false

/-- A request is handed out, abandoned and handed out again. -/
def twice (s : Sim) : Bool := match s.told.drop 12 with
  | (1, .reply _ _ (.insert _) _ (some x)) :: _ :: (1, .reply _ _ (.insert _) _ (some y)) :: _ =>
    x.1.messageId == y.1.messageId
  | _ => false

def fine (s : Sim) : Bool :=
  decide (s.told.flatMap (·.2.ids)).Nodup && (sentIn s.told).all oneOpens && postsIn s.told == 1 && lastIs s && twice s

/-! ### The simulation is right -/

def mcs (_ : Nat) : RequestManagerConfig := mgrConfig
def rcs (_ : Nat) : ReplyManagerConfig := replyConfig

abbrev Run (ds : Told) (es : List (Event C)) (ms : Nat → Machine Nat) : Prop :=
  Running C trait layout configs mcs rcs ds es ms

theorem sentIn_iff {ds : Told} {es : List (Event C)} {ms} (h : Run ds es ms) (p : Bytes) : p ∈ sentIn ds ↔ p ∈ sentPackets es := by
  induction h with
  | start => simp [sentIn, sentPackets]
  | @step ds es ms m' j d evs hr hw hp hd hm hn ih =>
    have e1 : sentIn (ds ++ [(j, d)]) = sentIn ds ++ sentIn [(j, d)] := List.flatMap_append
    have e2 : sentPackets (es ++ evs) = sentPackets es ++ sentPackets evs := List.flatMap_append
    rw [e1, e2, List.mem_append, List.mem_append, ih]
    have : p ∈ sentIn [(j, d)] ↔ p ∈ sentPackets evs := by
      cases d with
      | node call out =>
        obtain ⟨e, rfl, -, rfl⟩ := hm
        unfold sentIn sentPackets
        simp only [List.flatMap_cons, List.flatMap_nil, List.append_nil]
        generalize e.out = o
        match o with
        | .forwardPacket (some _) => rfl
        | .authoredPacket (some _) => rfl
        | .forwardPacket none => rfl
        | .authoredPacket none => rfl
        | .unit => rfl
        | .consulted _ => rfl
        | .message _ => rfl
        | .posted _ _ => rfl
        | .replied _ _ => rfl
        | .kxPublic _ => rfl
        | .events _ => rfl
      | request env ns ctx call log out =>
        refine ⟨fun h => (by cases h), fun h => ?_⟩
        obtain ⟨e, he, hx⟩ := List.mem_flatMap.1 h
        obtain ⟨x, -, r, i, d, mid, d', res, rng, now, -, -, ho⟩ := forall₂_mem_right hm he
        rw [ho] at hx
        cases hx
      | reply rng now call log out =>
        refine ⟨fun h => (by cases h), fun h => ?_⟩
        obtain ⟨e, he, hx⟩ := List.mem_flatMap.1 h
        obtain ⟨x, -, -, ho⟩ := forall₂_mem_right hm he
        rw [ho] at hx
        cases hx
    rw [this]

theorem last_mem {α : Type} {l : List α} {x : α} (h : l.getLast? = some x) : x ∈ l := List.mem_of_getLast? h

/-- What a deed of a machine must be to happen. -/
def Can (ds : Told) (es : List (Event C)) (j : Nat) (m m' : Machine Nat) (d : Deed Nat Unit) : Prop :=
  d.WellTyped ∧ Permitted C ds es j m.node d ∧ d.Does C trait m m'

theorem run_node {m m' : Machine Nat} {call : Call} {d : Deed Nat Unit} (h : (Input.node call).run m = .ok (m', d)) :
    ∃ out, d = .node call out ∧ d.Does C trait m m' := by
  unfold Input.run at h
  rw [res_bind_eq_ok] at h
  obtain ⟨⟨n, out⟩, h1, h⟩ := h
  cases h
  exact ⟨out, rfl, h1, rfl, rfl⟩

theorem run_request {m m' : Machine Nat} {t : Nat} {call : ManagerCall Nat} {d : Deed Nat Unit}
    (h : (Input.request t call).run m = .ok (m', d)) :
    ∃ log out, d = .request (mgrEnv t) (ns 3) () call log out ∧ d.Does C trait m m' := by
  unfold Input.run at h
  rw [res_bind_eq_ok] at h
  obtain ⟨⟨r, n, log, out⟩, h1, h⟩ := h
  cases h
  exact ⟨log, out, rfl, h1, rfl⟩

theorem run_reply {m m' : Machine Nat} {t : Nat} {call : ReplyCall} {d : Deed Nat Unit}
    (h : (Input.reply t call).run m = .ok (m', d)) :
    ∃ log out, d = .reply (fun n => n + t) t call log out ∧ d.Does C trait m m' := by
  unfold Input.run at h
  rw [res_bind_eq_ok] at h
  obtain ⟨⟨r, n, log, out⟩, h1, h⟩ := h
  cases h
  exact ⟨log, out, rfl, h1, rfl⟩

theorem input_can {ds : Told} {es : List (Event C)} {ms} (h : Run ds es ms) {j : Nat} {m m' : Machine Nat} {x : Act} {i : Input}
    (hi : x.input j m.node ds = some i) {d : Deed Nat Unit} (hr : i.run m = .ok (m', d)) : Can ds es j m m' d := by
  cases x with
  | status =>
    simp only [Act.input] at hi
    split at hi
    · rename_i h0
      cases hi
      obtain ⟨out, rfl, hd⟩ := run_node hr
      exact ⟨status0_typed, h0, hd⟩
    · cases hi
  | mixes =>
    cases hi
    obtain ⟨out, rfl, hd⟩ := run_node hr
    exact ⟨mixes0_typed, trivial, hd⟩
  | send =>
    cases hi
    obtain ⟨out, rfl, hd⟩ := run_node hr
    exact ⟨(rfl : (peer 3).length = 32), trivial, hd⟩
  | forward =>
    cases hi
    obtain ⟨out, rfl, hd⟩ := run_node hr
    exact ⟨trivial, trivial, hd⟩
  | deliver t =>
    simp only [Act.input] at hi
    split at hi
    · rename_i p hp
      split at hi
      · rename_i hl
        cases hi
        obtain ⟨out, rfl, hd⟩ := run_node hr
        exact ⟨hl, (sentIn_iff h p).1 (last_mem hp), hd⟩
      · cases hi
    · cases hi
  | update t =>
    cases hi
    obtain ⟨log, out, rfl, hd⟩ := run_request hr
    exact ⟨(rfl : (peer 3).length = 32), trivial, hd⟩
  | insert t r =>
    cases hi
    obtain ⟨log, out, rfl, hd⟩ := run_request hr
    exact ⟨(rfl : (peer 3).length = 32), trivial, hd⟩
  | settle t =>
    simp only [Act.input] at hi
    split at hi
    · cases hi
      obtain ⟨log, out, rfl, hd⟩ := run_request hr
      exact ⟨(rfl : (peer 3).length = 32), trivial, hd⟩
    · cases hi
  | take t =>
    simp only [Act.input] at hi
    split at hi
    · rename_i r hp
      split at hi
      · rename_i hl
        cases hi
        obtain ⟨log, out, rfl, hd⟩ := run_reply hr
        refine ⟨fun s hs => ?_, ?_, hd⟩
        · exact of_decide_eq_true (List.all_eq_true.1 hl s hs)
        · have := last_mem hp
          unfold gotIn at this
          obtain ⟨⟨k, d⟩, hm, hx⟩ := List.mem_flatMap.1 this
          dsimp only at hx
          split at hx
          · split at hx
            · rename_i call r' hk
              rw [List.mem_singleton] at hx
              subst hx
              subst hk
              exact ⟨_, hm⟩
            · cases hx
          · cases hx
      · cases hi
    · cases hi
  | abandon t =>
    simp only [Act.input] at hi
    split at hi
    · rename_i r hp
      cases hi
      obtain ⟨log, out, rfl, hd⟩ := run_reply hr
      refine ⟨trivial, ?_, hd⟩
      · · have := last_mem hp
          unfold handedIn at this
          obtain ⟨⟨k, d⟩, hm, hx⟩ := List.mem_flatMap.1 this
          dsimp only at hx
          split at hx
          · split at hx
            · rename_i hk
              rw [List.mem_singleton] at hx
              subst hx
              subst hk
              exact ⟨_, _, _, _, _, hm⟩
            · cases hx
          · cases hx
    · cases hi
  | finish t data =>
    simp only [Act.input] at hi
    split at hi
    · rename_i r hp
      split at hi
      · rename_i hl
        cases hi
        obtain ⟨log, out, rfl, hd⟩ := run_reply hr
        refine ⟨fun s hs => ?_, ?_, hd⟩
        · exact of_decide_eq_true (List.all_eq_true.1 hl s hs)
        · have := last_mem hp
          unfold handedIn at this
          obtain ⟨⟨k, d⟩, hm, hx⟩ := List.mem_flatMap.1 this
          dsimp only at hx
          split at hx
          · split at hx
            · rename_i hk
              rw [List.mem_singleton] at hx
              subst hx
              subst hk
              exact ⟨_, _, _, _, _, hm⟩
            · cases hx
          · cases hx
      · cases hi
    · cases hi

theorem sane_configs (j : Nat) : Sane (configs j) := by
  unfold configs
  split
  · exact world_sane
  · split
    · exact ⟨world_sane.1, world_sane.2, world_sane.3, world_sane.4, world_sane.5⟩
    · exact ⟨world_sane.1, world_sane.2, world_sane.3, world_sane.4, world_sane.5⟩

theorem act_runs {s s' : Sim} {j : Nat} {x : Act} (h : s.act j x = some s') {es : List (Event C)}
    (hr : Run s.told es s.machines) : ∃ es', Run s'.told es' s'.machines := by
  unfold Sim.act at h
  split at h
  · cases h
  rename_i i hi
  split at h
  · cases h
  rename_i m d hm
  by_cases ha : agreesB (sec (keyOf j)) m.node = true
  · rw [if_pos ha] at h
    obtain ⟨h1, h2, h3⟩ := input_can hr hi hm
    match j, h, hi, hm, ha, h1, h2, h3 with
    | 0, h, hi, hm, ha, h1, h2, h3 =>
      obtain ⟨evs, hx⟩ := explained toyLaws sane_configs (fun _ _ => rfl) (fun _ => Nat.le_refl 1) (fun _ => Nat.le_succ 1) hr 0 h1 h2 h3
        (agrees_of rfl ha)
      cases h
      refine ⟨es ++ evs, ?_⟩
      have e : Function.update s.machines 0 m = ({ s with a := m, told := s.told ++ [(0, d)] } : Sim).machines := by
        funext k
        by_cases hk : k = 0
        · subst hk; rw [Function.update_self]; rfl
        · rw [Function.update_of_ne hk]; simp [Sim.machines, hk]
      rw [e] at hx
      exact hx
    | 1, h, hi, hm, ha, h1, h2, h3 =>
      obtain ⟨evs, hx⟩ := explained toyLaws sane_configs (fun _ _ => rfl) (fun _ => Nat.le_refl 1) (fun _ => Nat.le_succ 1) hr 1 h1 h2 h3
        (agrees_of rfl ha)
      cases h
      refine ⟨es ++ evs, ?_⟩
      have e : Function.update s.machines 1 m = ({ s with b := m, told := s.told ++ [(1, d)] } : Sim).machines := by
        funext k
        by_cases hk : k = 1
        · subst hk; rw [Function.update_self]; rfl
        · rw [Function.update_of_ne hk]; simp [Sim.machines, hk]
      rw [e] at hx
      exact hx
    | 2, h, hi, hm, ha, h1, h2, h3 =>
      obtain ⟨evs, hx⟩ := explained toyLaws sane_configs (fun _ _ => rfl) (fun _ => Nat.le_refl 1) (fun _ => Nat.le_succ 1) hr 2 h1 h2 h3
        (agrees_of rfl ha)
      cases h
      refine ⟨es ++ evs, ?_⟩
      have e : Function.update s.machines 2 m = ({ s with c := m, told := s.told ++ [(2, d)] } : Sim).machines := by
        funext k
        by_cases hk : k = 2
        · subst hk; rw [Function.update_self]; rfl
        · rw [Function.update_of_ne hk]; simp [Sim.machines, hk]
      rw [e] at hx
      exact hx
    | n + 3, h, hi, hm, ha, h1, h2, h3 => cases h
  · rw [if_neg ha] at h
    cases h

theorem acts_run : ∀ {xs : List (Nat × Act)} {s s' : Sim} {es : List (Event C)}, s.acts xs = some s' →
    Run s.told es s.machines → ∃ es', Run s'.told es' s'.machines
  | [], s, s', es, h, hr => by cases h; exact ⟨es, hr⟩
  | (j, x) :: xs, s, s', es, h, hr => by
    unfold Sim.acts at h
    split at h
    · cases h
    · rename_i s1 h1
      obtain ⟨es1, hr1⟩ := act_runs h1 hr
      exact acts_run h hr1

theorem sim0_runs : Run sim0.told [] sim0.machines := by
  refine .start (fun j => ?_) (fun j => ⟨5, ?_⟩) (fun j => ?_)
  · unfold configs Sim.machines sim0
    by_cases h0 : j = 0
    · subst h0; exact Res.eq_get _ (new_ok 3)
    · by_cases h1 : j = 1
      · subst h1; exact Res.eq_get _ (new_ok 5)
      · simp only [h0, h1, if_false]
        split <;> exact Res.eq_get _ (new_ok 7)
  · unfold Sim.machines sim0
    split
    · rfl
    · split
      · rfl
      · split <;> rfl
  · unfold Sim.machines sim0
    split
    · rfl
    · split
      · rfl
      · split <;> rfl

/-! ### One request, one SURB -/

theorem count_posts {ds : Told} {es : List (Event C)} {ms} (h : Run ds es ms) :
    (es.filter fun e => !e.packets.isEmpty).length ≤ postsIn ds ∧ ∀ e ∈ es, e.surbs.length ≤ 1 := by
  have records : ∀ {j n n'} {evs : List (Event C)}, NodeCalls C layout j n evs n' → ∀ e ∈ evs, ∃ m m', e.Records m m' := by
    intro j n n' evs hn
    induction hn with
    | nil => intro e h; cases h
    | cons h1 h2 h3 h4 h5 _ ih =>
      intro e he
      rcases List.mem_cons.1 he with rfl | he
      · exact ⟨_, _, h4⟩
      · exact ih e he
  have noPackets : ∀ {e : Event C} {m m'}, e.Records m m' → notPosted e.call = true → e.packets = [] := by
    intro e m m' hr hn
    unfold Event.Records at hr
    generalize e.call = c at *
    cases c with
    | postRequest => cases hn
    | _ => exact hr
  induction h with
  | start => simp [postsIn]
  | @step ds es ms m' j d evs hr hw hp hd hm hn ih =>
    have e1 : postsIn (ds ++ [(j, d)]) = postsIn ds + postsIn [(j, d)] := by simp [postsIn]
    rw [e1, List.filter_append, List.length_append]
    have main : (evs.filter fun e => !e.packets.isEmpty).length ≤ postsIn [(j, d)] ∧ ∀ e ∈ evs, e.surbs.length ≤ 1 := by
      cases d with
      | node call out =>
        obtain ⟨e, rfl, rfl, rfl⟩ := hm
        obtain ⟨m, m', hrec⟩ := records hn e (by simp)
        have hno := noPackets hrec (by
          generalize e.call = c at *
          cases c with
          | postRequest => exact absurd hp id
          | _ => rfl)
        refine ⟨by simp [hno], fun e' he' => ?_⟩
        rw [List.mem_singleton] at he'
        subst he'
        simp [Event.surbs, hno]
      | request env ns ctx call log out =>
        refine ⟨?_, fun e he => ?_⟩
        · refine Nat.le_trans (List.length_filter_le ..) ?_
          rw [← (show List.Forall₂ _ (log.filter isPost) evs from hm).length_eq]
          simp [postsIn]
        · obtain ⟨m, m', hrec⟩ := records hn e he
          obtain ⟨x, -, r, i, d, mid, d', res, rng, now, -, hc, ho⟩ := forall₂_mem_right (show List.Forall₂ _ (log.filter isPost) evs from hm) he
          unfold Event.Records at hrec
          rw [hc, ho] at hrec
          cases res with
          | error => rw [Event.surbs, show e.packets = [] from hrec]; exact Nat.zero_le _
          | ok met =>
            obtain ⟨s, dest, hpost⟩ := hrec
            have := hpost.surbCount
            exact Nat.le_of_eq this
      | reply rng now call log out =>
        have hno : ∀ e ∈ evs, e.packets = [] := by
          intro e he
          obtain ⟨m, m', hrec⟩ := records hn e he
          obtain ⟨x, -, hc, -⟩ := forall₂_mem_right (show List.Forall₂ ReplyIs log evs from hm) he
          exact noPackets hrec (by rw [hc]; rfl)
        refine ⟨?_, fun e he => by simp [Event.surbs, hno e he]⟩
        rw [List.filter_eq_nil_iff.2 fun e he => by simp [hno e he]]
        exact Nat.zero_le _
    refine ⟨Nat.add_le_add ih.1 main.1, fun e he => ?_⟩
    rcases List.mem_append.1 he with he | he
    · exact ih.2 e he
    · exact main.2 e he

theorem few_surbs {ds : Told} {es : List (Event C)} {ms} (h : Run ds es ms) (h1 : postsIn ds = 1) :
    SurbsDiffer es ∧ SurbsUnlike es := by
  obtain ⟨c1, c2⟩ := count_posts h
  rw [h1] at c1
  have key : ∀ e ∈ es, ∀ e' ∈ es, ∀ x ∈ e.surbs, ∀ x' ∈ e'.surbs, e = e' ∧ x = x' := by
    intro e he e' he' x hx x' hx'
    have ne : ∀ {e : Event C} {x}, x ∈ e.surbs → (!e.packets.isEmpty) = true := by
      intro e x hx
      cases hp : e.packets with
      | nil => simp [Event.surbs, hp] at hx
      | cons => rfl
    have m1 : e ∈ es.filter fun e => !e.packets.isEmpty := List.mem_filter.2 ⟨he, ne hx⟩
    have m2 : e' ∈ es.filter fun e => !e.packets.isEmpty := List.mem_filter.2 ⟨he', ne hx'⟩
    have one : ∀ {α : Type} {l : List α} {a b : α}, l.length ≤ 1 → a ∈ l → b ∈ l → a = b := by
      intro α l a b hl ha hb
      match l, hl, ha, hb with
      | [y], _, ha, hb => rw [List.mem_singleton.1 ha, List.mem_singleton.1 hb]
      | _ :: _ :: _, hl, _, _ => simp at hl
    have he := one c1 m1 m2
    subst he
    exact ⟨rfl, one (c2 e ‹_›) hx hx'⟩
  exact ⟨fun e he e' he' x hx x' hx' _ _ => key e he e' he' x hx x' hx', fun e he e' he' x hx x' hx' _ => key e he e' he' x hx x' hx'⟩

theorem one_opens {ds : Told} {es : List (Event C)} {ms} (h : Run ds es ms) (h1 : (sentIn ds).all oneOpens = true) :
    OpenedByOne layout es := by
  intro p hp
  have := List.all_eq_true.1 h1 p ((sentIn_iff h p).2 hp)
  unfold oneOpens at this
  rw [Bool.and_eq_true, Bool.not_eq_true'] at this
  obtain ⟨a, b⟩ := this
  obtain ⟨j0, -, b⟩ := List.any_eq_true.1 b
  have key := opened_by_one (p := p) (j := j0) ⟨a, fun j' hj' ho => by
    have := List.all_eq_true.1 b j' hj'
    rw [ho] at this
    simpa using this⟩
  intro j i j' i' h h'
  obtain ⟨rfl, rfl⟩ := key _ _ h
  obtain ⟨rfl, rfl⟩ := key _ _ h'
  exact ⟨rfl, rfl⟩

theorem script_runs : (match sim0.acts script with | some s => fine s | none => false) = true := by decide +kernel

/-- All the hypotheses of C76 and C78 are met by a history in which a request is inserted, posted, relayed, handed out,
completed, and the reply is relayed and delivered, and the request given back; and what the theorems say of it. -/
example : ∃ (ds : Told) (es : List (Event C)) (ms : Nat → Machine Nat), Running C trait layout configs mcs rcs ds es ms ∧
    IdsFresh ds ∧ Constant trait ∧ SurbsDiffer es ∧ SurbsUnlike es ∧ OpenedByOne layout es ∧ (∀ j, (configs j).numHops ≤ 6) ∧
    (∃ a b c k k' rng rng' now now' msg msg' log log' ctx ctx' data data',
      ds = a ++ (k, .reply rng now (.insert msg) log (some (ctx, data))) ::
        (b ++ (k', .reply rng' now' (.insert msg') log' (some (ctx', data'))) :: c) ∧ ctx.messageId = ctx'.messageId) ∧
    ∃ k ctx, HandedOut ds k ctx [1, 2, 3] ∧ HandlesFor trait layout ds k ctx [1, 2, 3] 0 7 ∧
      ∃ msg, AnswerTo trait layout ds msg 0 7 ∧ msg.data = [7, 8] := by
  obtain ⟨o, ho⟩ : ∃ o, sim0.acts script = o := ⟨_, rfl⟩
  have hf := script_runs
  rw [ho] at hf
  cases o with
  | none => cases hf
  | some s =>
    have hf : fine s = true := hf
    obtain ⟨es, hr⟩ := acts_run ho sim0_runs
    unfold fine at hf
    simp only [Bool.and_eq_true] at hf
    obtain ⟨⟨⟨⟨f1, f2⟩, f3⟩, f4⟩, f5⟩ := hf
    have f1 := of_decide_eq_true f1
    have fresh : IdsFresh s.told := f1
    obtain ⟨d1, d2⟩ := few_surbs hr (by simpa using f3)
    have hone := one_opens hr f2
    have hk : ∀ j, (configs j).numHops ≤ 6 := fun j => (sane_configs j).hops
    have hT : Constant trait := fun _ _ _ => ⟨rfl, rfl⟩
    -- the last thing that happened
    obtain ⟨msg, hmsg, hans, hdata⟩ : ∃ msg, msg ∈ repliesIn 0 s.told ∧ AnswerTo trait layout s.told msg 0 7 ∧ msg.data = [7, 8] := by
      unfold lastIs at f4
      split at f4
      · rename_i env ns' c id log hlast
        obtain ⟨before, hb⟩ : ∃ before, s.told = before ++ [(0, .request env ns' c (.remove id) log (.removed (some 7)))] :=
          List.getLast?_eq_some_iff.1 hlast
        have hmap := beq_iff_eq.1 f4
        obtain ⟨msg, hm1⟩ : ∃ msg, repliesIn 0 s.told = [msg] := by
          have := congrArg List.length hmap
          rw [List.length_map] at this
          exact List.length_eq_one_iff.1 this
        rw [hm1] at hmap
        simp only [List.map_cons, List.map_nil, List.cons.injEq, Prod.mk.injEq, and_true] at hmap
        obtain ⟨rfl, hdata⟩ := hmap
        have hmem : msg ∈ repliesIn 0 before := by
          have e : repliesIn 0 s.told = repliesIn 0 before := by
            rw [hb]
            show (before ++ _).flatMap _ = _
            rw [List.flatMap_append]
            exact List.append_nil _
          rw [← e, hm1]
          exact List.mem_singleton.2 rfl
        obtain ⟨call, hgot⟩ : ∃ call, (0, .node call (.message (some (.reply msg)))) ∈ before := by
          obtain ⟨⟨k, d⟩, hm, hx⟩ := List.mem_flatMap.1 hmem
          dsimp only at hx
          split at hx
          · split at hx
            · rename_i hk0
              rw [List.mem_singleton] at hx
              subst hx
              subst hk0
              exact ⟨_, hm⟩
            · cases hx
          · cases hx
        obtain ⟨k, ctx, data, ⟨w1, w2, w3, w4, g1⟩, g2, g3, ⟨v1, v2, v3, v4, v5, g4, g4'⟩⟩ :=
          removed_is_answered toyLaws hk hr fresh hT d1 d2 hone hgot hb
        have mono : ∀ z ∈ before, z ∈ s.told := fun z hz => by rw [hb]; exact List.mem_append_left _ hz
        exact ⟨msg, by rw [hm1]; exact List.mem_singleton.2 rfl,
          ⟨k, ctx, data, ⟨w1, w2, w3, w4, mono _ g1⟩, handlesFor_mono mono g2, g3, ⟨v1, v2, v3, v4, v5, mono _ g4, g4'⟩⟩, hdata⟩
      · cases f4
    refine ⟨s.told, es, s.machines, hr, fresh, hT, d1, d2, hone, hk, ?_, ?_⟩
    · unfold twice at f5
      split at f5
      · rename_i g1 g2 g3 g4 x b h1 h2 h3 h4 y c hdrop
        have := List.take_append_drop 12 s.told
        rw [hdrop] at this
        exact ⟨s.told.take 12, [b], c, 1, 1, g1, h1, g2, h2, g3, h3, g4, h4, x.1, y.1, x.2, y.2, this.symm, by simpa using f5⟩
      · cases f5
    obtain ⟨k, ctx, data, g1, g2, -⟩ := id hans
    obtain ⟨c, hd, -⟩ := g2.2.2.2
    have hd : data = [1, 2, 3] := hd
    subst hd
    exact ⟨k, ctx, g1, g2, msg, hans, hdata⟩

end Mixnet.World
