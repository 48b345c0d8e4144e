import Verif.Proofs.ManagerPanics
import Verif.Props.Panics
import Verif.Spec.Together
/-!
# A request manager used with a node: the destinations it remembers exist
-/
namespace Mixnet
open Spec Props

/-! ### Sessions keep their mixnodes -/

/-- A disabled slot stays disabled, a session keeps its mixnodes. -/
def SlotKeeps (a b : SessionSlot) : Prop :=
  (a = .disabled → b = .disabled) ∧ ∀ s, a = .full s → ∃ s', b = .full s' ∧ s'.topology = s.topology

theorem SlotKeeps.refl (a : SessionSlot) : SlotKeeps a a := ⟨id, fun s h => ⟨s, h, rfl⟩⟩

/-- The slots keep what they have, and their place. -/
def SlotsKeep (m m' : Node) : Prop :=
  m'.sessionStatus = m.sessionStatus ∧ ∀ rel, SlotKeeps (m.sessions.get rel) (m'.sessions.get rel)

theorem SlotsKeep.same {m m' : Node} (h1 : m'.sessionStatus = m.sessionStatus) (h2 : m'.sessions = m.sessions) :
    SlotsKeep m m' := ⟨h1, fun rel => by rw [h2]; exact .refl _⟩

theorem SlotsKeep.setPending {m m' : Node} {rel0 : RelSessionIndex} {slot : SessionSlot}
    (hp : (m.sessions.get rel0).pending = true) (h1 : m'.sessionStatus = m.sessionStatus)
    (h2 : m'.sessions = m.sessions.set rel0 slot) : SlotsKeep m m' := by
  refine ⟨h1, fun rel => ?_⟩
  by_cases hr : rel = rel0
  · subst hr
    refine ⟨fun h => ?_, fun s h => ?_⟩ <;> rw [h] at hp <;> cases hp
  · rw [h2, get_set_ne _ hr]; exact .refl _

theorem SlotsKeep.setFull {m m' : Node} {rel0 : RelSessionIndex} {s t : Session} (hs : m.sessions.get rel0 = .full s)
    (h2 : m'.sessions = m.sessions.set rel0 (.full t)) (ht : t.topology = s.topology)
    (h1 : m'.sessionStatus = m.sessionStatus) : SlotsKeep m m' := by
  refine ⟨h1, fun rel => ?_⟩
  by_cases hr : rel = rel0
  · subst hr
    rw [h2, get_set_self]
    refine ⟨fun h => ?_, fun s' h => ?_⟩
    · rw [h] at hs; cases hs
    · rw [hs] at h; cases h; exact ⟨t, rfl, ht⟩
  · rw [h2, get_set_ne _ hr]; exact .refl _

theorem slots_keep {C : Crypto} {m m' : Node} {call : Call} {out : Outcome} (hc : StepCase C m call m' out)
    (hne : ∀ st, call ≠ .setSessionStatus st) : SlotsKeep m m' := by
  cases hc with
  | status st => exact absurd rfl (hne st)
  | mixnodes rel0 answer rng m' b hcase =>
    cases hcase with
    | skip => exact .same rfl rfl
    | permanent hp => exact .setPending hp rfl rfl
    | transient hp => exact .same rfl rfl
    | notWanted ms t rng1 rng2 hp => exact .setPending hp rfl rfl
    | set ms t rng1 rng2 sc hp => exact .setPending hp rfl rfl
  | nextKx rng =>
    unfold Node.nextKxPublic
    split
    · exact .same rfl rfl
    · exact .same rfl rfl
  | handle now packet m' msg hcase =>
    cases hcase with
    | ignored => exact .same rfl rfl
    | accepted out a rel0 s0 m' msg hacc heff =>
      cases heff with
      | cover => exact .same rfl rfl
      | forwardNotMixnode => exact .same rfl rfl
      | forwardFull => exact .same rfl rfl
      | forwardNowhere t d e hm => exact .setFull hacc.slot rfl rfl rfl
      | forward t d peer ev hm => exact .setFull hacc.slot rfl rfl rfl
      | requestNotMixnode => exact .same rfl rfl
      | request a o index hm => exact .setFull hacc.slot rfl rfl rfl
      | replyUnknown => exact .same rfl rfl
      | replyBad => exact .same rfl rfl
      | reply => exact .same rfl rfl
  | popForward tie => exact .same rfl rfl
  | popAuthored rng ns m' p hcase =>
    cases hcase with
    | idle => exact .same rfl rfl
    | queued rel0 s0 rng1 rng2 p rest h1 h2 hs hal hq => exact .setFull hs rfl rfl rfl
    | cover => exact .same rfl rfl
  | post rng j d mid data n ns m' d' r hcase =>
    cases hcase with
    | tooMany => exact .same rfl rfl
    | noSession => exact .same rfl rfl
    | noSpace => exact .same rfl rfl
    | noDestination => exact .same rfl rfl
    | failed bps rel0 s0 b rng1 acc e h1 h2 h3 h4 h5 hf => exact .setFull (postSession_ok h3).2.2 rfl rfl rfl
    | posted bps rel s b rng1 acc infos met qd h1 h2 h3 => exact .setFull (postSession_ok h3).2.2 rfl rfl rfl
  | reply surbs j mid data m' surbs' r hcase =>
    cases hcase with
    | tooMany => exact .same rfl rfl
    | noSession => exact .same rfl rfl
    | noSpace => exact .same rfl rfl
    | failed bps rel s rest used ps e' done bp left bad h1 h2 h3 => exact .setFull (postSession_ok h3).2.2 rfl rfl rfl
    | posted bps rel s rest used ps h1 h2 h3 => exact .setFull (postSession_ok h3).2.2 rfl rfl rfl
  | take => exact .same rfl rfl

/-- If there is a session with this index, then it has a mixnode with this index; and it will not be replaced. -/
def Known (n : Node) (i d : Nat) : Prop :=
  i ≤ n.sessionStatus.currentIndex ∧
  (i = n.sessionStatus.currentIndex → ∃ s, n.sessions.current = .full s ∧ d < s.topology.mixnodes.length) ∧
  (i + 1 = n.sessionStatus.currentIndex → n.sessions.prev = .disabled ∨
    ∃ s, n.sessions.prev = .full s ∧ d < s.topology.mixnodes.length)

theorem Known.exists {n : Node} {i d : Nat} (h : Known n i d) {s : Session} (hs : n.sessionAt i = some s) :
    d < s.topology.mixnodes.length := by
  obtain ⟨rel, h1, h2⟩ := Node.sessionAt_eq.1 hs
  rcases fromSessionIndex_some.1 h1 with ⟨rfl, hi⟩ | ⟨rfl, hi⟩
  · obtain ⟨s', e, hd⟩ := h.2.1 hi
    have : n.sessions.current = .full s := h2
    rw [e] at this; cases this; exact hd
  · have hp : n.sessions.prev = .full s := h2
    rcases h.2.2 hi with e | ⟨s', e, hd⟩
    · rw [e] at hp; cases hp
    · rw [e] at hp; cases hp; exact hd

theorem Known.of {n : Node} {i d : Nat} {s : Session} (hs : n.sessionAt i = some s)
    (hd : d < s.topology.mixnodes.length) : Known n i d := by
  obtain ⟨rel, h1, h2⟩ := Node.sessionAt_eq.1 hs
  rcases fromSessionIndex_some.1 h1 with ⟨rfl, hi⟩ | ⟨rfl, hi⟩
  · exact ⟨by omega, fun _ => ⟨s, h2, hd⟩, fun h => by omega⟩
  · exact ⟨by omega, fun h => by omega, fun _ => .inr ⟨s, h2, hd⟩⟩

theorem Known.keep {n n' : Node} {i d : Nat} (h : Known n i d) (hk : SlotsKeep n n') : Known n' i d := by
  obtain ⟨hst, hk⟩ := hk
  refine ⟨by rw [hst]; exact h.1, fun hi => ?_, fun hi => ?_⟩
  · rw [hst] at hi
    obtain ⟨s, e, hd⟩ := h.2.1 hi
    obtain ⟨s', e', ht⟩ := (hk .current).2 s e
    exact ⟨s', e', by rw [ht]; exact hd⟩
  · rw [hst] at hi
    rcases h.2.2 hi with e | ⟨s, e, hd⟩
    · exact .inl ((hk .prev).1 e)
    · obtain ⟨s', e', ht⟩ := (hk .prev).2 s e
      exact .inr ⟨s', e', by rw [ht]; exact hd⟩

theorem Known.status {n : Node} {i d : Nat} (h : Known n i d) {st : SessionStatus}
    (hst : n.sessionStatus.currentIndex ≤ st.currentIndex) : Known (n.setSessionStatus st) i d := by
  have hcase := setSessionStatus_cases n st
  generalize n.setSessionStatus st = m1 at *
  cases hcase with
  | same => exact h
  | phase hne hidx =>
    refine ⟨by have := h.1; show i ≤ st.currentIndex; omega, fun hi => ?_, fun hi => ?_⟩
    · have hi : i = st.currentIndex := hi
      obtain ⟨s, e, hd⟩ := h.2.1 (by omega)
      refine ⟨s, ?_, hd⟩
      show (dropPrev st n.sessions).current = _
      unfold dropPrev
      split <;> exact e
    · have hi : i + 1 = st.currentIndex := hi
      show (dropPrev st n.sessions).prev = .disabled ∨ ∃ s, (dropPrev st n.sessions).prev = _ ∧ _
      unfold dropPrev
      split
      · exact .inl rfl
      · exact h.2.2 (by omega)
  | shift hne =>
    refine ⟨by have := h.1; show i ≤ st.currentIndex; omega, fun hi => ?_, fun hi => ?_⟩
    · have hi : i = st.currentIndex := hi
      have := h.1
      omega
    · have hi : i + 1 = st.currentIndex := hi
      have := h.1
      obtain ⟨s, e, hd⟩ := h.2.1 (by omega)
      show (dropPrev st _).prev = .disabled ∨ ∃ s, (dropPrev st _).prev = _ ∧ _
      unfold dropPrev
      split
      · exact .inl rfl
      · refine .inr ⟨s, ?_, hd⟩
        unfold Node.shiftSessions
        have h1 : st.currentIndex - n.sessionStatus.currentIndex = 1 := by omega
        rw [h1]
        exact e

theorem Known.step {C : Crypto} {n n' : Node} {i d : Nat} (h : Known n i d) {call : Call} {out : Outcome}
    (hc : StepCase C n call n' out) (ho : Onward n call) : Known n' i d := by
  by_cases hst : ∃ st, call = .setSessionStatus st
  · obtain ⟨st, rfl⟩ := hst
    cases hc
    exact h.status ho
  · exact h.keep (slots_keep hc fun st hx => hst ⟨st, hx⟩)

/-! ### The states of the manager -/
section
variable {R Ctx : Type} {C : Crypto} {T : RequestTrait R Ctx} {config : Config} {mc : RequestManagerConfig}

/-- The destination of the request, if it has one, is known to the node. -/
def GoodState (n : Node) (s : RequestState R) : Prop :=
  s.messageId.length = MESSAGE_ID_SIZE ∧
  ∀ d, s.destinationIndex = some d → d ≤ MAX_MIXNODE_INDEX ∧ ∀ i, s.sessionIndex = some i → Known n i d

/-- All requests in the manager are good. -/
def GoodStates (n : Node) (m : RequestManager R) : Prop :=
  (∀ rel, ∀ s ∈ m.postQueues.get rel, GoodState n s) ∧ ∀ s ∈ m.retryQueue, GoodState n s

theorem GoodState.mono {n n' : Node} {s : RequestState R} (h : GoodState n s)
    (hk : ∀ i d, Known n i d → Known n' i d) : GoodState n' s :=
  ⟨h.1, fun d hd => ⟨(h.2 d hd).1, fun i hi => hk i d ((h.2 d hd).2 i hi)⟩⟩

theorem GoodStates.mono {n n' : Node} {m : RequestManager R} (h : GoodStates n m)
    (hk : ∀ i d, Known n i d → Known n' i d) : GoodStates n' m :=
  ⟨fun rel s hs => (h.1 rel s hs).mono hk, fun s hs => (h.2 s hs).mono hk⟩

theorem GoodState.fresh {n : Node} {s : RequestState R} {id : MessageId} {past : Nat} (h : id.length = MESSAGE_ID_SIZE) :
    GoodState n (s.fresh id past) := ⟨h, fun d hd => by cases hd⟩

/-- The calls of `post_request` in the log took node `n0` to node `n`. -/
inductive Feeds (C : Crypto) (T : RequestTrait R Ctx) (ns : NetworkStatus) (ctx : Ctx) (n0 : Node) :
    List (LogEntry R) → Node → Prop
  | nil : Feeds C T ns ctx n0 [] n0
  | post {log n rng i d mid r d' res n' now} : Feeds C T ns ctx n0 log n →
      (Call.postRequest rng i d mid (T.data r ctx) (T.numSurbs r ctx) ns).WellTyped →
      n.postRequest C rng i d mid (T.data r ctx) (T.numSurbs r ctx) ns = .ok (n', d', res) →
      Feeds C T ns ctx n0
        (log ++ [.post r i d mid d' (res.map fun met => ⟨met, T.handlingDelay r mid ctx, now⟩)]) n'
  | other {log n e} : Feeds C T ns ctx n0 log n → (∀ r i d mid d' res, e ≠ .post r i d mid d' res) →
      Feeds C T ns ctx n0 (log ++ [e]) n

theorem Feeds.posts {T : RequestTrait R Ctx} {ns : NetworkStatus} {ctx : Ctx} {n0 : Node} {log : List (LogEntry R)} {n : Node}
    (h : Feeds C T ns ctx n0 log n) : PostsFrom C n0 n := by
  induction h with
  | nil => exact .refl
  | post _ _ hp ih => exact .post ih hp
  | other _ _ ih => exact ih

/-- What holds while the manager works, called with node `n0` and environment `env0`. -/
structure Sound (C : Crypto) (T : RequestTrait R Ctx) (ns : NetworkStatus) (ctx : Ctx) (config : Config) (n0 : Node)
    (env0 : Env) (w : Work R) : Prop where
  reach : Node.Reachable C config w.mixnet
  fed : Feeds C T ns ctx n0 w.log w.mixnet
  env : ∃ o, ∀ k, w.env k = env0 (k + o)
  states : GoodStates w.mixnet w.mgr

/-- A panic because a random SURB ID is repeated. -/
def Blame (C : Crypto) (n0 : Node) (env0 : Env) (p : Panic) : Prop :=
  p = surbIdRepeated ∧ ∃ n k, PostsFrom C n0 n ∧ IdRepeats n (env0 k).rng

/-- Panics only so; otherwise `P` holds of the result. -/
def Fine {α : Type} (C : Crypto) (n0 : Node) (env0 : Env) (P : α → Prop) (x : Res α) : Prop :=
  (∀ p, x = .error p → Blame C n0 env0 p) ∧ ∀ a, x = .ok a → P a

variable {n0 : Node} {env0 : Env} {ns : NetworkStatus} {ctx : Ctx}

theorem Fine.ok {α : Type} {P : α → Prop} {a : α} (h : P a) : Fine C n0 env0 P (.ok a) :=
  ⟨fun _ h => (by cases h), fun _ h' => by cases h'; exact h⟩

theorem Fine.bind {α β : Type} {P : α → Prop} {Q : β → Prop} {x : Res α} {f : α → Res β}
    (h : Fine C n0 env0 P x) (h' : ∀ a, x = .ok a → P a → Fine C n0 env0 Q (f a)) : Fine C n0 env0 Q (x >>= f) := by
  cases x with
  | error p =>
    refine ⟨fun q hq => ?_, fun a ha => ?_⟩
    · cases hq; exact h.1 p rfl
    · cases ha
  | ok a => exact h' a rfl (h.2 a rfl)

theorem Fine.assert {β : Type} {Q : β → Prop} {site : String} {b : Bool} {f : Unit → Res β}
    (hb : b = true) (h : Fine C n0 env0 Q (f ())) : Fine C n0 env0 Q (assertP site b >>= f) := by
  rw [assertP_pos hb, res_bind_ok]
  exact h

theorem Fine.mono {α : Type} {P Q : α → Prop} {x : Res α} (h : Fine C n0 env0 P x) (hPQ : ∀ a, P a → Q a) :
    Fine C n0 env0 Q x := ⟨h.1, fun a ha => hPQ a (h.2 a ha)⟩

theorem Sound.draw {w : Work R} (h : Sound C T ns ctx config n0 env0 w) :
    (∃ k, w.draw.1 = env0 k) ∧ Sound C T ns ctx config n0 env0 w.draw.2 := by
  obtain ⟨o, ho⟩ := h.env
  refine ⟨⟨0 + o, ho 0⟩, h.reach, h.fed, ⟨1 + o, fun k => ?_⟩, h.states⟩
  show w.env (k + 1) = _
  rw [ho, Nat.add_assoc]

/-- The program's data has the length it says it has. -/
def Honest (T : RequestTrait R Ctx) : Prop := ∀ r ctx, (T.data r ctx).len = (T.data r ctx).toVec.length

theorem goodStates_set {n : Node} {m : RequestManager R} (h : GoodStates n m) {rel : Option RelSessionIndex}
    {l : List (RequestState R)} (hl : ∀ s ∈ l, GoodState n s) :
    GoodStates n { m with postQueues := m.postQueues.set rel l } := by
  refine ⟨fun rel' s hs => ?_, h.2⟩
  rcases mem_get_set hs with ⟨-, hs⟩ | ⟨-, hs⟩
  · exact hl s hs
  · exact h.1 rel' s hs

theorem postNext_fine (hC : CryptoLaws C) (hs : Sane config) (hT : Honest T)
    (hns : ns.localPeerId.length = PEER_ID_SIZE) {rel : Option RelSessionIndex}
    {relOrDefault : RelSessionIndex} {i : SessionIndex} {w : Work R}
    (hi : w.mgr.PostsIn rel i) (hb : BoundQ w.mgr) (hw : Sound C T ns ctx config n0 env0 w) :
    Fine C n0 env0 (fun x : Bool × Work R => Sound C T ns ctx config n0 env0 x.2)
      (Work.postNext C T ns ctx rel relOrDefault (rel.map fun _ => i) i w) := by
  unfold Work.postNext
  obtain ⟨q, hq⟩ : ∃ q, w.queue rel = q := ⟨_, rfl⟩
  rw [hq]
  cases q with
  | nil => exact .ok hw
  | cons s rest =>
    dsimp only
    have hmem : s ∈ w.mgr.postQueues.get rel := by
      unfold Work.queue at hq; rw [hq]; exact List.mem_cons_self
    have hrest : ∀ x ∈ rest, x ∈ w.mgr.postQueues.get rel := by
      intro x hx; unfold Work.queue at hq; rw [hq]; exact List.mem_cons_of_mem _ hx
    have hfit := fits_index hi (hb.1 rel s hmem).1
    have hpair := (hb.1 rel s hmem).2.1
    have hgs := hw.states.1 rel s hmem
    refine .assert (decide_eq_true hfit) ?_
    obtain ⟨⟨k, hk⟩, -⟩ := hw.draw
    obtain ⟨o, ho⟩ := hw.env
    -- the call
    have hd : ∀ d, s.destinationIndex = some d → s.sessionIndex = some i := by
      intro d hd
      cases rel with
      | none =>
        have : s.sessionIndex = none := hfit
        rw [hpair.1 this] at hd; cases hd
      | some r => exact hfit
    have hwt : (Call.postRequest w.draw.1.rng i s.destinationIndex s.messageId (T.data s.request ctx)
        (T.numSurbs s.request ctx) ns).WellTyped :=
      ⟨fun d hd' => (hgs.2 d hd').1, hgs.1, hT _ _, hns⟩
    have hex : DestinationExists w.mixnet (.postRequest w.draw.1.rng i s.destinationIndex s.messageId (T.data s.request ctx)
        (T.numSurbs s.request ctx) ns) := by
      obtain ⟨x, hx⟩ : ∃ x, s.destinationIndex = x := ⟨_, rfl⟩
      rw [hx]
      cases x with
      | none => trivial
      | some d => exact fun s' hs' => ((hgs.2 _ hx).2 i (hd _ hx)).exists hs'
    have hr := hw.reach
    obtain ⟨hI, hcfg⟩ := hr.inv hC
    have honly := postRequest_only hC hI (hcfg ▸ hs) w.draw.1.rng i hwt hex
    refine Fine.bind (P := fun x : Node × Option MixnodeIndex × Except PostErr RequestMetrics =>
      w.mixnet.postRequest C w.draw.1.rng i s.destinationIndex s.messageId (T.data s.request ctx)
        (T.numSurbs s.request ctx) ns = .ok x) ⟨fun p hp => ?_, fun a ha => ha⟩ ?_
    · obtain ⟨h1, -, h2⟩ := honly p hp
      refine ⟨h1, w.mixnet, k, hw.fed.posts, ?_⟩
      rw [← hk]; exact h2
    rintro ⟨n', d', res⟩ - hpost
    have hstep : w.mixnet.step C (.postRequest w.draw.1.rng i s.destinationIndex s.messageId (T.data s.request ctx)
        (T.numSurbs s.request ctx) ns) = .ok (n', .posted d' res) := by
      show (w.mixnet.postRequest C _ _ _ _ _ _ _ >>= _) = _
      rw [hpost]; rfl
    have hreach' : Node.Reachable C config n' := hr.step hC hwt hstep
    have hkeep : ∀ j d, Known w.mixnet j d → Known n' j d := fun j d h => h.step (Node.step_cases hC hI hwt hstep) trivial
    have hposted : ∀ now, Feeds C T ns ctx n0 (w.log ++ [.post s.request i s.destinationIndex s.messageId d'
        (res.map fun met => ⟨met, T.handlingDelay s.request s.messageId ctx, now⟩)]) n' :=
      fun now => .post hw.fed hwt hpost
    have henv : ∃ o, ∀ k, (fun k => w.env (k + 1)) k = env0 (k + o) := ⟨1 + o, fun k => by
      show w.env (k + 1) = _
      rw [ho, Nat.add_assoc]⟩
    have hst' : GoodStates n' { w.mgr with postQueues := w.mgr.postQueues.set rel rest } :=
      goodStates_set (hw.states.mono hkeep) fun x hx => (hw.states.1 rel x (hrest x hx)).mono hkeep
    have hdest : ∀ met, res = .ok met → ∀ t posts, GoodState n'
        { s with destinationIndex := d', sessionIndex := some i, retryDeadline := t, postsRemaining := posts } := by
      rintro met rfl t posts
      refine ⟨hgs.1, fun d hd' => ?_⟩
      obtain ⟨ss, dest, packets, hp, -⟩ := request_posted hC hr hs.hops hwt
        (Denotes.of_wf (show (T.data s.request ctx).WF from hT _ _)) hstep
      have hd'' : d' = some d := hd'
      rw [hp.destination.1] at hd''
      cases hd''
      refine ⟨?_, fun j hj => ?_⟩
      · obtain ⟨rel', -, hslot⟩ := Node.sessionAt_eq.1 hp.session
        have := (hI.sessions rel' ss hslot).topology.size
        have := hp.destination.2.1
        csimp; omega
      · cases hj
        exact hkeep _ _ (Known.of hp.session hp.destination.2.1)
    have hrefused : ∀ e, res = .error e → GoodState n' { s with destinationIndex := d' } := by
      rintro e rfl
      obtain ⟨rfl, -⟩ := request_refused hC hr hs.hops hwt hstep
      exact hgs.mono hkeep
    dsimp only
    split
    · rename_i met
      split
      · refine .ok ⟨hreach', hposted _, henv, ?_⟩
        refine goodStates_set hst' fun x hx => ?_
        rcases List.mem_append.1 hx with hx | hx
        · exact hst'.1 _ x hx
        · rw [List.mem_singleton] at hx
          rw [hx]; exact hdest met rfl _ _
      · rename_i h0
        refine .ok ⟨hreach', hposted _, henv, hst'.1, fun x hx => ?_⟩
        rcases List.eq_or_mem_of_mem_insertIdx hx with rfl | hx
        · exact hdest met rfl _ _
        · exact hst'.2 x hx
    · refine .ok ⟨hreach', hposted _, henv, ?_⟩
      refine goodStates_set hst' fun x hx => ?_
      rcases List.mem_cons.1 hx with rfl | hx
      · exact hrefused _ rfl
      · exact hst'.1 _ x hx
    · exact .ok ⟨hreach', .other (hposted _) (fun _ _ _ _ _ _ h => (by cases h)), henv, hst'⟩

section
variable (hC : CryptoLaws C) (hs : Sane config) (hT : Honest T)
  (hns : ns.localPeerId.length = PEER_ID_SIZE)
include hC hs hT hns

theorem postLoop_fine {rel : Option RelSessionIndex} {i : SessionIndex} {relOrDefault : RelSessionIndex} :
    ∀ {n : Nat} {w : Work R}, relOrDefault = rel.getD w.mgr.sessionStatus.phase.defaultRequestSession →
    w.mgr.PostsIn rel i → BoundQ w.mgr → Sound C T ns ctx config n0 env0 w →
    Fine C n0 env0 (fun o : Option (Work R) => ∀ w', o = some w' → Sound C T ns ctx config n0 env0 w')
      (Work.postLoop C T ns ctx rel relOrDefault (rel.map fun _ => i) i n w)
  | 0, w, hrd, hi, hb, hw => .ok fun _ h => (by cases h)
  | n + 1, w, hrd, hi, hb, hw => by
    unfold Work.postLoop
    refine Fine.bind (postNext_fine hC hs hT hns hi hb hw) ?_
    rintro ⟨again, w1⟩ hx hw1
    obtain ⟨hst, hcf, hcase⟩ := postNext_micro hrd hi hx [] []
    dsimp only at hw1 ⊢
    cases again with
    | false => exact .ok fun w' h => by cases h; exact hw1
    | true =>
      have hb1 : BoundQ w1.mgr := by
        rcases hcase with ⟨-, h, -⟩ | ⟨s, rest, -, h, -⟩ | ⟨s, rest, -, -, hm, -⟩
        · cases h
        · cases h
        · exact bound_micro hb hm.1
      exact postLoop_fine (n := n)
        (w := w1) (hrd.trans (by rw [hst])) (by unfold RequestManager.PostsIn; rw [hst]; exact hi) hb1 hw1

theorem processPostQueue_fine {rel : Option RelSessionIndex} {w : Work R} (hb : BoundQ w.mgr)
    (hw : Sound C T ns ctx config n0 env0 w) :
    Fine C n0 env0 (fun w' : Work R => Sound C T ns ctx config n0 env0 w') (w.processPostQueue C T ns ctx rel) := by
  unfold Work.processPostQueue
  dsimp only
  split
  · rename_i h
    refine .assert ?_ (.ok hw)
    rw [List.isEmpty_iff, List.eq_nil_iff_forall_not_mem]
    intro s hs
    obtain ⟨j, -, hj⟩ := (hb.1 (some .prev) s hs).1
    omega
  · rename_i h
    obtain ⟨i, hi⟩ : ∃ i, (rel.getD w.mgr.sessionStatus.phase.defaultRequestSession).add
        w.mgr.sessionStatus.currentIndex = .ok i := by
      cases hr : rel.getD w.mgr.sessionStatus.phase.defaultRequestSession with
      | current => exact ⟨_, rfl⟩
      | prev =>
        refine ⟨w.mgr.sessionStatus.currentIndex - 1, add_ok.2 (.inr ⟨rfl, ?_, rfl⟩)⟩
        rw [hr] at h
        simp only [true_and] at h
        omega
    rw [queueSession_ok hi, hi, res_bind_ok, res_bind_ok]
    refine Fine.bind (postLoop_fine hC hs hT hns (n := Work.iterations (w.queue rel)) rfl hi hb hw) ?_
    rintro o hx ho
    cases o with
    | none => exact absurd ((postLoop_micros [] [] rfl hi hx).1 rfl) (Nat.lt_irrefl _)
    | some w' => exact .ok (ho w' rfl)

theorem processPostQueues_fine {w : Work R} (hb : BoundQ w.mgr) (hw : Sound C T ns ctx config n0 env0 w) :
    Fine C n0 env0 (fun w' : Work R => Sound C T ns ctx config n0 env0 w') (w.processPostQueues C T ns ctx) := by
  unfold Work.processPostQueues
  refine .bind (processPostQueue_fine hC hs hT hns hb hw) fun w1 h1 hw1 => ?_
  have b1 := (processPostQueue_bound hb h1).1
  refine .bind (processPostQueue_fine hC hs hT hns b1 hw1) fun w2 h2 hw2 => ?_
  exact processPostQueue_fine hC hs hT hns (processPostQueue_bound b1 h2).1 hw2

omit hC hs hT hns in
theorem newDestination_sound {w : Work R} (hw : Sound C T ns ctx config n0 env0 w) (s : RequestState R) (past : Nat) :
    Sound C T ns ctx config n0 env0 (w.newDestination s past).2 ∧ GoodState w.mixnet (w.newDestination s past).1 ∧
      (w.newDestination s past).2.mixnet = w.mixnet := by
  obtain ⟨-, h⟩ := hw.draw
  exact ⟨⟨h.reach, .other h.fed (fun _ _ _ _ _ _ h => (by cases h)), h.env, h.states⟩, ⟨fillBytes_length _ _, fun d hd => by cases hd⟩, rfl⟩

omit hC hs hT hns in
theorem newDestinations_sound : ∀ {ss : List (RequestState R)} {w : Work R} (_ : Sound C T ns ctx config n0 env0 w) (past : Nat),
    Sound C T ns ctx config n0 env0 (w.newDestinations ss past).2 ∧
      ∀ s ∈ (w.newDestinations ss past).1, GoodState w.mixnet s
  | [], w, hw, past => ⟨hw, fun s h => by cases h⟩
  | s :: ss, w, hw, past => by
    obtain ⟨h1, h2, h3⟩ := newDestination_sound hw s past
    obtain ⟨h4, h5⟩ := newDestinations_sound (ss := ss) h1 past
    refine ⟨h4, fun x hx => ?_⟩
    have hx' : x ∈ (w.newDestination s past).1 :: ((w.newDestination s past).2.newDestinations ss past).1 := hx
    rcases List.mem_cons.1 hx' with rfl | hx
    · exact h2
    · exact h3 ▸ h5 x hx

omit hC hs hT hns in
theorem moveQueues_mem {q : PostQueues (RequestState R)} {old new : SessionStatus} {rel : Option RelSessionIndex}
    {s : RequestState R} (h : s ∈ (Work.moveQueues q old new).get rel) : ∃ rel', s ∈ q.get rel' := by
  obtain ⟨x, -, hb, -⟩ := moveQueues_default q old new
  have hin : s ∈ (Work.moveQueues q old new).bag := by
    unfold PostQueues.bag
    simp only [Multiset.mem_add, Multiset.mem_coe]
    match rel with
    | none => exact .inr h
    | some .current => exact .inl (.inl h)
    | some .prev => exact .inl (.inr h)
  rw [hb] at hin
  unfold PostQueues.bag at hin
  simp only [Multiset.mem_add, Multiset.mem_coe] at hin
  rcases hin with (h | h) | h
  · exact ⟨some .current, h⟩
  · exact ⟨some .prev, h⟩
  · exact ⟨none, h⟩

theorem updateSessionStatus_fine {w : Work R} (hb : BoundQ w.mgr) (hw : Sound C T ns ctx config n0 env0 w) :
    Fine C n0 env0 (fun w' : Work R => Sound C T ns ctx config n0 env0 w') (w.updateSessionStatus C T ns ctx) := by
  unfold Work.updateSessionStatus
  dsimp only
  split
  · exact .ok hw
  · rename_i hne
    obtain ⟨env', h1, h2⟩ := newDestinations_spec
      (ss := (Work.moveQueues w.mgr.postQueues w.mgr.sessionStatus w.mixnet.sessionStatus).default.drop
        w.mgr.postQueues.default.length) (w := w) (past := w.mgr.createdAt)
    obtain ⟨h3, h4⟩ := newDestinations_sound (ss := (Work.moveQueues w.mgr.postQueues w.mgr.sessionStatus
      w.mixnet.sessionStatus).default.drop w.mgr.postQueues.default.length) hw w.mgr.createdAt
    rw [h1] at h3 ⊢
    refine processPostQueues_fine hC hs hT hns (w := ⟨_, w.mixnet, env', _⟩) ?_ ?_
    · exact bound_micro (c := ⟨w.mgr, w.log, [], []⟩) hb (Micro.update hne h2)
    · refine ⟨h3.reach, h3.fed, h3.env, fun rel s hs => ?_, hw.states.2⟩
      have key : ∀ rel, ∀ s ∈ (Work.moveQueues w.mgr.postQueues w.mgr.sessionStatus w.mixnet.sessionStatus).get rel,
          GoodState w.mixnet s := by
        intro rel s hs
        obtain ⟨rel', h⟩ := moveQueues_mem hs
        exact hw.states.1 rel' s h
      match rel with
      | some .current => exact key (some .current) s hs
      | some .prev => exact key (some .prev) s hs
      | none =>
        rcases List.mem_append.1 (show s ∈ _ ++ _ from hs) with h | h
        · exact key none s (List.mem_of_mem_take h)
        · exact h4 s h

omit hC hs hT hns in
theorem retrySession_sound {w : Work R} (hw : Sound C T ns ctx config n0 env0 w) {s : RequestState R}
    (hgs : GoodState w.mixnet s) :
    Sound C T ns ctx config n0 env0 (w.retrySession s).2.2 ∧ GoodState w.mixnet (w.retrySession s).2.1 := by
  have hnew := newDestination_sound hw s w.mgr.createdAt
  unfold Work.retrySession
  split
  · exact ⟨hw, hgs⟩
  · split
    · split
      · exact ⟨hw, hgs⟩
      · exact ⟨hnew.1, hnew.2.1⟩
    · exact ⟨hnew.1, hnew.2.1⟩

theorem enqueue_fine {w : Work R} {s : RequestState R} (hb : BoundQ w.mgr) (hp : Paired s)
    (h1 : 1 ≤ w.mgr.config.numPostsPerAttempt) (hw : Sound C T ns ctx config n0 env0 w) (hgs : GoodState w.mixnet s) :
    Fine C n0 env0 (fun w' : Work R => Sound C T ns ctx config n0 env0 w') (w.enqueue C T ns ctx s) := by
  unfold Work.enqueue
  refine .assert (decide_eq_true h1) ?_
  dsimp only
  obtain ⟨env', l2, e1, e2⟩ := retrySession_spec w { s with postsRemaining := w.mgr.config.numPostsPerAttempt - 1 }
  obtain ⟨e3, e4⟩ := retrySession_sound hw (s := { s with postsRemaining := w.mgr.config.numPostsPerAttempt - 1 }) hgs
  obtain ⟨x, hx⟩ : ∃ x, w.retrySession { s with postsRemaining := w.mgr.config.numPostsPerAttempt - 1 } = x := ⟨_, rfl⟩
  rw [hx] at e1 e2 e3 e4 ⊢
  obtain ⟨rel, s2, w1⟩ := x
  dsimp only at e1 e2 e3 e4 ⊢
  subst e1
  have hb1 : BoundQ { w.mgr with postQueues := w.mgr.postQueues.set rel (w.mgr.postQueues.get rel ++ [s2]) } := by
    refine ⟨?_, hb.2⟩
    intro rel' t ht
    replace ht := mem_get_set ht
    rcases ht with ⟨rfl, ht⟩ | ⟨-, ht⟩
    · rcases List.mem_append.1 ht with ht | ht
      · exact hb.1 _ t ht
      · rw [List.mem_singleton] at ht
        subst ht
        exact place_fits (m := w.mgr) e2 hp
    · exact hb.1 _ t ht
  have hw1 : Sound C T ns ctx config n0 env0 ⟨{ w.mgr with postQueues := w.mgr.postQueues.set rel (w.mgr.postQueues.get rel ++ [s2]) },
      w.mixnet, env', w.log ++ l2⟩ := by
    refine ⟨e3.reach, e3.fed, e3.env, goodStates_set e3.states fun x hx => ?_⟩
    rcases List.mem_append.1 hx with hx | hx
    · exact e3.states.1 _ x hx
    · rw [List.mem_singleton] at hx
      subst hx; exact e4
  split
  · refine .bind (processPostQueue_fine hC hs hT hns (w := ⟨_, w.mixnet, env', _⟩) hb1 hw1) fun w2 h2 hw2 => ?_
    split
    · exact processPostQueue_fine hC hs hT hns (processPostQueue_bound hb1 h2).1 hw2
    · exact .ok hw2
  · exact .ok hw1

theorem retry_fine {w : Work R} {s : RequestState R} (hb : BoundQ w.mgr) (hp : Paired s) (h0 : s.postsRemaining = 0)
    (h1 : 1 ≤ w.mgr.config.numPostsPerAttempt) (h2 : 1 ≤ w.mgr.config.numAttemptsPerDestination)
    (hw : Sound C T ns ctx config n0 env0 w) (hgs : GoodState w.mixnet s) :
    Fine C n0 env0 (fun w' : Work R => Sound C T ns ctx config n0 env0 w') (w.retry C T ns ctx s) := by
  unfold Work.retry
  refine .assert (decide_eq_true h0) ?_
  split
  · exact enqueue_fine hC hs hT hns hb hp h1 hw hgs
  · split
    · exact .ok ⟨hw.reach, .other hw.fed (fun _ _ _ _ _ _ h => (by cases h)), hw.env, hw.states⟩
    · rename_i dr _
      refine .assert (decide_eq_true h2) ?_
      have hnew := newDestination_sound hw
        { s with destinationsRemaining := dr, attemptsRemaining := w.mgr.config.numAttemptsPerDestination - 1 } w.mgr.createdAt
      exact enqueue_fine hC hs hT hns (w := ⟨w.mgr, w.mixnet, _, _⟩) hb ⟨fun _ => rfl, fun _ => rfl⟩ h1 hnew.1 hnew.2.1

omit hC hs hT hns in
theorem bound_nextRetry {m : RequestManager R} (hb : BoundQ m) {s : RequestState R} {rest : List (RequestState R)}
    (hq : m.retryQueue = s :: rest) : BoundQ { m with retryQueue := rest, nextRetryDeadlineChanged := true } :=
  ⟨hb.1, fun x hx => hb.2 x (by rw [hq]; exact List.mem_cons_of_mem _ hx)⟩

/-- A call of the manager panics only because of a repeated SURB ID, and what is known stays true. -/
theorem manager_fine {m : RequestManager R} {env : Env} {n : Node} {call : ManagerCall R}
    (hr : Node.Reachable C config n) (hg : GoodStates n m)
    (hb : BoundQ m) (h1 : 1 ≤ m.config.numPostsPerAttempt) (h2 : 1 ≤ m.config.numAttemptsPerDestination)
    (hsp : ∀ r, call = .insert r → m.hasSpace = true) :
    Fine C n env (fun x : RequestManager R × Node × List (LogEntry R) × ManagerOutcome R =>
      Node.Reachable C config x.2.1 ∧ GoodStates x.2.1 x.1 ∧ Feeds C T ns ctx n x.2.2.1 x.2.1) (m.step C T n env ns ctx call) := by
  have hw : Sound C T ns ctx config n env (⟨m, n, env, []⟩ : Work R) := ⟨hr, .nil, ⟨0, fun _ => rfl⟩, hg⟩
  cases call with
  | updateSessionStatus =>
    exact .bind (updateSessionStatus_fine hC hs hT hns hb hw) fun w _ h => .ok ⟨h.reach, h.states, h.fed⟩
  | insert r =>
    refine .bind (P := fun w' : Work R => Sound C T ns ctx config n env w') ?_ fun w _ h => .ok ⟨h.reach, h.states, h.fed⟩
    unfold Work.insert
    refine .assert (hsp r rfl) ?_
    exact retry_fine hC hs hT hns hb ⟨fun _ => rfl, fun _ => rfl⟩ rfl h1 h2 hw
      ⟨List.length_replicate, fun d hd => by cases hd⟩
  | remove id =>
    refine .ok ⟨hr, ?_, .nil⟩
    have hc := remove_cases m id
    obtain ⟨x, hx⟩ : ∃ x, m.remove id = x := ⟨_, rfl⟩
    rw [hx] at hc
    show GoodStates n (m.remove id).1
    rw [hx]
    obtain ⟨m', o⟩ := x
    dsimp only at hc ⊢
    cases hc with
    | @post rel s a b e _ =>
      refine goodStates_set hg fun x hx => hg.1 rel x ?_
      rw [e]
      rcases List.mem_append.1 hx with h | h
      · exact List.mem_append_left _ h
      · exact List.mem_append_right _ (List.mem_cons_of_mem _ h)
    | @retry s a b e _ =>
      refine ⟨hg.1, fun x hx => hg.2 x ?_⟩
      rw [e]
      rcases List.mem_append.1 (show x ∈ a ++ b from hx) with h | h
      · exact List.mem_append_left _ h
      · exact List.mem_append_right _ (List.mem_cons_of_mem _ h)
    | none => exact hg
  | processPostQueues =>
    exact .bind (processPostQueues_fine hC hs hT hns hb hw) fun w _ h => .ok ⟨h.reach, h.states, h.fed⟩
  | popNextRetry =>
    refine .bind (P := fun x : Work R × Bool => Sound C T ns ctx config n env x.1) ?_ fun w _ h => .ok ⟨h.reach, h.states, h.fed⟩
    unfold Work.popNextRetry
    dsimp only
    obtain ⟨q, hq⟩ : ∃ q, m.retryQueue = q := ⟨_, rfl⟩
    rw [hq]
    cases q with
    | nil => exact .ok hw
    | cons s rest =>
      dsimp only
      have hs' := hb.2 s (by rw [hq]; exact List.mem_cons_self)
      refine .bind (P := fun w' : Work R => Sound C T ns ctx config n env w') ?_ fun w _ h => .ok h
      refine retry_fine hC hs hT hns (w := ⟨_, n, env, []⟩) (bound_nextRetry hb hq) hs'.2.2 hs'.2.1 h1 h2 ?_
        (hg.2 s (by rw [hq]; exact List.mem_cons_self))
      exact ⟨hr, .nil, ⟨0, fun _ => rfl⟩, hg.1, fun x hx => hg.2 x (by rw [hq]; exact List.mem_cons_of_mem _ hx)⟩
  | nextRetryDeadlineChanged => exact .ok ⟨hr, hg, .nil⟩

end
end
end Mixnet
