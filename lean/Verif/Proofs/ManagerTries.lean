import Verif.Spec.Tries
import Verif.Proofs.ManagerIds
/-!
# How often message ids are drawn and used
-/
namespace Mixnet
open Spec
variable {R Ctx : Type}

/-! ### Drawn ids -/

/-- How many message ids were drawn for requests satisfying `p`. -/
def news (p : R → Bool) (log : List (LogEntry R)) : Nat :=
  log.countP fun | .newId r _ => p r | _ => false

theorem news_append (p : R → Bool) (a b : List (LogEntry R)) : news p (a ++ b) = news p a + news p b :=
  List.countP_append

theorem news_moved (p : R → Bool) (l : List (RequestState R)) :
    news p (l.map fun s => .newId s.request s.messageId) = l.countP fun s => p s.request := by
  unfold news
  rw [List.countP_map]
  rfl

/-- Requests are no longer allowed in the session of the request. -/
def stale (st : SessionStatus) (s : RequestState R) : Bool :=
  match s.sessionIndex with
  | none => false
  | some i =>
    match RelSessionIndex.fromSessionIndex i st.currentIndex with
    | none => true
    | some rel => !st.phase.allowRequestsAndReplies rel

/-- The message ids that may still be drawn for a request, if the session status does not change. -/
def weight (p : R → Bool) (st : SessionStatus) (s : RequestState R) : Nat :=
  if p s.request then s.destinationsRemaining + (stale st s).toNat else 0

/-- The message ids drawn, and those that may still be. -/
def potential (p : R → Bool) (c : Cfg R) : Nat :=
  news p c.log + (c.mgr.states.map (weight p c.mgr.sessionStatus)).sum

/-- The requests satisfying `p` in the manager. -/
def held (p : R → Bool) (m : RequestManager R) : Nat := (m.states.map fun s => (p s.request).toNat).sum

theorem posted_open {m : RequestManager R} {rel : Option RelSessionIndex} {i : SessionIndex} (h : m.PostsIn rel i)
    (s : RequestState R) (d : Option MixnodeIndex) (t : Nat) (hs : s.sessionIndex = rel.map fun _ => i) :
    stale m.sessionStatus (s.posted i d t) = stale m.sessionStatus s := by
  have hf : RelSessionIndex.fromSessionIndex i m.sessionStatus.currentIndex =
      some (rel.getD m.sessionStatus.phase.defaultRequestSession) := by
    rw [fromSessionIndex_some]
    rcases add_ok.1 h with ⟨h1, h2⟩ | ⟨h1, h2, h3⟩
    · rw [h1]; exact .inl ⟨rfl, h2⟩
    · rw [h1]; exact .inr ⟨rfl, by omega⟩
  cases rel with
  | none =>
    have e : stale m.sessionStatus s = false := by
      unfold stale; rw [hs]; rfl
    rw [e]
    unfold stale RequestState.posted
    dsimp only
    rw [hf]
    simp [default_open]
  | some rel =>
    unfold stale RequestState.posted
    dsimp only
    rw [hs]
    rfl

theorem fresh_stale (st : SessionStatus) (s : RequestState R) (id : MessageId) (past : Nat) :
    stale st (s.fresh id past) = false := rfl

theorem retry_weight {p : R → Bool} {m m' : RequestManager R} {s : RequestState R} {l : List (LogEntry R)}
    (h : Retry m s m' l) :
    m'.sessionStatus = m.sessionStatus ∧ m'.config = m.config ∧
    news p l + (m'.states.map (weight p m.sessionStatus)).sum ≤
      (m.states.map (weight p m.sessionStatus)).sum + weight p m.sessionStatus s := by
  refine ⟨h.status, (retry_states h).1, ?_⟩
  obtain ⟨-, ⟨rfl, rfl, h1, h2⟩ | ⟨s1, l1, rel, s2, l2, h0, rfl, h1, h2, -, h3, h4, h5, -⟩⟩ := retry_states h
  · show 0 + _ ≤ _
    omega
  · have hS : m'.states = s2 ::ₘ m.states := by
      unfold RequestManager.states
      rw [h3, h4, Multiset.cons_add]
    rw [hS, Multiset.map_cons, Multiset.sum_cons, news_append]
    have k1 : news p l1 + weight p m.sessionStatus s1 ≤ weight p m.sessionStatus s := by
      cases h1 with
      | attempt ha => exact Nat.le_of_eq (Nat.zero_add _)
      | @destination d id ha hd _ =>
        have : news p [LogEntry.newId s.request id] = (p s.request).toNat := by
          unfold news; cases hp : p s.request <;> simp [hp]
        rw [this]
        unfold weight
        rw [fresh_stale]
        unfold RequestState.fresh
        dsimp only
        rw [hd]
        cases p s.request <;> simp
        omega
    have k2 : news p l2 + weight p m.sessionStatus s2 ≤ weight p m.sessionStatus s1 := by
      cases h2 with
      | unbound _ => exact Nat.le_of_eq (Nat.zero_add _)
      | bound _ _ _ => exact Nat.le_of_eq (Nat.zero_add _)
      | @moved i id hi hc =>
        have : news p [LogEntry.newId s1.request id] = (p s1.request).toNat := by
          unfold news; cases hp : p s1.request <;> simp [hp]
        have hst : stale m.sessionStatus s1 = true := by
          unfold stale
          rw [hi]
          dsimp only
          cases hf : RelSessionIndex.fromSessionIndex i m.sessionStatus.currentIndex with
          | none => rfl
          | some rel => dsimp only; rw [hc rel hf]; rfl
        rw [this]
        unfold weight
        rw [fresh_stale, hst]
        unfold RequestState.fresh
        dsimp only
        cases p s1.request <;> simp
        omega
    omega

theorem weight_change (p : R → Bool) (st st' : SessionStatus) (s : RequestState R) :
    weight p st' s ≤ weight p st s + (p s.request).toNat := by
  unfold weight
  cases p s.request
  · simp
  · have := Bool.toNat_le (stale st' s)
    simp
    omega

theorem sum_le {α : Type} {f g : α → Nat} (S : Multiset α) (h : ∀ a, f a ≤ g a) : (S.map f).sum ≤ (S.map g).sum := by
  induction S using Multiset.induction_on with
  | empty => simp
  | cons a S ih =>
    rw [Multiset.map_cons, Multiset.map_cons, Multiset.sum_cons, Multiset.sum_cons]
    have := h a
    omega

theorem sum_add {α : Type} {f g : α → Nat} (S : Multiset α) :
    (S.map fun a => f a + g a).sum = (S.map f).sum + (S.map g).sum := by
  induction S using Multiset.induction_on with
  | empty => simp
  | cons a S ih =>
    rw [Multiset.map_cons, Multiset.map_cons, Multiset.map_cons, Multiset.sum_cons, Multiset.sum_cons,
      Multiset.sum_cons, ih]
    omega

theorem moved_weight {p : R → Bool} {st st' : SessionStatus} {past : Nat} {x moved : List (RequestState R)}
    (h : List.Forall₂ (fun s s' : RequestState R => s' = s.fresh s'.messageId past) x moved) :
    (moved.countP fun s => p s.request) + (moved.map (weight p st')).sum ≤
      (x.map (weight p st)).sum + (x.map fun s => (p s.request).toNat).sum := by
  induction h with
  | nil => simp
  | @cons s s' x moved hs _ ih =>
    simp only [List.map_cons, List.sum_cons, List.countP_cons]
    have e1 : s'.request = s.request := by rw [hs]; rfl
    have e2 : weight p st' s' ≤ weight p st s := by
      rw [hs]
      unfold weight
      rw [fresh_stale]
      unfold RequestState.fresh
      dsimp only
      cases p s.request <;> simp
    rw [e1]
    cases p s.request <;> simp <;> omega

/-- What a step does to the potential. -/
theorem potential_micro (p : R → Bool) {c c' : Cfg R} (hm : Micro c c') :
    ∃ n, c'.inserted.countP p = c.inserted.countP p + n ∧
      potential p c' ≤ potential p c + c.mgr.config.numDestinations * n +
        (if c'.mgr.sessionStatus = c.mgr.sessionStatus then 0 else held p c.mgr) := by
  unfold potential
  cases hm with
  | @requeue m log ins rem rel s rest i n d t met h1 h2 h3 h4 h5 h6 =>
    refine ⟨0, rfl, ?_⟩
    unfold RequestManager.states
    dsimp only
    rw [PostQueues.bag_push, PostQueues.bag_pop h1, Multiset.cons_add, Multiset.cons_add, Multiset.map_cons,
      Multiset.sum_cons, Multiset.map_cons, Multiset.sum_cons, news_append]
    have : weight p m.sessionStatus { s.posted i d t with postsRemaining := n } = weight p m.sessionStatus s := by
      have := posted_open h2 s d t h3
      unfold weight
      rw [show stale m.sessionStatus { s.posted i d t with postsRemaining := n } =
        stale m.sessionStatus (s.posted i d t) from rfl, this]
      rfl
    rw [this]
    have : news p [LogEntry.post s.request i s.destinationIndex s.messageId d (.ok met)] = 0 := rfl
    simp
    omega
  | @wait m log ins rem rel s rest i d t met h1 h2 h3 h4 h5 h6 =>
    refine ⟨0, rfl, ?_⟩
    unfold RequestManager.states
    dsimp only
    rw [insertSorted_bag, PostQueues.bag_pop h1, Multiset.cons_add, Multiset.add_cons, Multiset.map_cons,
      Multiset.sum_cons, Multiset.map_cons, Multiset.sum_cons, news_append]
    have : weight p m.sessionStatus (s.posted i d t) = weight p m.sessionStatus s := by
      have := posted_open h2 s d t h3
      unfold weight
      rw [this]
      rfl
    rw [this]
    have : news p [LogEntry.post s.request i s.destinationIndex s.messageId d (.ok met)] = 0 := rfl
    simp
    omega
  | @refused m log ins rem rel s rest i h1 h2 =>
    refine ⟨0, rfl, ?_⟩
    dsimp only
    rw [news_append]
    have : news p [LogEntry.post s.request i s.destinationIndex s.messageId s.destinationIndex
      (.error .notEnoughSpaceInQueue)] = 0 := rfl
    simp
    omega
  | @failed m log ins rem rel s rest i e h1 h2 h3 =>
    refine ⟨0, rfl, ?_⟩
    unfold RequestManager.states
    dsimp only
    rw [PostQueues.bag_pop h1, Multiset.cons_add, Multiset.map_cons, Multiset.sum_cons, news_append]
    have : news p [LogEntry.post s.request i s.destinationIndex s.messageId s.destinationIndex (.error e),
      .postErr s.request e] = 0 := rfl
    simp
    omega
  | @pop m log ins rem s rest m' l h1 h2 h3 =>
    obtain ⟨k1, k2, k3⟩ := retry_weight (p := p) h3
    refine ⟨0, rfl, ?_⟩
    dsimp only at k1 k3 ⊢
    rw [k1, news_append]
    have : (m.states.map (weight p m.sessionStatus)).sum =
        (RequestManager.states { m with retryQueue := rest, nextRetryDeadlineChanged := true } |>.map
          (weight p m.sessionStatus)).sum + weight p m.sessionStatus s := by
      unfold RequestManager.states
      dsimp only
      rw [h1, ← Multiset.cons_coe, Multiset.add_cons, Multiset.map_cons, Multiset.sum_cons]
      omega
    rw [this]
    simp
    omega
  | @insert m log ins rem s m' l h1 h2 h3 h4 h5 =>
    obtain ⟨k1, k2, k3⟩ := retry_weight (p := p) h5
    refine ⟨(p s.request).toNat, ?_, ?_⟩
    · dsimp only
      rw [List.countP_append, List.countP_singleton]
      cases p s.request <;> rfl
    · dsimp only
      rw [k1, news_append]
      have : weight p m.sessionStatus s = m.config.numDestinations * (p s.request).toNat := by
        unfold weight stale
        rw [h4, h2]
        cases p s.request <;> simp
      simp
      omega
  | @update m log ins rem status moved h1 h2 =>
    obtain ⟨x, rest, e1, e2, -, e3⟩ := update_bag h2
    refine ⟨0, rfl, ?_⟩
    have := moved_weight (p := p) (st := m.sessionStatus) (st' := status) e3
    unfold held RequestManager.states
    dsimp only
    rw [if_neg (Ne.symm h1), news_append, news_moved, e2, e1]
    simp only [Multiset.map_add, Multiset.sum_add]
    have k1 := sum_le rest fun s => weight_change p m.sessionStatus status s
    have k2 := sum_le (↑m.retryQueue : Multiset (RequestState R)) fun s => weight_change p m.sessionStatus status s
    rw [sum_add] at k1 k2
    simp only [Multiset.map_coe, Multiset.sum_coe] at this k1 k2 ⊢
    omega
  | @remove m log ins rem rel s a b h1 =>
    refine ⟨0, rfl, ?_⟩
    unfold RequestManager.states
    dsimp only
    rw [PostQueues.bag_split h1, Multiset.cons_add, Multiset.map_cons, Multiset.sum_cons]
    simp
  | @removeRetry m log ins rem s a b h1 =>
    refine ⟨0, rfl, ?_⟩
    unfold RequestManager.states
    dsimp only
    rw [h1, ms_middle, Multiset.singleton_add, Multiset.add_cons, Multiset.map_cons, Multiset.sum_cons]
    simp

theorem held_le {p : R → Bool} {c : Cfg R} (h : Kept c) : held p c.mgr ≤ c.inserted.countP p := by
  have e : ∀ S : Multiset (RequestState R), (S.map fun s => (p s.request).toNat).sum =
      Multiset.countP (fun r => p r = true) (S.map (·.request)) := by
    intro S
    induction S using Multiset.induction_on with
    | empty => simp
    | cons a S ih =>
      rw [Multiset.map_cons, Multiset.sum_cons, Multiset.map_cons, Multiset.countP_cons, ih]
      cases p a.request <;> simp
      omega
  unfold held
  rw [e]
  have : c.inserted.countP p = Multiset.countP (fun r => p r = true) (↑c.inserted : Multiset R) := by
    rw [Multiset.coe_countP]
    exact congrArg (fun f => List.countP f c.inserted) (funext fun b => by simp)
  rw [this, ← h]
  simp only [Multiset.countP_add]
  omega

/-- Bounded by the number of destinations configured and that of the changes of the session status. -/
def Tried (p : R → Bool) (k : Nat) (c : Cfg R) : Prop :=
  Kept c ∧ potential p c ≤ (c.mgr.config.numDestinations + k) * c.inserted.countP p

theorem tried_calm {p : R → Bool} {k : Nat} {c c' : Cfg R} (h : Tried p k c) (hm : Calm c c') : Tried p k c' := by
  obtain ⟨n, h1, h2⟩ := potential_micro p hm.1
  refine ⟨kept_micro h.1 hm.1, ?_⟩
  rw [if_pos hm.2] at h2
  rw [(config_micro hm.1).1, h1, Nat.mul_add]
  have := h.2
  have : c.mgr.config.numDestinations * n ≤ (c.mgr.config.numDestinations + k) * n :=
    Nat.mul_le_mul_right _ (Nat.le_add_right ..)
  omega

theorem tried_micro {p : R → Bool} {k : Nat} {c c' : Cfg R} (h : Tried p k c) (hm : Micro c c') : Tried p (k + 1) c' := by
  obtain ⟨n, h1, h2⟩ := potential_micro p hm
  refine ⟨kept_micro h.1 hm, ?_⟩
  have hh := held_le (p := p) h.1
  rw [(config_micro hm).1, h1, Nat.mul_add]
  have := h.2
  have e1 : c.mgr.config.numDestinations * n ≤ (c.mgr.config.numDestinations + (k + 1)) * n :=
    Nat.mul_le_mul_right _ (Nat.le_add_right ..)
  have e2 : (c.mgr.config.numDestinations + (k + 1)) * c.inserted.countP p =
      (c.mgr.config.numDestinations + k) * c.inserted.countP p + c.inserted.countP p := by ring
  have e3 : (if c'.mgr.sessionStatus = c.mgr.sessionStatus then 0 else held p c.mgr) ≤ c.inserted.countP p := by
    split
    · exact Nat.zero_le _
    · exact hh
  omega

theorem tried_calms {p : R → Bool} {k : Nat} {c c' : Cfg R} (h : Tried p k c) (hm : Calms c c') : Tried p k c' := by
  induction hm with
  | refl => exact h
  | tail _ hm ih => exact tried_calm ih hm

theorem tried_runs {C : Crypto} {T : RequestTrait R Ctx} {p : R → Bool} {m m' : RequestManager R}
    {calls : List (ManagerCall R)} {outs : List (ManagerOutcome R)} {logs : List (LogEntry R)} {k : Nat}
    (h : RunsChanging C T m calls outs logs k m') :
    ∀ (log : List (LogEntry R)) (ins rem : List R) (j : Nat), Tried p j ⟨m, log, ins, rem⟩ →
      Tried p (j + k) ⟨m', log ++ logs, ins ++ inserted calls, rem ++ removed outs⟩ := by
  have flag : ∀ {m : RequestManager R} {mixnet mixnet' env ns ctx m1 l out} {log : List (LogEntry R)} {ins rem j},
      m.step C T mixnet env ns ctx .nextRetryDeadlineChanged = .ok (m1, mixnet', l, out) →
      Tried p j ⟨m, log, ins, rem⟩ →
      Tried p j ⟨m1, log ++ l, ins ++ inserted [ManagerCall.nextRetryDeadlineChanged], rem ++ removed [out]⟩ := by
    intro m mixnet mixnet' env ns ctx m1 l out log ins rem j h1 hP
    cases h1
    simpa [inserted, removed] using (show Tried p j ⟨{ m with nextRetryDeadlineChanged := false }, log, ins, rem⟩ from hP)
  induction h with
  | nil m => intro log ins rem j h; simpa [inserted, removed] using h
  | @same m call mixnet env ns ctx m1 mixnet' log1 out calls outs logs k m'' h1 hs h2 ih =>
    intro log ins rem j hP
    have step : Tried p j ⟨m1, log ++ log1, ins ++ inserted [call], rem ++ removed [out]⟩ := by
      by_cases hcall : call = .nextRetryDeadlineChanged
      · subst hcall
        exact flag h1 hP
      · rcases manager_step_calms hcall h1 log ins rem with hc | ⟨hn, -⟩
        · exact tried_calms hP hc
        · exact absurd hs hn
    have := ih _ _ _ _ step
    simpa [inserted, removed] using this
  | @change m call mixnet env ns ctx m1 mixnet' log1 out calls outs logs k m'' h1 hs h2 ih =>
    intro log ins rem j hP
    have step : Tried p (j + 1) ⟨m1, log ++ log1, ins ++ inserted [call], rem ++ removed [out]⟩ := by
      by_cases hcall : call = .nextRetryDeadlineChanged
      · subst hcall
        cases h1
        exact absurd rfl hs
      · rcases manager_step_calms hcall h1 log ins rem with hc | ⟨-, c, hm, hc⟩
        · exact absurd hc.status hs
        · exact tried_calms (tried_micro hP hm) hc
    have := ih _ _ _ _ step
    rw [show j + 1 + k = j + (k + 1) by omega] at this
    simpa [inserted, removed] using this

/-! ### Whose ids -/

/-- The message ids drawn, with the requests. -/
def owners (log : List (LogEntry R)) : List (R × MessageId) :=
  log.flatMap fun
    | .newId r id => [(r, id)]
    | _ => []

theorem owners_append (a b : List (LogEntry R)) : owners (a ++ b) = owners a ++ owners b := List.flatMap_append

theorem owners_news (p : R → Bool) (log : List (LogEntry R)) : news p log = (owners log).countP fun x => p x.1 := by
  induction log with
  | nil => rfl
  | cons e log ih =>
    show news p ([e] ++ log) = List.countP _ (owners ([e] ++ log))
    rw [news_append, owners_append, List.countP_append, ih]
    congr 1
    cases e <;> rfl

theorem owners_drawn (log : List (LogEntry R)) : drawn log = (owners log).map (·.2) := by
  induction log with
  | nil => rfl
  | cons e log ih =>
    show drawn ([e] ++ log) = (owners ([e] ++ log)).map _
    rw [drawn_append, owners_append, List.map_append, ih]
    congr 1
    cases e <;> rfl

theorem owners_moved (l : List (RequestState R)) :
    owners (l.map fun s => .newId s.request s.messageId) = l.map fun s => (s.request, s.messageId) := by
  induction l with
  | nil => rfl
  | cons s ss ih =>
    show (s.request, s.messageId) :: owners _ = _
    rw [ih]; rfl

theorem sendings_moved (l : List (RequestState R)) :
    sendings (l.map fun s => .newId s.request s.messageId) = [] := by
  induction l with
  | nil => rfl
  | cons s ss ih => exact ih

/-- Requests have ids drawn for them, and are posted with these. -/
structure Owned (S : Multiset (RequestState R)) (log : List (LogEntry R)) : Prop where
  states : ∀ s ∈ S, (s.request, s.messageId) ∈ owners log
  sent : ∀ x ∈ sendings log, (x.1, x.2.2.1) ∈ owners log

theorem Owned.add {S : Multiset (RequestState R)} {log l : List (LogEntry R)} (h : Owned S log) (hl : sendings l = []) :
    Owned S (log ++ l) := by
  constructor
  · intro s hs
    rw [owners_append]
    exact List.mem_append_left _ (h.states s hs)
  · intro x hx
    rw [sendings_append, hl, List.append_nil] at hx
    rw [owners_append]
    exact List.mem_append_left _ (h.sent x hx)

theorem Owned.le {S S' : Multiset (RequestState R)} {log : List (LogEntry R)} (h : Owned S log) (hl : S' ≤ S) :
    Owned S' log := ⟨fun s hs => h.states s (Multiset.mem_of_le hl hs), h.sent⟩

theorem Owned.post {S : Multiset (RequestState R)} {s s' : RequestState R} {log : List (LogEntry R)} {i d0 d met}
    (h : Owned (s ::ₘ S) log) (h1 : s'.messageId = s.messageId) (h2 : s'.request = s.request) :
    Owned (s' ::ₘ S) (log ++ [.post s.request i d0 s.messageId d (.ok met)]) := by
  constructor
  · intro t ht
    rw [owners_append]
    refine List.mem_append_left _ ?_
    rcases Multiset.mem_cons.1 ht with rfl | ht
    · rw [h1, h2]; exact h.states s (Multiset.mem_cons_self ..)
    · exact h.states t (Multiset.mem_cons_of_mem ht)
  · intro x hx
    rw [owners_append]
    refine List.mem_append_left _ ?_
    rw [sendings_append, sendings_post] at hx
    rcases List.mem_append.1 hx with hx | hx
    · exact h.sent x hx
    · rw [List.mem_singleton] at hx
      subst hx
      exact h.states s (Multiset.mem_cons_self ..)

theorem Owned.cons {S : Multiset (RequestState R)} {s : RequestState R} {log : List (LogEntry R)} (h : Owned S log)
    (hs : (s.request, s.messageId) ∈ owners log) : Owned (s ::ₘ S) log := by
  refine ⟨fun t ht => ?_, h.sent⟩
  rcases Multiset.mem_cons.1 ht with rfl | ht
  · exact hs
  · exact h.states t ht

theorem owned_retry {m m' : RequestManager R} {s : RequestState R} {l log : List (LogEntry R)} (h : Retry m s m' l)
    (ho : Owned m.states log) (hs : s.attemptsRemaining = 0 ∨ (s.request, s.messageId) ∈ owners log) :
    Owned m'.states (log ++ l) := by
  obtain ⟨-, ⟨rfl, rfl, h1, h2⟩ | ⟨s1, l1, rel, s2, l2, h0, rfl, h1, h2, -, h3, h4, h5, -⟩⟩ := retry_states h
  · exact ho.add rfl
  · have hS : m'.states = s2 ::ₘ m.states := by
      unfold RequestManager.states
      rw [h3, h4, Multiset.cons_add]
    rw [hS]
    have e1 : (s1.request, s1.messageId) ∈ owners (log ++ l1) ∧ sendings l1 = [] := by
      cases h1 with
      | attempt ha =>
        rw [List.append_nil]
        rcases hs with hs | hs
        · omega
        · exact ⟨hs, rfl⟩
      | destination _ _ _ =>
        rw [owners_append]
        exact ⟨List.mem_append_right _ (List.mem_singleton.2 rfl), rfl⟩
    have e2 : (s2.request, s2.messageId) ∈ owners (log ++ l1 ++ l2) ∧ sendings l2 = [] := by
      cases h2 with
      | unbound _ => rw [List.append_nil]; exact ⟨e1.1, rfl⟩
      | bound _ _ _ => rw [List.append_nil]; exact ⟨e1.1, rfl⟩
      | moved _ _ =>
        rw [owners_append]
        exact ⟨List.mem_append_right _ (List.mem_singleton.2 rfl), rfl⟩
    rw [← List.append_assoc]
    exact ((ho.add e1.2).add e2.2).cons e2.1

theorem owned_micro {c c' : Cfg R} (h : Owned c.mgr.states c.log) (hm : Micro c c') : Owned c'.mgr.states c'.log := by
  cases hm with
  | @requeue m log ins rem rel s rest i n d t met h1 h2 h3 h4 h5 h6 =>
    unfold RequestManager.states at h ⊢
    dsimp only at h ⊢
    rw [PostQueues.bag_pop h1, Multiset.cons_add] at h
    rw [PostQueues.bag_push, Multiset.cons_add]
    exact h.post rfl rfl
  | @wait m log ins rem rel s rest i d t met h1 h2 h3 h4 h5 h6 =>
    unfold RequestManager.states at h ⊢
    dsimp only at h ⊢
    rw [PostQueues.bag_pop h1, Multiset.cons_add] at h
    rw [insertSorted_bag, Multiset.add_cons]
    exact h.post rfl rfl
  | refused h1 h2 => exact h.add rfl
  | @failed m log ins rem rel s rest i e h1 h2 =>
    refine Owned.add (h.le ?_) rfl
    unfold RequestManager.states
    dsimp only
    rw [PostQueues.bag_pop h1, Multiset.cons_add]
    exact Multiset.le_cons_self ..
  | @pop m log ins rem s rest m' l h1 h2 h3 =>
    dsimp only at h
    unfold RequestManager.states at h
    rw [h1, ← Multiset.cons_coe, Multiset.add_cons] at h
    exact owned_retry h3 (h.le (Multiset.le_cons_self ..)) (.inr (h.states s (Multiset.mem_cons_self ..)))
  | @insert m log ins rem s m' l h1 h2 h3 h4 h5 => exact owned_retry h5 h (.inl h3)
  | @update m log ins rem status moved h1 h2 =>
    obtain ⟨x, rest, e1, e2, -, e3⟩ := update_bag h2
    dsimp only at h ⊢
    unfold RequestManager.states at h ⊢
    dsimp only
    rw [e2]
    rw [e1] at h
    have k := h.add (sendings_moved moved)
    refine ⟨fun s hs => ?_, k.sent⟩
    rw [add_assoc, Multiset.mem_add] at hs
    rcases hs with hs | hs
    · rw [owners_append, owners_moved]
      exact List.mem_append_right _ (List.mem_map.2 ⟨s, hs, rfl⟩)
    · exact k.states s (by rw [add_assoc]; exact Multiset.mem_add.2 (.inr hs))
  | @remove m log ins rem rel s a b h1 =>
    refine h.le ?_
    unfold RequestManager.states
    dsimp only
    rw [PostQueues.bag_split h1, Multiset.cons_add]
    exact Multiset.le_cons_self ..
  | @removeRetry m log ins rem s a b h1 =>
    refine h.le ?_
    unfold RequestManager.states
    dsimp only
    rw [h1, ms_middle, Multiset.singleton_add, Multiset.add_cons]
    exact Multiset.le_cons_self ..

/-! ### How often an id is used -/

theorem postsWith_append (id : MessageId) (a b : List (LogEntry R)) :
    postsWith id (a ++ b) = postsWith id a + postsWith id b := by
  unfold postsWith
  rw [sendings_append, List.filter_append, List.length_append]

theorem postsWith_none {id : MessageId} {l : List (LogEntry R)} (h : sendings l = []) : postsWith id l = 0 := by
  unfold postsWith
  rw [h]; rfl

theorem postsWith_new {id : MessageId} {log : List (LogEntry R)} {past : Nat} {S : Multiset (RequestState R)}
    (h : Ids past S log) (hn : id ∉ drawn log) : postsWith id log = 0 := by
  unfold postsWith
  rw [List.length_eq_zero_iff, List.filter_eq_nil_iff]
  intro x hx he
  exact hn (of_decide_eq_true he ▸ (h.sent x hx).1)

/-- The posts with an id made, and those to come, are no more than those for a destination. -/
structure Spent (k : RequestManagerConfig) (Q W : Multiset (RequestState R)) (log : List (LogEntry R)) : Prop where
  queued : ∀ s ∈ Q, postsWith s.messageId log + s.attemptsRemaining * k.numPostsPerAttempt + s.postsRemaining + 1 ≤
    k.numAttemptsPerDestination * k.numPostsPerAttempt
  waiting : ∀ s ∈ W, postsWith s.messageId log + s.attemptsRemaining * k.numPostsPerAttempt ≤
    k.numAttemptsPerDestination * k.numPostsPerAttempt
  all : ∀ id, postsWith id log ≤ k.numAttemptsPerDestination * k.numPostsPerAttempt

theorem Spent.le {k : RequestManagerConfig} {Q W Q' W' : Multiset (RequestState R)} {log : List (LogEntry R)}
    (h : Spent k Q W log) (h1 : Q' ≤ Q) (h2 : W' ≤ W) : Spent k Q' W' log :=
  ⟨fun s hs => h.queued s (Multiset.mem_of_le h1 hs), fun s hs => h.waiting s (Multiset.mem_of_le h2 hs), h.all⟩

theorem Spent.add {k : RequestManagerConfig} {Q W : Multiset (RequestState R)} {log l : List (LogEntry R)}
    (h : Spent k Q W log) (hl : sendings l = []) : Spent k Q W (log ++ l) := by
  have e : ∀ id, postsWith id (log ++ l) = postsWith id log := fun id => by
    rw [postsWith_append, postsWith_none hl, Nat.add_zero]
  exact ⟨fun s hs => by rw [e]; exact h.queued s hs, fun s hs => by rw [e]; exact h.waiting s hs,
    fun id => by rw [e]; exact h.all id⟩

theorem Spent.cons {k : RequestManagerConfig} {Q W : Multiset (RequestState R)} {s : RequestState R}
    {log : List (LogEntry R)} (h : Spent k Q W log)
    (hs : postsWith s.messageId log + s.attemptsRemaining * k.numPostsPerAttempt + s.postsRemaining + 1 ≤
      k.numAttemptsPerDestination * k.numPostsPerAttempt) : Spent k (s ::ₘ Q) W log := by
  refine ⟨fun t ht => ?_, h.waiting, h.all⟩
  rcases Multiset.mem_cons.1 ht with rfl | ht
  · exact hs
  · exact h.queued t ht

/-- A post of a request whose id no other has. -/
theorem Spent.post {k : RequestManagerConfig} {Q W : Multiset (RequestState R)} {s : RequestState R}
    {log : List (LogEntry R)} {i d0 d met} (h : Spent k (s ::ₘ Q) W log)
    (hQ : ∀ t ∈ Q, t.messageId ≠ s.messageId) (hW : ∀ t ∈ W, t.messageId ≠ s.messageId) :
    Spent k Q W (log ++ [.post s.request i d0 s.messageId d (.ok met)]) ∧
    postsWith s.messageId (log ++ [.post s.request i d0 s.messageId d (.ok met)]) +
      s.attemptsRemaining * k.numPostsPerAttempt + s.postsRemaining ≤
      k.numAttemptsPerDestination * k.numPostsPerAttempt := by
  have e : ∀ id, postsWith id [LogEntry.post s.request i d0 s.messageId d (.ok met)] =
      if s.messageId = id then 1 else 0 := by
    intro id
    unfold postsWith
    rw [sendings_post]
    by_cases hid : s.messageId = id <;> simp [hid]
  have key : postsWith s.messageId (log ++ [.post s.request i d0 s.messageId d (.ok met)]) +
      s.attemptsRemaining * k.numPostsPerAttempt + s.postsRemaining ≤
      k.numAttemptsPerDestination * k.numPostsPerAttempt := by
    rw [postsWith_append, e, if_pos rfl]
    have := h.queued s (Multiset.mem_cons_self ..)
    omega
  refine ⟨⟨fun t ht => ?_, fun t ht => ?_, fun id => ?_⟩, key⟩
  · rw [postsWith_append, e, if_neg (Ne.symm (hQ t ht))]
    exact h.queued t (Multiset.mem_cons_of_mem ht)
  · rw [postsWith_append, e, if_neg (Ne.symm (hW t ht))]
    exact h.waiting t ht
  · by_cases hid : s.messageId = id
    · subst hid; omega
    · rw [postsWith_append, e, if_neg hid]
      exact h.all id

theorem mul_pred {a b : Nat} (h : 1 ≤ a) : (a - 1) * b + b = a * b := by
  obtain ⟨c, rfl⟩ : ∃ c, a = c + 1 := ⟨a - 1, by omega⟩
  rw [Nat.add_sub_cancel]; ring

theorem spent_retry {m m' : RequestManager R} {s : RequestState R} {l log : List (LogEntry R)}
    (h : Retry m s m' l) (hd : (Spec.drawn (log ++ l)).Nodup) {past : Nat} (hi : Ids past m.states log)
    (hp : Spent m.config m.postQueues.bag ↑m.retryQueue log)
    (hs : s.attemptsRemaining = 0 ∨ postsWith s.messageId log + s.attemptsRemaining * m.config.numPostsPerAttempt ≤
      m.config.numAttemptsPerDestination * m.config.numPostsPerAttempt) :
    Spent m.config m'.postQueues.bag ↑m'.retryQueue (log ++ l) := by
  obtain ⟨-, ⟨rfl, rfl, h1, h2⟩ | ⟨s1, l1, rel, s2, l2, h0, rfl, h1, h2, -, h3, h4, -⟩⟩ := retry_states h
  · exact hp.add rfl
  · rw [h3, h4, ← List.append_assoc]
    rw [← List.append_assoc] at hd
    have e0 : ∀ id, id ∈ drawn (l1 ++ l2) → id ∉ drawn log := by
      intro id h1 h2
      rw [List.append_assoc, drawn_append, List.nodup_append] at hd
      exact hd.2.2 id h2 id h1 rfl
    have hl1 : sendings l1 = [] := by cases h1 <;> rfl
    have hl2 : sendings l2 = [] := by cases h2 <;> rfl
    have e1 : postsWith s1.messageId (log ++ l1) + s1.attemptsRemaining * m.config.numPostsPerAttempt +
        s1.postsRemaining + 1 ≤ m.config.numAttemptsPerDestination * m.config.numPostsPerAttempt := by
      rw [postsWith_append, postsWith_none hl1]
      cases h1 with
      | @attempt a ha =>
        rcases hs with hs | hs
        · omega
        · rw [ha, Nat.add_mul] at hs
          dsimp only
          omega
      | @destination d id ha hd1 hA =>
        have : postsWith id log = 0 := by
          refine postsWith_new hi (e0 id ?_)
          rw [drawn_append]
          exact List.mem_append_left _ (List.mem_singleton.2 rfl)
        have := mul_pred (b := m.config.numPostsPerAttempt) hA
        unfold RequestState.fresh
        dsimp only
        omega
    refine ((hp.add hl1).add hl2).cons ?_
    rw [postsWith_append, postsWith_none hl2]
    cases h2 with
    | unbound _ => exact e1
    | bound _ _ _ => exact e1
    | @moved i id _ _ =>
      have : postsWith id (log ++ l1) = 0 := by
        rw [postsWith_append, postsWith_none hl1]
        rw [postsWith_new hi (e0 id ?_)]
        rw [drawn_append]
        exact List.mem_append_right _ (List.mem_singleton.2 rfl)
      unfold RequestState.fresh
      dsimp only
      omega

theorem moved_from {past : Nat} {x moved : List (RequestState R)}
    (h : List.Forall₂ (fun s s' : RequestState R => s' = s.fresh s'.messageId past) x moved) {s : RequestState R}
    (hs : s ∈ moved) : ∃ s0 ∈ x, s = s0.fresh s.messageId past := by
  induction h with
  | nil => cases hs
  | @cons a b x moved hab _ ih =>
    rcases List.mem_cons.1 hs with rfl | hs
    · exact ⟨a, List.mem_cons_self, hab⟩
    · obtain ⟨s0, h1, h2⟩ := ih hs
      exact ⟨s0, List.mem_cons_of_mem _ h1, h2⟩

theorem spent_micro {c c' : Cfg R} (hm : Micro c c') (hd : (Spec.drawn c'.log).Nodup)
    (hi : Ids c.mgr.createdAt c.mgr.states c.log)
    (h : Spent c.mgr.config c.mgr.postQueues.bag ↑c.mgr.retryQueue c.log) :
    Spent c'.mgr.config c'.mgr.postQueues.bag ↑c'.mgr.retryQueue c'.log := by
  rw [(config_micro hm).1]
  cases hm with
  | @requeue m log ins rem rel s rest i n d t met h1 h2 h3 h4 h5 h6 =>
    have nd := hi.nodup
    unfold RequestManager.states at nd
    dsimp only at nd h ⊢
    rw [PostQueues.bag_pop h1] at h
    rw [PostQueues.bag_pop h1, Multiset.cons_add, Multiset.map_cons, Multiset.nodup_cons] at nd
    rw [PostQueues.bag_push]
    obtain ⟨k1, k2⟩ := h.post (i := i) (d0 := s.destinationIndex) (d := d) (met := met)
      (fun t ht he => nd.1 (Multiset.mem_map.2 ⟨t, Multiset.mem_add.2 (.inl ht), he⟩))
      (fun t ht he => nd.1 (Multiset.mem_map.2 ⟨t, Multiset.mem_add.2 (.inr ht), he⟩))
    refine k1.cons ?_
    rw [h5] at k2
    exact k2
  | @wait m log ins rem rel s rest i d t met h1 h2 h3 h4 h5 h6 =>
    have nd := hi.nodup
    unfold RequestManager.states at nd
    dsimp only at nd h ⊢
    rw [PostQueues.bag_pop h1] at h
    rw [PostQueues.bag_pop h1, Multiset.cons_add, Multiset.map_cons, Multiset.nodup_cons] at nd
    rw [insertSorted_bag]
    obtain ⟨k1, k2⟩ := h.post (i := i) (d0 := s.destinationIndex) (d := d) (met := met)
      (fun t ht he => nd.1 (Multiset.mem_map.2 ⟨t, Multiset.mem_add.2 (.inl ht), he⟩))
      (fun t ht he => nd.1 (Multiset.mem_map.2 ⟨t, Multiset.mem_add.2 (.inr ht), he⟩))
    refine ⟨k1.queued, fun t ht => ?_, k1.all⟩
    rcases Multiset.mem_cons.1 ht with rfl | ht
    · rw [h5] at k2
      exact k2
    · exact k1.waiting t ht
  | refused h1 h2 => exact h.add rfl
  | @failed m log ins rem rel s rest i e h1 h2 =>
    refine Spent.add (h.le ?_ (le_refl _)) rfl
    dsimp only
    rw [PostQueues.bag_pop h1]
    exact Multiset.le_cons_self ..
  | @pop m log ins rem s rest m' l h1 h2 h3 =>
    dsimp only at h hi ⊢
    unfold RequestManager.states at hi
    rw [h1, ← Multiset.cons_coe] at h hi
    rw [Multiset.add_cons] at hi
    have key := spent_retry h3 hd hi.drop (h.le (le_refl _) (Multiset.le_cons_self ..))
      (.inr (h.waiting s (Multiset.mem_cons_self ..)))
    exact key
  | @insert m log ins rem s m' l h1 h2 h3 h4 h5 => exact spent_retry h5 hd hi h (.inl h3)
  | @update m log ins rem status moved h1 h2 =>
    obtain ⟨x, rest, e1, e2, -, e3⟩ := update_bag h2
    dsimp only at h hd hi ⊢
    rw [e2]
    rw [e1] at h
    have k := h.add (sendings_moved moved)
    refine ⟨fun s hs => ?_, k.waiting, k.all⟩
    rcases Multiset.mem_add.1 hs with hs | hs
    · have hn : s.messageId ∉ drawn log := by
        intro hc
        rw [drawn_append, List.nodup_append, (newIds_log moved).2.2.2] at hd
        exact hd.2.2 _ hc _ (List.mem_map.2 ⟨s, hs, rfl⟩) rfl
      rw [postsWith_append, postsWith_none (sendings_moved moved), postsWith_new hi hn]
      obtain ⟨s0, hs0, he⟩ : ∃ s0 ∈ x, s = s0.fresh s.messageId m.createdAt := by
        exact moved_from e3 hs
      have := h.queued s0 (Multiset.mem_add.2 (.inl (Multiset.mem_coe.2 hs0)))
      have a1 : s.attemptsRemaining = s0.attemptsRemaining := by rw [he]; rfl
      have a2 : s.postsRemaining = s0.postsRemaining := by rw [he]; rfl
      rw [a1, a2]
      omega
    · exact k.queued s (Multiset.mem_add.2 (.inr hs))
  | @remove m log ins rem rel s a b h1 =>
    refine h.le ?_ (le_refl _)
    dsimp only
    rw [PostQueues.bag_split h1]
    exact Multiset.le_cons_self ..
  | @removeRetry m log ins rem s a b h1 =>
    refine h.le (le_refl _) ?_
    dsimp only
    rw [h1, ms_middle, Multiset.singleton_add]
    exact Multiset.le_cons_self ..

end Mixnet
