import Verif.Proofs.ManagerSettle
import Verif.Props.Tries
/-!
# C71: a reply settles the request it is a reply to, for good

The application calls `remove` with the message id of a reply that has arrived. `latestId r log` is the message id
last drawn for request `r` (a new one is drawn for every destination).
-/
namespace Mixnet.Props
open Mixnet Spec

variable {R Ctx : Type} {C : Crypto} {T : RequestTrait R Ctx} {config : RequestManagerConfig} {now : Nat}
  {calls : List (ManagerCall R)} {outs : List (ManagerOutcome R)} {log : List (LogEntry R)} {m m' : RequestManager R}

theorem managed_iff {r : R} : r ∈ managed m ↔ r ∈ m.states.map (·.request) := by
  rw [← managed_eq]; rfl

theorem states_iff {s : RequestState R} :
    s ∈ m.postQueues.current ++ m.postQueues.prev ++ m.postQueues.default ++ m.retryQueue ↔ s ∈ m.states := by
  unfold RequestManager.states PostQueues.bag
  simp only [Multiset.mem_add, Multiset.mem_coe, List.mem_append]

/-- C71: once a request is not in the manager, nothing more is done about it (it is not posted, no error is reported,
`remove` does not return it) until it is inserted again. -/
theorem settled_for_good (h : RequestManager.Runs C T m calls outs log m') {r : R} (hr : r ∉ managed m)
    (hi : r ∉ inserted calls) : r ∉ managed m' ∧ r ∉ removed outs ∧ ∀ e ∈ log, subject e ≠ r := by
  have := manager_induction (P := Quiet r) (fun _ _ => quiet_micro) (fun _ _ _ _ _ h => h) h [] [] []
    (.inr ⟨fun h => hr (managed_iff.2 h), fun _ h => (by cases h), fun h => (by cases h)⟩)
  simp only [List.nil_append] at this
  rcases this with h | ⟨h1, h2, h3⟩
  · exact absurd h hi
  · exact ⟨fun h => h1 (managed_iff.1 h), h3, h2⟩

theorem latest_reached [DecidableEq R] (h : Reached C T config now calls outs log m) {r : R}
    (hr : (inserted calls).count r ≤ 1) {s : RequestState R} (hs : s ∈ m.states) (he : s.request = r) :
    latestId r log = some s.messageId := by
  have := manager_induction (P := LatestIn r) (fun _ _ => latest_micro) (fun _ _ _ _ _ h => h) h [] [] []
    ⟨rfl, fun _ s hs => (by cases hs)⟩
  simp only [List.nil_append] at this
  exact this.2 hr s hs he

/-- C71: `remove` returns a request inserted once exactly if the request is still in the manager and the id is the one
last drawn for it. (The random message ids are supposed to be different.) -/
theorem remove_iff [DecidableEq R] (h : Reached C T config now calls outs log m) (hd : (drawn log).Nodup) {r : R}
    (hr : (inserted calls).count r ≤ 1) (id : MessageId) :
    (m.remove id).2 = some r ↔ r ∈ managed m ∧ latestId r log = some id := by
  obtain ⟨k1, k2⟩ := remove_returns (m := m) id
  constructor
  · intro he
    obtain ⟨s, rfl, rfl, hs, -⟩ := k1 _ he
    rw [states_iff] at hs
    exact ⟨managed_iff.2 (Multiset.mem_map_of_mem _ hs), latest_reached h hr hs rfl⟩
  · rintro ⟨hm, hl⟩
    obtain ⟨s, hs, rfl⟩ := Multiset.mem_map.1 (managed_iff.1 hm)
    have hid := latest_reached h hr hs rfl
    rw [hl] at hid
    cases hid
    obtain ⟨o, ho⟩ : ∃ o, (m.remove s.messageId).2 = o := ⟨_, rfl⟩
    cases o with
    | none => exact absurd rfl ((k2 ho).2 s (states_iff.2 hs))
    | some r' =>
      obtain ⟨t, rfl, hid, ht, -⟩ := k1 _ ho
      rw [states_iff] at ht
      have nd := (ids_reached h hd).2.nodup
      rw [ho]
      obtain ⟨S, hS⟩ := Multiset.exists_cons_of_mem hs
      rw [hS, Multiset.map_cons, Multiset.nodup_cons] at nd
      rw [hS] at ht
      rcases Multiset.mem_cons.1 ht with rfl | ht
      · rfl
      · exact absurd (Multiset.mem_map.2 ⟨t, ht, hid⟩) nd.1

theorem drawn_owners (l : List (LogEntry R)) : drawn l = (owners l).map (·.2) := by
  induction l with
  | nil => rfl
  | cons e l ih =>
    show drawn ([e] ++ l) = (owners ([e] ++ l)).map _
    rw [drawn_append, owners_append, List.map_append, ih]
    congr 1
    cases e <;> rfl

theorem owner_unique {l : List (LogEntry R)} (hd : (drawn l).Nodup) {r r' : R} {id : MessageId}
    (h : (r, id) ∈ owners l) (h' : (r', id) ∈ owners l) : r = r' := by
  rw [drawn_owners] at hd
  have := List.inj_on_of_nodup_map hd h h' rfl
  exact congrArg Prod.fst this

/-- C71: what `remove` returns for the id of a post is the request that was posted. -/
theorem remove_right (h : Reached C T config now calls outs log m) (hd : (drawn log).Nodup) {r r' : R}
    {i : SessionIndex} {id : MessageId} {d : Option MixnodeIndex} (hs : (r, i, id, d) ∈ sendings log)
    (hr : (m.remove id).2 = some r') : r' = r := by
  obtain ⟨s, rfl, rfl, hs', -⟩ := (remove_returns (m := m) id).1 _ hr
  rw [states_iff] at hs'
  have ho := owned_reached h
  exact owner_unique hd (ho.states s hs') (ho.sent _ hs)

theorem idsOf_owned [DecidableEq R] {r : R} {id : MessageId} {l : List (LogEntry R)} :
    id ∈ idsOf r l ↔ (r, id) ∈ owners l := by
  unfold idsOf owners
  rw [List.mem_flatMap, List.mem_flatMap]
  constructor
  · rintro ⟨e, he, h⟩
    cases e with
    | newId r' id' =>
      refine ⟨_, he, ?_⟩
      dsimp only at h ⊢
      split at h
      · rename_i hr
        rw [List.mem_singleton] at h ⊢
        rw [h, hr]
      · cases h
    | _ => cases h
  · rintro ⟨e, he, h⟩
    cases e with
    | newId r' id' =>
      refine ⟨_, he, ?_⟩
      dsimp only at h ⊢
      rw [List.mem_singleton] at h
      cases h
      rw [if_pos rfl]
      exact List.mem_singleton.2 rfl
    | _ => cases h

/-- C71: a late reply, to a post made with an id the request no longer has, changes nothing. -/
theorem late_reply_ignored [DecidableEq R] (h : Reached C T config now calls outs log m) (hd : (drawn log).Nodup)
    {r : R} (hr : (inserted calls).count r ≤ 1) {i : SessionIndex} {id : MessageId} {d : Option MixnodeIndex}
    (hs : (r, i, id, d) ∈ sendings log) (hl : latestId r log ≠ some id) : m.remove id = (m, none) := by
  obtain ⟨o, ho⟩ : ∃ o, (m.remove id).2 = o := ⟨_, rfl⟩
  cases o with
  | none => exact Prod.ext ((remove_returns (m := m) id).2 ho).1 ho
  | some r' =>
    have := remove_right h hd hs ho
    subst this
    exact absurd ((remove_iff h hd hr id).1 ho).2 hl

/-- C71: after a request was settled by a reply it is not in the manager, and no other request has left it. -/
theorem reply_settles (h : Reached C T config now calls outs log m) {r : R} [DecidableEq R]
    (hr : (inserted calls).count r ≤ 1) {id : MessageId} (he : (m.remove id).2 = some r) :
    r ∉ managed (m.remove id).1 ∧ (managed m).Perm (r :: managed (m.remove id).1) := by
  obtain ⟨s, rfl, -, -, hp⟩ := (remove_returns (m := m) id).1 _ he
  refine ⟨fun hc => ?_, hp⟩
  have h1 := (no_request_lost h).count_eq s.request
  simp only [List.count_append] at h1
  rw [hp.count_eq, List.count_cons_self] at h1
  have := List.count_pos_iff.2 hc
  omega

/-! ### The hypotheses can be met -/

/-- A request (7) posted to two destinations, with two message ids: a reply to the first post is too late, one to the
second settles it. -/
example : ∃ m os log, Reached World.C World.trait ⟨3, 2, 1, 1⟩ 5 [.updateSessionStatus, .insert 7, .insert 8, .popNextRetry] os log m ∧
    ((drawn log).Nodup ∧ 7 ∈ managed m ∧ (idsOf 7 log).length = 2 ∧
      (m.remove ((idsOf 7 log).headD [])).2 = none ∧ (m.remove ((latestId 7 log).getD [])).2 = some 7 ∧
      (sendings log).map (·.1) = [7, 8, 7] ∧ (sendings log).map (·.2.2.1) = drawn log) := by
  have h : (match World.runManager World.alice (.new ⟨3, 2, 1, 1⟩ 5) 0
        [.updateSessionStatus, .insert 7, .insert 8, .popNextRetry] with
      | .ok (m, _, log) => decide ((drawn log).Nodup ∧ 7 ∈ managed m ∧ (idsOf 7 log).length = 2 ∧
          (m.remove ((idsOf 7 log).headD [])).2 = none ∧ (m.remove ((latestId 7 log).getD [])).2 = some 7 ∧
          (sendings log).map (·.1) = [7, 8, 7] ∧ (sendings log).map (·.2.2.1) = drawn log)
      | .error _ => false) = true := by decide +kernel
  obtain ⟨x, hx⟩ : ∃ x, World.runManager World.alice (.new ⟨3, 2, 1, 1⟩ 5) 0
        [.updateSessionStatus, .insert 7, .insert 8, .popNextRetry] = x := ⟨_, rfl⟩
  rw [hx] at h
  cases x with
  | error e => cases h
  | ok p =>
    obtain ⟨m, os, log⟩ := p
    exact ⟨m, os, log, World.runManager_runs hx, of_decide_eq_true h⟩

end Mixnet.Props
