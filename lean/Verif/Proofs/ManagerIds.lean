import Verif.Proofs.ManagerBound
/-!
# A message id is used for one request, session and destination
-/
namespace Mixnet
open Spec
variable {R : Type}

theorem sendings_append (a b : List (LogEntry R)) : sendings (a ++ b) = sendings a ++ sendings b := List.flatMap_append

theorem sendings_post {r : R} {i d id d' met} :
    sendings [LogEntry.post r i d id d' (.ok met)] = [(r, i, id, d')] := rfl

theorem expected_append (id : MessageId) (a b : List (LogEntry R)) : expected id (a ++ b) = expected id a ++ expected id b :=
  List.flatMap_append

theorem expected_sent {id : MessageId} {log : List (LogEntry R)} {t : Nat} (h : t ∈ expected id log) :
    ∃ x ∈ sendings log, x.2.2.1 = id := by
  unfold expected at h
  rw [List.mem_flatMap] at h
  obtain ⟨e, he, h⟩ := h
  cases e with
  | post r i d id' d' res =>
    cases res with
    | error e => cases h
    | ok met =>
      dsimp only at h
      split at h
      · exact ⟨(r, i, id', d'), List.mem_flatMap.2 ⟨_, he, List.mem_singleton.2 rfl⟩, by assumption⟩
      · cases h
  | _ => cases h

/-- `t` is the latest of `past` and the times in `l`. -/
def Due (past : Nat) (l : List Nat) (t : Nat) : Prop := past ≤ t ∧ (∀ x ∈ l, x ≤ t) ∧ (t = past ∨ t ∈ l)

theorem Due.add {past : Nat} {l : List Nat} {t x : Nat} (h : Due past l t) : Due past (l ++ [x]) (max t x) := by
  obtain ⟨h1, h2, h3⟩ := h
  refine ⟨by omega, fun y hy => ?_, ?_⟩
  · rcases List.mem_append.1 hy with hy | hy
    · have := h2 y hy; omega
    · rw [List.mem_singleton] at hy; omega
  · rcases Nat.le_total x t with hx | hx
    · rw [Nat.max_eq_left hx]
      exact h3.imp id fun h => List.mem_append_left _ h
    · rw [Nat.max_eq_right hx]
      exact .inr (List.mem_append_right _ (List.mem_singleton.2 rfl))

/-- The states agree with what was sent. -/
structure Ids (past : Nat) (S : Multiset (RequestState R)) (log : List (LogEntry R)) : Prop where
  drawn : ∀ s ∈ S, s.messageId ∈ drawn log
  nodup : (S.map (·.messageId)).Nodup
  sent : ∀ x ∈ sendings log, x.2.2.1 ∈ Spec.drawn log ∧ x.2.2.2 ≠ none
  agree : ∀ s ∈ S, ∀ x ∈ sendings log, x.2.2.1 = s.messageId →
    x.1 = s.request ∧ s.sessionIndex = some x.2.1 ∧ s.destinationIndex = x.2.2.2
  unique : ∀ x ∈ sendings log, ∀ y ∈ sendings log, x.2.2.1 = y.2.2.1 → x = y
  due : ∀ s ∈ S, Due past (expected s.messageId log) s.retryDeadline
  posted : ∀ s ∈ S, s.sessionIndex ≠ none → ∃ x ∈ sendings log, x.2.2.1 = s.messageId

theorem Ids.le {S S' : Multiset (RequestState R)} {log : List (LogEntry R)} {past : Nat} (h : Ids past S log) (hle : S' ≤ S) : Ids past S' log :=
  ⟨fun s hs => h.drawn s (Multiset.mem_of_le hle hs), Multiset.nodup_of_le (Multiset.map_le_map hle) h.nodup, h.sent,
    fun s hs => h.agree s (Multiset.mem_of_le hle hs), h.unique, fun s hs => h.due s (Multiset.mem_of_le hle hs),
    fun s hs => h.posted s (Multiset.mem_of_le hle hs)⟩

theorem Ids.drop {S : Multiset (RequestState R)} {s : RequestState R} {log : List (LogEntry R)} {past : Nat} (h : Ids past (s ::ₘ S) log) :
    Ids past S log := h.le (Multiset.le_cons_self ..)

theorem Ids.log {S : Multiset (RequestState R)} {log l : List (LogEntry R)} {past : Nat} (h : Ids past S log) (h1 : Spec.drawn l = [])
    (h2 : sendings l = []) (h3 : ∀ id, expected id l = []) : Ids past S (log ++ l) := by
  have e1 : Spec.drawn (log ++ l) = Spec.drawn log := by rw [drawn_append, h1, List.append_nil]
  have e2 : sendings (log ++ l) = sendings log := by rw [sendings_append, h2, List.append_nil]
  exact ⟨by rw [e1]; exact h.drawn, h.nodup, by rw [e1, e2]; exact h.sent, by rw [e2]; exact h.agree,
    by rw [e2]; exact h.unique, fun s hs => by rw [expected_append, h3, List.append_nil]; exact h.due s hs,
    by rw [e2]; exact h.posted⟩

theorem Ids.fresh {S : Multiset (RequestState R)} {s : RequestState R} {r : R} {log : List (LogEntry R)} {id : MessageId}
    {past : Nat} (h : Ids past S log) (hs : s.messageId = id) (hp : s.retryDeadline = past) (hi : s.sessionIndex = none)
    (hd : (Spec.drawn (log ++ [.newId r id])).Nodup) :
    Ids past (s ::ₘ S) (log ++ [.newId r id]) := by
  have e1 : Spec.drawn (log ++ [.newId r id]) = Spec.drawn log ++ [id] := by rw [drawn_append]; rfl
  have e2 : sendings (log ++ [.newId r id]) = sendings log := by
    rw [sendings_append]; exact List.append_nil _
  rw [e1] at hd
  have hn : id ∉ Spec.drawn log := by
    intro hc
    rw [List.nodup_append] at hd
    exact hd.2.2 id hc id List.mem_cons_self rfl
  have e3 : ∀ x, expected x (log ++ [.newId r id]) = expected x log := fun x => by
    rw [expected_append]; exact List.append_nil _
  refine ⟨?_, ?_, ?_, ?_, by rw [e2]; exact h.unique, ?_, ?_⟩
  rotate_left 5
  · intro t ht hne
    rw [e2]
    rcases Multiset.mem_cons.1 ht with rfl | ht
    · exact absurd hi hne
    · exact h.posted t ht hne
  rotate_right
  · intro t ht
    rw [e3]
    rcases Multiset.mem_cons.1 ht with rfl | ht
    · have : expected t.messageId log = [] := by
        rw [List.eq_nil_iff_forall_not_mem]
        intro x hx
        obtain ⟨y, hy, he⟩ := expected_sent hx
        rw [hs] at he
        exact hn (he ▸ (h.sent y hy).1)
      rw [this, hp]
      exact ⟨le_refl _, fun x hx => (by cases hx), .inl rfl⟩
    · exact h.due t ht
  · intro t ht
    rw [e1, List.mem_append, List.mem_singleton]
    rcases Multiset.mem_cons.1 ht with rfl | ht
    · exact .inr hs
    · exact .inl (h.drawn t ht)
  · rw [Multiset.map_cons, Multiset.nodup_cons]
    refine ⟨?_, h.nodup⟩
    intro hc
    rw [Multiset.mem_map] at hc
    obtain ⟨t, ht, he⟩ := hc
    rw [hs] at he
    exact hn (he ▸ h.drawn t ht)
  · rw [e1, e2]
    exact fun x hx => ⟨List.mem_append_left _ (h.sent x hx).1, (h.sent x hx).2⟩
  · rw [e2]
    intro t ht x hx he
    rcases Multiset.mem_cons.1 ht with rfl | ht
    · rw [hs] at he
      exact absurd (he ▸ (h.sent x hx).1) hn
    · exact h.agree t ht x hx he

theorem Ids.same {S : Multiset (RequestState R)} {s s' : RequestState R} {log : List (LogEntry R)}
    {past : Nat} (h : Ids past (s ::ₘ S) log) (h1 : s'.messageId = s.messageId) (h2 : s'.request = s.request)
    (h3 : s'.sessionIndex = s.sessionIndex) (h4 : s'.destinationIndex = s.destinationIndex)
    (h5 : s'.retryDeadline = s.retryDeadline) : Ids past (s' ::ₘ S) log := by
  refine ⟨?_, ?_, h.sent, ?_, h.unique, ?_, ?_⟩
  rotate_left 4
  · intro t ht hne
    rcases Multiset.mem_cons.1 ht with rfl | ht
    · rw [h1]; exact h.posted s (Multiset.mem_cons_self ..) (by rwa [h3] at hne)
    · exact h.posted t (Multiset.mem_cons_of_mem ht) hne
  rotate_right
  · intro t ht
    rcases Multiset.mem_cons.1 ht with rfl | ht
    · rw [h1, h5]; exact h.due s (Multiset.mem_cons_self ..)
    · exact h.due t (Multiset.mem_cons_of_mem ht)
  · intro t ht
    rcases Multiset.mem_cons.1 ht with rfl | ht
    · rw [h1]; exact h.drawn s (Multiset.mem_cons_self ..)
    · exact h.drawn t (Multiset.mem_cons_of_mem ht)
  · have := h.nodup
    rw [Multiset.map_cons] at this ⊢
    rw [h1]
    exact this
  · intro t ht x hx he
    rcases Multiset.mem_cons.1 ht with rfl | ht
    · rw [h2, h3, h4]
      exact h.agree s (Multiset.mem_cons_self ..) x hx (he.trans h1)
    · exact h.agree t (Multiset.mem_cons_of_mem ht) x hx he

theorem Ids.post {S : Multiset (RequestState R)} {s s' : RequestState R} {log : List (LogEntry R)} {i : SessionIndex}
    {d d0 : Option MixnodeIndex} {met : Estimate}
    {past : Nat} (h : Ids past (s ::ₘ S) log) (h1 : s'.messageId = s.messageId) (h2 : s'.request = s.request)
    (h3 : s'.sessionIndex = some i) (h4 : s'.destinationIndex = d)
    (hi : s.sessionIndex = none ∨ s.sessionIndex = some i)
    (hd : ∃ x, d = some x ∧ ∀ y, s.destinationIndex = some y → y = x)
    (ht : s'.retryDeadline = max s.retryDeadline (met.now + met.metrics.estimateRtt met.handlingDelay)) :
    Ids past (s' ::ₘ S) (log ++ [.post s.request i d0 s.messageId d (.ok met)]) := by
  have hmem : s ∈ s ::ₘ S := Multiset.mem_cons_self ..
  have e1 : Spec.drawn (log ++ [.post s.request i d0 s.messageId d (.ok met)]) = Spec.drawn log := by
    rw [drawn_append]; exact List.append_nil _
  have e2 : sendings (log ++ [.post s.request i d0 s.messageId d (.ok met)]) =
      sendings log ++ [(s.request, i, s.messageId, d)] := by
    rw [sendings_append]; rfl
  -- earlier posts with this id are the same
  have old : ∀ x ∈ sendings log, x.2.2.1 = s.messageId → x = (s.request, i, s.messageId, d) := by
    rintro ⟨r, j, id, e⟩ hx rfl
    obtain ⟨a1, a2, a3⟩ := h.agree s hmem _ hx rfl
    dsimp only at a1 a2 a3
    obtain ⟨y, hy⟩ := Option.ne_none_iff_exists'.1 (h.sent _ hx).2
    dsimp only at hy
    obtain ⟨x, rfl, hx'⟩ := hd
    have : y = x := hx' y (by rw [a3, hy])
    subst this
    rw [a1, hy]
    rcases hi with hi | hi
    · rw [hi] at a2; cases a2
    · rw [hi] at a2; cases a2; rfl
  have nd := h.nodup
  rw [Multiset.map_cons, Multiset.nodup_cons] at nd
  refine ⟨?_, ?_, ?_, ?_, ?_, ?_, ?_⟩
  rotate_left 6
  · intro t htm hne
    rw [e2]
    rcases Multiset.mem_cons.1 htm with rfl | htm
    · exact ⟨_, List.mem_append_right _ (List.mem_singleton.2 rfl), h1.symm⟩
    · obtain ⟨x, hx, he⟩ := h.posted t (Multiset.mem_cons_of_mem htm) hne
      exact ⟨x, List.mem_append_left _ hx, he⟩
  rotate_right
  · intro t htm
    rw [expected_append]
    rcases Multiset.mem_cons.1 htm with rfl | htm
    · rw [h1, ht]
      have : expected s.messageId [LogEntry.post s.request i d0 s.messageId d (.ok met)] =
          [met.now + met.metrics.estimateRtt met.handlingDelay] := by
        simp [expected]
      rw [this]
      exact (h.due s hmem).add
    · have : expected t.messageId [LogEntry.post s.request i d0 s.messageId d (.ok met)] = [] := by
        have hne : s.messageId ≠ t.messageId := fun he => nd.1 (Multiset.mem_map.2 ⟨t, htm, he.symm⟩)
        simp [expected, hne]
      rw [this, List.append_nil]
      exact h.due t (Multiset.mem_cons_of_mem htm)
  · rw [e1]
    intro t ht
    rcases Multiset.mem_cons.1 ht with rfl | ht
    · rw [h1]; exact h.drawn s hmem
    · exact h.drawn t (Multiset.mem_cons_of_mem ht)
  · rw [Multiset.map_cons, h1, Multiset.nodup_cons]
    exact nd
  · rw [e1, e2]
    intro x hx
    rcases List.mem_append.1 hx with hx | hx
    · exact h.sent x hx
    · rw [List.mem_singleton] at hx
      subst hx
      obtain ⟨y, rfl, -⟩ := hd
      exact ⟨h.drawn s hmem, fun h => (by cases h)⟩
  · rw [e2]
    intro t ht x hx he
    rcases Multiset.mem_cons.1 ht with rfl | ht
    · have : x = (s.request, i, s.messageId, d) := by
        rcases List.mem_append.1 hx with hx | hx
        · exact old x hx (he.trans h1)
        · exact List.mem_singleton.1 hx
      subst this
      exact ⟨h2.symm, h3, h4⟩
    · rcases List.mem_append.1 hx with hx | hx
      · exact h.agree t (Multiset.mem_cons_of_mem ht) x hx he
      · rw [List.mem_singleton] at hx
        subst hx
        exact absurd (Multiset.mem_map.2 ⟨t, ht, he.symm⟩) nd.1
  · rw [e2]
    intro x hx y hy he
    rcases List.mem_append.1 hx with hx | hx <;> rcases List.mem_append.1 hy with hy | hy
    · exact h.unique x hx y hy he
    · rw [List.mem_singleton] at hy
      subst hy
      exact old x hx he
    · rw [List.mem_singleton] at hx
      subst hx
      exact (old y hy he.symm).symm
    · rw [List.mem_singleton] at hx hy
      rw [hx, hy]

theorem nodup_prefix {a b : List (LogEntry R)} (h : (Spec.drawn (a ++ b)).Nodup) : (Spec.drawn a).Nodup := by
  rw [drawn_append, List.nodup_append] at h
  exact h.1

theorem ids_retry {m m' : RequestManager R} {s : RequestState R} {l log : List (LogEntry R)}
    (h : Retry m s m' l) (hd : (Spec.drawn (log ++ l)).Nodup)
    (hi : Ids m.createdAt (s ::ₘ m.states) log ∨ (s.attemptsRemaining = 0 ∧ Ids m.createdAt m.states log)) :
    Ids m.createdAt m'.states (log ++ l) := by
  obtain ⟨-, ⟨rfl, rfl, h1, h2⟩ | ⟨s1, l1, rel, s2, l2, h0, rfl, h1, h2, -, h3, h4, -⟩⟩ := retry_states h
  · refine Ids.log ?_ rfl rfl fun _ => rfl
    rcases hi with hi | ⟨-, hi⟩
    · exact hi.drop
    · exact hi
  · have hS : m'.states = s2 ::ₘ m.states := by
      unfold RequestManager.states
      rw [h3, h4, Multiset.cons_add]
    rw [hS]
    rw [← List.append_assoc] at hd ⊢
    have step : Ids m.createdAt (s1 ::ₘ m.states) (log ++ l1) := by
      cases h1 with
      | attempt ha =>
        rcases hi with hi | ⟨h0, -⟩
        · rw [List.append_nil]
          exact hi.same rfl rfl rfl rfl rfl
        · omega
      | destination _ _ _ =>
        refine Ids.fresh ?_ rfl rfl rfl (nodup_prefix hd)
        rcases hi with hi | ⟨-, hi⟩
        · exact hi.drop
        · exact hi
    cases h2 with
    | unbound _ => rw [List.append_nil]; exact step
    | bound _ _ _ => rw [List.append_nil]; exact step
    | moved _ _ => exact Ids.fresh step.drop rfl rfl rfl hd

theorem ids_moved {past : Nat} {x moved : List (RequestState R)}
    (h : List.Forall₂ (fun s s' : RequestState R => s' = s.fresh s'.messageId past) x moved) :
    ∀ {rest : Multiset (RequestState R)} {log : List (LogEntry R)}, Ids past ((↑x : Multiset (RequestState R)) + rest) log →
      (Spec.drawn (log ++ moved.map fun s => .newId s.request s.messageId)).Nodup →
      Ids past ((↑moved : Multiset (RequestState R)) + rest) (log ++ moved.map fun s => .newId s.request s.messageId) := by
  induction h with
  | nil => intro rest log hi hd; simpa using hi
  | @cons s s' x moved hs _ ih =>
    intro rest log hi hd
    rw [List.map_cons] at hd ⊢
    have e : log ++ LogEntry.newId s'.request s'.messageId :: moved.map (fun s => .newId s.request s.messageId) =
        (log ++ [.newId s'.request s'.messageId]) ++ moved.map (fun s => .newId s.request s.messageId) := by
      rw [List.append_assoc]; rfl
    rw [e] at hd ⊢
    rw [← Multiset.cons_coe, Multiset.cons_add] at hi ⊢
    rw [← Multiset.add_cons]
    refine ih ?_ hd
    rw [Multiset.add_cons]
    exact Ids.fresh hi.drop rfl (by rw [hs]; rfl) (by rw [hs]; rfl) (nodup_prefix hd)

theorem createdAt_micro {c c' : Cfg R} (hm : Micro c c') : c'.mgr.createdAt = c.mgr.createdAt := by
  cases hm with
  | pop _ _ h =>
    obtain ⟨-, ⟨rfl, -⟩ | ⟨_, _, _, _, _, -, -, -, -, rfl, -⟩⟩ := retry_states h <;> rfl
  | insert _ _ _ _ h =>
    obtain ⟨-, ⟨rfl, -⟩ | ⟨_, _, _, _, _, -, -, -, -, rfl, -⟩⟩ := retry_states h <;> rfl
  | _ => rfl

theorem ids_micro {c c' : Cfg R} (hm : Micro c c')
    (hi : (Spec.drawn c.log).Nodup → Ids c.mgr.createdAt c.mgr.states c.log)
    (hd : (Spec.drawn c'.log).Nodup) : Ids c'.mgr.createdAt c'.mgr.states c'.log := by
  rw [createdAt_micro hm]
  cases hm with
  | @requeue m log ins rem rel s rest i n d t met h1 h2 h3 h4 h5 h6 =>
    have hi := hi (nodup_prefix hd)
    unfold RequestManager.states at hi ⊢
    dsimp only at hi ⊢
    rw [PostQueues.bag_pop h1, Multiset.cons_add] at hi
    rw [PostQueues.bag_push, Multiset.cons_add]
    refine hi.post rfl rfl rfl rfl ?_ h4 h6
    cases rel with
    | none => exact .inl h3
    | some rel => exact .inr h3
  | @wait m log ins rem rel s rest i d t met h1 h2 h3 h4 h5 h6 =>
    have hi := hi (nodup_prefix hd)
    unfold RequestManager.states at hi ⊢
    dsimp only at hi ⊢
    rw [PostQueues.bag_pop h1, Multiset.cons_add] at hi
    rw [insertSorted_bag, Multiset.add_cons]
    refine hi.post rfl rfl rfl rfl ?_ h4 h6
    cases rel with
    | none => exact .inl h3
    | some rel => exact .inr h3
  | @refused m log ins rem rel s rest i h1 h2 => exact (hi (nodup_prefix hd)).log rfl rfl fun _ => rfl
  | @failed m log ins rem rel s rest i e h1 h2 =>
    have hi := hi (nodup_prefix hd)
    unfold RequestManager.states at hi ⊢
    dsimp only at hi ⊢
    rw [PostQueues.bag_pop h1, Multiset.cons_add] at hi
    exact hi.drop.log rfl rfl fun _ => rfl
  | @pop m log ins rem s rest m' l h1 h2 h3 =>
    have hi := hi (nodup_prefix hd)
    have key := ids_retry h3 hd (.inl ?_)
    · exact key
    unfold RequestManager.states at hi ⊢
    dsimp only at hi ⊢
    rw [h1, ← Multiset.cons_coe, Multiset.add_cons] at hi
    exact hi
  | @insert m log ins rem s m' l h1 h2 h3 h4 h5 => exact ids_retry h5 hd (.inr ⟨h3, hi (nodup_prefix hd)⟩)
  | @update m log ins rem status moved h1 h2 =>
    have hi := hi (nodup_prefix hd)
    obtain ⟨x, rest, e1, e2, -, e3⟩ := update_bag h2
    unfold RequestManager.states at hi ⊢
    dsimp only at hi hd ⊢
    rw [e1, add_assoc] at hi
    rw [e2, add_assoc]
    exact ids_moved e3 hi hd
  | @remove m log ins rem rel s a b h1 =>
    have hi := hi hd
    unfold RequestManager.states at hi ⊢
    dsimp only at hi ⊢
    rw [PostQueues.bag_split h1, Multiset.cons_add] at hi
    exact hi.drop
  | @removeRetry m log ins rem s a b h1 =>
    have hi := hi hd
    unfold RequestManager.states at hi ⊢
    dsimp only at hi ⊢
    rw [h1, ms_middle, Multiset.singleton_add, Multiset.add_cons] at hi
    exact hi.drop

end Mixnet
