import Verif.Spec.ManagerWorld
import Verif.Props.RequestManager
import Verif.Proofs.ManagerOrder
/-!
# C67: requests are first posted in the order in which they were inserted
-/
namespace Mixnet.Props
open Mixnet Spec

variable {R Ctx : Type} {C : Crypto} {T : RequestTrait R Ctx} {config : RequestManagerConfig} {now : Nat}
  {calls : List (ManagerCall R)} {outs : List (ManagerOutcome R)} {log : List (LogEntry R)} {m : RequestManager R}

/-- The invariant together with what it is for. -/
def FirstPosts [DecidableEq R] (r r' : R) (c : Cfg R) : Prop :=
  Ordered c ∧ (InsertedBefore r r' c.inserted → c.inserted.count r = 1 → r ∉ c.removed →
    ∀ before, BeforePost r' c.log before → r ∉ failed before → r ∈ posted before ∨ c.mgr.config.numDestinations = 0)

theorem before_snoc {r' : R} {log : List (LogEntry R)} {before : List (LogEntry R)} {l : List (LogEntry R)}
    (h : BeforePost r' (log ++ l) before) :
    BeforePost r' log before ∨ ∃ l1, before = log ++ l1 ∧ BeforePost r' l l1 := by
  obtain ⟨i, d, id, d', met, after, h⟩ := h
  rcases List.append_eq_append_iff.1 h with ⟨x, h1, h2⟩ | ⟨x, h1, h2⟩
  · exact .inr ⟨x, h1, i, d, id, d', met, after, h2⟩
  · cases x with
    | nil =>
      rw [List.append_nil] at h1
      exact .inr ⟨[], by rw [h1, List.append_nil], i, d, id, d', met, after, h2.symm⟩
    | cons e x =>
      rw [List.cons_append] at h2
      injection h2 with h3 h4
      subst h3
      exact .inl ⟨i, d, id, d', met, x, h1⟩

theorem posted_before {r : R} {log : List (LogEntry R)} (hs : r ∈ posted log) : ∃ before, BeforePost r log before := by
  unfold posted at hs
  rw [List.mem_flatMap] at hs
  obtain ⟨e, he, hs⟩ := hs
  obtain ⟨b, a, he⟩ := List.append_of_mem he
  cases e with
  | post r0 i d id d' res =>
    cases res with
    | error e => cases hs
    | ok met =>
      rw [List.mem_singleton] at hs
      subst hs
      exact ⟨b, i, d, id, d', met, a, he⟩
  | _ => cases hs

theorem firstPosts_micro [DecidableEq R] {r r' : R} {c c' : Cfg R} (h : FirstPosts r r' c) (hm : Micro c c') :
    FirstPosts r r' c' := by
  obtain ⟨ho, h⟩ := h
  have ho' := ordered_micro ho hm
  refine ⟨ho', fun hb hc hr before hp hf => ?_⟩
  rw [(config_micro hm).1]
  obtain ⟨l, hl⟩ : ∃ l, c'.log = c.log ++ l := by
    cases hm with
    | remove _ => exact ⟨[], (List.append_nil _).symm⟩
    | removeRetry _ => exact ⟨[], (List.append_nil _).symm⟩
    | _ => exact ⟨_, rfl⟩
  obtain ⟨x, hx⟩ : ∃ x, c'.removed = c.removed ++ x := by
    cases hm with
    | remove _ => exact ⟨_, rfl⟩
    | removeRetry _ => exact ⟨_, rfl⟩
    | _ => exact ⟨[], (List.append_nil _).symm⟩
  have hr0 : r ∉ c.removed := fun hc => hr (by rw [hx]; exact List.mem_append_left _ hc)
  rw [hl] at hp
  -- the insertions so far, if `r'` is among them
  have old : r' ∈ c.inserted → InsertedBefore r r' c.inserted ∧ c.inserted.count r = 1 := by
    intro hr'
    obtain ⟨y, hy⟩ : ∃ y, c'.inserted = c.inserted ++ y := by
      cases hm with
      | insert _ _ _ _ _ => exact ⟨_, rfl⟩
      | _ => exact ⟨[], (List.append_nil _).symm⟩
    obtain ⟨a, b, h1, h2, h3⟩ := hb
    rw [hy] at h1 hc
    rcases List.append_eq_append_iff.1 h1 with ⟨z, h4, h5⟩ | ⟨z, h4, h5⟩
    · exact absurd (by rw [h4]; exact List.mem_append_left _ hr') h3
    · refine ⟨⟨a, z, h4, h2, h3⟩, ?_⟩
      have : 1 ≤ c.inserted.count r := List.count_pos_iff.2 (by rw [h4]; exact List.mem_append_left _ h2)
      rw [List.count_append] at hc
      omega
  rcases before_snoc hp with hp | ⟨l1, rfl, hpl1⟩
  · have hr' : r' ∈ c.inserted := by
      refine ho.known r' ?_
      obtain ⟨i, d, id, d', met, after, hp⟩ := hp
      rw [hp, posted_append]
      exact List.mem_append_right _ List.mem_cons_self
    obtain ⟨h1, h2⟩ := old hr'
    exact h h1 h2 hr0 before hp hf
  · -- the post is made in this step
    have key : ∀ {m : RequestManager R} {log ins rem rel s rest i d d' id met}, c = ⟨m, log, ins, rem⟩ →
        m.PostsIn rel i → m.postQueues.get rel = s :: rest → s.sessionIndex = rel.map (fun _ => i) →
        l = [.post s.request i d id d' (.ok met)] →
        r ∈ posted (c.log ++ l1) ∨ c.mgr.config.numDestinations = 0 := by
      intro m log ins rem rel s rest i d d' id met hc1 hpi hq hsi hle
      subst hle
      obtain ⟨i', d0, id', d0', met', after, hpe⟩ := hpl1
      have hl1 : l1 = [] ∧ s.request = r' := by
        cases l1 with
        | nil =>
          rw [List.nil_append] at hpe
          injection hpe with hpe _
          injection hpe
          exact ⟨rfl, by assumption⟩
        | cons e l1 =>
          rw [List.cons_append] at hpe
          injection hpe with _ hpe
          exact absurd hpe.symm (by simp)
      obtain ⟨rfl, rfl⟩ := hl1
      rw [List.append_nil] at hf ⊢
      have hmem : s ∈ c.mgr.states := by
        subst hc1
        exact queue_states (rel := rel) (by dsimp only; rw [hq]; exact List.mem_cons_self)
      obtain ⟨h1, h2⟩ := old (managed_inserted ho.kept hmem)
      by_cases hs : s.request ∈ posted c.log
      · -- not the first post
        obtain ⟨b1, i1, d1, id1, d1', met1, a1, he⟩ := posted_before hs
        have hb1 : r ∉ failed b1 := by
          intro hc2
          rw [he, failed_append] at hf
          exact hf (List.mem_append_left _ hc2)
        rcases h h1 h2 hr0 b1 ⟨i1, d1, id1, d1', met1, a1, he⟩ hb1 with h3 | h3
        · left
          rw [he, posted_append]
          exact List.mem_append_left _ h3
        · exact .inr h3
      · -- the first one
        by_contra hcon
        rw [not_or] at hcon
        obtain ⟨hcon, hD⟩ := hcon
        -- the request posted is the first of the default queue
        have hrel : rel = none := by
          by_contra hrel
          refine hs (ho.tried s hmem ?_)
          rw [hsi]
          cases rel with
          | none => exact absurd rfl hrel
          | some rel => exact Option.some_ne_none _
        subst hrel
        -- the other one is in the manager
        have hman : ∃ t ∈ c.mgr.states, t.request = r := by
          have : r ∈ (↑c.inserted : Multiset R) :=
            Multiset.mem_coe.2 (List.count_pos_iff.1 (by omega))
          rw [← ho.kept] at this
          simp only [Multiset.mem_add, Multiset.mem_coe] at this
          rcases this with ((h3 | h3) | h3) | h3
          · obtain ⟨t, ht, he⟩ := Multiset.mem_map.1 h3
            exact ⟨t, ht, he⟩
          · exact absurd h3 hr0
          · exact absurd h3 hf
          · rcases ho.limit r h3 with h4 | h4
            · exact absurd h4 hcon
            · exact absurd h4 hD
        obtain ⟨t, ht, rfl⟩ := hman
        -- and not bound, hence in the default queue too
        have hn : t.sessionIndex = none := by
          by_contra hne
          exact hcon (ho.tried t ht hne)
        have htd : t ∈ c.mgr.postQueues.default := by
          unfold RequestManager.states PostQueues.bag at ht
          simp only [Multiset.mem_add, Multiset.mem_coe] at ht
          rcases ht with ((ht | ht) | ht) | ht
          · have h3 := (ho.bound.1 (some .current) t ht).1
            rw [hn] at h3; cases h3
          · obtain ⟨j, h3, -⟩ := (ho.bound.1 (some .prev) t ht).1
            rw [hn] at h3; cases h3
          · exact ht
          · exact absurd hn (ho.bound.2 t ht).1
        have horder := ho.order
        have hq' : c.mgr.postQueues.default = s :: rest := by subst hc1; exact hq
        rw [hq', List.map_cons, List.filter_cons_of_pos (by simpa using hs)] at horder
        obtain ⟨a, b, hab, ha, hb'⟩ := h1
        rw [hab] at horder
        obtain ⟨u, v, huv, hu, hv⟩ := List.sublist_append_iff.1 horder
        have hu0 : u = [] := by
          cases u with
          | nil => rfl
          | cons e u =>
            rw [List.cons_append] at huv
            injection huv with h3 _
            subst h3
            exact absurd (hu.subset List.mem_cons_self) hb'
        subst hu0
        rw [List.nil_append] at huv
        -- the earlier one is then inserted later
        have hne : t.request ≠ s.request := fun he => hb' (he ▸ ha)
        have : t.request ∈ b := by
          refine hv.subset ?_
          rw [← huv]
          refine List.mem_cons_of_mem _ (List.mem_filter.2 ⟨?_, by simpa using hcon⟩)
          rw [hq'] at htd
          rcases List.mem_cons.1 htd with rfl | htd
          · exact absurd rfl hne
          · exact List.mem_map.2 ⟨t, htd, rfl⟩
        rw [hab, List.count_append] at h2
        have c1 := List.count_pos_iff.2 ha
        have c2 := List.count_pos_iff.2 this
        omega
    -- steps without a successful post
    have none : posted l = [] → r ∈ posted (c.log ++ l1) ∨ c.mgr.config.numDestinations = 0 := by
      intro hpl
      obtain ⟨i', d0, id', d0', met', after, hpe⟩ := hpl1
      rw [hpe, posted_append] at hpl
      have := (List.append_eq_nil_iff.1 hpl).2
      exact absurd this (by show ¬ ([r'] ++ posted after = []); simp)
    cases hm with
    | requeue h1 h2 h3 h4 h5 h6 => exact key rfl h2 h1 h3 (List.append_cancel_left hl).symm
    | wait h1 h2 h3 h4 h5 h6 => exact key rfl h2 h1 h3 (List.append_cancel_left hl).symm
    | refused h1 h2 => exact none (by rw [← List.append_cancel_left hl]; rfl)
    | failed h1 h2 h3 => exact none (by rw [← List.append_cancel_left hl]; rfl)
    | pop h1 h2 h3 =>
      refine none ?_
      rw [← List.append_cancel_left hl]
      obtain ⟨-, ⟨-, rfl, -⟩ | ⟨_, _, _, _, _, -, -, -, -, -, -, -, -, -, -, h7⟩⟩ := retry_states h3
      · rfl
      · exact h7
    | insert h1 h2 h3 h4 h5 =>
      refine none ?_
      rw [← List.append_cancel_left hl]
      obtain ⟨-, ⟨-, rfl, -⟩ | ⟨_, _, _, _, _, -, -, -, -, -, -, -, -, -, -, h7⟩⟩ := retry_states h5
      · rfl
      · exact h7
    | update h1 h2 => exact none (by rw [← List.append_cancel_left hl]; exact (newIds_log _).2.2.1)
    | remove h1 =>
      refine none ?_
      have : l = [] := by
        have : _ ++ [] = _ ++ l := (List.append_nil _).trans hl
        exact (List.append_cancel_left this).symm
      rw [this]; rfl
    | removeRetry h1 =>
      refine none ?_
      have : l = [] := by
        have : _ ++ [] = _ ++ l := (List.append_nil _).trans hl
        exact (List.append_cancel_left this).symm
      rw [this]; rfl

/-- C67: if a request was inserted (once) before another one, then it has been posted before the other one is, unless
it was removed, or given up because of an error. -/
theorem first_posts_in_order [DecidableEq R] (h : Reached C T config now calls outs log m) {r r' : R}
    (hi : InsertedBefore r r' (inserted calls)) (hc : (inserted calls).count r = 1) (hr : r ∉ removed outs)
    {before : List (LogEntry R)} (hp : BeforePost r' log before) (hf : r ∉ failed before) : r ∈ posted before := by
  have := manager_induction (P := fun c => c.mgr.config = config ∧ FirstPosts r r' c)
    (fun _ _ hi hm => ⟨(config_micro hm).1.trans hi.1, firstPosts_micro hi.2 hm⟩)
    (fun m log ins rem b h => ⟨h.1, ⟨h.2.1.bound, h.2.1.kept, h.2.1.tried, h.2.1.order, h.2.1.known, h.2.1.limit⟩, h.2.2⟩)
    h [] [] [] ⟨rfl, ⟨by
        rw [← bound_iff]
        constructor <;> simp [RequestManager.new, PostQueues.new], by
        unfold Kept RequestManager.states PostQueues.bag
        rfl, fun s hs => by
        simp [RequestManager.states, PostQueues.bag, RequestManager.new, PostQueues.new] at hs, .refl _,
        fun r hr => (by cases hr), fun r hr => (by cases hr)⟩,
      fun hb _ _ => by
        obtain ⟨a, b, h1, h2, -⟩ := hb
        rw [(List.append_eq_nil_iff.1 h1.symm).1] at h2
        cases h2⟩
  dsimp only at this
  simp only [List.nil_append] at this
  obtain ⟨hcf, -, h2⟩ := this
  rcases h2 hi hc hr before hp hf with h3 | h3
  · exact h3
  · -- no destinations, no posts
    exfalso
    obtain ⟨i, d, id, d', met, after, hp⟩ := hp
    have h4 := posts_bounded h r'
    dsimp only at h3
    rw [hcf] at h3
    rw [h3] at h4
    simp only [Nat.zero_mul, Nat.le_zero] at h4
    rw [hp, posted_append, List.count_append] at h4
    have : (posted (LogEntry.post r' i d id d' (.ok met) :: after)).count r' = 1 + (posted after).count r' := by
      show (r' :: posted after).count r' = _
      rw [List.count_cons_self]; omega
    omega

/-- The hypotheses can be met: request 7 was inserted before request 8, and both were posted. -/
example : ∃ m os log before, Reached World.C World.trait World.mgrConfig 5 World.mgrCalls os log m ∧
    InsertedBefore 7 8 (inserted World.mgrCalls) ∧ (inserted World.mgrCalls).count 7 = 1 ∧ 7 ∉ removed os ∧
    BeforePost 8 log before ∧ 7 ∉ failed before := by
  obtain ⟨m, os, log, h, h1, h2, h3, h4, -⟩ := World.mgr_history
  obtain ⟨before, hb⟩ := posted_before (r := 8) (log := log) (by rw [h4]; decide)
  refine ⟨m, os, log, before, h, ⟨[7], [8, 9, 9], rfl, by simp, by simp⟩, rfl, by rw [h2]; decide, hb, ?_⟩
  have := no_request_lost h
  rw [h1, h2, h3] at this
  have hlen := this.length_eq
  have : inserted World.mgrCalls = [7, 8, 9, 9] := rfl
  rw [this] at hlen
  simp only [List.length_append, List.length_cons, List.length_nil] at hlen
  have hf : failed log = [] := List.length_eq_zero_iff.1 (by omega)
  obtain ⟨i, d, id, d', met, after, hl⟩ := hb
  rw [hl, failed_append] at hf
  rw [(List.append_eq_nil_iff.1 hf).1]
  exact List.not_mem_nil

end Mixnet.Props
