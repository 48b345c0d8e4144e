import Verif.Spec.ReplyManager
import Verif.Proofs.LinkedMap
import Mathlib.Data.List.Chain
/-!
# The reply manager
-/
namespace Mixnet
open Spec Props

/-- Posting uses SURBs from the end. -/
theorem postReply_surbs {C : Crypto} {m m' : Node} {surbs surbs' : List Surb} {i : SessionIndex}
    {mid : MessageId} {l : Bytes} {r : Except PostErr Unit} (hmid : mid.length = 16)
    (h : m.postReply C surbs i mid (Scattered.ofSlice l) = .ok (m', surbs', r)) :
    surbs' <+: surbs ∧ (r = .ok () → ∃ fs, Sent mid l [] fs ∧ surbs.length = surbs'.length + fs.length) := by
  cases postReply_cases h with
  | tooMany _ => exact ⟨List.prefix_refl _, fun h => (by cases h)⟩
  | noSession bps e _ _ _ => exact ⟨List.prefix_refl _, fun h => (by cases h)⟩
  | noSpace bps rel s e _ _ _ _ => exact ⟨List.prefix_refl _, fun h => (by cases h)⟩
  | failed bps rel s rest used ps e done bp left bad h1 h2 h3 h4 h5 h6 =>
    exact ⟨⟨_, h6.symm⟩, fun h => (by cases h)⟩
  | posted bps rel s rest used ps h1 h2 h3 h4 h5 h6 h7 =>
    refine ⟨⟨_, h5.symm⟩, fun _ => ?_⟩
    obtain ⟨-, fs, b2, b3, -⟩ := sent_blueprints hmid (Denotes.ofSlice l) h1
    refine ⟨fs, b2, ?_⟩
    rw [h5, b3, List.length_append, List.length_reverse, h6.lengths.2, h6.lengths.1]

theorem postReply_copies {C : Crypto} {reply : Reply} (hid : reply.messageId.length = 16) :
    ∀ {n : Nat} {ctx ctx' : ReplyContext} {mixnet mixnet' : Node} {log : List ReplyPost},
    ReplyContext.postReply C reply n ctx mixnet = .ok (ctx', mixnet', log) →
    Copies ctx.messageId ctx.sessionIndex reply ctx.surbs n log
  | 0, ctx, ctx', mixnet, mixnet', log, h => by
    cases h
    exact ⟨fun _ h => (by cases h), Nat.le_refl _, fun _ h => (by cases h), fun h => absurd h (Nat.lt_irrefl _),
      fun _ h => (by cases h), .nil, fun _ h => (by cases h), fun _ h => (by cases h)⟩
  | n + 1, ctx, ctx', mixnet, mixnet', log, h => by
    unfold ReplyContext.postReply at h
    rw [res_bind_eq_ok] at h
    obtain ⟨⟨mixnet1, surbs, res⟩, h1, h⟩ := h
    obtain ⟨s1, s2⟩ := postReply_surbs hid h1
    dsimp only at h
    cases res with
    | error e =>
      cases h
      refine ⟨?_, ?_, fun _ h => (by cases h), fun _ => ⟨_, e, rfl, rfl⟩, ?_, .singleton _, ?_, ?_⟩
      · intro p hp
        rw [List.mem_singleton] at hp
        subst hp
        exact ⟨rfl, rfl, rfl⟩
      · exact Nat.succ_le_succ (Nat.zero_le _)
      · rintro p ⟨⟩; rfl
      · intro p hp
        rw [List.mem_singleton] at hp
        subst hp
        exact s1
      · intro p hp
        rw [List.mem_singleton] at hp
        subst hp
        exact fun h => (by cases h)
    | ok u =>
      cases u
      dsimp only at h
      rw [res_bind_eq_ok] at h
      obtain ⟨⟨ctx2, mixnet2, log2⟩, h2, h⟩ := h
      cases h
      have ih := postReply_copies hid h2
      dsimp only at ih
      refine ⟨?_, ?_, ?_, ?_, ?_, ?_, ?_, ?_⟩
      · intro p hp
        rcases List.mem_cons.1 hp with rfl | hp
        · exact ⟨rfl, rfl, rfl⟩
        · exact ih.each p hp
      · exact Nat.succ_le_succ ih.atMost
      · intro p hp
        cases log2 with
        | nil => cases hp
        | cons q log2 =>
          rw [List.dropLast_cons_of_ne_nil (by simp)] at hp
          rcases List.mem_cons.1 hp with rfl | hp
          · rfl
          · exact ih.succeeded p hp
      · intro hlt
        obtain ⟨p, e, h3, h4⟩ := ih.stopped (by simpa using hlt)
        refine ⟨p, e, ?_, h4⟩
        rw [List.getLast?_cons, h3]
        rfl
      · rintro p ⟨⟩; rfl
      · exact List.isChain_cons.2 ⟨fun q hq => ih.firstSurbs q hq, ih.nextSurbs⟩
      · intro p hp
        rcases List.mem_cons.1 hp with rfl | hp
        · exact s1
        · exact ih.taken p hp
      · intro p hp
        rcases List.mem_cons.1 hp with rfl | hp
        · exact s2
        · exact ih.used p hp

namespace LinkedMap
variable {κ υ : Type} [DecidableEq κ]

theorem keys_set (m : LinkedMap κ υ) (k v) : keys (m.set k v) = keys m := by
  unfold keys LinkedMap.set
  rw [List.map_map]
  refine List.map_congr_left fun e _ => ?_
  simp only [Function.comp]
  split <;> rfl

theorem get?_cons (e : κ × υ) (m : LinkedMap κ υ) (k : κ) :
    LinkedMap.get? (e :: m) k = if e.1 = k then some e.2 else m.get? k := by
  unfold LinkedMap.get?
  by_cases h : e.1 = k
  · rw [List.find?_cons_of_pos (by simp [h]), if_pos h]; rfl
  · rw [List.find?_cons_of_neg (by simp [h]), if_neg h]

theorem set_cons (e : κ × υ) (m : LinkedMap κ υ) (k : κ) (v : υ) :
    LinkedMap.set (e :: m) k v = (if e.1 = k then (e.1, v) else e) :: m.set k v := by
  unfold LinkedMap.set
  rw [List.map_cons]
  by_cases h : e.1 = k <;> simp [h]

theorem get?_set_self {m : LinkedMap κ υ} {k} (v) (h : k ∈ keys m) : (m.set k v).get? k = some v := by
  induction m with
  | nil => cases h
  | cons e m ih =>
    rw [set_cons, get?_cons]
    by_cases he : e.1 = k
    · simp [he]
    · rw [if_neg he, if_neg he]
      refine ih ?_
      rcases List.mem_cons.1 h with h | h
      · exact absurd h.symm he
      · exact h

theorem get?_set_ne (m : LinkedMap κ υ) {k k'} (v) (h : k' ≠ k) : (m.set k v).get? k' = m.get? k' := by
  induction m with
  | nil => rfl
  | cons e m ih =>
    rw [set_cons, get?_cons, get?_cons, ih]
    by_cases he : e.1 = k
    · have hne : ¬ e.1 = k' := fun x => h (x.symm.trans he)
      rw [if_pos he, if_neg hne, if_neg hne]
    · rw [if_neg he]

theorem mem_set {m : LinkedMap κ υ} {k v} {e : κ × υ} (h : e ∈ m.set k v) : e ∈ m ∨ e = (k, v) := by
  unfold LinkedMap.set at h
  rw [List.mem_map] at h
  obtain ⟨e', h1, h2⟩ := h
  split at h2
  · rename_i hk
    refine .inr ?_
    rw [← h2, beq_iff_eq.1 hk]
  · exact .inl (h2 ▸ h1)

end LinkedMap

namespace ReplyManager

/-- What holds of every reply manager. -/
structure Inv (cfg : ReplyManagerConfig) (m : ReplyManager) : Prop where
  config : m.config = cfg
  nodup : (kept m).Nodup
  bounded : (kept m).length ≤ cfg.capacity
  ids : ∀ k reply t, (k, ReplyState.complete reply t) ∈ m.states → reply.messageId.length = 16

theorem length_remembered (m : ReplyManager) : (kept m).length = m.states.length := List.length_map ..

theorem maybeEvict_eq {m : ReplyManager} (h : m.states.length ≤ m.config.capacity + 1) :
    m.maybeEvict = .ok { m with states := lastN m.config.capacity m.states } := by
  unfold maybeEvict lastN
  split
  · rename_i hgt
    have e : m.states.length - m.config.capacity = 1 := by omega
    obtain ⟨c, s⟩ := m
    cases s with
    | nil => simp at hgt
    | cons x s =>
      dsimp only [LinkedMap.popFront] at *
      rw [assertP_pos (decide_eq_true (by simp at *; omega)), res_bind_ok, e]
      rfl
  · rename_i hle
    have : m.states.length - m.config.capacity = 0 := by omega
    rw [this, List.drop_zero]

theorem map_lastN {α β : Type} (f : α → β) (n : Nat) (l : List α) : (lastN n l).map f = lastN n (l.map f) := by
  unfold lastN
  rw [List.map_drop, List.length_map]

theorem lastN_length {α : Type} (n : Nat) (l : List α) : (lastN n l).length ≤ n := by
  unfold lastN
  rw [List.length_drop]
  omega

theorem lastN_sublist {α : Type} (n : Nat) (l : List α) : (lastN n l).Sublist l := List.drop_sublist ..

theorem lastN_of_le {α : Type} {n : Nat} {l : List α} (h : l.length ≤ n) : lastN n l = l := by
  unfold lastN
  rw [Nat.sub_eq_zero_of_le h, List.drop_zero]

theorem remembered_set (c : ReplyManagerConfig) (s : LinkedMap MessageId ReplyState) (k v) :
    kept ⟨c, s.set k v⟩ = kept ⟨c, s⟩ := LinkedMap.keys_set ..

/-- What a call does, if it returns. -/
inductive Does (C : Crypto) (m : ReplyManager) (mixnet : Node) (rng : Rng) (now : Nat) :
    ReplyCall → ReplyManager → Node → List ReplyPost → Option (ReplyContext × Bytes) → Prop
  | busy {message} : m.states.get? message.id = some .pending →
      Does C m mixnet rng now (.insert message) m mixnet [] none
  | cool {message reply last} : m.states.get? message.id = some (.complete reply last) →
      now - last < m.config.cooldown → Does C m mixnet rng now (.insert message) m mixnet [] none
  | again {message reply last ctx' mixnet' log} : m.states.get? message.id = some (.complete reply last) →
      m.config.cooldown ≤ now - last →
      ReplyContext.postReply C reply m.config.maxPosts ⟨message.sessionIndex, message.id, message.surbs⟩ mixnet =
        .ok (ctx', mixnet', log) →
      Does C m mixnet rng now (.insert message)
        { m with states := m.states.set message.id (.complete reply now) } mixnet' log none
  | handOut {message m'} : m.states.get? message.id = none →
      ReplyManager.maybeEvict { m with states := m.states.pushBack message.id .pending } = .ok m' →
      Does C m mixnet rng now (.insert message) m' mixnet []
        (some (⟨message.sessionIndex, message.id, message.surbs⟩, message.data))
  | abandoned {ctx} : m.states.get? ctx.messageId = some .pending →
      Does C m mixnet rng now (.abandon ctx) { m with states := m.states.remove ctx.messageId } mixnet [] none
  | notAbandoned {ctx} : m.states.get? ctx.messageId ≠ some .pending →
      Does C m mixnet rng now (.abandon ctx) m mixnet [] none
  | twice {ctx data reply last} : m.states.get? ctx.messageId = some (.complete reply last) →
      Does C m mixnet rng now (.complete ctx data) m mixnet [] none
  | completed {ctx data m1 ctx' mixnet' log m'} :
      ((m.states.get? ctx.messageId = some .pending ∧ m1 = m) ∨
        (m.states.get? ctx.messageId = none ∧
          m1 = { m with states := m.states.pushBack ctx.messageId .pending })) →
      ReplyContext.postReply C (Reply.new rng data) m.config.maxPosts ctx mixnet = .ok (ctx', mixnet', log) →
      ReplyManager.maybeEvict
        { m1 with states := m1.states.set ctx.messageId (.complete (Reply.new rng data) now) } = .ok m' →
      Does C m mixnet rng now (.complete ctx data) m' mixnet' log none

theorem step_does {C : Crypto} {m m' : ReplyManager} {mixnet mixnet' : Node} {rng : Rng} {now : Nat} {call : ReplyCall}
    {log : List ReplyPost} {out : Option (ReplyContext × Bytes)}
    (h : m.step C mixnet rng now call = .ok (m', mixnet', log, out)) :
    Does C m mixnet rng now call m' mixnet' log out := by
  cases call with
  | insert message =>
    unfold ReplyManager.step ReplyManager.insert at h
    dsimp only at h
    split at h
    · rename_i hs; cases h; exact .busy hs
    · rename_i reply last hs
      split at h
      · rename_i hc; cases h; exact .cool hs hc
      · rename_i hc
        rw [res_bind_eq_ok] at h
        obtain ⟨⟨ctx', mixnet1, log1⟩, h1, h⟩ := h
        cases h
        exact .again hs (by omega) h1
    · rename_i hs
      rw [res_bind_eq_ok] at h
      obtain ⟨m1, h1, h⟩ := h
      cases h
      exact .handOut hs h1
  | abandon ctx =>
    unfold ReplyManager.step ReplyManager.abandon at h
    dsimp only at h
    split at h
    · rename_i hs; cases h; exact .abandoned hs
    · rename_i hs; cases h; exact .notAbandoned (by rw [hs]; simp)
    · rename_i hs; cases h; exact .notAbandoned (by rw [hs]; simp)
  | complete ctx data =>
    unfold ReplyManager.step ReplyManager.complete at h
    rw [res_bind_eq_ok] at h
    obtain ⟨⟨m1, mixnet1, log1⟩, h1, h⟩ := h
    cases h
    unfold ReplyManager.startComplete at h1
    obtain ⟨o, ho⟩ : ∃ o, m.states.get? ctx.messageId = o := ⟨_, rfl⟩
    rw [ho] at h1
    rcases o with _ | _ | ⟨reply, last⟩
    · dsimp only at h1
      rw [res_bind_eq_ok] at h1
      obtain ⟨⟨ctx', mixnet2, log2⟩, h2, h1⟩ := h1
      rw [res_bind_eq_ok] at h1
      obtain ⟨m2, h3, h1⟩ := h1
      cases h1
      exact .completed (.inr ⟨ho, rfl⟩) h2 h3
    · dsimp only at h1
      rw [res_bind_eq_ok] at h1
      obtain ⟨⟨ctx', mixnet2, log2⟩, h2, h1⟩ := h1
      rw [res_bind_eq_ok] at h1
      obtain ⟨m2, h3, h1⟩ := h1
      cases h1
      exact .completed (.inl ⟨ho, rfl⟩) h2 h3
    · cases h1
      exact .twice ho

theorem get?_none_iff {m : ReplyManager} {id : MessageId} : m.states.get? id = none ↔ id ∉ kept m :=
  LinkedMap.get?_eq_none

theorem get?_some_mem {m : ReplyManager} {id : MessageId} {s : ReplyState} (h : m.states.get? id = some s) :
    id ∈ kept m := by
  by_contra hc
  rw [get?_none_iff.2 hc] at h
  cases h

/-- The requests kept after a call. -/
theorem does_remembered {C : Crypto} {config : ReplyManagerConfig} {m m' : ReplyManager} {mixnet mixnet' : Node}
    {rng : Rng} {now : Nat} {call : ReplyCall} {log : List ReplyPost} {out : Option (ReplyContext × Bytes)}
    (hI : m.Inv config) (h : Does C m mixnet rng now call m' mixnet' log out) :
    kept m' =
      match call with
      | .insert message =>
        if message.id ∈ kept m then kept m else lastN config.capacity (kept m ++ [message.id])
      | .complete ctx _ =>
        if ctx.messageId ∈ kept m then kept m
        else lastN config.capacity (kept m ++ [ctx.messageId])
      | .abandon ctx =>
        if m.states.get? ctx.messageId = some .pending then (kept m).filter (· ≠ ctx.messageId)
        else kept m := by
  have hb : m.states.length ≤ m.config.capacity := by
    rw [← length_remembered, hI.config]; exact hI.bounded
  have push : ∀ id v, kept { m with states := m.states.pushBack id v } = kept m ++ [id] :=
    fun id v => LinkedMap.keys_pushBack ..
  cases h with
  | busy h => dsimp only; rw [if_pos (get?_some_mem h)]
  | cool h _ => dsimp only; rw [if_pos (get?_some_mem h)]
  | again h _ _ => dsimp only; rw [if_pos (get?_some_mem h)]; exact remembered_set ..
  | handOut h1 h2 =>
    dsimp only
    rw [if_neg (get?_none_iff.1 h1)]
    rw [maybeEvict_eq (by simp [LinkedMap.pushBack]; exact hb)] at h2
    cases h2
    rw [← push _ .pending, ← hI.config]
    exact map_lastN _ _ _
  | @abandoned ctx h =>
    dsimp only
    rw [if_pos h]
    show LinkedMap.keys _ = _
    rw [LinkedMap.keys_remove]
    refine List.filter_congr fun x _ => ?_
    by_cases hx : x = ctx.messageId <;> simp [hx]
  | notAbandoned h => dsimp only; rw [if_neg h]
  | twice h => dsimp only; rw [if_pos (get?_some_mem h)]
  | completed h1 h2 h3 =>
    dsimp only
    rcases h1 with ⟨h1, rfl⟩ | ⟨h1, rfl⟩
    · rw [if_pos (get?_some_mem h1)]
      rw [maybeEvict_eq (by simp [LinkedMap.set]; omega), lastN_of_le (by simp [LinkedMap.set]; exact hb)] at h3
      cases h3
      exact remembered_set ..
    · rw [if_neg (get?_none_iff.1 h1)]
      rw [maybeEvict_eq (by simp [LinkedMap.set, LinkedMap.pushBack]; exact hb)] at h3
      cases h3
      rw [← push _ .pending, ← hI.config]
      unfold kept
      dsimp only
      rw [map_lastN]
      congr 1
      exact LinkedMap.keys_set ..

theorem does_inv {C : Crypto} {config : ReplyManagerConfig} {m m' : ReplyManager} {mixnet mixnet' : Node}
    {rng : Rng} {now : Nat} {call : ReplyCall} {log : List ReplyPost} {out : Option (ReplyContext × Bytes)}
    (hI : m.Inv config) (h : Does C m mixnet rng now call m' mixnet' log out) : m'.Inv config := by
  have hr := does_remembered hI h
  have hb : m.states.length ≤ m.config.capacity := by
    rw [← length_remembered, hI.config]; exact hI.bounded
  have hn : (kept m').Nodup ∧ (kept m').length ≤ config.capacity := by
    rw [hr]
    have key : ∀ id : MessageId, (if id ∈ kept m then kept m else
        lastN config.capacity (kept m ++ [id])).Nodup ∧ (if id ∈ kept m then kept m else
        lastN config.capacity (kept m ++ [id])).length ≤ config.capacity := by
      intro id
      split
      · exact ⟨hI.nodup, hI.bounded⟩
      · rename_i hid
        refine ⟨List.Nodup.sublist (lastN_sublist ..) ?_, lastN_length ..⟩
        rw [List.nodup_append]
        refine ⟨hI.nodup, by simp, ?_⟩
        rintro a ha b hb rfl
        simp at hb
        exact hid (hb ▸ ha)
    cases call with
    | insert message => exact key _
    | complete ctx data => exact key _
    | abandon ctx =>
      dsimp only
      split
      · exact ⟨hI.nodup.filter _, Nat.le_trans (List.length_filter_le _ _) hI.bounded⟩
      · exact ⟨hI.nodup, hI.bounded⟩
  refine ⟨?_, hn.1, hn.2, ?_⟩
  · cases h with
    | handOut h1 h2 =>
      rw [maybeEvict_eq (by simp [LinkedMap.pushBack]; exact hb)] at h2
      cases h2
      exact hI.config
    | completed h1 h2 h3 =>
      rcases h1 with ⟨h1, rfl⟩ | ⟨h1, rfl⟩
      · rw [maybeEvict_eq (by simp [LinkedMap.set]; omega)] at h3
        cases h3
        exact hI.config
      · rw [maybeEvict_eq (by simp [LinkedMap.set, LinkedMap.pushBack]; exact hb)] at h3
        cases h3
        exact hI.config
    | _ => exact hI.config
  · intro k reply t hm
    cases h with
    | @again message reply' last ctx' _ _ h1 h2 h3 =>
      rcases LinkedMap.mem_set hm with hm | hm
      · exact hI.ids k reply t hm
      · cases hm
        exact hI.ids _ _ _ (LinkedMap.get?_some_mem h1)
    | handOut h1 h2 =>
      rw [maybeEvict_eq (by simp [LinkedMap.pushBack]; exact hb)] at h2
      cases h2
      have := (lastN_sublist _ _).subset hm
      simp only [LinkedMap.pushBack, List.mem_append, List.mem_singleton] at this
      rcases this with this | this
      · exact hI.ids k reply t this
      · cases this
    | abandoned h1 => exact hI.ids k reply t ((LinkedMap.remove_sublist _ _).subset hm)
    | completed h1 h2 h3 =>
      rcases h1 with ⟨h1, rfl⟩ | ⟨h1, rfl⟩
      · rw [maybeEvict_eq (by simp [LinkedMap.set]; omega)] at h3
        cases h3
        rcases LinkedMap.mem_set ((lastN_sublist _ _).subset hm) with hm | hm
        · exact hI.ids k reply t hm
        · cases hm
          exact fillBytes_length ..
      · rw [maybeEvict_eq (by simp [LinkedMap.set, LinkedMap.pushBack]; exact hb)] at h3
        cases h3
        rcases LinkedMap.mem_set ((lastN_sublist _ _).subset hm) with hm | hm
        · simp only [LinkedMap.pushBack, List.mem_append, List.mem_singleton] at hm
          rcases hm with hm | hm
          · exact hI.ids k reply t hm
          · cases hm
        · cases hm
          exact fillBytes_length ..
    | _ => exact hI.ids k reply t hm

theorem new_inv (config : ReplyManagerConfig) : (ReplyManager.new config).Inv config :=
  ⟨rfl, List.nodup_nil, Nat.zero_le _, fun _ _ _ h => (by cases h)⟩

theorem runs_inv {C : Crypto} {config : ReplyManagerConfig} {m m' : ReplyManager} {rs : List ReplyRecord}
    (h : ReplyManager.Runs C m rs m') (hI : m.Inv config) : m'.Inv config := by
  induction h with
  | nil => exact hI
  | cons h1 _ ih => exact ih (does_inv hI (step_does h1))

/-! ### Histories -/

theorem get?_lastN {m : LinkedMap MessageId ReplyState} (hn : (LinkedMap.keys m).Nodup) (n : Nat) {k : MessageId}
    (hk : k ∈ LinkedMap.keys (lastN n m)) : LinkedMap.get? (lastN n m) k = m.get? k := by
  have hs : (lastN n m).Sublist m := lastN_sublist ..
  have hn' : (LinkedMap.keys (lastN n m)).Nodup := hn.sublist (hs.map _)
  obtain ⟨o, ho⟩ : ∃ o, LinkedMap.get? (lastN n m) k = o := ⟨_, rfl⟩
  cases o with
  | none => exact absurd hk (LinkedMap.get?_eq_none.1 ho)
  | some v =>
    rw [ho]
    exact (LinkedMap.get?_of_mem hn (hs.subset (LinkedMap.get?_some_mem ho))).symm

/-- What a call means for a request kept after it: either it has nothing to do with answering it, or it
answers it. -/
theorem does_tracks {C : Crypto} {config : ReplyManagerConfig} {m m' : ReplyManager} {mixnet mixnet' : Node}
    {rng : Rng} {now : Nat} {call : ReplyCall} {log : List ReplyPost} {out : Option (ReplyContext × Bytes)}
    (hI : m.Inv config) (h : Does C m mixnet rng now call m' mixnet' log out) {id : MessageId}
    (hid : id ∈ kept m') :
    ((ReplyCall.id call = id → log = []) ∧
      ∀ reply t, m.states.get? id = some (.complete reply t) → m'.states.get? id = some (.complete reply t)) ∨
    (ReplyCall.id call = id ∧ ∃ reply, m'.states.get? id = some (.complete reply now) ∧
      (∀ p ∈ log, p.request = id ∧ p.reply = reply) ∧
      ((∃ t, m.states.get? id = some (.complete reply t) ∧ config.cooldown ≤ now - t) ∨
        ∀ reply t, m.states.get? id ≠ some (.complete reply t))) := by
  have hb : m.states.length ≤ m.config.capacity := by
    rw [← length_remembered, hI.config]; exact hI.bounded
  have push : ∀ id v, id ∉ kept m → (LinkedMap.keys (m.states.pushBack id v)).Nodup :=
    fun id v hid => LinkedMap.nodup_pushBack hI.nodup hid
  cases h with
  | busy h => exact .inl ⟨fun _ => rfl, fun _ _ h => h⟩
  | cool h _ => exact .inl ⟨fun _ => rfl, fun _ _ h => h⟩
  | @again message reply last ctx' _ _ h1 h2 h3 =>
    by_cases he : message.id = id
    · subst he
      have hc := postReply_copies (hI.ids _ _ _ (LinkedMap.get?_some_mem h1)) h3
      refine .inr ⟨rfl, reply, LinkedMap.get?_set_self _ (get?_some_mem h1), fun p hp => ?_, .inl ⟨last, h1, ?_⟩⟩
      · exact ⟨(hc.each p hp).1, (hc.each p hp).2.2⟩
      · rw [← hI.config]; exact h2
    · refine .inl ⟨fun h => absurd h he, fun r t h => ?_⟩
      dsimp only
      rw [LinkedMap.get?_set_ne _ _ (fun x => he x.symm)]
      exact h
  | @handOut message _ h1 h2 =>
    refine .inl ⟨fun _ => rfl, fun r t h => ?_⟩
    have hne : id ≠ message.id := by
      rintro rfl
      rw [h1] at h
      cases h
    rw [maybeEvict_eq (by simp [LinkedMap.pushBack]; exact hb)] at h2
    cases h2
    dsimp only
    rw [get?_lastN (push _ _ (get?_none_iff.1 h1)) _ hid, LinkedMap.get?_pushBack_ne _ _ hne]
    exact h
  | @abandoned ctx h1 =>
    refine .inl ⟨fun _ => rfl, fun r t h => ?_⟩
    have hne : id ≠ ctx.messageId := by
      rintro rfl
      rw [h1] at h
      cases h
    dsimp only
    rw [LinkedMap.get?_remove_ne _ hne]
    exact h
  | notAbandoned h => exact .inl ⟨fun _ => rfl, fun _ _ h => h⟩
  | twice h => exact .inl ⟨fun _ => rfl, fun _ _ h => h⟩
  | @completed ctx data m1 ctx' _ _ _ h1 h2 h3 =>
    have hn : (LinkedMap.keys (m1.states.set ctx.messageId (.complete (Reply.new rng data) now))).Nodup := by
      rw [LinkedMap.keys_set]
      rcases h1 with ⟨h1, rfl⟩ | ⟨h1, rfl⟩
      · exact hI.nodup
      · exact push _ _ (get?_none_iff.1 h1)
    have hl : (LinkedMap.set m1.states ctx.messageId (.complete (Reply.new rng data) now)).length ≤
        m1.config.capacity + 1 := by
      rcases h1 with ⟨h1, rfl⟩ | ⟨h1, rfl⟩
      · simp [LinkedMap.set]; omega
      · simp [LinkedMap.set, LinkedMap.pushBack]; exact hb
    rw [maybeEvict_eq hl] at h3
    cases h3
    dsimp only
    rw [get?_lastN hn _ hid]
    by_cases he : ctx.messageId = id
    · subst he
      have hc := postReply_copies (reply := Reply.new rng data) (fillBytes_length ..) h2
      refine .inr ⟨rfl, Reply.new rng data, ?_, fun p hp => ⟨(hc.each p hp).1, (hc.each p hp).2.2⟩, .inr ?_⟩
      · refine LinkedMap.get?_set_self _ ?_
        rcases h1 with ⟨h1, rfl⟩ | ⟨h1, rfl⟩
        · exact get?_some_mem h1
        · rw [LinkedMap.keys_pushBack]; simp
      · intro r t hc
        rcases h1 with ⟨h1, -⟩ | ⟨h1, -⟩ <;> rw [h1] at hc <;> cases hc
    · refine .inl ⟨fun h => absurd h he, fun r t h => ?_⟩
      rw [LinkedMap.get?_set_ne _ _ (fun x => he x.symm)]
      rcases h1 with ⟨h1, rfl⟩ | ⟨h1, rfl⟩
      · exact h
      · dsimp only
        rw [LinkedMap.get?_pushBack_ne _ _ (fun x => he x.symm)]
        exact h

/-- A request completed: what is posted for it while it is kept. -/
theorem remembering_complete {C : Crypto} {config : ReplyManagerConfig} {id : MessageId} {m m' : ReplyManager}
    {records : List ReplyRecord} (h : Remembering C id m records m') (hI : m.Inv config) {reply : Reply} {t : Nat}
    (hc : m.states.get? id = some (.complete reply t)) :
    (∀ r ∈ answers id records, ∀ p ∈ r.log, p.request = id ∧ p.reply = reply) ∧
    (t :: (answers id records).map (·.time)).IsChain fun t t' => config.cooldown ≤ t' - t := by
  induction h generalizing t with
  | nil => exact ⟨fun _ h => (by cases h), .singleton _⟩
  | @cons m call mixnet rng now m1 mixnet' log out records m2 h1 h2 _ ih =>
    have hd := step_does h1
    have hI' := does_inv hI hd
    rcases does_tracks hI hd h2 with ⟨a, b⟩ | ⟨a, reply', b, c, d⟩
    · have e : answers id (⟨call, now, log, out⟩ :: records) = answers id records := by
        unfold answers
        rw [List.filter_cons_of_neg]
        by_cases hcall : ReplyCall.id call = id
        · simp [hcall, a hcall]
        · simp [hcall]
      rw [e]
      exact ih hI' (b _ _ hc)
    · rcases d with ⟨t', d, d'⟩ | d
      · rw [hc] at d
        cases d
        obtain ⟨i1, i2⟩ := ih hI' b
        by_cases hl : log = []
        · have e : answers id (⟨call, now, log, out⟩ :: records) = answers id records := by
            unfold answers
            rw [List.filter_cons_of_neg]
            simp [hl]
          rw [e]
          refine ⟨i1, ?_⟩
          cases hx : answers id records with
          | nil => exact .singleton _
          | cons r rs =>
            rw [hx] at i2
            rw [List.map_cons] at i2 ⊢
            rw [List.isChain_cons_cons] at i2 ⊢
            exact ⟨by omega, i2.2⟩
        · have e : answers id (⟨call, now, log, out⟩ :: records) = ⟨call, now, log, out⟩ :: answers id records := by
            unfold answers
            rw [List.filter_cons_of_pos]
            simp [hl, a]
          rw [e]
          refine ⟨fun r hr => ?_, ?_⟩
          · rcases List.mem_cons.1 hr with rfl | hr
            · exact c
            · exact i1 r hr
          · rw [List.map_cons, List.isChain_cons_cons]
            exact ⟨d', i2⟩
      · exact absurd hc (d _ _)

/-- The same of a request not yet completed. -/
theorem remembering_any {C : Crypto} {config : ReplyManagerConfig} {id : MessageId} {m m' : ReplyManager}
    {records : List ReplyRecord} (h : Remembering C id m records m') (hI : m.Inv config) :
    (∃ reply, ∀ r ∈ answers id records, ∀ p ∈ r.log, p.request = id ∧ p.reply = reply) ∧
    ((answers id records).map (·.time)).IsChain fun t t' => config.cooldown ≤ t' - t := by
  by_cases hc : ∃ reply t, m.states.get? id = some (.complete reply t)
  · obtain ⟨reply, t, hc⟩ := hc
    obtain ⟨a, b⟩ := remembering_complete h hI hc
    exact ⟨⟨reply, a⟩, b.tail⟩
  · induction h with
    | nil => exact ⟨⟨⟨[], []⟩, fun _ h => (by cases h)⟩, .nil⟩
    | @cons m call mixnet rng now m1 mixnet' log out records m2 h1 h2 hr ih =>
      have hd := step_does h1
      have hI' := does_inv hI hd
      by_cases hc' : ∃ reply t, m1.states.get? id = some (.complete reply t)
      · obtain ⟨reply, t, hc'⟩ := hc'
        rcases does_tracks hI hd h2 with ⟨a, b⟩ | ⟨a, reply', b, c, d⟩
        · obtain ⟨i1, i2⟩ := remembering_complete hr hI' hc'
          have e : answers id (⟨call, now, log, out⟩ :: records) = answers id records := by
            unfold answers
            rw [List.filter_cons_of_neg]
            by_cases hcall : ReplyCall.id call = id
            · simp [hcall, a hcall]
            · simp [hcall]
          rw [e]
          exact ⟨⟨_, i1⟩, i2.tail⟩
        · obtain ⟨i1, i2⟩ := remembering_complete hr hI' b
          unfold answers at *
          rw [List.filter_cons]
          split
          · refine ⟨⟨reply', fun r hr => ?_⟩, i2⟩
            rcases List.mem_cons.1 hr with rfl | hr
            · exact c
            · exact i1 r hr
          · exact ⟨⟨_, i1⟩, i2.tail⟩
      · rcases does_tracks hI hd h2 with ⟨a, b⟩ | ⟨a, reply', b, c, d⟩
        · have e : answers id (⟨call, now, log, out⟩ :: records) = answers id records := by
            unfold answers
            rw [List.filter_cons_of_neg]
            by_cases hcall : ReplyCall.id call = id
            · simp [hcall, a hcall]
            · simp [hcall]
          rw [e]
          exact ih hI' hc'
        · exact absurd ⟨_, _, b⟩ hc'

/-- A request kept is evicted only by later ones. -/
theorem does_stays {C : Crypto} {config : ReplyManagerConfig} {m m' : ReplyManager} {mixnet mixnet' : Node}
    {rng : Rng} {now : Nat} {call : ReplyCall} {log : List ReplyPost} {out : Option (ReplyContext × Bytes)}
    (hI : m.Inv config) (h : Does C m mixnet rng now call m' mixnet' log out) {id : MessageId}
    {a b : List MessageId} (hm : kept m = a ++ id :: b)
    (hna : ∀ ctx, call = .abandon ctx → ctx.messageId ≠ id)
    (hroom : b.length + others id [⟨call, now, log, out⟩] < config.capacity) :
    ∃ a' b', kept m' = a' ++ id :: b' ∧ b'.length ≤ b.length + others id [⟨call, now, log, out⟩] := by
  have hr := does_remembered hI h
  have key : ∀ id' : MessageId, ReplyCall.id call = id' → ReplyCall.abandons call = false →
      kept m' = (if id' ∈ kept m then kept m else lastN config.capacity (kept m ++ [id'])) →
      ∃ a' b', kept m' = a' ++ id :: b' ∧ b'.length ≤ b.length + others id [⟨call, now, log, out⟩] := by
    intro id' hid' hab hr
    by_cases hmem : id' ∈ kept m
    · rw [if_pos hmem] at hr
      exact ⟨a, b, hr.trans hm, Nat.le_add_right _ _⟩
    · rw [if_neg hmem, hm] at hr
      have hne : id' ≠ id := by
        rintro rfl
        rw [hm] at hmem
        simp at hmem
      have ho : others id [⟨call, now, log, out⟩] = 1 := by
        unfold others
        rw [List.countP_singleton]
        simp [hid', hne, hab]
      rw [ho] at hroom ⊢
      refine ⟨a.drop ((a ++ id :: b ++ [id']).length - config.capacity), b ++ [id'], ?_, by simp⟩
      rw [hr]
      unfold lastN
      rw [List.append_assoc, List.drop_append]
      have : (a ++ (id :: b ++ [id'])).length - config.capacity - a.length = 0 := by
        simp only [List.length_append, List.length_cons, List.length_nil]
        omega
      rw [this, List.drop_zero]
      rfl
  cases call with
  | insert message => exact key _ rfl rfl hr
  | complete ctx data => exact key _ rfl rfl hr
  | abandon ctx =>
    dsimp only at hr
    split at hr
    · have hne := hna ctx rfl
      refine ⟨a.filter (· ≠ ctx.messageId), b.filter (· ≠ ctx.messageId), ?_, ?_⟩
      · rw [hr, hm, List.filter_append, List.filter_cons_of_pos]
        simp [Ne.symm hne]
      · exact Nat.le_trans (List.length_filter_le _ _) (Nat.le_add_right _ _)
    · exact ⟨a, b, hr.trans hm, Nat.le_add_right _ _⟩

theorem others_cons (id : MessageId) (r : ReplyRecord) (rs : List ReplyRecord) :
    others id (r :: rs) = others id [r] + others id rs := by
  unfold others
  rw [show r :: rs = [r] ++ rs from rfl, List.countP_append]

theorem runs_stays {C : Crypto} {config : ReplyManagerConfig} {m m' : ReplyManager} {records : List ReplyRecord}
    (h : ReplyManager.Runs C m records m') (hI : m.Inv config) {id : MessageId} {a b : List MessageId}
    (hm : kept m = a ++ id :: b)
    (hna : ∀ r ∈ records, ∀ ctx, r.call = .abandon ctx → ctx.messageId ≠ id)
    (hroom : b.length + others id records < config.capacity) :
    Remembering C id m records m' ∧ id ∈ kept m' ∧
    ∀ r ∈ records, ∀ message, r.call = .insert message → message.id = id → r.out = none := by
  induction h generalizing a b with
  | nil => exact ⟨.nil _, by rw [hm]; simp, fun _ h => (by cases h)⟩
  | @cons m call mixnet rng now m1 mixnet' log out records m2 h1 h2 ih =>
    have hd := step_does h1
    have hI' := does_inv hI hd
    rw [others_cons] at hroom
    obtain ⟨a', b', e1, e2⟩ := does_stays hI hd hm (hna _ List.mem_cons_self) (by omega)
    obtain ⟨i1, i2, i3⟩ := ih hI' e1 (fun r hr => hna r (List.mem_cons_of_mem _ hr)) (by omega)
    refine ⟨.cons h1 (by rw [e1]; simp) i1, i2, fun r hr message hcall hid => ?_⟩
    rcases List.mem_cons.1 hr with rfl | hr
    · dsimp only at hcall ⊢
      subst hcall
      cases hd with
      | handOut g1 g2 =>
        rw [hid] at g1
        exact absurd (show id ∈ kept m by rw [hm]; simp) (get?_none_iff.1 g1)
      | _ => rfl
    · exact i3 r hr message hcall hid

/-! ### Panics -/

theorem postReply_panic {C : Crypto} {reply : Reply} : ∀ {n : Nat} {ctx : ReplyContext} {mixnet : Node} {p : Panic},
    ReplyContext.postReply C reply n ctx mixnet = .error p →
    ∃ node surbs i id data, RepliesFrom C mixnet node ∧ node.postReply C surbs i id data = .error p
  | 0, ctx, mixnet, p, h => by cases h
  | n + 1, ctx, mixnet, p, h => by
    unfold ReplyContext.postReply at h
    obtain ⟨x, hx⟩ : ∃ x, mixnet.postReply C ctx.surbs ctx.sessionIndex reply.messageId
      (Scattered.ofSlice reply.data) = x := ⟨_, rfl⟩
    rw [hx] at h
    cases x with
    | error e => cases h; exact ⟨_, _, _, _, _, .refl, hx⟩
    | ok y =>
      obtain ⟨mixnet1, surbs, res⟩ := y
      rw [res_bind_ok] at h
      dsimp only at h
      cases res with
      | error e => cases h
      | ok u =>
        dsimp only at h
        obtain ⟨y, hy⟩ : ∃ y, ReplyContext.postReply C reply n { ctx with surbs := surbs } mixnet1 = y := ⟨_, rfl⟩
        rw [hy] at h
        cases y with
        | ok z => cases h
        | error e =>
          cases h
          obtain ⟨node, s, i, id, data, h1, h2⟩ := postReply_panic hy
          refine ⟨node, s, i, id, data, ?_, h2⟩
          clear h2 hy
          induction h1 with
          | refl => exact .post .refl hx
          | post _ h ih => exact .post ih h

theorem step_panic {C : Crypto} {config : ReplyManagerConfig} {m : ReplyManager} {mixnet : Node}
    {rng : Rng} {now : Nat} {call : ReplyCall} {p : Panic} (hI : m.Inv config)
    (h : m.step C mixnet rng now call = .error p) :
    ∃ node surbs i id data, RepliesFrom C mixnet node ∧ node.postReply C surbs i id data = .error p := by
  have hb : m.states.length ≤ m.config.capacity := by
    rw [← length_remembered, hI.config]; exact hI.bounded
  cases call with
  | insert message =>
    unfold ReplyManager.step ReplyManager.insert at h
    dsimp only at h
    split at h
    · cases h
    · rename_i reply last hs
      split at h
      · cases h
      · obtain ⟨y, hy⟩ : ∃ y, ReplyContext.postReply C reply m.config.maxPosts
          ⟨message.sessionIndex, message.id, message.surbs⟩ mixnet = y := ⟨_, rfl⟩
        rw [hy] at h
        cases y with
        | ok z => cases h
        | error e => cases h; exact postReply_panic hy
    · rw [maybeEvict_eq (by simp [LinkedMap.pushBack]; exact hb)] at h
      cases h
  | abandon ctx => cases h
  | complete ctx data =>
    unfold ReplyManager.step ReplyManager.complete at h
    dsimp only at h
    obtain ⟨o, ho⟩ : ∃ o, m.startComplete ctx.messageId = o := ⟨_, rfl⟩
    rw [ho] at h
    cases o with
    | none => cases h
    | some m1 =>
      dsimp only at h
      obtain ⟨y, hy⟩ : ∃ y, ReplyContext.postReply C (Reply.new rng data) m1.config.maxPosts ctx mixnet = y :=
        ⟨_, rfl⟩
      rw [hy] at h
      cases y with
      | error e => cases h; exact postReply_panic hy
      | ok z =>
        obtain ⟨c, mn, log⟩ := z
        rw [res_bind_ok] at h
        dsimp only at h
        have hl : (LinkedMap.set m1.states ctx.messageId (.complete (Reply.new rng data) now)).length ≤
            m1.config.capacity + 1 := by
          unfold ReplyManager.startComplete at ho
          split at ho
          · cases ho; simp [LinkedMap.set]; omega
          · cases ho
          · cases ho; simp [LinkedMap.set, LinkedMap.pushBack]; exact hb
        rw [maybeEvict_eq hl] at h
        cases h

end ReplyManager
end Mixnet
