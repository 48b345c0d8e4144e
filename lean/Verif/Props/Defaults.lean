import Verif.Props.Answers
import Verif.Props.Together
import Verif.Props.Tries
import Verif.Props.RoundTrip
import Verif.Spec.Defaults
/-!
# C68: the default configuration goes together
-/
namespace Mixnet.Props
open Mixnet Spec

/-- **C68.** The default configuration, with any keys and number of gateways, is within the documented limits, and
every message of the allowed size has room in the queues. -/
theorem default_sane (secret : Option KxSecret) (gateways : Nat) :
    Sane (defaults secret gateways) ∧ QueuesFit (defaults secret gateways) := by
  refine ⟨⟨show 6 ≤ 6 by decide, show 1 ≤ 200 by decide, ⟨?_, ?_⟩, show 1 ≤ 100000000 by decide, ?_⟩,
    show 25 ≤ 50 by decide, ?_⟩
  · show (0 : Rat) ≤ 1 / 4
    decide +kernel
  · show (1 / 4 : Rat) < 1
    decide +kernel
  · intro sc h
    cases h
    decide
  · intro sc h
    cases h
    show 25 ≤ 25
    decide

/-- **C68.** What can be sent with the default configuration: up to 225 SURBs, and up to 50625 bytes, less 222 for
every SURB. -/
theorem default_sendable (secret : Option KxSecret) (gateways len n : Nat) :
    Sendable (defaults secret gateways) len n ↔ n ≤ 225 ∧ len + 222 * n ≤ 50625 := by
  unfold Sendable
  constructor
  · rintro ⟨k, -, h2, -, h4⟩
    rw [canCarry_iff] at h4
    unfold Feasible at h4
    have : k ≤ 25 := h2
    omega
  · intro h
    refine ⟨25, by decide, Nat.le_refl _, by decide, ?_⟩
    rw [canCarry_iff]
    unfold Feasible
    omega

variable {C : Crypto} (hC : CryptoLaws C) {config : Config} {m m' : Node}

theorem queue_fits (hI : m.Inv C) (hq : QueuesFit m.config) {i : Nat} {s : Session}
    (hs : sessionAnswer m i = .ok s) :
    m.config.maxFragmentsPerMessage ≤ s.authoredPacketQueue.config.capacity ∧ m.sessionAt i = some s := by
  rw [sessionAnswer_eq] at hs
  split at hs
  · cases hs
  · rename_i rel s' h
    cases hs
    obtain ⟨h1, h2⟩ := slot_of_postSession h
    refine ⟨?_, h2⟩
    obtain ⟨sc, c1, c2, -⟩ := (hI.sessions rel s h1).config
    rw [c2]
    unfold Config.sessionConfig at c1
    split at c1
    · cases c1; exact hq.1
    · exact hq.2 sc c1

theorem queueAnswer_fits {q : AuthoredPacketQueue} {c : Config} {len n : Nat} (hs : Sendable c len n)
    (hc : c.maxFragmentsPerMessage ≤ q.config.capacity) :
    queueAnswer q len n = .ok () ∨ (queueAnswer q len n = .error .notEnoughSpaceInQueue ∧ q.queue ≠ []) := by
  obtain ⟨k, h1, h2, -, h4⟩ := hs
  unfold queueAnswer
  split
  · exact .inl rfl
  · rename_i hno
    rw [if_pos ⟨k, h1, h4, by omega⟩]
    refine .inr ⟨rfl, fun he => hno ⟨k, h1, h4, by omega, .inl ?_⟩⟩
    rw [he]; rfl

theorem sessionAnswer_not {m : Node} {i : Nat} {e : PostErr} (h : sessionAnswer m i = .error e) :
    e ≠ .tooManyFragments ∧ e ≠ .notEnoughSpaceInQueue := by
  unfold sessionAnswer at h
  split at h
  · cases h; exact ⟨by simp, by simp⟩
  · split at h
    · cases h; exact ⟨by simp, by simp⟩
    · split at h <;> cases h <;> exact ⟨by simp, by simp⟩

theorem routeAnswer_not {t : Topology} {ns : NetworkStatus} {d : Option Nat} {k : Nat} {e : PostErr}
    (h : routeAnswer t ns d k = .error e) : e ≠ .tooManyFragments ∧ e ≠ .notEnoughSpaceInQueue := by
  unfold routeAnswer at h
  split at h
  · cases h
  · split at h <;> cases h <;> exact ⟨by simp, by simp⟩

theorem firstError_not {t : Topology} {e : PostErr} : ∀ {surbs : List Surb},
    firstError (surbs.map (surbAnswer t)) = .error e → e ≠ .tooManyFragments ∧ e ≠ .notEnoughSpaceInQueue
  | [], h => by cases h
  | s :: ss, h => by
    rw [List.map_cons] at h
    unfold surbAnswer at h
    split at h
    · cases h; exact ⟨by simp, by simp⟩
    · split at h
      · cases h; exact ⟨by simp, by simp⟩
      · exact firstError_not (surbs := ss) h

theorem plain_error {α : Type} {r : Except PostErr α} {e : PostErr} : r = .error e ↔ plain r = .error e := by
  cases r <;> simp [plain]

include hC

/-- **C68.** If every message of the allowed size has room in the queues, then a request is refused for its size
exactly if it is not of the allowed size, whatever the session; and it is refused for want of space only if something
is queued in the session. -/
theorem request_room (hq : QueuesFit config) (hr : Node.Reachable C config m) (hk : config.numHops ≤ 6) {rng : Rng}
    {i : Nat} {d d' : Option MixnodeIndex} {mid : MessageId} {data : Scattered Byte} {l : Bytes} {n : Nat}
    {ns : NetworkStatus} {r : Except PostErr RequestMetrics} (hw : (Call.postRequest rng i d mid data n ns).WellTyped)
    (hd : Denotes data l) (he : DestinationExists m (.postRequest rng i d mid data n ns))
    (h : m.step C (.postRequest rng i d mid data n ns) = .ok (m', .posted d' r)) :
    (r = .error .tooManyFragments ↔ ¬ Sendable config l.length n) ∧
    (r = .error .notEnoughSpaceInQueue → ∃ s, m.sessionAt i = some s ∧ s.authoredPacketQueue.queue ≠ []) := by
  have ha := request_answer hC hr hk hw hd he h
  obtain ⟨hI, rfl⟩ := hr.inv hC
  rw [plain_error, plain_error (e := .notEnoughSpaceInQueue), ha]
  unfold requestAnswer
  rw [show (∃ k, 1 ≤ k ∧ k ≤ m.config.maxFragmentsPerMessage ∧ k ≤ 65536 ∧ CanCarry k l.length n) =
    Sendable m.config l.length n from rfl]
  by_cases hs : Sendable m.config l.length n
  · rw [if_neg (not_not_intro hs)]
    cases hsa : sessionAnswer m i with
    | error e =>
      dsimp only
      have := sessionAnswer_not hsa
      simp [this, hs]
    | ok s =>
      obtain ⟨h1, h2⟩ := queue_fits hI hq hsa
      dsimp only
      rcases queueAnswer_fits hs h1 with h3 | ⟨h3, h4⟩
      · rw [h3]
        dsimp only
        refine ⟨⟨fun hx => absurd rfl (routeAnswer_not hx).1, fun hx => absurd hs hx⟩,
          fun hx => absurd rfl (routeAnswer_not hx).2⟩
      · rw [h3]
        exact ⟨⟨fun hx => (by cases hx), fun hx => absurd hs hx⟩, fun _ => ⟨s, h2, h4⟩⟩
  · rw [if_pos hs]
    exact ⟨⟨fun _ => hs, fun _ => rfl⟩, fun hx => (by cases hx)⟩

/-- **C68** for replies: refused for its size exactly if it is not of the allowed size or needs more fragments than
there are SURBs. -/
theorem reply_room (hq : QueuesFit config) (hr : Node.Reachable C config m) {i : Nat} {surbs surbs' : List Surb}
    {mid : MessageId} {data : Scattered Byte} {l : Bytes} {r : Except PostErr Unit}
    (hw : (Call.postReply surbs i mid data).WellTyped) (hd : Denotes data l)
    (h : m.step C (.postReply surbs i mid data) = .ok (m', .replied surbs' r)) :
    (r = .error .tooManyFragments ↔ ¬ (Sendable config l.length 0 ∧ 1 ≤ surbs.length ∧ CanCarry surbs.length l.length 0)) ∧
    (r = .error .notEnoughSpaceInQueue → ∃ s, m.sessionAt i = some s ∧ s.authoredPacketQueue.queue ≠ []) := by
  have ha := reply_answer hC hr hw hd h
  obtain ⟨hI, rfl⟩ := hr.inv hC
  rw [ha]
  unfold replyAnswer
  have hiff : (∃ k, 1 ≤ k ∧ k ≤ m.config.maxFragmentsPerMessage ∧ k ≤ surbs.length ∧ k ≤ 65536 ∧ CanCarry k l.length 0) ↔
      (Sendable m.config l.length 0 ∧ 1 ≤ surbs.length ∧ CanCarry surbs.length l.length 0) := by
    constructor
    · rintro ⟨k, h1, h2, h3, h4, h5⟩
      refine ⟨⟨k, h1, h2, h4, h5⟩, by omega, ?_⟩
      rw [canCarry_iff] at h5 ⊢
      unfold Feasible at h5 ⊢
      omega
    · rintro ⟨⟨k, h1, h2, h3, h4⟩, h5, h6⟩
      rcases Nat.le_total k surbs.length with hle | hle
      · exact ⟨k, h1, h2, hle, h3, h4⟩
      · exact ⟨surbs.length, h5, by omega, Nat.le_refl _, by omega, h6⟩
  rw [hiff]
  by_cases hs : Sendable m.config l.length 0 ∧ 1 ≤ surbs.length ∧ CanCarry surbs.length l.length 0
  · rw [if_neg (not_not_intro hs)]
    cases hsa : sessionAnswer m i with
    | error e =>
      dsimp only
      have := sessionAnswer_not hsa
      simp [this, hs]
    | ok s =>
      obtain ⟨h1, h2⟩ := queue_fits hI hq hsa
      dsimp only
      rcases queueAnswer_fits hs.1 h1 with h3 | ⟨h3, h4⟩
      · rw [h3]
        dsimp only
        refine ⟨⟨fun hx => absurd rfl (firstError_not hx).1, fun hx => absurd hs hx⟩,
          fun hx => absurd rfl (firstError_not hx).2⟩
      · rw [h3]
        exact ⟨⟨fun hx => (by cases hx), fun hx => absurd hs hx⟩, fun _ => ⟨s, h2, h4⟩⟩
  · rw [if_pos hs]
    exact ⟨⟨fun _ => hs, fun _ => rfl⟩, fun hx => (by cases hx)⟩

/-- **C68.** If a request does not ask for more SURBs than the node can remember, then a reply to any of them will be
recognised: all are remembered once it is posted. If it asks for more, only its last ones are, and those of
earlier requests are forgotten. -/
theorem surbs_known (hr : Node.Reachable C config m) (hk : config.numHops ≤ 6) {rng : Rng} {i : Nat}
    {d d' : Option MixnodeIndex} {mid : MessageId} {data : Scattered Byte} {l : Bytes} {n : Nat} {ns : NetworkStatus}
    {met : RequestMetrics} (hw : (Call.postRequest rng i d mid data n ns).WellTyped) (hd : Denotes data l)
    (h : m.step C (.postRequest rng i d mid data n ns) = .ok (m', .posted d' (.ok met))) :
    ∃ s dest packets, PostedRequest C m i d mid l n ns m' d' met s dest packets ∧
      let entries := (packets.flatMap (·.surbs)).map fun x => (x.id, (⟨x.keys, mid⟩ : SurbValue))
      (n ≤ config.surbKeystoreCapacity → ∀ e ∈ entries, e ∈ m'.surbKeystore.surbs) ∧
      (config.surbKeystoreCapacity ≤ n → m'.surbKeystore.surbs = lastN config.surbKeystoreCapacity entries) := by
  obtain ⟨s, dest, packets, hp, -⟩ := request_posted hC hr hk hw hd h
  obtain ⟨hI, rfl⟩ := hr.inv hC
  refine ⟨s, dest, packets, hp, ?_⟩
  have hc := hp.surbCount
  have hafter : m'.surbKeystore.surbs = _ := congrArg (fun m : Node => m.surbKeystore.surbs) hp.after
  dsimp only at hafter ⊢
  rw [hafter, hI.keystoreCapacity]
  generalize hE : ((packets.flatMap (·.surbs)).map fun x => (x.id, (⟨x.keys, mid⟩ : SurbValue))) = E
  have hlen : E.length = n := by rw [← hE, List.length_map, hc]
  unfold lastN
  constructor
  · intro hle e he
    rw [List.length_append, List.drop_append_of_le_length (by omega)]
    exact List.mem_append_right _ he
  · intro hle
    rw [List.length_append, List.drop_append, List.drop_of_length_le (by omega), List.nil_append]
    congr 1
    omega

variable {R Ctx : Type} {T : RequestTrait R Ctx} {now : Nat} {calls : List (ManagerCall R)}
  {outs : List (ManagerOutcome R)} {log : List (LogEntry R)} {rm : RequestManager R}

/-- **C68.** A request manager and a node with the default configurations, used together, do not panic (but for a
repeated SURB ID, as in C57). -/
theorem default_no_panic {secret : Option KxSecret} {gateways : Nat}
    (hT : ∀ r ctx, (T.data r ctx).len = (T.data r ctx).toVec.length)
    (h : InUse C T (defaults secret gateways) RequestManagerConfig.default rm m)
    (env : Env) {ns : NetworkStatus} (hns : ns.localPeerId.length = PEER_ID_SIZE) (ctx : Ctx) (call : ManagerCall R)
    (hsp : ∀ r, call = .insert r → rm.hasSpace = true) :
    (∃ rm' m' log out, rm.step C T m env ns ctx call = .ok (rm', m', log, out)) ∨
    (rm.step C T m env ns ctx call = .error surbIdRepeated ∧ ∃ m' k, PostsFrom C m m' ∧ IdRepeats m' (env k).rng) :=
  manager_no_panic hC (default_sane secret gateways).1 hT (show 1 ≤ 2 by decide) (show 1 ≤ 2 by decide) h env hns ctx call hsp

omit hC in
/-- **C68.** With the default configuration of the request manager, a request inserted once is posted at most 12 times,
and exactly 12 times if it is given up for having reached the retry limit; and with at most 3 message ids, plus one for
each change of the session status. -/
theorem default_posts [DecidableEq R] {k : Nat}
    (h : RunsChanging C T (.new RequestManagerConfig.default now) calls outs log k rm) {r : R}
    (h1 : (inserted calls).count r = 1) :
    (posted log).count r ≤ 12 ∧ (r ∈ exhausted log → (posted log).count r = 12) ∧
    ∀ ids : List MessageId, ids.Nodup → (∀ id ∈ ids, TriedWith r id log) → ids.length ≤ 3 + k := by
  have hr : Reached C T RequestManagerConfig.default now calls outs log rm := runs_changing h
  refine ⟨?_, fun he => exhausted_exactly hr r h1 he, fun ids hn ht => ?_⟩
  · have := posts_bounded hr r
    rw [h1] at this
    exact this
  · have := tries_bounded h hn ht
    rw [h1, Nat.mul_one] at this
    exact this

/-! ### Concrete cases -/
section Examples
omit hC
open World

/-- The nodes of `World` have such a configuration. -/
theorem world_queuesFit : QueuesFit (World.cfg 3) := by
  refine ⟨show 25 ≤ 50 by decide, fun sc h => ?_⟩
  cases h
  show 25 ≤ 25
  decide

/-- Alice's request fits; 50626 bytes never do, in any session. -/
example : Sendable (World.cfg 3) 3 1 ∧ ¬ Sendable (World.cfg 3) 50626 0 :=
  ⟨(default_sendable none 3 3 1).2 (by decide), fun h => absurd ((default_sendable none 3 50626 0).1 h) (by decide)⟩

/-- The hypotheses of `request_room` and `surbs_known` are met by Alice's request, which asks for one SURB. -/
example : (∃ met s dest, ∃ packets : List (NewPacket World.C),
    PostedRequest World.C alice 0 (some 1) World.mid [1, 2, 3] 1 (ns 3) alice1 (some 1) met s dest packets ∧
    ∀ e ∈ (packets.flatMap (·.surbs)).map fun x => (x.id, (⟨x.keys, World.mid⟩ : SurbValue)), e ∈ alice1.surbKeystore.surbs) ∧
    ∃ met, ((.ok met : Except PostErr RequestMetrics) = .error .tooManyFragments ↔ ¬ Sendable (World.cfg 3) [1, 2, 3].length 1) := by
  obtain ⟨met, hmet⟩ := askOut_eq
  have h := ask_step
  rw [hmet] at h
  constructor
  · obtain ⟨s, dest, packets, h1, h2, -⟩ := surbs_known toyLaws alice_reachable (by decide) ask_typed (Denotes.ofSlice _) h
    exact ⟨met, s, dest, packets, h1, h2 (by decide)⟩
  · exact ⟨met, (request_room toyLaws world_queuesFit alice_reachable (by decide) ask_typed (Denotes.ofSlice _)
      (by
        intro s hs
        have h : (match alice.sessionAt 0 with
          | some s => decide (1 < s.topology.mixnodes.length)
          | none => true) = true := by decide +kernel
        rw [hs] at h
        exact of_decide_eq_true h) h).1⟩

/-- A request may ask for more SURBs than the node remembers with the default configuration. -/
example : Sendable Config.default 0 225 ∧ Config.default.surbKeystoreCapacity = 200 :=
  ⟨(default_sendable none 3 0 225).2 (by decide), rfl⟩

end Examples
end Mixnet.Props
