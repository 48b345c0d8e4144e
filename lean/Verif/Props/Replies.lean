import Verif.Props.Surbs
import Verif.Spec.Replies
/-!
# C75: no more replies than SURBs
-/
namespace Mixnet.Props
open Mixnet Spec

/-- The SURBs remembered that were made for the request. -/
def surbsFor (mid : MessageId) (m : Node) : List (SurbId × SurbValue) :=
  m.surbKeystore.surbs.filter fun e => e.2.messageId = mid

/-- Whether an outcome is a reply to the request. -/
def isReply (mid : MessageId) : Outcome → Bool
  | .message (some (.reply r)) => decide (r.requestId = mid)
  | _ => false

theorem repliesTo_cons (mid : MessageId) (out : Outcome) (outs : List Outcome) :
    repliesTo mid (out :: outs) = (if isReply mid out then 1 else 0) + repliesTo mid outs := by
  have : repliesTo mid (out :: outs) = repliesTo mid outs + if isReply mid out then 1 else 0 := List.countP_cons
  rw [this, Nat.add_comm]

theorem surbsAskedFor_cons (mid : MessageId) (call : Call) (out : Outcome) (calls : List Call) (outs : List Outcome) :
    surbsAskedFor mid (call :: calls) (out :: outs) = surbsAskedFor mid [call] [out] + surbsAskedFor mid calls outs := by
  cases call <;> try (simp only [surbsAskedFor, Nat.zero_add]; done)
  cases out <;> try (simp only [surbsAskedFor, Nat.zero_add]; done)
  rename_i r
  cases r <;> simp only [surbsAskedFor, Nat.zero_add, Nat.add_zero]

theorem lastN_sublist {α} (n : Nat) (l : List α) : (lastN n l).Sublist l := List.drop_sublist _ _

variable {C : Crypto} (hC : CryptoLaws C) {config : Config} {m m' : Node}
include hC

/-- One call. -/
theorem reply_step (hI : m.Inv C) (hk : m.config.numHops ≤ 6) (mid : MessageId) {call : Call} {out : Outcome}
    (hw : call.WellTyped) (h : m.step C call = .ok (m', out)) :
    (if isReply mid out then 1 else 0) + (surbsFor mid m').length ≤
      surbsAskedFor mid [call] [out] + (surbsFor mid m).length := by
  have same : isReply mid out = false → m'.surbKeystore.surbs.Sublist m.surbKeystore.surbs →
      (if isReply mid out then 1 else 0) + (surbsFor mid m').length ≤
        surbsAskedFor mid [call] [out] + (surbsFor mid m).length := by
    intro h1 h2
    have : (surbsFor mid m').length ≤ (surbsFor mid m).length := (h2.filter _).length_le
    rw [h1]
    simp only [Bool.false_eq_true, if_false]
    omega
  have hc := Node.step_cases hC hI hw h
  obtain ⟨evs, e1, e2, e3⟩ := surb_step hC hI hk hw h
  cases e1 with
  | @posted rng i d mid' data l n ns _ d' met s dest packets hd hp =>
    have hs : m'.surbKeystore.surbs.Sublist (m.surbKeystore.surbs ++
        (packets.flatMap (·.surbs)).map fun x => (x.id, (⟨x.keys, mid'⟩ : SurbValue))) := by
      rw [hp.after]; exact lastN_sublist _ _
    have := (hs.filter fun e => decide (e.2.messageId = mid)).length_le
    rw [List.filter_append, List.length_append] at this
    simp only [isReply, surbsAskedFor, Bool.false_eq_true, if_false]
    by_cases hm : mid' = mid
    · have h2 := List.length_filter_le (fun e : SurbId × SurbValue => decide (e.2.messageId = mid))
        ((packets.flatMap (·.surbs)).map fun x => (x.id, (⟨x.keys, mid'⟩ : SurbValue)))
      rw [List.length_map, hp.surbCount] at h2
      rw [if_pos hm]
      unfold surbsFor
      omega
    · have h2 : ((packets.flatMap (·.surbs)).map fun x => (x.id, (⟨x.keys, mid'⟩ : SurbValue))).filter
          (fun e => decide (e.2.messageId = mid)) = [] := by
        rw [List.filter_eq_nil_iff]
        intro e he
        obtain ⟨x, -, rfl⟩ := List.mem_map.1 he
        simpa using hm
      rw [h2, List.length_nil] at this
      unfold surbsFor
      omega
  | nothing h1 h2 =>
    have hsub : m'.surbKeystore.surbs.Sublist m.surbKeystore.surbs := by rw [e3]; exact List.Sublist.refl _
    refine same ?_ hsub
    cases hc with
    | handle now packet m' msg hc =>
      cases hc with
      | ignored hno => rfl
      | accepted o a rel s m' msg ha he =>
        cases he with
        | reply id v payload a o g1 g2 g3 g4 g5 => exact absurd (mem_of_entry g1) (h2 _ _ _ _ _ _ _ rfl ha)
        | request a o index => cases o <;> rfl
        | _ => rfl
    | _ => rfl
  | @used now packet rel s o id v _ msg hacc hv =>
    have hsub : m'.surbKeystore.surbs.Sublist m.surbKeystore.surbs := by rw [e3]; exact List.filter_sublist
    cases hc with
    | handle now packet m' msg hc =>
      cases hc with
      | ignored hno => exact same rfl hsub
      | accepted o a rel s m' msg ha he =>
        cases he with
        | request a o index => exact same (by cases o <;> rfl) hsub
        | reply id' v' payload a o g1 g2 g3 g4 g5 =>
          cases o with
          | none => exact same rfl hsub
          | some msg' =>
            by_cases hm : v'.messageId = mid
            · have hin : (id', v') ∈ surbsFor mid m := List.mem_filter.2 ⟨mem_of_entry g1, by simpa using hm⟩
              have hout : (surbsFor mid m).filter (fun e => decide (e.1 ≠ id')) =
                  surbsFor mid ({ m with surbKeystore := m.surbKeystore.remove id', fragmentAssembler := a } : Node) := by
                unfold surbsFor
                dsimp only
                rw [remove_eq]
                simp only [remembered, List.foldl_cons, List.foldl_nil, remember]
                rw [List.filter_filter, List.filter_filter]
                congr 1
                funext e
                exact Bool.and_comm _ _
              have hlt : ((surbsFor mid m).filter (fun e => decide (e.1 ≠ id'))).length < (surbsFor mid m).length := by
                rw [List.length_filter_lt_length_iff_exists]
                exact ⟨_, hin, by simp⟩
              rw [hout] at hlt
              have : (if isReply mid (.message (some (.reply ⟨v'.messageId, msg'.data⟩))) then 1 else 0) ≤ 1 := by
                split <;> omega
              simp only [Option.map_some]
              omega
            · refine same ?_ hsub
              simpa [isReply] using hm
        | _ => exact same rfl hsub

theorem reply_runs (hk : config.numHops ≤ 6) (mid : MessageId) {calls outs} (hr : Node.Runs C m calls outs m')
    (hw : ∀ c ∈ calls, c.WellTyped) (hI : m.Inv C) (hcfg : m.config = config) :
    repliesTo mid outs + (surbsFor mid m').length ≤ surbsAskedFor mid calls outs + (surbsFor mid m).length := by
  induction hr with
  | nil m => exact Nat.le_refl _
  | @cons m call m1 out calls outs m2 hs _ ih =>
    have h1 := Node.inv_step hC hI (hw _ List.mem_cons_self) hs
    have h2 := reply_step hC hI (by rw [hcfg]; exact hk) mid (hw _ List.mem_cons_self) hs
    have h3 := ih (fun c hc => hw c (List.mem_cons_of_mem _ hc)) h1.1 (h1.2.trans hcfg)
    rw [repliesTo_cons, surbsAskedFor_cons]
    omega

/-- **C75.** A node delivers at most as many replies to a request as SURBs were asked for when the request was posted, in
all posts with that message ID together; whatever packets arrive. Moreover, for each SURB made for it that the node
still remembers, there is one reply less. -/
theorem replies_within_surbs (hk : config.numHops ≤ 6) {m₀ : Node} (hn : Node.new C config = .ok m₀) {calls outs}
    (hw : ∀ c ∈ calls, c.WellTyped) (hr : Node.Runs C m₀ calls outs m) (mid : MessageId) :
    repliesTo mid outs + (m.surbKeystore.surbs.filter fun e => e.2.messageId = mid).length ≤
      surbsAskedFor mid calls outs := by
  obtain ⟨hI, hcfg⟩ := Node.inv_new hn
  have hnew : m₀.surbKeystore.surbs = [] := by
    unfold Node.new at hn
    simp only [res_bind_eq_ok] at hn
    obtain ⟨k, hk, hn⟩ := hn
    simp only [Except.ok.injEq] at hn
    subst hn
    unfold SurbKeystore.new at hk
    rw [res_bind_eq_ok] at hk
    obtain ⟨_, -, hk⟩ := hk
    simp only [Except.ok.injEq] at hk
    subst hk
    rfl
  have := reply_runs hC hk mid hr hw hI hcfg
  unfold surbsFor at this
  rw [hnew] at this
  simpa using this

/-! ### The hypotheses can be met -/
section Examples
omit hC
open World

/-- Alice asks for one SURB, and gets one reply. -/
example : ∃ m₀ calls outs, Node.new World.C (cfg 3) = .ok m₀ ∧ (∀ c ∈ calls, c.WellTyped) ∧
    Node.Runs World.C m₀ calls outs alice2 ∧ repliesTo World.mid outs = 1 ∧ surbsAskedFor World.mid calls outs = 1 := by
  obtain ⟨r, hr, hmid, -⟩ := backOut_eq
  obtain ⟨met, hmet⟩ := askOut_eq
  obtain ⟨m0, os, hn, ho, hruns⟩ : ∃ m0 os, Node.new World.C (cfg 3) = .ok m0 ∧
      os = ((startRes 3 setup).get alice_ok).2 ∧ Node.Runs World.C m0 setup os alice := by
    have h : startRes 3 setup = .ok (alice, ((startRes 3 setup).get alice_ok).2) := by
      have := Res.eq_get2 _ alice_ok
      unfold alice; exact this
    generalize ((startRes 3 setup).get alice_ok).2 = os at h
    unfold startRes at h
    rw [res_bind_eq_ok] at h
    obtain ⟨m0, hn, h⟩ := h
    exact ⟨m0, os, hn, rfl, runAll_runs h⟩
  have hlast : Node.Runs World.C alice [ask, back] [askOut, backOut] alice2 := .cons ask_step (.cons back_step (.nil _))
  refine ⟨m0, setup ++ [ask, back], os ++ [askOut, backOut], hn, ?_, hruns.append hlast, ?_, ?_⟩
  · intro c hc
    rcases List.mem_append.1 hc with hc | hc
    · exact setup_typed c hc
    · simp only [List.mem_cons, List.not_mem_nil, or_false] at hc
      rcases hc with rfl | rfl
      · exact ask_typed
      · exact back_typed
  · have h0 : repliesTo World.mid os = 0 := by rw [ho]; decide +kernel
    unfold repliesTo at h0 ⊢
    rw [List.countP_append, h0, hmet, hr]
    simp [hmid]
  · have h0 : ∀ xs ys, surbsAskedFor World.mid (setup ++ xs) (os ++ ys) = surbsAskedFor World.mid xs ys := by
      intro xs ys
      have hl : os.length = 2 := by rw [ho]; decide +kernel
      match os, hl with
      | [a, b], _ => simp [setup, surbsAskedFor]
    rw [h0, hmet, hr]
    simp [ask, back, surbsAskedFor]

end Examples
end Mixnet.Props
