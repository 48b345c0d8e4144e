import Verif.Props.Whole
/-!
# The hypotheses of C73 and C74 can be met

Alice posts a request to Bob; it is relayed by Carol; Bob replies; the reply is relayed by Carol and reaches Alice.
-/
namespace Mixnet.World
open Mixnet.Spec Mixnet.Props

def quiet (j : Nat) (call : Call) (out : Outcome) : Event C := ⟨j, call, out, []⟩

abbrev Hist (es : List (Event C)) (nodes : Nat → Node) : Prop := History C layout configs es nodes

variable {es : List (Event C)} {a b c rest n : Node} {call : Call} {out : Outcome}

/-- The call is not a request, or it was refused. -/
def notPosted : Call → Bool
  | .postRequest .. => false
  | _ => true

theorem records_quiet {j : Nat} {m m' : Node} (h : notPosted call = true) : (quiet j call out).Records m m' := by
  cases call <;> first | rfl | cases h

theorem by_alice (h : Hist es (put a b c rest)) (hs : a.step C call = .ok (n, out)) (hw : call.WellTyped)
    (hal : Allowed es 0 call) (hn : notPosted call = true) (hg : agreesB (sec 3) n = true) :
    Hist (es ++ [quiet 0 call out]) (put n b c rest) := by
  have := History.step (quiet 0 call out) h hw hal hs (records_quiet hn) (agrees_of rfl hg)
  rw [show (quiet 0 call out).machine = 0 from rfl, put_alice] at this
  exact this

theorem by_bob (h : Hist es (put a b c rest)) (hs : b.step C call = .ok (n, out)) (hw : call.WellTyped)
    (hal : Allowed es 1 call) (hn : notPosted call = true) (hg : agreesB (sec 5) n = true) :
    Hist (es ++ [quiet 1 call out]) (put a n c rest) := by
  have := History.step (quiet 1 call out) h hw hal hs (records_quiet hn) (agrees_of rfl hg)
  rw [show (quiet 1 call out).machine = 1 from rfl, put_bob] at this
  exact this

theorem by_carol (h : Hist es (put a b c rest)) (hs : c.step C call = .ok (n, out)) (hw : call.WellTyped)
    (hal : Allowed es 2 call) (hn : notPosted call = true) (hg : agreesB (sec 7) n = true) :
    Hist (es ++ [quiet 2 call out]) (put a b n rest) := by
  have := History.step (quiet 2 call out) h hw hal hs (records_quiet hn) (agrees_of rfl hg)
  rw [show (quiet 2 call out).machine = 2 from rfl, put_carol] at this
  exact this

theorem status0_typed : status0.WellTyped := setup_typed _ (by simp [setup, status0])
theorem mixes0_typed : mixes0.WellTyped := setup_typed _ (by simp [setup, mixes0])

/-- Everything that happens. -/
def story (x y z : Bool) (met : RequestMetrics) (packets : List (NewPacket C)) (r : RequestMessage) (left : List Surb)
    (r' : ReplyMessage) : List (Event C) :=
  [quiet 0 status0 .unit, quiet 0 mixes0 (.consulted x), quiet 1 status0 .unit, quiet 1 mixes0 (.consulted y),
   quiet 2 status0 .unit, quiet 2 mixes0 (.consulted z),
   ⟨0, ask, .posted (some 1) (.ok met), packets⟩,
   quiet 0 send (.authoredPacket (some packet0)),
   quiet 2 relay (.message none),
   quiet 2 popF (.forwardPacket (some packet1.packet)),
   quiet 1 arrive (.message (some (.request r))),
   quiet 1 answer (.replied left (.ok ())),
   quiet 1 sendBob (.authoredPacket (some packet2)),
   quiet 2 relay2 (.message none),
   quiet 2 popF (.forwardPacket (some packet3.packet)),
   quiet 0 back (.message (some (.reply r')))]

theorem story_happens : ∃ x y z met packets r left r' s dest nodes, Hist (story x y z met packets r left r') nodes ∧
    PostedRequest C alice 0 (some 1) mid [1, 2, 3] 1 (ns 3) alice1 (some 1) met s dest packets ∧
    r.id = mid ∧ r.data = [1, 2, 3] ∧ r'.requestId = mid ∧ r'.data = [7, 8] := by
  obtain ⟨na, sa, x, ma⟩ := set_up (Res.eq_get2 _ alice_ok)
  obtain ⟨nb, sb, y, mb⟩ := set_up (Res.eq_get2 _ bob_ok)
  obtain ⟨nc, sc, z, mc⟩ := set_up (Res.eq_get2 _ carol_ok)
  rw [← show alice = ((startRes 3 setup).get alice_ok).1 by unfold alice; rfl] at ma
  rw [← show bob = ((startRes 5 setup).get bob_ok).1 by unfold bob; rfl] at mb
  rw [← show carol = ((startRes 7 setup).get carol_ok).1 by unfold carol; rfl] at mc
  have hall := all_agree
  simp only [List.all_cons, List.all_nil, Bool.and_true, Bool.and_eq_true] at hall
  obtain ⟨⟨⟨a1, a2, a3, a4, a5⟩, b1, b2, b3, b4, b5⟩, c1, c2, c3, c4, c5, c6⟩ := hall
  obtain ⟨met, hask⟩ := askOut_eq
  have hpost := ask_step
  rw [hask] at hpost
  obtain ⟨s, dest, packets, hp, -⟩ := request_posted toyLaws alice_reachable (by decide) ask_typed
    (Denotes.ofSlice _) hpost
  obtain ⟨r, harr, r1, r2, r3, r4⟩ := arriveOut_eq
  obtain ⟨left, hans⟩ := answerOut_eq
  obtain ⟨r', hhome, hr'⟩ := home_step
  have hsend := send_step
  rw [sendOut_eq] at hsend
  have hrelay := relay_step
  rw [relayOut_eq] at hrelay
  have harrive := arrive_step
  rw [harr] at harrive
  have hanswer := answer_step
  rw [hans] at hanswer
  have hsurbs : surbs = r.surbs := by unfold surbs; rw [harr]
  have h0 : Hist [] (put (new 3) (new 5) (new 7) (new 7)) := .start fun j => by
    unfold configs put
    split
    · exact na
    · split
      · exact nb
      · split <;> exact nc
  have h1 := by_alice h0 sa status0_typed trivial rfl a1
  have h2 := by_alice h1 ma mixes0_typed trivial rfl a2
  have h3 := by_bob h2 sb status0_typed trivial rfl b1
  have h4 := by_bob h3 mb mixes0_typed trivial rfl b2
  have h5 := by_carol h4 sc status0_typed trivial rfl c1
  have h6 := by_carol h5 mc mixes0_typed trivial rfl c2
  have h7 := History.step ⟨0, ask, .posted (some 1) (.ok met), packets⟩ h6 ask_typed trivial hpost ⟨s, dest, hp⟩
    (agrees_of rfl a3)
  dsimp only at h7
  rw [put_alice] at h7
  have h8 := by_alice h7 hsend send_typed trivial rfl a4
  have h9 := by_carol h8 hrelay relay_typed (by simp [relay, Allowed, sentPackets, quiet]) rfl c3
  have h10 := by_carol h9 popF_step trivial trivial rfl c4
  have h11 := by_bob h10 harrive arrive_typed (by simp [arrive, Allowed, sentPackets, quiet]) rfl b3
  have h12 := by_bob h11 hanswer answer_typed
    (by rw [answer, hsurbs]; simp [Allowed, deliveredSurbs, quiet]) rfl b4
  have h13 := by_bob h12 sendBob_step rfl trivial rfl b5
  have h14 := by_carol h13 relay3_step relay2_typed (by simp [relay2, Allowed, sentPackets, quiet]) rfl c5
  have h15 := by_carol h14 popF3_step trivial trivial rfl c6
  have h16 := by_alice h15 hhome back_typed (by simp [back, Allowed, sentPackets, quiet]) rfl a5
  exact ⟨x, y, z, met, packets, r, left, r', s, dest, _, h16, hp, r2, r3, hr'⟩

/-- What is needed to know of a story with one request and one reply. -/
theorem story_ids {x y z met packets r left r'} : IdsMean (story x y z met packets r left r') := by
  have hreq : ∀ e ∈ story x y z met packets r left r', ∀ i d id l n, e.request = some (i, d, id, l, n) →
      id = mid ∧ l = [1, 2, 3] ∧ n = 1 := by
    intro e he i d id l n h
    simp only [story, List.mem_cons, List.not_mem_nil, or_false] at he
    rcases he with rfl | rfl | rfl | rfl | rfl | rfl | rfl | rfl | rfl | rfl | rfl | rfl | rfl | rfl | rfl | rfl <;>
      first
      | cases h; done
      | (simp only [Event.request, ask, Option.some.injEq, Prod.mk.injEq] at h
         obtain ⟨-, -, rfl, rfl, rfl⟩ := h
         exact ⟨rfl, rfl, rfl⟩)
  have hrep : ∀ e ∈ story x y z met packets r left r', ∀ sb id l, e.reply = some (sb, id, l) →
      id = List.replicate 16 9 ∧ l = [7, 8] := by
    intro e he sb id l h
    simp only [story, List.mem_cons, List.not_mem_nil, or_false] at he
    rcases he with rfl | rfl | rfl | rfl | rfl | rfl | rfl | rfl | rfl | rfl | rfl | rfl | rfl | rfl | rfl | rfl <;>
      first
      | cases h; done
      | (simp only [Event.reply, quiet, answer, Option.some.injEq, Prod.mk.injEq] at h
         obtain ⟨-, rfl, rfl⟩ := h
         exact ⟨rfl, rfl⟩)
  refine ⟨?_, ?_, ?_⟩
  · intro e he e' he' i d i' d' id l l' n n' h h'
    obtain ⟨-, rfl, rfl⟩ := hreq e he _ _ _ _ _ h
    obtain ⟨-, rfl, rfl⟩ := hreq e' he' _ _ _ _ _ h'
    exact ⟨rfl, rfl⟩
  · intro e he e' he' sb sb' id l l' h h'
    obtain ⟨-, rfl⟩ := hrep e he _ _ _ h
    obtain ⟨-, rfl⟩ := hrep e' he' _ _ _ h'
    rfl
  · intro e he e' he' i d id l n sb l' h h'
    obtain ⟨rfl, -⟩ := hreq e he _ _ _ _ _ h
    obtain ⟨h2, -⟩ := hrep e' he' _ _ _ h'
    revert h2
    decide

theorem story_surbs {x y z met packets r left r' s dest}
    (hp : PostedRequest C alice 0 (some 1) mid [1, 2, 3] 1 (ns 3) alice1 (some 1) met s dest packets) :
    SurbsDiffer (story x y z met packets r left r') := by
  have hall : ∀ e ∈ story x y z met packets r left r', ∀ x ∈ e.surbs,
      e = ⟨0, ask, .posted (some 1) (.ok met), packets⟩ ∧ x ∈ packets.flatMap (·.surbs) := by
    intro e he x hx
    simp only [story, List.mem_cons, List.not_mem_nil, or_false] at he
    rcases he with rfl | rfl | rfl | rfl | rfl | rfl | rfl | rfl | rfl | rfl | rfl | rfl | rfl | rfl | rfl | rfl <;>
      first
      | cases hx; done
      | exact ⟨rfl, hx⟩
  obtain ⟨y, hy⟩ := List.length_eq_one_iff.1 hp.surbCount
  intro e he e' he' x hx x' hx' _ _
  obtain ⟨rfl, h1⟩ := hall e he x hx
  obtain ⟨rfl, h2⟩ := hall e' he' x' hx'
  rw [hy] at h1 h2
  rw [List.mem_singleton.1 h1, List.mem_singleton.1 h2]
  exact ⟨rfl, rfl⟩

theorem story_opened {x y z met packets r left r'} : OpenedByOne layout (story x y z met packets r left r') := by
  intro p hp
  have : p ∈ [packet0.packet, packet1.packet.packet, packet2.packet, packet3.packet.packet] := by
    simpa [story, sentPackets, quiet] using hp
  have key : ∃ j, ∀ j1 i, Opens C (layout.key j1 i) p → j1 = j ∧ i = 0 := by
    simp only [List.mem_cons, List.not_mem_nil, or_false] at this
    rcases this with rfl | rfl | rfl | rfl
    · exact ⟨2, opened_by_one open0⟩
    · exact ⟨1, opened_by_one open1⟩
    · exact ⟨2, opened_by_one open2⟩
    · exact ⟨0, opened_by_one open3⟩
  obtain ⟨j0, key⟩ := key
  intro j i j' i' h h'
  obtain ⟨rfl, rfl⟩ := key _ _ h
  obtain ⟨rfl, rfl⟩ := key _ _ h'
  exact ⟨rfl, rfl⟩

theorem story_advances {x y z met packets r left r'} : SessionsAdvance (story x y z met packets r left r') := by
  have hall : ∀ e ∈ story x y z met packets r left r', ∀ st, e.call = .setSessionStatus st → st.currentIndex = 0 := by
    intro e he st h
    simp only [story, List.mem_cons, List.not_mem_nil, or_false] at he
    rcases he with rfl | rfl | rfl | rfl | rfl | rfl | rfl | rfl | rfl | rfl | rfl | rfl | rfl | rfl | rfl | rfl <;>
      first
      | cases h; rfl
      | cases h
  intro a e b h st hst e' he' _ st' hst'
  rw [hall e' (by rw [h]; exact List.mem_append_left _ he') st' hst']
  exact Nat.zero_le _

/-- All the hypotheses of C73 and C74 are met by a history in which a request and its reply are delivered; and what
the theorems say of it. -/
example : ∃ (es : List (Event C)) (nodes : Nat → Node), History C layout configs es nodes ∧ IdsMean es ∧ SurbsDiffer es ∧
    OpenedByOne layout es ∧ SessionsAdvance es ∧ (∀ j, (configs j).numHops ≤ 6) ∧
    timesDelivered es 1 mid = 1 ∧ timesPosted layout es 1 mid = 1 ∧
    (∃ a e b r, es = a ++ e :: b ∧ e.out = .message (some (.request r)) ∧ RequestCaused layout a 1 r) ∧
    ∃ a e b r, es = a ++ e :: b ∧ e.out = .message (some (.reply r)) ∧ ReplyCaused layout a 0 r := by
  obtain ⟨x, y, z, met, packets, r, left, r', s, dest, nodes, h, hp, h1, h2, h3, h4⟩ := story_happens
  have hk : ∀ j, (configs j).numHops ≤ 6 := by
    intro j
    unfold configs
    split
    · decide
    · split <;> decide
  refine ⟨_, nodes, h, story_ids, story_surbs hp, story_opened, story_advances, hk, ?_, ?_,
    ⟨(story x y z met packets r left r').take 10, quiet 1 arrive (.message (some (.request r))), _, r, rfl, rfl,
      requests_have_cause (e := quiet 1 arrive (.message (some (.request r)))) toyLaws hk h story_ids (story_surbs hp) story_opened
        rfl rfl⟩,
    ⟨(story x y z met packets r left r').take 15, quiet 0 back (.message (some (.reply r'))), _, r', rfl, rfl,
      replies_have_cause (e := quiet 0 back (.message (some (.reply r')))) toyLaws hk h story_ids (story_surbs hp) story_opened
        rfl rfl⟩⟩
  · simp [timesDelivered, story, quiet, h1]
  · simp [timesPosted, story, quiet, Event.request, ask, status0, mixes0, send, relay, popF, arrive, answer, sendBob, relay2, back, layout]

end Mixnet.World
