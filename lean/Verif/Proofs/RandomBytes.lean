import Verif.Proofs.Wire
/-!
# The bytes of packets and SURBs, and the random numbers they are made of
-/
namespace Mixnet
open Spec Props

variable {C : Crypto}

theorem taken_skip (rng : Rng) (a n : Nat) : taken (skip rng a) n = bytesAt rng a n := fillBytes_skip rng a n

theorem rest_skip (rng : Rng) (a n : Nat) : ((skip rng a).fillBytes n).2 = skip rng (a + n) := skip_skip rng a n

/-- All routes of the generator are good. -/
def GoodRoutes (b : RequestBuilder) (numHops : Nat) : Prop :=
  ∀ kind, kind = .toMixnode b.destinationIndex ∨ kind = .fromMixnode b.destinationIndex → ∀ rng rng' route,
    b.routeGenerator.genRoute rng kind numHops = .ok (.ok (route, rng')) → GoodPath route.targets route.kxPublics

theorem surb_draws (hC : CryptoLaws C) {b : RequestBuilder} {numHops : Nat} (hg : GoodRoutes b numHops) {i : SurbInfo C}
    {rng : Rng} {a : Nat} (hl : i.old.length = SURB_SIZE) (h : i.Drawn b numHops (skip rng a)) :
    ∃ e, SurbDraws b.routeGenerator b.destinationIndex numHops rng a
      (⟨i.id, i.surb, i.keys, i.route, i.delay⟩ : NewSurb C) e ∧ i.stop = skip rng e := by
  obtain ⟨hid, r2, hr, hb⟩ := h
  obtain ⟨k1, t1⟩ := RouteGenerator.genRoute_takes hr
  obtain ⟨u1, hr2⟩ := t1.uses (rng := rng) (a := a + 16) (skip_skip _ _ _)
  subst hr2
  have hidl : i.id.length = SURB_ID_SIZE := by rw [hid]; exact fillBytes_length _ _
  rw [buildSurb_bytes hC hl _ _ (hg _ (.inr rfl) _ _ _ hr) hidl] at hb
  simp only [rest_skip, taken_skip, Except.ok.injEq, Prod.mk.injEq] at hb
  obtain ⟨e1, e2, e3, e4⟩ := hb
  refine ⟨_, ⟨a + 16 + k1, rfl, ?_, u1, e1.symm, e2.symm, e3.symm⟩, e4.symm⟩
  rw [hid]; exact fillBytes_skip _ _ _

theorem surbChain_draws (hC : CryptoLaws C) {b : RequestBuilder} {numHops : Nat} (hg : GoodRoutes b numHops) {rng : Rng} :
    ∀ {is : List (SurbInfo C)} {a : Nat} {r' : Rng}, (∀ i ∈ is, i.old.length = SURB_SIZE) →
      SurbChain b numHops (skip rng a) is r' →
      ∃ e, Chain (SurbDraws b.routeGenerator b.destinationIndex numHops rng) a
        (is.map fun i => (⟨i.id, i.surb, i.keys, i.route, i.delay⟩ : NewSurb C)) e ∧ r' = skip rng e
  | [], a, r', _, h => ⟨a, rfl, h.symm⟩
  | i :: is, a, r', hl, h => by
    obtain ⟨h1, h2⟩ := h
    obtain ⟨e, d, hs⟩ := surb_draws hC hg (hl i List.mem_cons_self) h1
    rw [hs] at h2
    obtain ⟨e', c, hr⟩ := surbChain_draws hC hg (fun i hi => hl i (List.mem_cons_of_mem _ hi)) h2
    exact ⟨e', ⟨e, d, c⟩, hr⟩

theorem packet_draws (hC : CryptoLaws C) {b : RequestBuilder} {numHops : Nat} (hg : GoodRoutes b numHops)
    {i : PacketInfo C} {rng : Rng} {a : Nat} (hl : ∀ s ∈ i.surbs, s.old.length = SURB_SIZE)
    (hpl : (splice zeroPacket HEADER_SIZE i.fragment).length = PACKET_SIZE)
    (hp : payloadData (splice zeroPacket HEADER_SIZE i.fragment) = i.fragment) (h : i.Drawn b numHops (skip rng a)) :
    ∃ e, PacketDraws b.routeGenerator b.destinationIndex numHops rng a
      (⟨i.packet, i.fragment, i.surbs.map fun i => ⟨i.id, i.surb, i.keys, i.route, i.delay⟩, i.route, i.delay⟩ : NewPacket C) e ∧
      i.stop = skip rng e := by
  obtain ⟨r1, r2, hr, hs, hc⟩ := h
  obtain ⟨k1, t1⟩ := RouteGenerator.genRoute_takes hr
  obtain ⟨u1, hr1⟩ := t1.uses (rng := rng) (a := a) rfl
  rw [hr1] at hs
  obtain ⟨e, ch, hr2⟩ := surbChain_draws hC hg hl hs
  subst hr2
  rw [completeRequestPacket_bytes hC hpl _ (hg _ (.inl rfl) _ _ _ hr)] at hc
  simp only [rest_skip, taken_skip, Except.ok.injEq, Prod.mk.injEq, hp] at hc
  obtain ⟨e1, e2, e3⟩ := hc
  exact ⟨_, ⟨a + k1, e, rfl, u1, ch, e1.symm, e2.symm⟩, e3.symm⟩

theorem packetChain_draws (hC : CryptoLaws C) {b : RequestBuilder} {numHops : Nat} (hg : GoodRoutes b numHops) {rng : Rng} :
    ∀ {is : List (PacketInfo C)} {a : Nat} {r' : Rng}, (∀ i ∈ is, ∀ s ∈ i.surbs, s.old.length = SURB_SIZE) →
      (∀ i ∈ is, (splice zeroPacket HEADER_SIZE i.fragment).length = PACKET_SIZE) →
      (∀ i ∈ is, payloadData (splice zeroPacket HEADER_SIZE i.fragment) = i.fragment) →
      PacketChain b numHops (skip rng a) is r' →
      ∃ e, Chain (PacketDraws b.routeGenerator b.destinationIndex numHops rng) a
        (is.map fun i => (⟨i.packet, i.fragment, i.surbs.map fun i => ⟨i.id, i.surb, i.keys, i.route, i.delay⟩,
          i.route, i.delay⟩ : NewPacket C)) e
  | [], a, r', _, _, _, h => ⟨a, rfl⟩
  | i :: is, a, r', hl, hpl, hp, h => by
    obtain ⟨h1, h2⟩ := h
    obtain ⟨e, d, hs⟩ := packet_draws hC hg (hl i List.mem_cons_self) (hpl i List.mem_cons_self) (hp i List.mem_cons_self) h1
    rw [hs] at h2
    obtain ⟨e', c⟩ := packetChain_draws hC hg (fun i hi => hl i (List.mem_cons_of_mem _ hi))
      (fun i hi => hpl i (List.mem_cons_of_mem _ hi)) (fun i hi => hp i (List.mem_cons_of_mem _ hi)) h2
    exact ⟨e', ⟨e, d, c⟩⟩

end Mixnet
