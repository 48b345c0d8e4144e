import Verif.Spec.Draws
/-!
# Composing uniform choices
-/
namespace Mixnet.Spec

theorem Possible.length : ∀ {ms ds : List Nat}, Possible ms ds → ds.length = ms.length
  | [], [], _ => rfl
  | _ :: _, _ :: _, h => by simp [Possible.length h.2]
  | [], _ :: _, h => h.elim
  | _ :: _, [], h => h.elim

theorem possible_draws : ∀ {ms : List Nat} (rng : Rng), (∀ m ∈ ms, 0 < m) → Possible ms (draws rng ms)
  | [], _, _ => trivial
  | m :: ms, rng, h => ⟨Nat.mod_lt _ (h m (by simp)), possible_draws _ fun x hx => h x (by simp [hx])⟩

/-- Every possible sequence of draws is draws by some stream. -/
theorem draws_surj : ∀ {ms ds : List Nat}, Possible ms ds → ∃ rng : Rng, draws rng ms = ds
  | [], [], _ => ⟨fun _ => 0, rfl⟩
  | m :: ms, d :: ds, h => by
    obtain ⟨rng, hr⟩ := draws_surj h.2
    refine ⟨fun n => match n with | 0 => d | n + 1 => rng n, ?_⟩
    simp only [draws, Nat.mod_eq_of_lt h.1]
    exact congrArg _ hr
  | [], _ :: _, h => h.elim
  | _ :: _, [], h => h.elim

theorem draws_append : ∀ (a b : List Nat) (rng : Rng),
    draws rng (a ++ b) = draws rng a ++ draws (fun n => rng (n + a.length)) b
  | [], _, _ => rfl
  | m :: a, b, rng => by
    simp only [List.cons_append, draws, draws_append a b, List.length_cons]
    congr 3

theorem draws_length (rng : Rng) : ∀ (ms : List Nat), (draws rng ms).length = ms.length := by
  intro ms
  induction ms generalizing rng with
  | nil => rfl
  | cons m ms ih => simp [draws, ih]

theorem possible_append : ∀ {a b ds : List Nat}, Possible (a ++ b) ds ↔
    Possible a (ds.take a.length) ∧ Possible b (ds.drop a.length)
  | [], b, ds => by simp [Possible]
  | m :: a, b, [] => by simp [Possible]
  | m :: a, b, d :: ds => by
    simp only [List.cons_append, Possible, List.length_cons, List.take_succ_cons, List.drop_succ_cons,
      possible_append (a := a), and_assoc]

namespace EquallyLikely

/-- No choice at all. -/
theorem pure {α : Type} (a : α) : EquallyLikely [] (fun _ => a) (· = a) := by
  refine ⟨by simp, fun _ _ => rfl, ?_⟩
  rintro _ rfl
  refine ⟨[], ⟨trivial, rfl⟩, ?_⟩
  rintro ds ⟨h, -⟩
  exact List.eq_nil_of_length_eq_zero h.length

/-- One draw. -/
theorem one {α : Type} {m : Nat} {f : Nat → α} {P : α → Prop} (hm : 0 < m) (h1 : ∀ d < m, P (f d))
    (h2 : ∀ a, P a → ∃ d, (d < m ∧ f d = a) ∧ ∀ d', d' < m ∧ f d' = a → d' = d) :
    EquallyLikely [m] (fun ds => f (ds.headD 0)) P := by
  refine ⟨by simpa using hm, ?_, ?_⟩
  · rintro ds h
    match ds, h with
    | [d], h => exact h1 d h.1
  · intro a ha
    obtain ⟨d, ⟨hd, he⟩, hu⟩ := h2 a ha
    refine ⟨[d], ⟨⟨hd, trivial⟩, he⟩, ?_⟩
    rintro ds ⟨h, he'⟩
    match ds, h with
    | [d'], h => rw [hu d' ⟨h.1, he'⟩]

/-- One choice after another. -/
theorem bind {α β : Type} {ms ms' : List Nat} {F : List Nat → α} {P : α → Prop}
    {G : α → List Nat → β} {Q : α → β → Prop} (h : EquallyLikely ms F P)
    (hne : ∀ m ∈ ms', 0 < m)
    (h' : ∀ a, P a → EquallyLikely ms' (G a) (Q a)) :
    EquallyLikely (ms ++ ms') (fun ds => (F (ds.take ms.length), G (F (ds.take ms.length)) (ds.drop ms.length)))
      (fun x => P x.1 ∧ Q x.1 x.2) := by
  obtain ⟨p1, p2, p3⟩ := h
  refine ⟨fun m hm => ?_, ?_, ?_⟩
  · rcases List.mem_append.mp hm with hm | hm
    · exact p1 m hm
    · exact hne m hm
  · intro ds hds
    obtain ⟨q1, q2⟩ := possible_append.mp hds
    exact ⟨p2 _ q1, (h' _ (p2 _ q1)).2.1 _ q2⟩
  · rintro ⟨a, b⟩ ⟨ha, hb⟩
    dsimp only at ha hb
    obtain ⟨ds, ⟨r1, r2⟩, r3⟩ := p3 a ha
    obtain ⟨ds', ⟨s1, s2⟩, s3⟩ := (h' a ha).2.2 b hb
    have hl := r1.length
    refine ⟨ds ++ ds', ⟨possible_append.mpr ?_, ?_⟩, ?_⟩
    · rw [← hl, List.take_left, List.drop_left]; exact ⟨r1, s1⟩
    · dsimp only; rw [← hl, List.take_left, List.drop_left, r2, s2]
    · rintro es ⟨e1, e2⟩
      obtain ⟨q1, q2⟩ := possible_append.mp e1
      simp only [Prod.mk.injEq] at e2
      obtain ⟨e2, e3⟩ := e2
      have t1 := r3 _ ⟨q1, e2⟩
      rw [e2] at e3
      have t2 := s3 _ ⟨q2, e3⟩
      rw [← t1, ← t2, List.take_append_drop]

/-- Renaming the outcomes. -/
theorem map {α β : Type} {ms : List Nat} {F : List Nat → α} {P : α → Prop} {Q : β → Prop} (e : α → β)
    (h : EquallyLikely ms F P) (hq : ∀ b, Q b ↔ ∃ a, P a ∧ e a = b)
    (hinj : ∀ a a', P a → P a' → e a = e a' → a = a') :
    EquallyLikely ms (fun ds => e (F ds)) Q := by
  obtain ⟨p1, p2, p3⟩ := h
  refine ⟨p1, fun ds hds => (hq _).mpr ⟨_, p2 ds hds, rfl⟩, fun b hb => ?_⟩
  obtain ⟨a, ha, rfl⟩ := (hq b).mp hb
  obtain ⟨ds, ⟨r1, r2⟩, r3⟩ := p3 a ha
  refine ⟨ds, ⟨r1, congrArg e r2⟩, ?_⟩
  rintro es ⟨e1, e2⟩
  exact r3 es ⟨e1, hinj _ _ (p2 es e1) ha e2⟩

end EquallyLikely
end Mixnet.Spec
