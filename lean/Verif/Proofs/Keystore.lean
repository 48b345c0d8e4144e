import Verif.Model.SurbKeystore
import Verif.Proofs.Fragment
import Verif.Proofs.Route
/-!
# The SURB keystore
-/
namespace Mixnet

theorem res_bind_eq_ok {α β} {x : Res α} {f : α → Res β} {b : β} :
    (x >>= f) = .ok b ↔ ∃ a, x = .ok a ∧ f a = .ok b := by
  cases x with
  | error e =>
    constructor
    · intro h; cases h
    · rintro ⟨a, h, -⟩; cases h
  | ok a =>
    rw [res_bind_ok]
    constructor
    · intro h; exact ⟨a, rfl, h⟩
    · rintro ⟨a', h, h'⟩; cases h; exact h'

namespace SurbKeystore

/-- Invariant: at most `capacity` entries, with distinct ids. -/
structure Inv (k : SurbKeystore) : Prop where
  pos : 0 < k.capacity
  len : k.surbs.length ≤ k.capacity
  nodup : (LinkedMap.keys k.surbs).Nodup

/-- What remains when room is made for a new entry. -/
def room (k : SurbKeystore) : LinkedMap SurbId SurbValue :=
  if k.surbs.length = k.capacity then k.surbs.drop 1 else k.surbs

/-- The keystore after the creation of a SURB. -/
def created (k : SurbKeystore) (id : SurbId) (v : SurbValue) : SurbKeystore :=
  { k with surbs := k.room ++ [(id, v)] }

theorem room_sublist (k : SurbKeystore) : k.room.Sublist k.surbs := by
  unfold room; split
  · exact List.drop_sublist ..
  · exact List.Sublist.refl _

theorem room_len {k : SurbKeystore} (h : k.Inv) : k.room.length + 1 ≤ k.capacity := by
  have := h.pos; have := h.len
  unfold room; split
  · rw [List.length_drop]; omega
  · omega

theorem created_inv {k : SurbKeystore} (h : k.Inv) {id : SurbId} (hid : id ∉ LinkedMap.keys k.room)
    (v : SurbValue) : (k.created id v).Inv := by
  refine ⟨h.pos, ?_, ?_⟩
  · have := room_len h
    simp only [created, List.length_append, List.length_singleton]; omega
  · exact LinkedMap.nodup_pushBack (h.nodup.sublist ((room_sublist k).map _)) hid

theorem insert_ok {k k' : SurbKeystore} {rng rng' : Rng} {mid : MessageId} {id : SurbId}
    (h : k.insert rng mid = .ok (k', id, rng')) :
    k.surbs.length ≤ k.capacity ∧ id ∉ LinkedMap.keys k.room ∧ k' = k.created id ⟨[], mid⟩ ∧
      id = (rng.fillBytes SURB_ID_SIZE).1 ∧ rng' = (rng.fillBytes SURB_ID_SIZE).2 := by
  unfold insert at h
  rw [res_bind_eq_ok] at h
  obtain ⟨u, h1, h⟩ := h
  have hlen : k.surbs.length ≤ k.capacity := by
    by_cases hl : k.surbs.length ≤ k.capacity
    · exact hl
    · simp [assertP, hl, panic] at h1
  have hroom : (if k.surbs.length = k.capacity then (LinkedMap.popFront k.surbs).2 else k.surbs) = k.room := by
    unfold room
    split
    · cases k.surbs <;> rfl
    · rfl
  dsimp only at h
  rw [hroom] at h
  obtain ⟨o, ho⟩ : ∃ o, k.room.get? (rng.fillBytes SURB_ID_SIZE).1 = o := ⟨_, rfl⟩
  rw [ho] at h
  cases o with
  | some v => cases h
  | none =>
    simp only [Except.ok.injEq, Prod.mk.injEq] at h
    obtain ⟨rfl, rfl, rfl⟩ := h
    exact ⟨hlen, LinkedMap.get?_eq_none.1 ho, rfl, rfl, rfl⟩

theorem setKeys_created {k : SurbKeystore} {id : SurbId} {v : SurbValue} (hid : id ∉ LinkedMap.keys k.room)
    (keys : List Bytes) : (k.created id v).setKeys id keys = k.created id { v with keys := keys } := by
  unfold setKeys created
  dsimp only
  have hg : LinkedMap.get? (k.room ++ [(id, v)]) id = some v := LinkedMap.get?_pushBack_self (m := k.room) v hid
  rw [hg]
  dsimp only
  congr 1
  unfold LinkedMap.set
  rw [List.map_append]
  congr 1
  · conv => rhs; rw [← List.map_id k.room]
    apply List.map_congr_left
    intro e he
    have : e.1 ≠ id := by
      intro hh
      apply hid
      rw [← hh]
      exact List.mem_map_of_mem he
    simp [this]
  · simp

/-- A sequence of creations for one message. -/
inductive Creates (mid : MessageId) : SurbKeystore → List (SurbId × List Bytes) → SurbKeystore → Prop
  | nil k : Creates mid k [] k
  | cons {k k' id keys rest} : id ∉ LinkedMap.keys k.room → id.length = SURB_ID_SIZE →
      Creates mid (k.created id ⟨keys, mid⟩) rest k' → Creates mid k ((id, keys) :: rest) k'

theorem Creates.append {mid} {k k' k'' : SurbKeystore} {l l'} (h : Creates mid k l k')
    (h' : Creates mid k' l' k'') : Creates mid k (l ++ l') k'' := by
  induction h with
  | nil => exact h'
  | cons a b _ ih => exact .cons a b (ih h')

theorem Creates.inv {mid} {k k' : SurbKeystore} {l} (h : Creates mid k l k') (hk : k.Inv) :
    k'.Inv ∧ k'.capacity = k.capacity := by
  induction h with
  | nil => exact ⟨hk, rfl⟩
  | cons a b _ ih => exact ih (created_inv hk a _)

theorem remove_inv {k : SurbKeystore} (h : k.Inv) (id : SurbId) : (k.remove id).Inv := by
  refine ⟨h.pos, ?_, LinkedMap.nodup_remove h.nodup _⟩
  have := (LinkedMap.remove_sublist k.surbs id).length_le
  have := h.len
  simp only [remove]; omega

end SurbKeystore

theorem fillBytes_length (rng : Rng) (n : Nat) : (rng.fillBytes n).1.length = n := by
  simp [Rng.fillBytes]

end Mixnet
