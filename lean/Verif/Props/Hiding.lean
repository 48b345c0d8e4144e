import Verif.Proofs.Hiding
import Verif.Props.Wire
import Verif.Props.SphinxPackets
/-!
# C85: what a hop can read in a header tells it nothing but its action
-/
namespace Mixnet.Props
open Mixnet Spec

variable {C : Crypto}

/-! ### From positions on the path to lists of hops -/

theorem hopsSize_zip : ∀ (targets : List Target) (secs : List SharedSecret), targets.length ≤ secs.length →
    hopsSize (targets.zip secs) = forwardSize targets
  | [], _, _ => rfl
  | t :: ts, [], h => by simp at h
  | t :: ts, s :: ss, h => by
    have := hopsSize_zip ts ss (by simpa using h)
    simp only [hopsSize, forwardSize, List.zip_cons_cons, List.map_cons, List.sum_cons] at this ⊢
    rw [this]

theorem hopsSize_take {targets : List Target} {secs : List SharedSecret} (h : targets.length ≤ secs.length) (i : Nat) :
    hopsSize ((targets.zip secs).take i) = forwardSize (targets.take i) := by
  rw [List.zip, List.take_zipWith]
  exact hopsSize_zip _ _ (by simp only [List.length_take]; omega)

theorem secOf_drop {targets : List Target} {secs : List SharedSecret} (h : secs.length = targets.length + 1) {i : Nat}
    (hi : i ≤ targets.length) : secOf (secs.getLastD []) ((targets.zip secs).drop i) = secs.getD i [] := by
  rcases Nat.lt_or_ge i targets.length with hlt | hge
  · rw [List.drop_eq_getElem_cons (by rw [List.length_zip]; omega), List.getElem_zip, secOf,
      List.getElem_eq_getD]
  · have : i = targets.length := by omega
    subst this
    rw [List.drop_eq_nil_of_le (by rw [List.length_zip]; omega), secOf, List.getLastD_eq_getLast?,
      List.getLast?_eq_getElem?, List.getD_eq_getElem?_getD, h]
    rfl

theorem keysOf_zip {targets : List Target} {secs : List SharedSecret} (h : secs.length = targets.length + 1) :
    keysOf C (targets.zip secs) (secs.getLastD []) = secs.map C.actionsEncryptionKey := by
  have hne : secs ≠ [] := by rintro rfl; simp at h
  have e : (targets.zip secs).map (fun x => C.actionsEncryptionKey x.2) = secs.dropLast.map C.actionsEncryptionKey := by
    apply List.ext_getElem
    · simp only [List.length_map, List.length_zip, List.length_dropLast]; omega
    · intro i h1 h2
      simp
  rw [keysOf, e, List.getLastD_eq_getLast?, List.getLast?_eq_some_getLast hne, Option.getD_some]
  conv_rhs => rw [← List.dropLast_append_getLast hne]
  simp

theorem prevW_iff {targets : List Target} {secs : List SharedSecret} (h : secs.length = targets.length + 1) {j : Nat}
    (hj : j ≤ targets.length) (key : Bytes) (n : Nat) :
    PrevW C ((targets.zip secs).take j) key n ↔
      ∃ i, j = i + 1 ∧ (secs.map C.actionsEncryptionKey)[i]? = some key ∧ 140 - forwardSize (targets.take i) ≤ n ∧
        n < 140 - forwardSize (targets.take i) + forwardSize (targets.take j) := by
  have hz : (targets.zip secs).length = targets.length := by rw [List.length_zip]; omega
  constructor
  · rintro ⟨pre', t', s', e, rfl, h1, h2⟩
    have hl := congrArg List.length e
    rw [List.length_take, List.length_append, List.length_singleton, hz] at hl
    have hji : j = pre'.length + 1 := by omega
    have hlt : pre'.length < (targets.zip secs).length := by omega
    rw [hji, List.take_succ_eq_append_getElem hlt] at e
    obtain ⟨e1, e2⟩ := List.append_inj' e rfl
    rw [List.getElem_zip, List.singleton_inj, Prod.mk.injEq] at e2
    refine ⟨pre'.length, hji, ?_, ?_, ?_⟩
    · rw [List.getElem?_map, List.getElem?_eq_getElem (by omega), e2.2]; rfl
    · rw [← hopsSize_take (secs := secs) (by omega), e1]; exact h1
    · rw [← hopsSize_take (secs := secs) (by omega), e1, ← hopsSize_take (secs := secs) (by omega)]; exact h2
  · rintro ⟨i, rfl, hk, h1, h2⟩
    have hlt : i < (targets.zip secs).length := by omega
    rw [List.getElem?_map, List.getElem?_eq_getElem (by omega)] at hk
    refine ⟨(targets.zip secs).take i, targets[i], secs[i], ?_, ?_, ?_, ?_⟩
    · rw [List.take_succ_eq_append_getElem hlt, List.getElem_zip]
    · simpa using hk.symm
    · rw [hopsSize_take (by omega)]; exact h1
    · rw [hopsSize_take (by omega), hopsSize_take (by omega)]; exact h2

theorem hiding_forward {targets : List Target} {secs : List SharedSecret} (h : secs.length = targets.length + 1) {j : Nat}
    (hj : j < targets.length) (key : Bytes) (n : Nat) :
    Hiding (secs.map C.actionsEncryptionKey) targets j key n ↔
      PrevW C ((targets.zip secs).take j) key n ∨
      NextW C (secs.getLastD []) ((targets.zip secs).take j) targets[j] (secs[j]'(by omega))
        ((targets.zip secs).drop (j + 1)) key n := by
  have hlt : j < (targets.zip secs).length := by rw [List.length_zip]; omega
  have e : (targets.zip secs).take j ++ [(targets[j], secs[j]'(by omega))] = (targets.zip secs).take (j + 1) := by
    rw [List.take_succ_eq_append_getElem hlt, List.getElem_zip]
  unfold Hiding NextW
  rw [prevW_iff h (by omega), secOf_drop h (by omega), e, hopsSize_take (by omega), List.getElem?_map,
    List.getElem?_eq_getElem (by omega), List.getD_eq_getElem?_getD, List.getElem?_eq_getElem (by omega)]
  simp only [Option.map_some, Option.some.injEq, Option.getD_some, eq_comm]

theorem hiding_last {targets : List Target} {secs : List SharedSecret} (h : secs.length = targets.length + 1)
    (key : Bytes) (n : Nat) :
    Hiding (secs.map C.actionsEncryptionKey) targets targets.length key n ↔ PrevW C (targets.zip secs) key n := by
  have e : (targets.zip secs).take targets.length = targets.zip secs :=
    List.take_of_length_le (by rw [List.length_zip]; omega)
  have := prevW_iff (C := C) h (Nat.le_refl targets.length) key n
  rw [e] at this
  rw [this, Hiding, List.getElem?_eq_none (by simp; omega)]
  simp

/-! ### The property -/

/-- The ids in a packet kind have 16 bytes. -/
def KindOk (kind : PacketKind) : Prop := ∀ id, kind = .reply id ∨ kind = .cover (some id) → id.length = 16

theorem KindOk.sized {kind : PacketKind} (h : KindOk kind) : kind.Sized := by
  rcases kind with _ | id | _ | id
  · trivial
  · exact h id (.inl rfl)
  · trivial
  · exact h id (.inr rfl)

theorem sharedSecrets_with (ks : Keystreams) : ∀ (theirs : List KxPublic) (x : C.Scalar),
    sharedSecrets (withKeystreams C ks) x theirs = sharedSecrets C x theirs
  | [], _ => rfl
  | p :: ps, x => by
    exact congrArg (C.mul p x :: ·) (sharedSecrets_with ks ps _)

theorem packetSecrets_with (ks : Keystreams) (eph : Bytes) (theirs : List KxPublic) :
    packetSecrets (withKeystreams C ks) eph theirs = packetSecrets C eph theirs := sharedSecrets_with ks theirs _

variable {eph filler payload : Bytes} {targets : List Target} {theirs : List KxPublic} {kind : PacketKind}

theorem packetSecrets_length (hp : ValidPath theirs targets) :
    (packetSecrets C eph theirs).length = targets.length + 1 := by
  rw [packetSecrets, sharedSecrets_length, hp.length]

theorem header_form (hC : CryptoLaws C) (hp : ValidPath theirs targets) (hk : KindOk kind)
    (hf : filler.length = fillerSize targets kind) :
    HeadForm C (deliverAction kind ++ filler) ((packetSecrets C eph theirs).getLastD []) []
      (targets.zip (packetSecrets C eph theirs)) (headerBytes C eph filler targets theirs kind ++ payload) := by
  have hl := packetSecrets_length (C := C) (eph := eph) hp
  have hsz := header_size hp (packetSecrets C eph theirs) (by rw [hl, hp.length]) kind hk.sized
  rw [pathSize_eq _ _ (by omega), encKind_eq] at hsz
  refine ⟨⟨C.mulBase (C.scalarOfClamped eph), payload, ?_, hC.mulBase_length _⟩, ?_⟩
  · rw [List.append_nil]; rfl
  · rw [hopsSize_zip _ _ (by omega), List.length_append, hf, fillerSize]
    simp only [List.length_nil]; omega

theorem read_forward (hC : CryptoLaws C) (hp : ValidPath theirs targets) (hk : KindOk kind)
    (hf : filler.length = fillerSize targets kind) {j : Nat} (hj : j < targets.length)
    (hj' : j < (packetSecrets C eph theirs).length) :
    readAt C eph filler targets theirs kind payload j =
      forwardAction targets[j] ++
        ((arriving C (packetSecrets C eph theirs) targets (headerBytes C eph filler targets theirs kind ++ payload)
          (j + 1)).drop 32).take 16 ++
        beyond C (deliverAction kind ++ filler) ((packetSecrets C eph theirs).getLastD [])
          ((targets.zip (packetSecrets C eph theirs)).take j) targets[j] (packetSecrets C eph theirs)[j]
          ((targets.zip (packetSecrets C eph theirs)).drop (j + 1)) := by
  have hl := packetSecrets_length (C := C) (eph := eph) hp
  have hform := header_form hC hp hk hf (eph := eph) (payload := payload)
  have hlt : j < (targets.zip (packetSecrets C eph theirs)).length := by rw [List.length_zip]; omega
  have hsplit : targets.zip (packetSecrets C eph theirs) = (targets.zip (packetSecrets C eph theirs)).take j ++
      (targets[j], (packetSecrets C eph theirs)[j]) :: (targets.zip (packetSecrets C eph theirs)).drop (j + 1) := by
    rw [← List.getElem_zip (h := hlt), ← List.drop_eq_getElem_cons hlt, List.take_append_drop]
  have hnext : (targets.zip (packetSecrets C eph theirs)).take (j + 1) = (targets.zip (packetSecrets C eph theirs)).take j ++
      [(targets[j], (packetSecrets C eph theirs)[j])] := by
    rw [List.take_succ_eq_append_getElem hlt, List.getElem_zip]
  have h1 := hform
  rw [hsplit] at h1
  have h2 := HeadForm.steps hC _ h1
  have h3 := ((HeadForm.step hC h2).actions hC).2
  unfold readAt
  dsimp only
  rw [List.getD_eq_getElem?_getD, List.getElem?_eq_getElem hj', Option.getD_some]
  refine (h2.reads hC).trans ?_
  have e : arriving C (packetSecrets C eph theirs) targets (headerBytes C eph filler targets theirs kind ++ payload) (j + 1) =
      forwardedBytes C (packetSecrets C eph theirs)[j] targets[j]
        (((targets.zip (packetSecrets C eph theirs)).take j).foldl (fun p hop => forwardedBytes C hop.2 hop.1 p)
          (headerBytes C eph filler targets theirs kind ++ payload)) := by
    rw [arriving, hnext, List.foldl_append]
    rfl
  rw [e, h3]
  rfl

theorem read_last (hC : CryptoLaws C) (hp : ValidPath theirs targets) (hk : KindOk kind)
    (hf : filler.length = fillerSize targets kind) :
    readAt C eph filler targets theirs kind payload targets.length =
      deliverAction kind ++ (filler ++ masked C ((packetSecrets C eph theirs).getLastD [])
        (140 - (padOf C [] (targets.zip (packetSecrets C eph theirs))).length)
        (padOf C [] (targets.zip (packetSecrets C eph theirs)))) := by
  have hl := packetSecrets_length (C := C) (eph := eph) hp
  have hform := header_form hC hp hk hf (eph := eph) (payload := payload)
  have htake : (targets.zip (packetSecrets C eph theirs)).take targets.length = targets.zip (packetSecrets C eph theirs) :=
    List.take_of_length_le (by rw [List.length_zip]; omega)
  have h2 := HeadForm.steps hC (targets.zip (packetSecrets C eph theirs)) (post := []) (by rw [List.append_nil]; exact hform)
  unfold readAt
  dsimp only
  rw [← secOf_drop hl (Nat.le_refl _), List.drop_eq_nil_of_le (by rw [List.length_zip]; omega), secOf, arriving, htake,
    h2.reads_last hC, List.append_assoc]

/-- **C85** (what is meant for the hop). Every hop reads its own action first; a forwarding hop then reads the MAC of the header it
hands on. -/
theorem hop_reads_action (hC : CryptoLaws C) (hp : ValidPath theirs targets) (hk : KindOk kind)
    (hf : filler.length = fillerSize targets kind) {j : Nat} (hj : j < theirs.length) :
    ∃ rest, rest.length = 140 - sizeFor targets kind j ∧
      readAt C eph filler targets theirs kind payload j = actionFor targets kind j ++
        (if j < targets.length then
          ((arriving C (packetSecrets C eph theirs) targets (headerBytes C eph filler targets theirs kind ++ payload)
            (j + 1)).drop 32).take 16 else []) ++ rest := by
  have hl := packetSecrets_length (C := C) (eph := eph) hp
  have hform := header_form hC hp hk hf (eph := eph) (payload := payload)
  rw [hp.length] at hj
  rcases Nat.lt_or_ge j targets.length with hlt | hge
  · have hz : j < (targets.zip (packetSecrets C eph theirs)).length := by rw [List.length_zip]; omega
    have hs := hform.size
    rw [← List.take_append_drop j (targets.zip (packetSecrets C eph theirs)), List.drop_eq_getElem_cons hz,
      hopsSize_append, List.getElem_zip] at hs
    refine ⟨beyond C (deliverAction kind ++ filler) ((packetSecrets C eph theirs).getLastD [])
          ((targets.zip (packetSecrets C eph theirs)).take j) targets[j] (packetSecrets C eph theirs)[j]
          ((targets.zip (packetSecrets C eph theirs)).drop (j + 1)), ?_, ?_⟩
    rotate_left
    · rw [if_pos hlt, actionFor, List.getElem?_eq_getElem hlt]
      exact read_forward hC hp hk hf hlt (by omega)
    · rw [sizeFor, actionFor, List.getElem?_eq_getElem hlt, if_pos hlt, beyond, List.length_append, layers_length hC,
        masked_length, padOf_length]
      simp only [hopsSize, List.map_cons, List.sum_cons, List.length_nil] at hs ⊢
      omega
  · have : j = targets.length := by omega
    subst this
    have hs := hform.size
    refine ⟨filler ++ masked C ((packetSecrets C eph theirs).getLastD [])
        (140 - (padOf C [] (targets.zip (packetSecrets C eph theirs))).length)
        (padOf C [] (targets.zip (packetSecrets C eph theirs))), ?_, ?_⟩
    rotate_left
    · rw [if_neg (by omega), actionFor, List.getElem?_eq_none (Nat.le_refl _), List.append_nil]
      exact read_last hC hp hk hf
    · rw [sizeFor, actionFor, List.getElem?_eq_none (Nat.le_refl _), if_neg (by omega), List.length_append,
        masked_length, padOf_length]
      simp only [List.length_append, List.length_nil] at hs ⊢
      omega

/-- **C85** (the rest is random). For whatever the keystreams are outside `Hiding`, each value of what a hop reads beyond what is meant for
it comes from exactly one choice of the bytes in `Hiding` (and of the random filler, for the last hop). So if those are
uniformly random, what the hop reads is, on every path and at every position. -/
theorem header_hides (hC : CryptoLaws C) (hp : ValidPath theirs targets) (hk : KindOk kind)
    (hf : filler.length = fillerSize targets kind) (hd : (actionKeys C eph theirs).Nodup) {j : Nat} (hj : j < theirs.length)
    (ks : Keystreams) {R : Bytes} (hR : R.length = 140 - sizeFor targets kind j) :
    ∃! x : Keystreams × Bytes,
      x.2.length = filler.length ∧ (j + 1 < theirs.length → x.2 = filler) ∧
      (∀ key n, ¬Hiding (actionKeys C eph theirs) targets j key n → x.1 key n = ks key n) ∧
      (readAt (withKeystreams C x.1) eph x.2 targets theirs kind payload j).drop (sizeFor targets kind j) = R := by
  have hl := packetSecrets_length (C := C) (eph := eph) hp
  have hform := header_form hC hp hk hf (eph := eph) (payload := payload)
  have hsz := hform.size
  rw [hp.length] at hj ⊢
  have hwith : ∀ ks, packetSecrets (withKeystreams C ks) eph theirs = packetSecrets C eph theirs :=
    fun ks => packetSecrets_with ks eph theirs
  unfold actionKeys at hd ⊢
  have hd' : (keysOf C (targets.zip (packetSecrets C eph theirs)) ((packetSecrets C eph theirs).getLastD [])).Nodup := by
    rw [keysOf_zip hl]; exact hd
  rcases Nat.lt_or_ge j targets.length with hlt | hge
  · have hj' : j < (packetSecrets C eph theirs).length := by omega
    have hz : j < (targets.zip (packetSecrets C eph theirs)).length := by rw [List.length_zip]; omega
    have hsplit : targets.zip (packetSecrets C eph theirs) = (targets.zip (packetSecrets C eph theirs)).take j ++
        (targets[j], (packetSecrets C eph theirs)[j]) :: (targets.zip (packetSecrets C eph theirs)).drop (j + 1) := by
      rw [← List.getElem_zip (h := hz), ← List.drop_eq_getElem_cons hz, List.take_append_drop]
    have hsize : sizeFor targets kind j = (forwardAction targets[j]).length + 16 := by
      rw [sizeFor, actionFor, List.getElem?_eq_getElem hlt, if_pos hlt]
    have hdrop : ∀ ks' : Keystreams, (readAt (withKeystreams C ks') eph filler targets theirs kind payload j).drop
        (sizeFor targets kind j) =
        beyond (withKeystreams C ks') (deliverAction kind ++ filler) ((packetSecrets C eph theirs).getLastD [])
          ((targets.zip (packetSecrets C eph theirs)).take j) targets[j] (packetSecrets C eph theirs)[j]
          ((targets.zip (packetSecrets C eph theirs)).drop (j + 1)) := by
      intro ks'
      have hC' := withKeystreams_laws hC ks'
      rw [read_forward hC' hp hk hf hlt (by rw [hwith]; exact hj')]
      simp only [hwith]
      refine List.drop_left' ?_
      rw [hsize, List.length_append]
      congr 1
      have hform' := header_form hC' hp hk hf (eph := eph) (payload := payload)
      have hnext : (targets.zip (packetSecrets C eph theirs)).take (j + 1) = (targets.zip (packetSecrets C eph theirs)).take j ++
          [(targets[j], (packetSecrets C eph theirs)[j])] := by
        rw [List.take_succ_eq_append_getElem hz, List.getElem_zip]
      rw [hwith, ← List.take_append_drop (j + 1) (targets.zip (packetSecrets C eph theirs))] at hform'
      have h3 := HeadForm.steps hC' _ hform'
      rw [arriving, (h3.actions hC').2, layers_mac_length hC']
    rw [hsplit] at hd' hsz
    obtain ⟨k, ⟨hk1, hk2⟩, huniq⟩ := beyond_unique hC (last := deliverAction kind ++ filler) (by simpa using hsz) hd' ks (by rw [hR, hsize])
    refine ⟨(k, filler), ⟨rfl, fun _ => rfl, ?_, ?_⟩, ?_⟩
    · intro key n hn
      exact hk1 key n fun h => hn ((hiding_forward hl hlt key n).2 h)
    · rw [hdrop]; exact hk2
    · rintro ⟨k', f'⟩ ⟨-, h2, h3, h4⟩
      have hf' : f' = filler := h2 (by omega)
      subst hf'
      rw [hdrop] at h4
      rw [huniq k' ⟨fun key n hn => h3 key n fun h => hn ((hiding_forward hl hlt key n).1 h), h4⟩]
  · have hjl : j = targets.length := by omega
    subst hjl
    have hsize : sizeFor targets kind targets.length = (deliverAction kind).length := by
      rw [sizeFor, actionFor, List.getElem?_eq_none (Nat.le_refl _), if_neg (by omega), Nat.add_zero]
    have hdrop : ∀ (ks' : Keystreams) (f' : Bytes), f'.length = filler.length →
        (readAt (withKeystreams C ks') eph f' targets theirs kind payload targets.length).drop
          (sizeFor targets kind targets.length) =
        f' ++ masked (withKeystreams C ks') ((packetSecrets C eph theirs).getLastD [])
          (140 - (padOf (withKeystreams C ks') [] (targets.zip (packetSecrets C eph theirs))).length)
          (padOf (withKeystreams C ks') [] (targets.zip (packetSecrets C eph theirs))) := by
      intro ks' f' hf'
      have hC' := withKeystreams_laws hC ks'
      rw [read_last hC' hp hk (by rw [hf', hf])]
      simp only [hwith]
      exact List.drop_left' hsize.symm
    obtain ⟨x, ⟨hx1, hx2, hx3⟩, huniq⟩ := beyond_last_unique (C := C) (act := deliverAction kind) (k := filler.length) (by
      simp only [List.length_append, List.length_nil] at hsz; omega) hd' ks (by rw [hR, hsize])
    refine ⟨x, ⟨hx1, fun h => absurd h (by omega), ?_, ?_⟩, ?_⟩
    · intro key n hn
      exact hx2 key n fun h => hn ((hiding_last hl key n).2 h)
    · rw [hdrop _ _ hx1]; exact hx3
    · rintro ⟨k', f'⟩ ⟨h1, -, h3, h4⟩
      rw [hdrop _ _ h1] at h4
      exact huniq _ ⟨h1, fun key n hn => h3 key n fun h => hn ((hiding_last hl key n).1 h), h4⟩

/-- **C85** (the hop's own key). The bytes in `Hiding` are not of the keystream of the hop itself. -/
theorem own_keystream_kept {keys : List Bytes} (hd : keys.Nodup) {j : Nat} {key : Bytes} {n : Nat}
    (h : Hiding keys targets j key n) : keys[j]? ≠ some key := by
  intro hj
  have hjl : j < keys.length := by
    rcases Nat.lt_or_ge j keys.length with h | h
    · exact h
    · rw [List.getElem?_eq_none h] at hj; cases hj
  rcases h with ⟨i, rfl, hi, -⟩ | ⟨hi, -⟩
  · have := (List.getElem?_inj hjl hd).1 (hj.trans hi.symm)
    omega
  · have := (List.getElem?_inj hjl hd).1 (hj.trans hi.symm)
    omega

/-! ### Two paths -/

theorem read_length (hC : CryptoLaws C) (hp : ValidPath theirs targets) (hk : KindOk kind)
    (hf : filler.length = fillerSize targets kind) {j : Nat} (hj : j < theirs.length) :
    (packetSecrets C eph theirs).getD j [] ∈ packetSecrets C eph theirs ∧
    ((arriving C (packetSecrets C eph theirs) targets (headerBytes C eph filler targets theirs kind ++ payload) j).drop 48).take 140 =
      masked C ((packetSecrets C eph theirs).getD j []) 0 (readAt C eph filler targets theirs kind payload j) ∧
    ((arriving C (packetSecrets C eph theirs) targets (headerBytes C eph filler targets theirs kind ++ payload) j).drop 32).take 16 =
      C.blakeMac (C.macKey ((packetSecrets C eph theirs).getD j []))
        (masked C ((packetSecrets C eph theirs).getD j []) 0 (readAt C eph filler targets theirs kind payload j)) := by
  have hl := packetSecrets_length (C := C) (eph := eph) hp
  have hform := header_form hC hp hk hf (eph := eph) (payload := payload)
  rw [hp.length] at hj
  rw [← List.take_append_drop j (targets.zip (packetSecrets C eph theirs))] at hform
  have h2 := HeadForm.steps hC _ hform
  have e : ((arriving C (packetSecrets C eph theirs) targets (headerBytes C eph filler targets theirs kind ++ payload) j).drop 48).take 140 =
      masked C ((packetSecrets C eph theirs).getD j []) 0 (readAt C eph filler targets theirs kind payload j) := by
    unfold readAt shown
    rw [masked_masked]
  refine ⟨?_, e, ?_⟩
  · rw [List.getD_eq_getElem?_getD, List.getElem?_eq_getElem (by omega), Option.getD_some]
    exact List.getElem_mem _
  · rw [← e, ← secOf_drop hl (by omega)]
    have := h2.actions hC
    unfold arriving
    rw [this.1, this.2]
    exact layers_mac _ _ _ _ _

/-- The primitives with other keystreams and MACs. -/
def withMacs (C : Crypto) (ks : Keystreams) (mac : Bytes → Bytes → Bytes) : Crypto := { C with chacha := ks, blakeMac := mac }

theorem sharedSecrets_macs (ks : Keystreams) (mac : Bytes → Bytes → Bytes) : ∀ (theirs : List KxPublic) (x : C.Scalar),
    sharedSecrets (withMacs C ks mac) x theirs = sharedSecrets C x theirs
  | [], _ => rfl
  | p :: ps, x => congrArg (C.mul p x :: ·) (sharedSecrets_macs ks mac ps _)

theorem packetSecrets_macs (ks : Keystreams) (mac : Bytes → Bytes → Bytes) (eph : Bytes) (theirs : List KxPublic) :
    packetSecrets (withMacs C ks mac) eph theirs = packetSecrets C eph theirs := sharedSecrets_macs ks mac theirs _

theorem withMacs_laws (hC : CryptoLaws C) (ks : Keystreams) {mac : Bytes → Bytes → Bytes} (hm : ∀ k m, (mac k m).length = 16) :
    CryptoLaws (withMacs C ks mac) := by
  obtain ⟨h1, h2, h3, h4, h5, h6, h7, h8, h9, h10, h11, h12, h13, h14, h15, h16, h17⟩ := hC
  exact ⟨h1, h2, h3, h4, h5, h6, h7, h8, hm, h10, h11, h12, h13, h14, h15, h16, h17⟩

/-- **C85** (position and length are hidden). A packet arrives at a hop of one path. Take any other path with the same secret and the same
action at some hop: longer or shorter, the hop anywhere on it. If the keystreams and MACs of the others are as they may
be, the packet on that path arrives at that hop with exactly the same MAC and actions. -/
theorem position_hidden (hC : CryptoLaws C)
    {eph₁ filler₁ payload₁ : Bytes} {targets₁ : List Target} {theirs₁ : List KxPublic} {kind₁ : PacketKind} {i : Nat}
    {eph₂ payload₂ : Bytes} {targets₂ : List Target} {theirs₂ : List KxPublic} {kind₂ : PacketKind} {j : Nat}
    (hp₁ : ValidPath theirs₁ targets₁) (hk₁ : KindOk kind₁) (hf₁ : filler₁.length = fillerSize targets₁ kind₁)
    (hi : i < theirs₁.length) (hp₂ : ValidPath theirs₂ targets₂) (hk₂ : KindOk kind₂) (hj : j < theirs₂.length)
    (hd : (actionKeys C eph₂ theirs₂).Nodup) (hm : ((packetSecrets C eph₂ theirs₂).map C.macKey).Nodup) {sec : SharedSecret}
    (h₁ : (packetSecrets C eph₁ theirs₁)[i]? = some sec) (h₂ : (packetSecrets C eph₂ theirs₂)[j]? = some sec)
    (hact : actionFor targets₁ kind₁ i = actionFor targets₂ kind₂ j) (hlast : i < targets₁.length ↔ j < targets₂.length) :
    ∃ ks mac filler₂, filler₂.length = fillerSize targets₂ kind₂ ∧
      (∀ n, ks (C.actionsEncryptionKey sec) n = C.chacha (C.actionsEncryptionKey sec) n) ∧
      (∀ m, mac (C.macKey sec) m = C.blakeMac (C.macKey sec) m) ∧ (∀ k m, (mac k m).length = 16) ∧
      ((arriving (withMacs C ks mac) (packetSecrets C eph₂ theirs₂) targets₂
        (headerBytes (withMacs C ks mac) eph₂ filler₂ targets₂ theirs₂ kind₂ ++ payload₂) j).drop 32).take 156 =
      ((arriving C (packetSecrets C eph₁ theirs₁) targets₁
        (headerBytes C eph₁ filler₁ targets₁ theirs₁ kind₁ ++ payload₁) i).drop 32).take 156 := by
  have hl₁ := packetSecrets_length (C := C) (eph := eph₁) hp₁
  have hl₂ := packetSecrets_length (C := C) (eph := eph₂) hp₂
  have hs₁ : (packetSecrets C eph₁ theirs₁).getD i [] = sec := by rw [List.getD_eq_getElem?_getD, h₁]; rfl
  have hs₂ : (packetSecrets C eph₂ theirs₂).getD j [] = sec := by rw [List.getD_eq_getElem?_getD, h₂]; rfl
  have hsize : sizeFor targets₁ kind₁ i = sizeFor targets₂ kind₂ j := by
    unfold sizeFor
    rw [hact]
    by_cases h : i < targets₁.length
    · rw [if_pos h, if_pos (hlast.1 h)]
    · rw [if_neg h, if_neg fun h' => h (hlast.2 h')]
  obtain ⟨R, hR, hread₁⟩ := hop_reads_action hC hp₁ hk₁ hf₁ hi (eph := eph₁) (payload := payload₁)
  obtain ⟨-, ha₁, hm₁⟩ := read_length hC hp₁ hk₁ hf₁ hi (eph := eph₁) (payload := payload₁)
  rw [hs₁] at ha₁ hm₁
  -- the MAC that the hop hands on
  obtain ⟨M, hM⟩ : ∃ M, M = ((arriving C (packetSecrets C eph₁ theirs₁) targets₁
      (headerBytes C eph₁ filler₁ targets₁ theirs₁ kind₁ ++ payload₁) (i + 1)).drop 32).take 16 := ⟨_, rfl⟩
  rw [← hM] at hread₁
  have hMl : i < targets₁.length → M.length = 16 := by
    intro h
    obtain ⟨-, -, hm'⟩ := read_length hC hp₁ hk₁ hf₁ (j := i + 1) (by rw [hp₁.length]; omega) (eph := eph₁) (payload := payload₁)
    rw [hM, hm', hC.blakeMac_length]
  -- the MACs
  obtain ⟨mac, hmac⟩ : ∃ mac : Bytes → Bytes → Bytes, mac = fun k m =>
    if i < targets₁.length ∧ k = C.macKey ((packetSecrets C eph₂ theirs₂).getD (j + 1) []) then M else C.blakeMac k m := ⟨_, rfl⟩
  have hmacl : ∀ k m, (mac k m).length = 16 := by
    intro k m
    rw [hmac]
    dsimp only
    by_cases h : i < targets₁.length ∧ k = C.macKey ((packetSecrets C eph₂ theirs₂).getD (j + 1) [])
    · rw [if_pos h]; exact hMl h.1
    · rw [if_neg h]; exact hC.blakeMac_length _ _
  have hown : ∀ m, mac (C.macKey sec) m = C.blakeMac (C.macKey sec) m := by
    intro m
    rw [hmac]
    dsimp only
    refine if_neg ?_
    rintro ⟨h, e⟩
    have hj1 : j + 1 < (packetSecrets C eph₂ theirs₂).length := by have := hlast.1 h; omega
    rw [List.getD_eq_getElem?_getD, List.getElem?_eq_getElem hj1, Option.getD_some] at e
    have e2 : ((packetSecrets C eph₂ theirs₂).map C.macKey)[j]? = ((packetSecrets C eph₂ theirs₂).map C.macKey)[j + 1]? := by
      rw [List.getElem?_map, List.getElem?_map, h₂, List.getElem?_eq_getElem hj1, Option.map_some, Option.map_some, e]
    have := (List.getElem?_inj (by rw [List.length_map]; omega) hm).1 e2
    omega
  -- the keystreams and the filler
  have hC1 := withMacs_laws hC C.chacha hmacl
  have hsec1 : packetSecrets (withMacs C C.chacha mac) eph₂ theirs₂ = packetSecrets C eph₂ theirs₂ := packetSecrets_macs _ _ _ _
  have hkeys1 : actionKeys (withMacs C C.chacha mac) eph₂ theirs₂ = actionKeys C eph₂ theirs₂ := by
    unfold actionKeys
    rw [hsec1]
    rfl
  obtain ⟨⟨ks, filler₂⟩, ⟨hf₂, -, hag, hdrop⟩, -⟩ := header_hides hC1 hp₂ hk₂
    (filler := List.replicate (fillerSize targets₂ kind₂) 0) List.length_replicate (by rw [hkeys1]; exact hd) hj C.chacha
    (by rw [hR, hsize]) (payload := payload₂)
  rw [hkeys1] at hag
  dsimp only at hf₂ hag hdrop
  rw [List.length_replicate] at hf₂
  have hC2 := withMacs_laws hC ks hmacl
  have hsec2 : packetSecrets (withMacs C ks mac) eph₂ theirs₂ = packetSecrets C eph₂ theirs₂ := packetSecrets_macs _ _ _ _
  have hksown : ∀ n, ks (C.actionsEncryptionKey sec) n = C.chacha (C.actionsEncryptionKey sec) n := by
    intro n
    refine hag _ _ fun h => own_keystream_kept hd h ?_
    rw [actionKeys, List.getElem?_map, h₂]
    rfl
  have hdrop' : (readAt (withMacs C ks mac) eph₂ filler₂ targets₂ theirs₂ kind₂ payload₂ j).drop (sizeFor targets₂ kind₂ j) = R :=
    hdrop
  -- what the hop reads is the same
  obtain ⟨R', hR', hread₂⟩ := hop_reads_action hC2 hp₂ hk₂ hf₂ hj (eph := eph₂) (payload := payload₂)
  obtain ⟨-, ha₂, hm₂⟩ := read_length hC2 hp₂ hk₂ hf₂ hj (eph := eph₂) (payload := payload₂)
  rw [hsec2] at hread₂ ha₂ hm₂
  rw [hs₂] at ha₂ hm₂
  have hsame : readAt (withMacs C ks mac) eph₂ filler₂ targets₂ theirs₂ kind₂ payload₂ j =
      readAt C eph₁ filler₁ targets₁ theirs₁ kind₁ payload₁ i := by
    by_cases h : i < targets₁.length
    · have h' := hlast.1 h
      rw [if_pos h] at hread₁
      rw [if_pos h'] at hread₂
      obtain ⟨-, -, hm'⟩ := read_length hC2 hp₂ hk₂ hf₂ (j := j + 1) (by rw [hp₂.length]; omega) (eph := eph₂) (payload := payload₂)
      rw [hsec2] at hm'
      have hMM : (withMacs C ks mac).blakeMac ((withMacs C ks mac).macKey ((packetSecrets C eph₂ theirs₂).getD (j + 1) []))
          (masked (withMacs C ks mac) ((packetSecrets C eph₂ theirs₂).getD (j + 1) []) 0
            (readAt (withMacs C ks mac) eph₂ filler₂ targets₂ theirs₂ kind₂ payload₂ (j + 1))) = M := by
        show mac (C.macKey _) _ = M
        rw [hmac]
        dsimp only
        exact if_pos ⟨h, rfl⟩
      rw [hMM] at hm'
      rw [hm'] at hread₂
      rw [hread₂] at hdrop'
      rw [List.drop_left' (by rw [List.length_append, hMl h, sizeFor, if_pos h'])] at hdrop'
      rw [hread₂, hread₁, hdrop', hact]
    · have h' : ¬j < targets₂.length := fun x => h (hlast.2 x)
      rw [if_neg h, List.append_nil] at hread₁
      rw [if_neg h', List.append_nil] at hread₂
      rw [hread₂] at hdrop'
      rw [List.drop_left' (by rw [sizeFor, if_neg h', Nat.add_zero])] at hdrop'
      rw [hread₂, hread₁, hdrop', hact]
  refine ⟨ks, mac, filler₂, hf₂, hksown, hown, hmacl, ?_⟩
  have hmask : masked (withMacs C ks mac) sec 0 (readAt (withMacs C ks mac) eph₂ filler₂ targets₂ theirs₂ kind₂ payload₂ j) =
      masked C sec 0 (readAt C eph₁ filler₁ targets₁ theirs₁ kind₁ payload₁ i) := by
    rw [hsame]
    exact masked_congr (C := withMacs C C.chacha mac) (ks1 := ks) (ks2 := C.chacha) fun n _ _ => hksown n
  have split : ∀ p : Bytes, (p.drop 32).take 156 = (p.drop 32).take 16 ++ (p.drop 48).take 140 := by
    intro p
    rw [show 156 = 16 + 140 from rfl, List.take_add, List.drop_drop]
  rw [split, split, ha₁, ha₂, hm₁, hm₂, hmask]
  congr 1
  exact hown _

/-! ### The hops -/

/-- **C85** (what arrives). When a packet travels, each forwarding hop finds the packet that `arriving` says, has the secret that the sender has
for it, and hands on the next. -/
theorem arriving_handed_on (hC : CryptoLaws C) : ∀ {keys : List KxSecret} {targets : List Target} {packet : Bytes}
    {delays : List C.Delay} {fin : Bytes → Action C → Prop} (_ : Travels C packet keys targets delays fin)
    (_ : packet.length = 2252) (x : C.Scalar) (_ : packet.take 32 = C.mulBase x) {j : Nat} (hj : j < targets.length)
    (_ : keys.length = targets.length + 1) (old : Bytes) (_ : old.length = 2252),
    ∃ key sec delay, keys[j]? = some key ∧ (sharedSecrets C x (keys.map C.deriveKxPublic))[j]? = some sec ∧
      C.deriveKxSharedSecret (kxPublicOf
        (arriving C (sharedSecrets C x (keys.map C.deriveKxPublic)) targets packet j)) key = sec ∧
      peel C old (arriving C (sharedSecrets C x (keys.map C.deriveKxPublic)) targets packet j) sec =
        .ok (arriving C (sharedSecrets C x (keys.map C.deriveKxPublic)) targets packet (j + 1),
          .ok (.forwardTo targets[j] delay))
  | key :: keys, t :: ts, packet, d :: ds, fin, h, hl, x, hx, j, hj, hlen, old, hold => by
    have hkx : kxPublicOf packet = C.mulBase x := hx
    have hsec : C.deriveKxSharedSecret (kxPublicOf packet) key = C.mul (C.deriveKxPublic key) x := by
      rw [hkx, Crypto.deriveKxSharedSecret, Crypto.deriveKxPublic, hC.mulBaseClamped, hC.mulClamped_mulBase, hC.mul_mulBase,
        hC.scalar_comm]
    simp only [Travels] at h
    obtain ⟨out, hpeel, holen, htr⟩ := h old hold
    have hout := forwarded_bytes hC hold hl hpeel
    rw [hsec] at hpeel hout
    rcases j with _ | j
    · refine ⟨key, _, d, rfl, rfl, hsec, ?_⟩
      have e : arriving C (sharedSecrets C x ((key :: keys).map C.deriveKxPublic)) (t :: ts) packet (0 + 1) = out := by
        rw [hout]; rfl
      rw [e]
      exact hpeel
    · have hpub : out.take 32 = C.mulBase (C.scalarMul x (C.scalarOfClamped (C.deriveKxBlindingFactor (C.mulBase x)
          (C.mul (C.deriveKxPublic key) x)))) := by
        rw [hout, forwardedBytes]
        rw [List.append_assoc, List.take_append_of_le_length (by rw [hC.mulClamped_length]),
          List.take_of_length_le (by rw [hC.mulClamped_length]), hx, hC.mulClamped_mulBase]
      have ih := arriving_handed_on hC htr holen _ hpub (j := j) (by simpa using hj) (by simpa using hlen) old hold
      rw [hout] at ih
      exact ih
  | [], _ :: _, _, _, _, h, _, _, _, _, _, _, _, _ => by simp [Travels] at h
  | _ :: _, _ :: _, _, [], _, h, _, _, _, _, _, _, _, _ => by simp [Travels] at h
  | _, [], _, _, _, _, _, _, _, _, hj, _, _, _ => absurd hj (Nat.not_lt_zero _)

/-- **C85** (requests). The packets that are built for a request are such packets: the hops are handed what `arriving` says, so what they read
is `readAt`. -/
theorem request_handed_on (hC : CryptoLaws C) (rng : Rng) {packet : Bytes} (hl : packet.length = 2252) {keys : List KxSecret}
    {targets : List Target} (hp : ValidPath keys targets) :
    ∃ eph filler payload delay rng' packet', eph.length = 32 ∧ filler.length = fillerSize targets .request ∧
      completeRequestPacket C packet rng targets (keys.map C.deriveKxPublic) = .ok (packet', delay, rng') ∧
      packet' = headerBytes C eph filler targets (keys.map C.deriveKxPublic) .request ++ payload ∧
      ∀ j (hj : j < targets.length) (old : Bytes), old.length = 2252 →
        ∃ key sec delay, keys[j]? = some key ∧ (packetSecrets C eph (keys.map C.deriveKxPublic))[j]? = some sec ∧
          C.deriveKxSharedSecret (kxPublicOf
            (arriving C (packetSecrets C eph (keys.map C.deriveKxPublic)) targets packet' j)) key = sec ∧
          peel C old (arriving C (packetSecrets C eph (keys.map C.deriveKxPublic)) targets packet' j) sec =
            .ok (arriving C (packetSecrets C eph (keys.map C.deriveKxPublic)) targets packet' (j + 1),
              .ok (.forwardTo targets[j] delay)) := by
  have hp' : ValidPath (keys.map C.deriveKxPublic) targets :=
    ⟨by rw [List.length_map]; exact hp.length, by rw [List.length_map]; exact hp.hops, hp.target, hp.onePeerId⟩
  obtain ⟨packet', delay, rng', delays, h1, h2, -, h3⟩ := request_packet_travels hC rng packet hl keys targets hp
  obtain ⟨eph, filler, rng'', he, hf, h4⟩ := request_packet_bytes hC hl rng hp'
  rw [h4] at h1
  simp only [Except.ok.injEq, Prod.mk.injEq] at h1
  obtain ⟨rfl, rfl, rfl⟩ := h1
  refine ⟨eph, filler, _, _, _, _, he, hf, h4, rfl, ?_⟩
  intro j hj old hold
  refine arriving_handed_on hC h3 h2 (C.scalarOfClamped eph) ?_ hj hp.length old hold
  unfold requestPacketBytes headerBytes
  dsimp only
  rw [List.append_assoc, List.append_assoc, List.take_append_of_le_length (by rw [hC.mulBase_length]),
    List.take_of_length_le (by rw [hC.mulBase_length])]

/-! ### Concrete cases -/

/-- The keys of the hops of a path of four differ. -/
theorem keys4 : (actionKeys toyCrypto (List.replicate 32 3) (List.replicate 4 [7, 1])).Nodup ∧
    ((packetSecrets toyCrypto (List.replicate 32 3) (List.replicate 4 [7, 1])).map toyCrypto.macKey).Nodup := by
  decide +kernel

/-- The second of four hops, which forwards to a peer: 50 bytes are meant for it, the other 90 are random. -/
example (R : Bytes) (hR : R.length = 90) := header_hides toyLaws path4 (kind := .request) (by rintro id (h | h) <;> cases h)
  (filler := List.replicate 52 1) (by decide) (payload := List.replicate 2064 0) keys4.1 (j := 1) (by decide) toyCrypto.chacha (R := R) hR

/-- The last of four hops. -/
example (R : Bytes) (hR : R.length = 138) := header_hides toyLaws path4 (kind := .request) (by rintro id (h | h) <;> cases h)
  (filler := List.replicate 52 1) (by decide) (payload := List.replicate 2064 0) keys4.1 (j := 3) (by decide) toyCrypto.chacha (R := R) hR

theorem path2 : ValidPath (List.replicate 2 [7, 1]) [.peerId (List.replicate 32 9)] where
  length := rfl
  hops := by decide
  target := by
    intro t ht
    simp only [List.mem_cons, List.not_mem_nil, or_false] at ht
    rcases ht with rfl <;> simp
  onePeerId := by decide

/-- The first of two hops on the way of a request, and the second of four on the way of a reply. -/
example := position_hidden toyLaws path2 (kind₁ := .request) (by rintro id (h | h) <;> cases h)
  (eph₁ := List.replicate 32 9) (filler₁ := List.replicate 88 1) (by decide) (i := 0) (by decide) path4
  (eph₂ := List.replicate 32 3) (kind₂ := .reply (List.replicate 16 1)) (by
    rintro id (h | h)
    · cases h; rfl
    · cases h) (j := 1) (by decide) keys4.1 keys4.2 (sec := List.replicate 32 63) (by decide +kernel) (by decide +kernel)
  (by decide +kernel) (by decide) (payload₁ := []) (payload₂ := [])

/-- A request over four hops. -/
example := request_handed_on toyLaws (fun n => n) (packet := List.replicate 2252 5) List.length_replicate path4

end Mixnet.Props
