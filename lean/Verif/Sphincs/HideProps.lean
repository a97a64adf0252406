import Verif.Sphincs.Hide
import Verif.Sphincs.Props

/-!
The property C121: SPHINCS+ signatures hide the secret values that they do not open.  The hash function is a parameter of the model, so "hide" can be stated exactly: for every choice of other secret values
there is a hash function under which these are the secret values and every key and signature is the same, byte for byte.
-/

namespace Verif.Sphincs
open Verif Spec

/-- C121.  Take any secret key whose PRF key is not the public seed, any values `w` for the chain values of all one-time keys below the digit that they sign, any values `u` for the secrets of FORS leaves, and
any set `O` of leaves.  There is a hash function that differs from `H` at most at the strings of `Replaced`, under which all one-time keys have the chain values `w` and all leaves outside `O` the
secrets `u`, and under which key generation and every signature that opens leaves of `O` only are the same as under `H` (sphincs/sign.c:50-74, sphincs/sign.c:96-163). -/
theorem spx_secrets_hidden {H : Bytes → Nat → Bytes} (hH : ∀ m n, (H m n).length = n) {sk : Bytes} (hsk : sk.length = 128) (hne : slice sk 32 32 ≠ slice sk 64 32)
    {w u : Loc → Nat → Nat → Bytes} (hw : ∀ l i k, (w l i k).length = 32) (hu : ∀ l t j, (u l t j).length = 32) (O : Loc → Nat → Nat → Prop) :
    let s : Seeds := ⟨slice sk 64 32, sk.take 32⟩
    ∃ H' : Bytes → Nat → Bytes, (∀ m n, (H' m n).length = n) ∧
      (∀ x n, H' x n ≠ H x n → ∃ v, Replaced H s w u O x v) ∧
      (∀ l : Loc, l.In → ∀ i, i < 67 → ∀ k, k < depth H s l i → chain H' s.pub (wotsAdrs l i) (wotsSk H' s l i) 0 k = w l i k) ∧
      (∀ l : Loc, l.In → l.layer = 0 → ∀ t, t < 35 → ∀ j, j < 512 → ¬O l t j → forsSk H' s l t j = u l t j) ∧
      (∀ pk0 sk0 : Bytes, pk0.length = 64 → sk0.length = 128 → seedKeypair H' pk0 sk0 (sk.take 96) = seedKeypair H pk0 sk0 (sk.take 96)) ∧
      (∀ (sig : Bytes) (siglen : Nat) (m : Bytes) (R : Rng), 49856 ≤ sig.length → m ≠ [] →
        (∀ opt, R.draw R.log.length 32 = some opt → ∀ l t j, opens H (slice sk 32 32) (sk.drop 64) opt m l t j → O l t j) →
        signature H' sig siglen m sk R = signature H sig siglen m sk R) := by
  intro s
  have h1 : ∀ x v, Replaced H s w u O x v → patched H s w u O x 32 = v := fun x v => patched_of
  have h2 : ∀ x n, (∀ v, ¬Replaced H s w u O x v) → patched H s w u O x n = H x n := fun x n h => patched_not h n
  have lp : s.pub.length = 32 := length_slice (by omega)
  have ls : s.sec.length = 32 := by show (sk.take 32).length = 32; rw [List.length_take, hsk]; rfl
  have lv : ∀ {x v}, Replaced H s w u O x v → v.length = 32 := by
    intro x v h
    cases h with
    | start => exact hw _ _ _
    | step => exact hw _ _ _
    | last => exact length_chain hH (length_prf hH _ _) _ _
    | fors => exact hu _ _ _
    | leaf => exact length_T hH _ _ _
  have hl : ∀ m n, (patched H s w u O m n).length = n := by
    intro m n
    by_cases c : n = 32 ∧ ∃ v, Replaced H s w u O m v
    · obtain ⟨rfl, v, hv⟩ := c
      rw [patched_of hv, lv hv]
    · rw [patched, dif_neg c, hH]
  refine ⟨patched H s w u O, hl, ?_, fun l hl i hi => chain_new h1 hl hi, fun l hl h0 t ht j hj ho => forsSk_new h1 hl h0 ht hj ho, ?_, ?_⟩
  · intro x n hx
    by_contra c
    exact hx (h2 x n fun v hv => c ⟨v, hv⟩)
  · intro pk0 sk0 hpk hsk0
    have l96 : (sk.take 96).length = 96 := by rw [List.length_take, hsk]; rfl
    have e1 : (sk.take 96).drop 64 = s.pub := by rw [List.drop_take]; rfl
    have e2 : (sk.take 96).take 32 = s.sec := by rw [List.take_take]; rfl
    have e3 : publicKey (patched H s w u O) s = publicKey H s := by
      unfold publicKey
      rw [xmssRoot_same h1 h2 (by decide) (by decide)]
    rw [spx_keygen_spec hl pk0 sk0 _ hpk hsk0 l96, spx_keygen_spec hH pk0 sk0 _ hpk hsk0 l96, e1, e2, e3]
  · intro sig siglen m R hsig hm ho
    rw [spx_sign_spec hl sig m sk siglen R hsig hsk, spx_sign_spec hH sig m sk siglen R hsig hsk]
    cases hd : R.draw R.log.length 32 with
    | none => rfl
    | some opt =>
      have e := sign_same h1 h2 lp ls hw hu (skPrf := slice sk 32 32) (pk := sk.drop 64) (opt := opt) (m := m) (length_slice (by omega)) (by rw [List.length_drop, hsk]) hH hne hm (ho opt hd)
      simp only
      rw [e]

/-- C121: something is hidden in every one-time key: one of its 67 chains is opened above its start, because of the checksum (sphincs/wots.c:66-88). -/
theorem spx_depth_pos (H : Bytes → Nat → Bytes) (s : Seeds) (l : Loc) : ∃ i, i < 67 ∧ 0 < depth H s l i := by
  by_contra c
  push Not at c
  have z : ∀ i, i < 67 → digit (signed H s l) i = 0 := fun i hi => Nat.le_zero.1 (c i hi)
  have e : checksum (signed H s l) = 960 := by
    unfold checksum
    have : ((List.range 64).map fun i => 15 - msgDigit (signed H s l) i) = (List.range 64).map fun _ => 15 := by
      refine List.map_congr_left fun i hi => ?_
      have hi := List.mem_range.1 hi
      have := z i (by omega)
      rw [digit, if_pos hi] at this
      rw [this]
    rw [this]
    rfl
  have := z 64 (by decide)
  rw [digit, if_neg (by decide), e] at this
  exact absurd this (by decide)

/-- With the code's hash function and a secret key of the right form the hypotheses hold; the set `O` is that of the leaves that the signature of one message opens. -/
example : ∃ sk : Bytes, sk.length = 128 ∧ slice sk 32 32 ≠ slice sk 64 32 ∧ ∃ (w u : Loc → Nat → Nat → Bytes) (O : Loc → Nat → Nat → Prop) (R : Rng), (∀ l i k, (w l i k).length = 32) ∧
    (∀ l t j, (u l t j).length = 32) ∧ (∀ opt, R.draw R.log.length 32 = some opt → ∀ l t j, opens shake256F (slice sk 32 32) (sk.drop 64) opt [2] l t j → O l t j) ∧ R.draw R.log.length 32 ≠ none ∧
    ∃ l t j, Loc.In l ∧ l.layer = 0 ∧ t < 35 ∧ j < 512 ∧ ¬O l t j := by
  obtain ⟨sk, hl, hn⟩ : ∃ sk : Bytes, sk.length = 128 ∧ slice sk 32 32 ≠ slice sk 64 32 := ⟨List.replicate 64 1 ++ List.replicate 64 0, by decide +kernel, by decide +kernel⟩
  obtain ⟨o, ho⟩ : ∃ o : Bytes, o.length = 32 := ⟨List.replicate 32 5, List.length_replicate⟩
  obtain ⟨R, hR⟩ : ∃ R : Rng, R.draw R.log.length 32 = some o :=
    ⟨⟨fun _ n => if n = 32 then some o else none, fun i n b h => (by
      by_cases hn : n = 32
      · rw [if_pos hn] at h; cases h; rw [hn]; exact ho
      · rw [if_neg hn] at h; cases h), []⟩, rfl⟩
  refine ⟨sk, hl, hn, fun _ _ _ => List.replicate 32 7, fun _ _ _ => List.replicate 32 8, opens shake256F (slice sk 32 32) (sk.drop 64) o [2], R,
    fun _ _ _ => List.length_replicate, fun _ _ _ => List.length_replicate, ?_, by rw [hR]; exact Option.some_ne_none _, ?_⟩
  · intro opt h
    rw [hR] at h
    cases h
    exact fun _ _ _ h => h
  · refine ⟨⟨0, 0, 0⟩, 0, if forsIndex (mdOf (digest shake256F (shake256F (slice sk 32 32 ++ o ++ [2]) 32) (sk.drop 64) [2])) 0 = 0 then 1 else 0,
      ⟨by decide, by decide, by decide⟩, rfl, by decide, by split <;> decide, ?_⟩
    rintro ⟨-, -, h⟩
    split at h <;> omega

end Verif.Sphincs
