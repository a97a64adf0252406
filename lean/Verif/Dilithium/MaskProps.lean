import Verif.Dilithium.Mask
import Verif.Witness.HybridC

/-!
The property C122: the masks of different Dilithium signatures.
-/

namespace Verif.Dilithium
open Verif Spec

variable {H128 H256 : Bytes → Nat → Bytes}

/-- What the seed of the masks is hashed from when `m` is signed with the secret key `sk`: the mask key (bytes 32 to 63), 32 zero bytes and the hash of bytes 64 to 127 and the message
(compare dilithium2/sign.c:130-141). -/
def maskSeedInput (H256 : Bytes → Nat → Bytes) (sk m : Bytes) : Bytes := slice sk 32 32 ++ List.replicate 32 0 ++ H256 (slice sk 64 64 ++ m) 64

/-- The string that masking polynomial `i` of attempt `k` is made from: the seed of the masks and a 16-bit number (compare dilithium2/sign.c:149-151, dilithium2/polyvec.c:46-52, dilithium2/symmetric-shake.c:17-26). -/
def maskString (H256 : Bytes → Nat → Bytes) (sk m : Bytes) (k i : Nat) : Bytes := H256 (maskSeedInput H256 sk m) 64 ++ le16 (4 * k + i)

/-- C122.  Two signing runs with one secret key, of any messages: (1) the response in the bytes of a signature is the challenge times s1 plus the masks made from the strings of its last attempt; (2) no
string of one run, rejected attempts included, is a string of the other, unless it is the same polynomial of the same attempt and either the messages are equal or SHAKE256 collides at two inputs that the
messages determine; (3) if two masks of the released signatures did agree, the difference of the responses would be the difference of the products of the challenges with parts of s1
(dilithium2/sign.c:92-219). -/
theorem dil_masks_of_two_runs (h1 : IsShake128 H128) (h2 : IsShake256 H256) {fuel fuel' : Nat} {sk m m' sig0 sig0' sig sig' : Bytes} {n0 n0' n n' : Nat} {r r' : Int}
    (hsk : sk.length = 2560) (hs : sig0.length = 2420) (hs' : sig0'.length = 2420)
    (h : signature fuel sig0 n0 m sk = .ok (r, sig, n)) (h' : signature fuel' sig0' n0' m' sk = .ok (r', sig', n')) :
    ∃ (k k' : Nat) (c c' : List Int),
      Signs H128 H256 sk m k sig ∧ Signs H128 H256 sk m' k' sig' ∧ IsBall H256 (slice sig 0 32) c ∧ IsBall H256 (slice sig' 0 32) c' ∧
      (∀ i, i < 4 → ∀ j, j < 256 → co (at_ (zOfSig sig) i) j % q =
        (co (mul c (unpackAt 3 2 (slice sk (128 + i * 96) 96))) j + co (unpackAt 18 131072 (H256 (maskString H256 sk m k i) 576)) j) % q) ∧
      (∀ a a' i i', a ≤ k → a' ≤ k' → i < 4 → i' < 4 → maskString H256 sk m a i = maskString H256 sk m' a' i' →
        a = a' ∧ i = i' ∧ (m = m' ∨ (slice sk 64 64 ++ m ≠ slice sk 64 64 ++ m' ∧ H256 (slice sk 64 64 ++ m) 64 = H256 (slice sk 64 64 ++ m') 64) ∨
          (maskSeedInput H256 sk m ≠ maskSeedInput H256 sk m' ∧ H256 (maskSeedInput H256 sk m) 64 = H256 (maskSeedInput H256 sk m') 64))) ∧
      (∀ i i', i < 4 → i' < 4 → H256 (maskString H256 sk m k i) 576 = H256 (maskString H256 sk m' k' i') 576 → ∀ j, j < 256 →
        (co (at_ (zOfSig sig) i) j - co (at_ (zOfSig sig') i') j) % q =
          (co (mul c (unpackAt 3 2 (slice sk (128 + i * 96) 96))) j - co (mul c' (unpackAt 3 2 (slice sk (128 + i' * 96) 96))) j) % q) := by
  obtain rfl := h1.eq
  obtain rfl := h2.eq
  obtain ⟨_, _, k, hk⟩ := signature_sound hsk hs h
  obtain ⟨_, _, k', hk'⟩ := signature_sound hsk hs' h'
  have hb := signs_bound hk
  have hb' := signs_bound hk'
  obtain ⟨c, e2, e3⟩ := signs_response hk
  obtain ⟨c', e2', e3'⟩ := signs_response hk'
  refine ⟨k, k', c, c', hk, hk', e2, e2', e3, ?_, ?_⟩
  · intro a a' i i' ha ha' hi hi' e
    unfold maskString at e
    obtain ⟨f1, f2⟩ := List.append_inj' e (by rfl)
    have := le16_inj (by omega) (by omega) f2
    refine ⟨by omega, by omega, ?_⟩
    by_cases c1 : m = m'
    · exact .inl c1
    · by_cases c2 : S256 (slice sk 64 64 ++ m) 64 = S256 (slice sk 64 64 ++ m') 64
      · exact .inr (.inl ⟨fun h => c1 (List.append_cancel_left h), c2⟩)
      · exact .inr (.inr ⟨fun h => c2 (List.append_cancel_left h), f1⟩)
  · intro i i' hi hi' e j hj
    have a1 := e3 i hi j hj
    have a2 := e3' i' hi' j hj
    unfold maskString maskSeedInput at e
    unfold mask at a1 a2
    rw [e] at a1
    rw [Int.sub_emod, a1, a2, ← Int.sub_emod]
    congr 1
    omega

/-- The key of one seed signs two different messages, so the hypotheses hold with m ≠ m'. -/
example : ∃ f sk m m' sig sig', m ≠ m' ∧ sk.length = 2560 ∧ signature f (List.replicate 2420 0) 0 m sk = .ok (0, sig, 2420) ∧ signature f (List.replicate 2420 1) 5 m' sk = .ok (0, sig', 2420) := by
  obtain ⟨pk, sk, sig, hk, hs⟩ := Witness.dilithium_run
  obtain ⟨pk', sk', sig', hk', hs'⟩ := Witness.RunC.run.signs
  have hl : (7 :: List.replicate 31 0 : Bytes).length = 32 := by rw [List.length_cons, List.length_replicate]
  obtain ⟨-, rfl⟩ := Witness.keyGen_unique hl hk hk'
  obtain ⟨F1, h1⟩ := (dil_keygen_spec (pk := List.replicate 1312 0) (sk := List.replicate 2560 0) isShake128_S128 isShake256_S256 List.length_replicate List.length_replicate hl).2.2 _ _ hk
  have lsk := ((dil_keygen_spec (pk := List.replicate 1312 0) (sk := List.replicate 2560 0) isShake128_S128 isShake256_S256 List.length_replicate List.length_replicate hl).2.1 _ _ _ _ (h1 F1 (Nat.le_refl _))).2.2.2
  obtain ⟨F3, h3⟩ := (dil_sign_spec (sig := List.replicate 2420 0) (n := 0) isShake128_S128 isShake256_S256 lsk List.length_replicate).2.2 _ _ hs
  obtain ⟨F4, h4⟩ := (dil_sign_spec (sig := List.replicate 2420 1) (n := 5) isShake128_S128 isShake256_S256 lsk List.length_replicate).2.2 _ _ hs'
  refine ⟨F3 + F4, sk, _, _, sig, sig', ?_, lsk, h3 _ (by omega), h4 _ (by omega)⟩
  intro e
  have := congrArg List.length e
  rw [Witness.hash_length] at this
  cases this

end Verif.Dilithium
