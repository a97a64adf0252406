import Verif.Real.RepeatProps
import Verif.Ed25519.ForgeProps
import Verif.Dilithium.Mask

/-!
The property C120: what signatures give away when the parts of the composite secret key do not belong together (the code never checks that they do).
-/

namespace Verif.Real
open Verif Verif.Hybrid Dilithium
open Verif.Ed25519 (smul_B_iff smul_mod length_encode decodes_encode)
open Verif.Ed25519.Spec (scalar hashL leVal leBytes L encode B publicKey)

/-- The parts of a full-mode answer: what stands at offset 2 and before the SPHINCS+ signature. -/
theorem full_parts {sk : Bytes} {W : World} {qs : List Query} (h : Session sk W qs) {m sig : Bytes} (hq : .full m sig ∈ qs) :
    slice sig 2 64 = Ed25519.Spec.sign (sk.take 32) ((sk.drop 32).take 32) m ∧ ∃ k, Spec.Signs S128 S256 (skDil sk) m k (slice sig (66 + m.length) 2420) := by
  have ls := session_key h (fun e => by rw [e] at hq; cases hq)
  obtain ⟨h1, h2, opt, k, dil, hd, rfl⟩ := session_answers isShake128_S128 isShake256_S256 h _ hq
  have ld : (skDil sk).length = 2560 := by rw [skDil, List.length_take, List.length_drop, ls]; rfl
  have l2 := dilSigned_length isShake128_S128 isShake256_S256 ld hd
  have l1 := Ed25519.length_specSign (sk.take 32) ((sk.drop 32).take 32) m
  have l3 := Sphincs.length_sign hS256 ⟨slice (skSpx sk) 64 32, (skSpx sk).take 32⟩ (slice (skSpx sk) 32 32) ((skSpx sk).drop 64) opt m
  obtain ⟨-, -, -, -, w5, -, w7⟩ := wire_full_slices (msg := m) l1 l2 l3 h2
  exact ⟨w7, k, by rw [w5]; exact hd⟩

/-- C120, Ed25519: two composite secret keys with the same first 32 bytes but different copies of the Ed25519 public key (bytes 32 to 63) give, for one message, signatures with the same R and with
S - S' = (h - h') a modulo L, where h and h' are the hashes over R, the two copies and the message.  So everybody who sees the two signatures and the copies computes the secret scalar a modulo L
whenever h and h' differ (tweetnacl/tweetnacl.c:700-755, hybrid-dilithium-sphincs/hybrid.c:259-344). -/
theorem changed_copy_reveals_scalar {sk sk' : Bytes} {W V : World} {qs qs' : List Query} (h : Session sk W qs) (h' : Session sk' V qs') {m sig sig' : Bytes}
    (hq : .full m sig ∈ qs) (hq' : .full m sig' ∈ qs') (hs : sk.take 32 = sk'.take 32) :
    let hash := (hashL (slice sig 2 32 ++ slice sk 32 32 ++ m) : ZMod L)
    let hash' := (hashL (slice sig 2 32 ++ slice sk' 32 32 ++ m) : ZMod L)
    let S := (leVal (slice sig 34 32) : ZMod L)
    let S' := (leVal (slice sig' 34 32) : ZMod L)
    slice sig 2 32 = slice sig' 2 32 ∧ S - S' = (hash - hash') * scalar (sk.take 32) ∧ (hash ≠ hash' → (scalar (sk.take 32) : ZMod L) = (S - S') / (hash - hash')) := by
  intro hash hash' S S'
  have key : ∀ {sk sig : Bytes} {W : World} {qs : List Query}, Session sk W qs → .full m sig ∈ qs → slice sig 2 32 = encode (hashL ((Ed25519.Spec.sha512 (sk.take 32)).drop 32 ++ m) • B) ∧
      (leVal (slice sig 34 32) : ZMod L) = hashL ((Ed25519.Spec.sha512 (sk.take 32)).drop 32 ++ m) + hashL (slice sig 2 32 ++ slice sk 32 32 ++ m) * scalar (sk.take 32) := by
    intro sk sig W qs h hq
    have e := (full_parts h hq).1
    obtain ⟨r, hr⟩ : ∃ r, r = hashL ((Ed25519.Spec.sha512 (sk.take 32)).drop 32 ++ m) := ⟨_, rfl⟩
    have e1 : slice sig 2 32 = encode (r • B) := by
      have := congrArg (List.take 32) e
      rw [slice, List.take_take, Nat.min_eq_left (by omega), ← slice, Ed25519.Spec.sign] at this
      rw [List.take_left' (length_encode _), ← hr] at this
      exact this
    have e2 : slice sig 34 32 = leBytes 32 ((r + hashL (encode (r • B) ++ slice sk 32 32 ++ m) * scalar (sk.take 32)) % L) := by
      have := congrArg (List.drop 32) e
      rw [slice, List.drop_take, List.drop_drop, ← slice, Ed25519.Spec.sign] at this
      rw [List.drop_left' (length_encode _), ← hr] at this
      exact this
    rw [← hr]
    refine ⟨e1, ?_⟩
    rw [e2, Ed25519.leVal_leBytes, Nat.mod_eq_of_lt (Nat.lt_trans (Nat.mod_lt _ (by decide +kernel)) (by decide +kernel)), ZMod.natCast_mod, e1]
    push_cast
    rfl
  obtain ⟨a1, a2⟩ := key h hq
  obtain ⟨b1, b2⟩ := key h' hq'
  rw [← hs] at b1 b2
  have hR : slice sig 2 32 = slice sig' 2 32 := a1.trans b1.symm
  rw [← hR] at b2
  change S = _ + hash * _ at a2
  change S' = _ + hash' * _ at b2
  have e : S - S' = (hash - hash') * scalar (sk.take 32) := by rw [a2, b2]; ring
  exact ⟨hR, e, fun hne => by rw [eq_div_iff (sub_ne_zero.2 hne), e]; ring⟩

/-- C120, consequence: with the scalar modulo L everybody makes valid Ed25519 signatures of every message, without the seed (tweetnacl/tweetnacl.c:772-819). -/
theorem scalar_suffices {seed : Bytes} {a : Nat} (ha : (a : ZMod L) = scalar seed) (r : Nat) (m : Bytes) :
    Ed25519.Spec.Valid (publicKey seed) m (encode (r • B) ++ leBytes 32 ((r + hashL (encode (r • B) ++ publicKey seed ++ m) * a) % L)) := by
  refine ⟨scalar seed • B, decodes_encode _, ?_⟩
  rw [List.take_left' (length_encode _), List.drop_left' (length_encode _), Ed25519.leVal_leBytes,
    Nat.mod_eq_of_lt (Nat.lt_trans (Nat.mod_lt _ (by decide +kernel)) (by decide +kernel)), smul_mod]
  generalize hashL (encode (r • B) ++ publicKey seed ++ m) = x
  refine congrArg encode ?_
  rw [eq_sub_iff_add_eq, ← mul_smul, ← add_smul, smul_B_iff]
  push_cast
  rw [ha]

/-- C120, Dilithium: two composite secret keys that share the mask key, the hash of the public key and the vector s1 (bytes 96 to 575), but not the seed of the matrix, s2 or t0, use the same masking
vectors for one message.  If both signatures come from the same attempt, the difference of their responses is the difference of the challenges times s1, with everything but s1 in the signatures
(dilithium2/sign.c:92-219, hybrid-dilithium-sphincs/hybrid.c:259-344). -/
theorem changed_matrix_reveals_s1 {sk sk' : Bytes} {W V : World} {qs qs' : List Query} (h : Session sk W qs) (h' : Session sk' V qs') {m sig sig' : Bytes}
    (hq : .full m sig ∈ qs) (hq' : .full m sig' ∈ qs') (hs : slice sk 96 480 = slice sk' 96 480) :
    ∃ (k k' : Nat) (c c' : List Int),
      Spec.Signs S128 S256 (skDil sk) m k (slice sig (66 + m.length) 2420) ∧ Spec.Signs S128 S256 (skDil sk') m k' (slice sig' (66 + m.length) 2420) ∧
      Spec.IsBall S256 (slice (slice sig (66 + m.length) 2420) 0 32) c ∧ Spec.IsBall S256 (slice (slice sig' (66 + m.length) 2420) 0 32) c' ∧
      (k = k' → ∀ i, i < 4 → ∀ j, j < 256 →
        (Spec.co (Spec.at_ (Spec.zOfSig (slice sig (66 + m.length) 2420)) i) j - Spec.co (Spec.at_ (Spec.zOfSig (slice sig' (66 + m.length) 2420)) i) j) % Spec.q =
          (Spec.co (Spec.mul c (Spec.unpackAt 3 2 (slice sk (192 + i * 96) 96))) j - Spec.co (Spec.mul c' (Spec.unpackAt 3 2 (slice sk (192 + i * 96) 96))) j) % Spec.q) := by
  obtain ⟨-, k, hd⟩ := full_parts h hq
  obtain ⟨-, k', hd'⟩ := full_parts h' hq'
  obtain ⟨c, hc, e⟩ := signs_response hd
  obtain ⟨c', hc', e'⟩ := signs_response hd'
  have sl : ∀ {sk : Bytes} {o n : Nat}, o + n ≤ 512 → 32 ≤ o → slice (skDil sk) o n = slice (slice sk 96 480) (o - 32) n := by
    intro sk o n h1 h2
    unfold skDil slice
    rw [List.drop_take, List.take_take, List.drop_drop, List.drop_take, List.take_take, List.drop_drop, Nat.min_eq_left (by omega), Nat.min_eq_left (by omega), show 96 + (o - 32) = 64 + o by omega]
  refine ⟨k, k', c, c', hd, hd', hc, hc', ?_⟩
  rintro rfl i hi j hj
  have e0 : slice sk (192 + i * 96) 96 = slice (slice sk 96 480) (96 + i * 96) 96 := by
    unfold slice
    rw [List.drop_take, List.take_take, List.drop_drop, Nat.min_eq_left (by omega), show 96 + (96 + i * 96) = 192 + i * 96 by omega]
  have a := e i hi j hj
  have a' := e' i hi j hj
  rw [sl (by omega) (by omega), sl (by omega) (by omega), sl (by omega) (by omega), show 128 + i * 96 - 32 = 96 + i * 96 by omega] at a a'
  rw [← hs] at a'
  rw [e0, Int.sub_emod, a, a', ← Int.sub_emod]
  congr 1
  omega

/-- C120, SPHINCS+: here nothing is given away.  Composite secret keys with the same two seeds but any other key for the randomiser and any copy of the root (bytes 3968 to 3999 and 4032 to 4063) still
never make a one-time key sign two strings: where the places agree, the bytes agree (sphincs/sign.c:137-155). -/
theorem changed_root_reuses_nothing {sk sk' : Bytes} {W V : World} {qs qs' : List Query} (h : Session sk W qs) (h' : Session sk' V qs') {m m' sig sig' : Bytes}
    (hq : .full m sig ∈ qs) (hq' : .full m' sig' ∈ qs') (h1 : slice sk 3936 32 = slice sk' 3936 32) (h2 : slice sk 4000 32 = slice sk' 4000 32)
    {i : Nat} (hi : i ≤ 16) (he : spxIndex sk m sig / 16 ^ i = spxIndex sk' m' sig' / 16 ^ i) :
    (spxPart sig).drop (11232 + 2272 * i) = (spxPart sig').drop (11232 + 2272 * i) := by
  have e : spxSeeds sk = spxSeeds sk' := by
    have e1 : ∀ s : Bytes, slice (skSpx s) 64 32 = slice s 4000 32 := by
      intro s
      unfold skSpx slice
      rw [List.drop_take, List.take_take, List.drop_drop, Nat.min_eq_left (by omega)]
    have e2 : ∀ s : Bytes, (skSpx s).take 32 = slice s 3936 32 := by
      intro s
      unfold skSpx slice
      rw [List.take_take, Nat.min_eq_left (by omega)]
    unfold spxSeeds
    rw [e1, e1, e2, e2, h1, h2]
  have : place (spxIndex sk m sig) i = place (spxIndex sk' m' sig') i := by
    unfold place
    rw [Nat.pow_succ, ← Nat.div_div_eq_div_mul, ← Nat.div_div_eq_div_mul, he]
  rw [full_tail h hq (by omega), full_tail h' hq' (by omega), this, e]

/-- For the examples: a key pair of the model, and sessions with every key that differs from its secret key outside the Dilithium part. -/
theorem mismatch_demo : ∃ sk : Bytes, sk.length = 4064 ∧ ∀ sk' : Bytes, sk'.length = 4064 → skDil sk' = skDil sk → ∃ W sig, Session sk' W [.full [2] sig] := by
  obtain ⟨pkb, skb, sig, hk, k, dil, hd, -⟩ := Witness.keys_and_signature
  have hl := keysOf_parts isShake128_S128 isShake256_S256 Witness.length_seed160 hk
  refine ⟨skb, hl.2.1, fun sk' l' e => ?_⟩
  obtain ⟨W, h⟩ := session_exists (skb := sk') (mb := [2]) (opt := List.replicate 32 0) l' (by decide) (by decide) List.length_replicate ⟨k, dil, by rw [e]; exact hd, rfl⟩
  exact ⟨W, _, h⟩

/-- Changing one byte outside the Dilithium part leaves that part. -/
theorem skDil_set {sk : Bytes} {i : Nat} {b : Byte} (h : i < 64 ∨ 2624 ≤ i) : skDil (sk.set i b) = skDil sk := by
  unfold skDil
  refine List.ext_getElem? fun j => ?_
  rw [List.getElem?_take, List.getElem?_take, List.getElem?_drop, List.getElem?_drop]
  split
  · rw [List.getElem?_set_ne (by omega)]
  · rfl

/-- A key and the same key with byte 32, the first byte of the copy of the Ed25519 public key, changed: both sign, so the hypotheses of `changed_copy_reveals_scalar` and of
`changed_matrix_reveals_s1` hold with two different copies. -/
example : ∃ (sk sk' : Bytes) (W V : World) (sig sig' : Bytes), Session sk W [.full [2] sig] ∧ Session sk' V [.full [2] sig'] ∧ sk.take 32 = sk'.take 32 ∧
    slice sk 96 480 = slice sk' 96 480 ∧ sk.length = 4064 ∧ sk[32]? ≠ sk'[32]? := by
  obtain ⟨sk, l, h⟩ := mismatch_demo
  obtain ⟨W, sig, h1⟩ := h sk l rfl
  have hd := skDil_set (sk := sk) (i := 32) (b := sk[32]! + 1) (by omega)
  obtain ⟨V, sig', h2⟩ := h (sk.set 32 (sk[32]! + 1)) (by rw [List.length_set]; exact l) hd
  refine ⟨sk, _, W, V, sig, sig', h1, h2, ?_, ?_, l, ?_⟩
  · rw [List.take_set_of_le (by omega)]
  · have := congrArg (fun x => slice x 32 480) hd
    unfold skDil slice at this
    simp only [List.drop_take, List.take_take, List.drop_drop] at this
    exact this.symm
  · rw [List.getElem?_set_self (by omega), List.getElem?_eq_getElem (by omega), getElem!_pos sk 32 (by omega)]
    generalize sk[32] = b
    intro e
    have := congrArg BitVec.toNat (Option.some.inj e)
    rw [BitVec.toNat_add] at this
    have := b.isLt
    simp at *

/-- The scalar itself meets the hypothesis of `scalar_suffices`, and so does the scalar plus L. -/
example (seed : Bytes) : ((scalar seed + L : Nat) : ZMod L) = scalar seed := by
  rw [Nat.cast_add, ZMod.natCast_self, add_zero]

/-- Among seventeen keys that differ only in the first byte of the key for the randomiser, two meet the hypotheses of `changed_root_reuses_nothing` in layer 16. -/
example : ∃ (sk : Bytes) (a b : Byte) (W V : World) (sig sig' : Bytes), a ≠ b ∧ sk.length = 4064 ∧ Session (sk.set 3968 a) W [.full [2] sig] ∧ Session (sk.set 3968 b) V [.full [2] sig'] ∧
    slice (sk.set 3968 a) 3936 32 = slice (sk.set 3968 b) 3936 32 ∧ slice (sk.set 3968 a) 4000 32 = slice (sk.set 3968 b) 4000 32 ∧
    spxIndex (sk.set 3968 a) [2] sig / 16 ^ 16 = spxIndex (sk.set 3968 b) [2] sig' / 16 ^ 16 := by
  obtain ⟨sk, l, h⟩ := mismatch_demo
  choose W sig h1 using fun a : Fin 17 => h (sk.set 3968 (BitVec.ofNat 8 a.val)) (by rw [List.length_set]; exact l) (skDil_set (by omega))
  obtain ⟨a, b, hab, e⟩ := Fintype.exists_ne_map_eq_of_card_lt
    (fun a : Fin 17 => (⟨_, spxIndex_lt (sk.set 3968 (BitVec.ofNat 8 a.val)) [2] (sig a) (i := 16) (Nat.le_refl _)⟩ : Fin (16 ^ (17 - 16)))) (by simp)
  have sl : ∀ (x : Byte) (o : Nat), o + 32 ≤ 3968 ∨ 3968 < o → slice (sk.set 3968 x) o 32 = slice sk o 32 := by
    intro x o ho
    unfold slice
    refine List.ext_getElem? fun j => ?_
    rw [List.getElem?_take, List.getElem?_take, List.getElem?_drop, List.getElem?_drop]
    split
    · rw [List.getElem?_set_ne (by omega)]
    · rfl
  refine ⟨sk, _, _, _, _, _, _, ?_, l, h1 a, h1 b, ?_, ?_, congrArg Fin.val e⟩
  · intro h
    have h := congrArg BitVec.toNat h
    rw [BitVec.toNat_ofNat, BitVec.toNat_ofNat] at h
    omega
  · rw [sl _ _ (by omega), sl _ _ (by omega)]
  · rw [sl _ _ (by omega), sl _ _ (by omega)]

end Verif.Real
