import Verif.Ed25519.PrimeL
import Verif.Ed25519.Props
import Mathlib.GroupTheory.OrderOfElement

/-!
The property C98: under a generated key the accepted Ed25519 signatures are those that signing with some nonce gives; what equal nonces mean.
-/

namespace Verif.Ed25519
open Verif Spec

/-- The order of the base point is prime (compare tweetnacl/tweetnacl.c:692). -/
instance : Fact L.Prime := ⟨prime_L⟩

/-- C98: the constant L of the code is the exact order of the base point. -/
theorem ed_order : addOrderOf B = L := by
  refine addOrderOf_eq_prime L_smul_B fun h => ?_
  have hx : B.x = (0 : Point d).x := congrArg Point.x h
  rw [Point.zero_x] at hx
  exact natCast_ne_zero (n := Bx) (by decide +kernel) hx

theorem smul_B_iff {a b : Nat} : a • B = b • B ↔ (a : ZMod L) = b := by
  rw [nsmul_eq_nsmul_iff_modEq, ed_order, ZMod.natCast_eq_natCast_iff]

theorem encode_inj {P Q : Point d} (h : encode P = encode Q) : P = Q := decodes_unique (decodes_encode P) (h ▸ decodes_encode Q)

theorem smul_mod (n : Nat) : (n % L) • B = n • B := smul_B_iff.2 (ZMod.natCast_mod n L)

/-- The acceptance equation for a public key a B, with the point R as multiple of B. -/
theorem equation_iff (a s h : Nat) (R : Bytes) : R = encode (s • B - h • (a • B)) ↔ ∃ r, r < L ∧ R = encode (r • B) ∧ (s : ZMod L) = r + h * a := by
  have hL : 0 < L := by decide +kernel
  constructor
  · rintro rfl
    obtain ⟨r, hr⟩ : ∃ r : Nat, (r : ZMod L) = s - h * a := ⟨_, ZMod.natCast_zmod_val _⟩
    refine ⟨r % L, Nat.mod_lt _ hL, ?_, ?_⟩
    · rw [smul_mod]
      refine congrArg encode ?_
      rw [sub_eq_iff_eq_add, ← mul_smul, ← add_smul, smul_B_iff]
      push_cast
      rw [hr]
      ring
    · rw [ZMod.natCast_mod, hr]
      ring
  · rintro ⟨r, -, rfl, hs⟩
    refine congrArg encode ?_
    rw [eq_sub_iff_add_eq, ← mul_smul, ← add_smul, smul_B_iff]
    push_cast
    exact hs.symm

theorem accepted_iff {m sm pk0 sk0 pk sk seed : Bytes} {l n : Nat} (h1 : pk0.length = 32) (h2 : sk0.length = 64) (h3 : seed.length = 32)
    (hk : keypairSeed pk0 sk0 seed = .ok (0, pk, sk)) (hn : n < 2 ^ 31) (hm : n ≤ m.length) (hs : n ≤ sm.length) :
    pk = publicKey seed ∧ ((∃ out len, signOpen m l sm n pk = .ok (0, out, len)) ↔ 64 ≤ n ∧ ∃ r, r < L ∧ sm.take 32 = encode (r • B) ∧
      (leVal ((sm.drop 32).take 32) : ZMod L) = r + hashL (sm.take 32 ++ pk ++ (sm.drop 64).take (n - 64)) * scalar seed) := by
  rw [keypairSeed_ok h1 h2 h3] at hk
  simp only [Except.ok.injEq, Prod.mk.injEq, true_and] at hk
  obtain ⟨rfl, -⟩ := hk
  refine ⟨rfl, ?_⟩
  obtain ⟨c, out, len, e, -, hc⟩ := ed_open_iff (m := m) (sm := sm) (l := l) (n := n) (length_encode (scalar seed • B)) hn hm hs
  change signOpen m l sm n (publicKey seed) = _ at e
  change c = 0 ↔ 64 ≤ n ∧ ∃ A, Decodes (publicKey seed) A ∧ sm.take 32 = encode (leVal ((sm.drop 32).take 32) • B -
    hashL (sm.take 32 ++ publicKey seed ++ (sm.drop 64).take (n - 64)) • A) at hc
  have h0 : (∃ out len, signOpen m l sm n (publicKey seed) = .ok (0, out, len)) ↔ c = 0 := by
    rw [e]
    constructor
    · rintro ⟨_, _, h⟩
      simp only [Except.ok.injEq, Prod.mk.injEq] at h
      exact h.1
    · rintro rfl
      exact ⟨_, _, rfl⟩
  rw [h0, hc]
  refine and_congr_right fun _ => ?_
  rw [← equation_iff]
  constructor
  · rintro ⟨A, hA, h⟩
    rw [decodes_unique hA (decodes_encode _)] at h
    exact h
  · exact fun h => ⟨_, decodes_encode _, h⟩

/-- C98, acceptance: under a generated key, a signed message is accepted exactly when its first 32 bytes encode r B for some r < L and S = r + h a modulo L, where h is the hash
of R, public key and message and a the secret scalar: the accepted signatures are those which signing with some nonce r gives, up to multiples of L added to S. -/
theorem ed_accepted_iff {m sm pk0 sk0 pk sk seed : Bytes} {l n : Nat} (h1 : pk0.length = 32) (h2 : sk0.length = 64) (h3 : seed.length = 32)
    (hk : keypairSeed pk0 sk0 seed = .ok (0, pk, sk)) (hn : n < 2 ^ 31) (hm : n ≤ m.length) (hs : n ≤ sm.length) :
    (∃ out len, signOpen m l sm n pk = .ok (0, out, len)) ↔ 64 ≤ n ∧ ∃ r, r < L ∧ sm.take 32 = encode (r • B) ∧
      leVal ((sm.drop 32).take 32) % L = (r + hashL (sm.take 32 ++ pk ++ (sm.drop 64).take (n - 64)) * scalar seed) % L := by
  rw [(accepted_iff (l := l) h1 h2 h3 hk hn hm hs).2]
  refine and_congr_right fun _ => exists_congr fun r => and_congr_right fun _ => and_congr_right fun _ => ?_
  have := ZMod.natCast_eq_natCast_iff (leVal ((sm.drop 32).take 32)) (r + hashL (sm.take 32 ++ pk ++ (sm.drop 64).take (n - 64)) * scalar seed) L
  push_cast at this
  exact this

/-- C98, equal nonces: two signed messages that are accepted under a generated key and have the same first 32 bytes satisfy S - S' = (h - h') a modulo L.  So if the hash values
differ modulo L, everybody can compute the secret scalar modulo L; if they are equal (as for one message), the two values S are equal modulo L. -/
theorem ed_nonce_reuse {m m' sm sm' pk0 sk0 pk sk seed out out' : Bytes} {l n l' n' len len' : Nat} (h1 : pk0.length = 32) (h2 : sk0.length = 64) (h3 : seed.length = 32)
    (hk : keypairSeed pk0 sk0 seed = .ok (0, pk, sk)) (hn : n < 2 ^ 31) (hm : n ≤ m.length) (hs : n ≤ sm.length) (hn' : n' < 2 ^ 31) (hm' : n' ≤ m'.length) (hs' : n' ≤ sm'.length)
    (h : signOpen m l sm n pk = .ok (0, out, len)) (h' : signOpen m' l' sm' n' pk = .ok (0, out', len')) (hR : sm.take 32 = sm'.take 32) :
    let hash := (hashL (sm.take 32 ++ pk ++ (sm.drop 64).take (n - 64)) : ZMod L)
    let hash' := (hashL (sm.take 32 ++ pk ++ (sm'.drop 64).take (n' - 64)) : ZMod L)
    let S := (leVal ((sm.drop 32).take 32) : ZMod L)
    let S' := (leVal ((sm'.drop 32).take 32) : ZMod L)
    (hash ≠ hash' → (scalar seed : ZMod L) = (S - S') / (hash - hash')) ∧ (hash = hash' → S = S') := by
  intro hash hash' S S'
  obtain ⟨-, r, hr, e, es⟩ := (accepted_iff (l := l) h1 h2 h3 hk hn hm hs).2.1 ⟨_, _, h⟩
  obtain ⟨-, r', hr', e', es'⟩ := (accepted_iff (l := l') h1 h2 h3 hk hn' hm' hs').2.1 ⟨_, _, h'⟩
  have err : (r : ZMod L) = r' := smul_B_iff.1 (encode_inj (e.symm.trans (hR.trans e')))
  rw [← hR] at es'
  change S = r + hash * scalar seed at es
  change S' = r' + hash' * scalar seed at es'
  refine ⟨fun hne => ?_, fun heq => ?_⟩
  · rw [eq_div_iff (sub_ne_zero.2 hne), es, es', err]
    ring
  · rw [es, es', err, heq]

/-- C98, the nonces of the code: if two messages signed with one secret key get signatures with equal first 32 bytes, then the hashes from which the nonces are made, over the
secret prefix and the message, are equal modulo L. -/
theorem ed_sign_nonce {sm0 sm0' m m' sk sm sm' : Bytes} {l l' n n' : Nat} (hk : sk.length = 64) (hm : m.length < 2 ^ 63) (hm' : m'.length < 2 ^ 63)
    (hs : sm0.length = 64 + m.length) (hs' : sm0'.length = 64 + m'.length)
    (h : sign sm0 l m sk = .ok (0, sm, n)) (h' : sign sm0' l' m' sk = .ok (0, sm', n')) :
    sm.take 32 = sm'.take 32 ↔ leVal (sha512 ((sha512 (sk.take 32)).drop 32 ++ m)) % L = leVal (sha512 ((sha512 (sk.take 32)).drop 32 ++ m')) % L := by
  rw [ed_sign_spec hk hm hs] at h
  rw [ed_sign_spec hk hm' hs'] at h'
  simp only [Except.ok.injEq, Prod.mk.injEq, true_and] at h h'
  rw [← h.1, ← h'.1]
  unfold Spec.sign
  simp only []
  rw [List.append_assoc, List.take_left' (length_encode _), List.append_assoc, List.take_left' (length_encode _)]
  unfold hashL
  rw [smul_mod, smul_mod]
  constructor
  · intro h
    exact (ZMod.natCast_eq_natCast_iff _ _ _).1 (smul_B_iff.1 (encode_inj h))
  · intro h
    exact congrArg encode (smul_B_iff.2 ((ZMod.natCast_eq_natCast_iff _ _ _).2 h))

/-- C98, keys: two seeds have the same public key exactly when their scalars agree modulo L. -/
theorem ed_key_scalar {seed seed' : Bytes} : publicKey seed = publicKey seed' ↔ scalar seed % L = scalar seed' % L := by
  unfold publicKey
  constructor
  · intro h
    exact (ZMod.natCast_eq_natCast_iff _ _ _).1 (smul_B_iff.1 (encode_inj h))
  · intro h
    exact congrArg encode (smul_B_iff.2 ((ZMod.natCast_eq_natCast_iff _ _ _).2 h))

/-- C98, keys: two seeds have the same public key exactly when bits 3 to 253 of the first half of their SHA-512 values agree: the 2^251 scalars that clamping leaves give 2^251 different keys. -/
theorem ed_key_hash {seed seed' : Bytes} :
    publicKey seed = publicKey seed' ↔ leVal ((sha512 seed).take 32) / 8 % 2 ^ 251 = leVal ((sha512 seed').take 32) / 8 % 2 ^ 251 := by
  rw [ed_key_scalar]
  unfold scalar
  constructor
  · intro h
    have a := Nat.mod_lt (leVal ((sha512 seed).take 32) / 8) (show 2 ^ 251 > 0 by norm_num)
    have b := Nat.mod_lt (leVal ((sha512 seed').take 32) / 8) (show 2 ^ 251 > 0 by norm_num)
    generalize leVal ((sha512 seed).take 32) / 8 % 2 ^ 251 = k at h a ⊢
    generalize leVal ((sha512 seed').take 32) / 8 % 2 ^ 251 = k' at h b ⊢
    have h1 : 8 * k ≡ 8 * k' [MOD L] := Nat.ModEq.add_left_cancel' (2 ^ 254) h
    have h2 : k ≡ k' [MOD L] := Nat.ModEq.cancel_left_of_coprime (by unfold L; norm_num) h1
    have hL : 2 ^ 251 < L := by unfold L; norm_num
    exact Nat.ModEq.eq_of_lt_of_lt h2 (by omega) (by omega)
  · intro h
    rw [h]

/-- The hypotheses of C98 are met for every seed and message: generated keys, a signed message that is accepted (twice the same one for `ed_nonce_reuse`). -/
example (seed m : Bytes) (hseed : seed.length = 32) (hm : m.length < 2 ^ 31 - 64) :
    ∃ pk sk sm out, keypairSeed (List.replicate 32 0) (List.replicate 64 0) seed = .ok (0, pk, sk) ∧ sign (List.replicate (64 + m.length) 0) 0 m sk = .ok (0, sm, 64 + m.length) ∧
      signOpen (List.replicate (64 + m.length) 0) 0 sm (64 + m.length) pk = .ok (0, out, m.length) := by
  obtain ⟨pk, sk, sm, out, a, b, -, c, -⟩ := ed_round_trip (l := 0) (l' := 0) hseed hm (List.length_replicate (n := 32) (a := (0 : Byte))) (List.length_replicate (n := 64) (a := (0 : Byte)))
    (List.length_replicate (n := 64 + m.length) (a := (0 : Byte))) (Nat.le_of_eq (List.length_replicate (n := 64 + m.length) (a := (0 : Byte))).symm)
  exact ⟨pk, sk, sm, out, a, b, c⟩

/-- The case of different messages with equal nonces (here r = 1) exists for every seed and all messages: signing with a fixed nonce gives accepted signatures. -/
example (seed m : Bytes) (hseed : seed.length = 32) (hm : m.length < 2 ^ 31 - 64) :
    ∃ pk sk sm out len, keypairSeed (List.replicate 32 0) (List.replicate 64 0) seed = .ok (0, pk, sk) ∧ sm.take 32 = encode B ∧ (sm.drop 64).take m.length = m ∧
      signOpen (List.replicate (64 + m.length) 0) 0 sm (64 + m.length) pk = .ok (0, out, len) := by
  have hk := keypairSeed_ok (pk := List.replicate 32 0) (sk := List.replicate 64 0) (seed := seed) (by decide +kernel) (by decide +kernel) hseed
  obtain ⟨s, hs⟩ : ∃ s, s = (1 + hashL (encode B ++ publicKey seed ++ m) * scalar seed) % L := ⟨_, rfl⟩
  have hl : (leBytes 32 s).length = 32 := length_leBytes 32 s
  have e1 : (encode B ++ leBytes 32 s ++ m).take 32 = encode B := by rw [List.append_assoc, List.take_left' (length_encode _)]
  have e2 : (encode B ++ leBytes 32 s ++ m).drop 32 = leBytes 32 s ++ m := by rw [List.append_assoc, List.drop_left' (length_encode _)]
  have e3 : (encode B ++ leBytes 32 s ++ m).drop 64 = m := List.drop_left' (by rw [List.length_append, length_encode, hl])
  have hsL : s < 256 ^ 32 := hs ▸ (Nat.mod_lt _ (by decide +kernel)).trans (by decide +kernel)
  have hA := (ed_accepted_iff (m := List.replicate (64 + m.length) 0) (sm := encode B ++ leBytes 32 s ++ m) (l := 0) (n := 64 + m.length) (by decide +kernel) (by decide +kernel) hseed hk (by omega)
    (Nat.le_of_eq (List.length_replicate ..).symm) (by simp only [List.length_append, length_encode, hl]; omega)).2
      ⟨by omega, 1, by decide +kernel, by rw [e1, one_smul], by
        rw [e1, e2, e3, List.take_left' hl, leVal_leBytes, Nat.mod_eq_of_lt hsL, Nat.add_sub_cancel_left, List.take_length, hs, Nat.mod_mod]⟩
  obtain ⟨out, len, h⟩ := hA
  exact ⟨_, _, encode B ++ leBytes 32 s ++ m, out, len, hk, e1, by rw [e3, List.take_length], h⟩

end Verif.Ed25519
