import Verif.Sphincs.Top
import Verif.Keccak.Props

/-!
Properties C42 to C49, C59 and C60.

The theorems hold for every hash function `H` with outputs of the requested length, in particular for the SHAKE256 code of
common/fips202.c (`shake256F` below, which is proved to be SHAKE256 of FIPS 202).
-/

namespace Verif.Sphincs
open Verif Spec

/-- The bytes that the model of common/fips202.c:726-746 `shake256(out, n, m, mlen)` writes. -/
def shake256F (m : Bytes) (n : Nat) : Bytes :=
  match Keccak.shake256 (List.replicate n 0) n m m.length with
  | .ok d => d
  | .error _ => []

/-- The call never faults, gives `n` bytes and these are SHAKE256 of FIPS 202. -/
theorem shake256F_spec (m : Bytes) (n : Nat) :
    Keccak.shake256 (List.replicate n 0) n m m.length = .ok (shake256F m n) ∧ (shake256F m n).length = n ∧
      Keccak.Spec.bits (shake256F m n) = Keccak.Spec.SHAKE256 (Keccak.Spec.bits m) (8 * n) := by
  obtain ⟨d, e, hl, hs⟩ := (Keccak.hash_functions_fips202 (List.replicate n 0) m).2.2.2.2 n (by simp)
  rw [List.drop_of_length_le (by simp), List.append_nil] at e
  have : shake256F m n = d := by rw [shake256F, e]
  rw [this]; exact ⟨e, hl, hs⟩

theorem length_shake256F (m : Bytes) (n : Nat) : (shake256F m n).length = n := (shake256F_spec m n).2.1

/-- The state of the random source after one draw of `n` bytes. -/
def drawn (R : Rng) (n : Nat) : Rng := { R with log := R.log ++ [(n, R.draw R.log.length n)] }

theorem split3 {b : Bytes} : b = b.take 32 ++ slice b 32 32 ++ b.drop 64 := by
  rw [slice, ← List.drop_drop (i := 32) (j := 32), List.append_assoc, List.take_append_drop, List.take_append_drop]

section
variable {H : Bytes → Nat → Bytes} (hH : ∀ m n, (H m n).length = n)
include hH

/-! ### C59: the code is SPHINCS+ -/

/-- C59, key generation: the seed is (secret seed, PRF key, public seed); the public key is that of the specification and the
secret key is the seed followed by the root. -/
theorem spx_keygen_spec (pk sk seed : Bytes) (hpk : pk.length = 64) (hsk : sk.length = 128) (hs : seed.length = 96) :
    seedKeypair H pk sk seed =
      .ok (0, publicKey H ⟨seed.drop 64, seed.take 32⟩, seed ++ (publicKey H ⟨seed.drop 64, seed.take 32⟩).drop 32) := by
  have hpub : (seed.drop 64).length = 32 := by rw [List.length_drop, hs]
  have hsec : (seed.take 32).length = 32 := by rw [List.length_take, hs]; rfl
  have h := seedKeypair_run' hH (s := ⟨seed.drop 64, seed.take 32⟩) hpub hsec hpk hsk (prfKey := slice seed 32 32) (length_slice (by omega))
  simp only at h
  rw [← split3] at h
  rw [h]
  have : seed.take 32 ++ slice seed 32 32 ++ publicKey H ⟨seed.drop 64, seed.take 32⟩ =
      seed ++ (publicKey H ⟨seed.drop 64, seed.take 32⟩).drop 32 := by
    rw [publicKey]
    simp only
    rw [List.drop_left' hpub, ← List.append_assoc, ← split3]
  rw [this]

/-- C59, signing: one draw of 32 bytes; if it fails the code is -1 and nothing is written, otherwise the first 49856 bytes of the
buffer become the signature of the specification, and the rest of it keeps its contents. -/
theorem spx_sign_spec (sig m sk : Bytes) (siglen : Nat) (R : Rng) (hsig : 49856 ≤ sig.length) (hsk : sk.length = 128) :
    signature H sig siglen m sk R =
      .ok (match R.draw R.log.length 32 with
        | none => (-1, sig, siglen)
        | some opt => (0, sign H ⟨slice sk 64 32, sk.take 32⟩ (slice sk 32 32) (sk.drop 64) opt m ++ sig.drop 49856, 49856), drawn R 32) := by
  rw [signature, RandM_bind_apply, randombytes]
  simp only [ok_bind]
  cases hd : R.draw R.log.length 32 with
  | none => simp only [RandM_pure_apply, drawn, hd]
  | some opt =>
    simp only
    have hpub : (slice sk 64 32).length = 32 := length_slice (by omega)
    have hsec : (sk.take 32).length = 32 := by rw [List.length_take, hsk]; rfl
    have e : sk.drop 64 = slice sk 64 32 ++ sk.drop 96 := by
      rw [slice, show 96 = 64 + 32 from rfl, ← List.drop_drop, List.take_append_drop]
    have h := signBody_run' hH (s := ⟨slice sk 64 32, sk.take 32⟩) hpub hsec (prfKey := slice sk 32 32) (root := sk.drop 96)
      (length_slice (by omega)) (by rw [List.length_drop, hsk]) hsig m opt
    simp only at h
    rw [← e, ← split3] at h
    have hl := length_sign hH ⟨slice sk 64 32, sk.take 32⟩ (slice sk 32 32) (sk.drop 64) opt m
    obtain ⟨X, hX⟩ : ∃ X, X = sign H ⟨slice sk 64 32, sk.take 32⟩ (slice sk 32 32) (sk.drop 64) opt m := ⟨_, rfl⟩
    rw [← hX] at h hl ⊢
    rw [RandM_bind_apply, h, liftCR_ok, ok_bind, splice, List.take_zero, List.nil_append, Nat.zero_add, hl, drawn, hd]
    rfl

/-- C59, verification: accepted if and only if the length is 49856 and the signature is valid in the sense of the specification. -/
theorem spx_verify_spec (sig m pk : Bytes) (siglen : Nat) (hsig : siglen ≤ sig.length) (hpk : pk.length = 64) :
    (verify H sig siglen m pk = .ok 0 ∧ siglen = 49856 ∧ Valid H pk (sig.take 49856) m) ∨
    (verify H sig siglen m pk = .ok (-1) ∧ ¬(siglen = 49856 ∧ Valid H pk (sig.take 49856) m)) := by
  by_cases c : siglen = 49856
  · subst c
    have hl : (sig.take 49856).length = 49856 := by rw [List.length_take, Nat.min_eq_left hsig]
    rw [verify_run hH hpk hsig, Valid, rootFromSig_take]
    by_cases h : rootFromSig H pk sig m = pk.drop 32
    · left; rw [if_pos h]; exact ⟨rfl, rfl, hl, h⟩
    · right; rw [if_neg h]; exact ⟨rfl, fun hh => h hh.2.2⟩
  · right; exact ⟨verify_wrong_length c, fun hh => c hh.1⟩

/-! ### C42 -/

/-- C42: seeded key generation always succeeds; signing with the key fails exactly when the random source fails; the signature is
accepted. -/
theorem spx_roundtrip (pk0 sk0 seed : Bytes) (hpk : pk0.length = 64) (hsk : sk0.length = 128) (hs : seed.length = 96) :
    ∃ pk sk, seedKeypair H pk0 sk0 seed = .ok (0, pk, sk) ∧ pk.length = 64 ∧ sk.length = 128 ∧
      ∀ (sig0 m : Bytes) (n0 : Nat) (R : Rng), sig0.length = 49856 →
        ∃ code sig n, signature H sig0 n0 m sk R = .ok ((code, sig, n), drawn R 32) ∧
          (code = 0 ↔ R.draw R.log.length 32 ≠ none) ∧
          (code = 0 → n = 49856 ∧ sig.length = 49856 ∧ verify H sig n m pk = .ok 0) := by
  have hpub : (seed.drop 64).length = 32 := by rw [List.length_drop, hs]
  have hpl : (publicKey H ⟨seed.drop 64, seed.take 32⟩).length = 64 := by
    rw [publicKey, List.length_append, length_xmssRoot hH]; exact congrArg (· + 32) hpub
  have hsl : (seed ++ (publicKey H ⟨seed.drop 64, seed.take 32⟩).drop 32).length = 128 := by
    rw [List.length_append, List.length_drop, hpl, hs]
  refine ⟨_, _, spx_keygen_spec hH pk0 sk0 seed hpk hsk hs, hpl, hsl, ?_⟩
  intro sig0 m n0 R hsig
  rw [spx_sign_spec hH sig0 m _ n0 R (by omega) hsl]
  obtain ⟨pk, hpk'⟩ : ∃ pk, pk = publicKey H ⟨seed.drop 64, seed.take 32⟩ := ⟨_, rfl⟩
  rw [← hpk'] at hpl hsl ⊢
  have e1 : slice (seed ++ pk.drop 32) 64 32 = seed.drop 64 := by
    rw [slice, List.drop_append_of_le_length (by omega), List.take_left' hpub]
  have e2 : (seed ++ pk.drop 32).take 32 = seed.take 32 := List.take_append_of_le_length (by omega)
  have e4 : (seed ++ pk.drop 32).drop 64 = pk := by
    rw [List.drop_append_of_le_length (by omega), hpk', publicKey]
    simp only
    rw [List.drop_left' hpub]
  rw [e1, e2, e4]
  cases hd : R.draw R.log.length 32 with
  | none => exact ⟨-1, sig0, n0, rfl, by simp, by simp⟩
  | some opt =>
    refine ⟨0, _, 49856, rfl, by simp, fun _ => ?_⟩
    rw [List.drop_of_length_le (Nat.le_of_eq hsig), List.append_nil]
    have hv := sign_valid hH (s := ⟨seed.drop 64, seed.take 32⟩) hpub (slice (seed ++ pk.drop 32) 32 32) opt m
    rw [← hpk'] at hv
    refine ⟨rfl, hv.1, ?_⟩
    rw [verify_run hH hpl (Nat.le_of_eq hv.1.symm), if_pos hv.2]

/-! ### C43 -/

/-- C43: `treehashx1` over the leaves `leaf 0, ..., leaf (2^height - 1)` (delivered by a callback with any state and any invariant `J`
on it) returns the root of the tree of the specification, the authentication path of the selected leaf, and `compute_root`
along this path gives the same root.  `base` is the address with layer, tree, type and key pair set. -/
theorem treehash_merkle {ι : Type} {pub : Bytes} (hpub : pub.length = 32) {sec : Option Bytes} (base : Adrs) (off leafIdx height : Nat) (leaf : Nat → Bytes)
    (hbase : base.layer < 256 ∧ base.tree < 2 ^ 64 ∧ base.type < 256 ∧ base.w1 < 256 ∧ base.w2 < 256 ∧ base.w3 < 2 ^ 32)
    (hleaf : ∀ i, (leaf i).length = 32) (hpos : 0 < height) (hh : height < 32) (hoff : off + 2 ^ height < 2 ^ 32) (hidx : leafIdx < 2 ^ height)
    (J : Nat → ι → Prop) (genLeaf : Nat → ι → C (Bytes × ι)) (info : ι) (hJ : J 0 info)
    (hgen : ∀ i info, i < 2 ^ height → J i info → ∃ info', genLeaf (i + off) info = .ok (leaf i, info') ∧ J (i + 1) info')
    (auth stack : Bytes) (hau : auth.length = height * 32) (hst : stack.length = height * 32) :
    ∃ root path addr info', treehashx1 H ⟨pub, sec⟩ leafIdx off height genLeaf auth stack base.bytes info = .ok (root, path, addr, info') ∧
      root = node H pub (fun h i => { base with w2 := h, w3 := i + off / 2 ^ h }) leaf height 0 ∧
      path.length = 32 * height ∧
      (∀ h, h < height → slice path (32 * h) 32 =
        node H pub (fun h i => { base with w2 := h, w3 := i + off / 2 ^ h }) leaf h
          (if leafIdx / 2 ^ h % 2 = 0 then leafIdx / 2 ^ h + 1 else leafIdx / 2 ^ h - 1)) ∧
      J (2 ^ height) info' ∧
      ∃ addr', computeRoot H (leaf leafIdx) leafIdx off path 0 height ⟨pub, sec⟩ base.bytes = .ok (root, addr') := by
  obtain ⟨h1, h2, h3, h4, h5, h6⟩ := hbase
  have had : AddrOk base base.bytes := ⟨base.w2, base.w3, ⟨h1, h2, h3, h4, h5, h6⟩, rfl⟩
  obtain ⟨auth', addr', info', e, hl, hp, _, hJ'⟩ := treehashx1_run hH hpub (sec := sec) (base := base) (off := off) (leafIdx := leafIdx) hleaf hh hoff J genLeaf hgen hau hst had hJ
  have hp := hp hidx
  refine ⟨_, _, _, _, e, rfl, by omega, ?_, hJ', ?_⟩
  · intro h hlt
    rw [hp, Nat.mul_comm]
    exact slice_flatMap (fun j _ => length_node hH hleaf _ _) hlt
  · obtain ⟨k, rfl⟩ : ∃ k, height = k + 1 := ⟨height - 1, by omega⟩
    obtain ⟨ad, ec, _⟩ := computeRoot_run hH hpub (sec := sec) (base := base) (off := off) (leafIdx := leafIdx) (height := k) (o := 0)
      (leaf := leaf leafIdx) (auth := auth') (addr := base.bytes) (hleaf _) (by omega) (by omega) (by omega) had
    refine ⟨ad, ?_⟩
    rw [ec, show slice auth' 0 ((k + 1) * 32) = auth' from slice_all hl, hp, climb_authPath hH hleaf (k + 1) (Nat.le_refl _),
      Nat.div_eq_of_lt hidx]

/-! ### C47 -/

/-- C47: the keys do not depend on what the output buffers contained. -/
theorem spx_keygen_pure (pk sk pk' sk' seed : Bytes) (hpk : pk.length = 64) (hsk : sk.length = 128) (hpk' : pk'.length = 64) (hsk' : sk'.length = 128)
    (hs : seed.length = 96) : seedKeypair H pk sk seed = seedKeypair H pk' sk' seed := by
  rw [spx_keygen_spec hH pk sk seed hpk hsk hs, spx_keygen_spec hH pk' sk' seed hpk' hsk' hs]

/-! ### C48 -/

/-- C48: verification terminates without fault with code 0 or -1, whatever the bytes are; every other length is rejected (even if
the array is shorter than the length says: nothing is read then); bytes beyond the signature have no influence. -/
theorem spx_verify_safe (sig m pk : Bytes) (siglen : Nat) (hpk : pk.length = 64) :
    (siglen ≤ sig.length → verify H sig siglen m pk = .ok 0 ∨ verify H sig siglen m pk = .ok (-1)) ∧
    (siglen ≠ 49856 → verify H sig siglen m pk = .ok (-1)) ∧
    (sig.length = 49856 → ∀ tail, verify H (sig ++ tail) 49856 m pk = verify H sig 49856 m pk) := by
  refine ⟨fun h => ?_, verify_wrong_length, fun h tail => ?_⟩
  · rcases spx_verify_spec hH sig m pk siglen h hpk with h | h
    · exact .inl h.1
    · exact .inr h.1
  · rw [verify_run hH hpk (Nat.le_of_eq h.symm), verify_run (sig := sig ++ tail) hH hpk (by rw [List.length_append]; omega), ← rootFromSig_take (sig := sig ++ tail), ← h, List.take_left]

/-! ### C49 and C60: the attached interface -/

/-- What the attached sign function does, in full: it draws once and always returns 0. -/
theorem spx_attached_sign (sm m sk : Bytes) (junk : Nat) (R : Rng) (hsm : 49856 + m.length ≤ sm.length) (hsk : sk.length = 128) :
    ∃ sm', cryptoSign H junk sm m sk R =
      .ok ((0, sm', (if R.draw R.log.length 32 = none then junk + m.length else 49856 + m.length) % 2 ^ 64), drawn R 32) ∧
      sm'.length = sm.length ∧ slice sm' 49856 m.length = m ∧
      (∀ opt, R.draw R.log.length 32 = some opt → sm'.take 49856 = sign H ⟨slice sk 64 32, sk.take 32⟩ (slice sk 32 32) (sk.drop 64) opt m) := by
  rw [cryptoSign, RandM_bind_apply, spx_sign_spec hH sm m sk junk R (by omega) hsk, ok_bind]
  cases hd : R.draw R.log.length 32 with
  | none =>
    simp only
    rw [RandM_bind_apply, copy_ok (by omega) (by omega), liftCR_ok, ok_bind, slice_zero_length]
    refine ⟨_, rfl, length_splice (by omega), slice_splice_same (by omega), ?_⟩
    intro opt h; cases h
  | some opt =>
    simp only
    have hl := length_sign hH ⟨slice sk 64 32, sk.take 32⟩ (slice sk 32 32) (sk.drop 64) opt m
    obtain ⟨X, hX⟩ : ∃ X, X = sign H ⟨slice sk 64 32, sk.take 32⟩ (slice sk 32 32) (sk.drop 64) opt m := ⟨_, rfl⟩
    rw [← hX] at hl ⊢
    have hl2 : (X ++ sm.drop 49856).length = sm.length := by rw [List.length_append, List.length_drop]; omega
    rw [RandM_bind_apply, copy_ok (by omega) (by omega), liftCR_ok, ok_bind, slice_zero_length]
    refine ⟨_, rfl, by rw [length_splice (by omega)]; exact hl2, slice_splice_same (by omega), ?_⟩
    intro opt' h
    rw [← Option.some.inj h, ← hX, splice, List.append_assoc, List.take_append_of_le_length (by rw [List.length_take]; omega), List.take_take, Nat.min_self,
      List.take_left' hl]

/-- C49 is false: whatever the input, if the random source fails the attached sign function still returns 0, with a length that
comes from an uninitialised variable. -/
theorem spx_attached_sign_ignores_failure (sm m sk : Bytes) (junk : Nat) (R : Rng) (hsm : 49856 + m.length ≤ sm.length) (hsk : sk.length = 128)
    (hfail : R.draw R.log.length 32 = none) :
    ∃ sm', cryptoSign H junk sm m sk R = .ok ((0, sm', (junk + m.length) % 2 ^ 64), drawn R 32) := by
  obtain ⟨sm', e, _⟩ := spx_attached_sign hH sm m sk junk R hsm hsk
  rw [if_pos hfail] at e
  exact ⟨sm', e⟩

omit hH in
/-- C49, the part that holds: the detached function reports the failure and leaves the buffer and the length alone; key generation
too. -/
theorem spx_rng_failure_partial (sig m sk pk : Bytes) (n : Nat) (R : Rng) :
    (R.draw R.log.length 32 = none → signature H sig n m sk R = .ok ((-1, sig, n), drawn R 32)) ∧
    (R.draw R.log.length 96 = none → keypair H pk sk R = .ok ((-1, pk, sk), drawn R 96)) := by
  constructor
  · intro h
    rw [signature, RandM_bind_apply, randombytes]
    simp only [ok_bind, h, RandM_pure_apply, drawn]
  · intro h
    rw [keypair, RandM_bind_apply, randombytes]
    simp only [ok_bind, h, RandM_pure_apply, drawn]

/-- C60: opening a signed message.  For every length and every content: no fault; code 0 exactly when the length is at least 49856
and the first 49856 bytes are a valid signature of the rest, and then exactly the message is written; otherwise the code is -1, the
length 0 and the buffer is unchanged. -/
theorem spx_open_spec (m sm pk : Bytes) (smlen : Nat) (hpk : pk.length = 64) (hsm : smlen ≤ sm.length) (hm : smlen ≤ m.length) :
    cryptoSignOpen H m sm smlen pk =
      .ok (if 49856 ≤ smlen ∧ rootFromSig H pk (sm.take 49856) ((sm.take smlen).drop 49856) = pk.drop 32
        then (0, (sm.take smlen).drop 49856 ++ m.drop (smlen - 49856), smlen - 49856) else (-1, m, 0)) := by
  rw [cryptoSignOpen]
  by_cases c : smlen < 49856
  · rw [if_pos c, if_neg (by omega)]; rfl
  · rw [if_neg c]
    simp only
    have e : slice sm 49856 (smlen - 49856) = (sm.take smlen).drop 49856 := by rw [slice, List.drop_take]
    have hl : ((sm.take smlen).drop 49856).length = smlen - 49856 := by rw [List.length_drop, List.length_take]; omega
    rw [copy_fresh (by omega), ok_bind, e, verify_run hH hpk (by omega), ok_bind, rootFromSig_take]
    by_cases h : rootFromSig H pk sm ((sm.take smlen).drop 49856) = pk.drop 32
    · rw [if_pos h, if_neg (by simp), if_pos ⟨by omega, h⟩, copy_ok (by omega) (by omega), ok_bind, e, pure_eq_ok, splice, List.take_zero, List.nil_append, hl, Nat.zero_add]
    · rw [if_neg h, if_pos (by simp), if_neg (fun hh => h hh.2)]; rfl

/-- C60, round trip: with a key pair from key generation, opening what the attached sign function produced returns the message,
provided the random source did not fail. -/
theorem spx_attached_roundtrip (pk0 sk0 seed : Bytes) (hpk : pk0.length = 64) (hsk : sk0.length = 128) (hs : seed.length = 96) :
    ∃ pk sk, seedKeypair H pk0 sk0 seed = .ok (0, pk, sk) ∧
      ∀ (sm0 m out : Bytes) (junk : Nat) (R : Rng), sm0.length = 49856 + m.length → 49856 + m.length < 2 ^ 64 → out.length = 49856 + m.length →
        R.draw R.log.length 32 ≠ none →
        ∃ sm, cryptoSign H junk sm0 m sk R = .ok ((0, sm, 49856 + m.length), drawn R 32) ∧ sm.length = 49856 + m.length ∧
          cryptoSignOpen H out sm (49856 + m.length) pk = .ok (0, m ++ out.drop m.length, m.length) := by
  have hpub : (seed.drop 64).length = 32 := by rw [List.length_drop, hs]
  obtain ⟨pk, hpk'⟩ : ∃ pk, pk = publicKey H ⟨seed.drop 64, seed.take 32⟩ := ⟨_, rfl⟩
  have hpl : pk.length = 64 := by
    rw [hpk', publicKey, List.length_append, length_xmssRoot hH]; exact congrArg (· + 32) hpub
  have hsl : (seed ++ pk.drop 32).length = 128 := by
    rw [List.length_append, List.length_drop, hpl, hs]
  have hk := spx_keygen_spec hH pk0 sk0 seed hpk hsk hs
  rw [← hpk'] at hk
  refine ⟨_, _, hk, ?_⟩
  intro sm0 m out junk R hsm hlt hout hdr
  obtain ⟨sm, e, hl, hs1, hs2⟩ := spx_attached_sign hH sm0 m (seed ++ pk.drop 32) junk R (by omega) hsl
  rw [if_neg hdr, Nat.mod_eq_of_lt hlt] at e
  rw [hsm] at hl
  refine ⟨sm, e, hl, ?_⟩
  obtain ⟨opt, hopt⟩ := Option.ne_none_iff_exists'.1 hdr
  have hs2 := hs2 opt hopt
  have e1 : slice (seed ++ pk.drop 32) 64 32 = seed.drop 64 := by
    rw [slice, List.drop_append_of_le_length (by omega), List.take_left' hpub]
  have e2 : (seed ++ pk.drop 32).take 32 = seed.take 32 := List.take_append_of_le_length (by omega)
  have e4 : (seed ++ pk.drop 32).drop 64 = pk := by
    rw [List.drop_append_of_le_length (by omega), hpk', publicKey]
    simp only
    rw [List.drop_left' hpub]
  rw [e1, e2, e4] at hs2
  have hv := sign_valid hH (s := ⟨seed.drop 64, seed.take 32⟩) hpub (slice (seed ++ pk.drop 32) 32 32) opt m
  rw [← hpk', ← hs2] at hv
  have em : (sm.take (49856 + m.length)).drop 49856 = m := by
    rw [List.drop_take, Nat.add_sub_cancel_left]; exact hs1
  rw [spx_open_spec hH out sm pk _ hpl (by omega) (by omega), em, if_pos ⟨by omega, hv.2⟩, Nat.add_sub_cancel_left]

end
end Verif.Sphincs
