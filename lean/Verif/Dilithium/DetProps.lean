import Verif.Dilithium.Props
import Verif.Witness.Check

/-! C62 for the code itself: two runs on the same input, whatever the output buffers held and whatever the fuel, give the same output. -/

namespace Verif.Dilithium
open Verif

/-- C62, key generation: whatever the output buffers held, two runs on one seed give the same keys. -/
theorem dil_keygen_runs_agree {f f' : Nat} {seed pk0 sk0 pk0' sk0' pk sk pk' sk' : Bytes} {r r' : Int} (hs : seed.length = 32)
    (l1 : pk0.length = 1312) (l2 : sk0.length = 2560) (l1' : pk0'.length = 1312) (l2' : sk0'.length = 2560)
    (h : keypairSeed f pk0 sk0 seed = .ok (r, pk, sk)) (h' : keypairSeed f' pk0' sk0' seed = .ok (r', pk', sk')) : r = r' ∧ pk = pk' ∧ sk = sk' := by
  obtain ⟨e, g, -, -⟩ := (dil_keygen_spec isShake128_S128 isShake256_S256 l1 l2 hs).2.1 _ _ _ _ h
  obtain ⟨e', g', -, -⟩ := (dil_keygen_spec isShake128_S128 isShake256_S256 l1' l2' hs).2.1 _ _ _ _ h'
  obtain ⟨a, b⟩ := (dil_deterministic isShake128_S128 isShake256_S256).1 _ _ _ _ _ hs g g'
  exact ⟨e.trans e'.symm, a, b⟩

/-- C62, signing: whatever the output buffer and the length cell held, two runs on one secret key and message give the same signature. -/
theorem dil_sign_runs_agree {f f' : Nat} {sk m sig0 sig0' sig sig' : Bytes} {n n' k k' : Nat} {r r' : Int} (hs : sk.length = 2560) (l : sig0.length = 2420) (l' : sig0'.length = 2420)
    (h : signature f sig0 n m sk = .ok (r, sig, k)) (h' : signature f' sig0' n' m sk = .ok (r', sig', k')) : r = r' ∧ sig = sig' ∧ k = k' := by
  obtain ⟨e, e2, -, i, g⟩ := (dil_sign_spec isShake128_S128 isShake256_S256 hs l).2.1 _ _ _ _ h
  obtain ⟨e', e2', -, i', g'⟩ := (dil_sign_spec isShake128_S128 isShake256_S256 hs l').2.1 _ _ _ _ h'
  exact ⟨e.trans e'.symm, (dil_deterministic isShake128_S128 isShake256_S256).2 _ _ _ _ _ _ hs g g', e2.trans e2'.symm⟩

/-- Runs that end. -/
example : ∃ f seed pk sk sig m, seed.length = 32 ∧ sk.length = 2560 ∧ keypairSeed f (List.replicate 1312 0) (List.replicate 2560 0) seed = .ok (0, pk, sk) ∧
    keypairSeed f (List.replicate 1312 1) (List.replicate 2560 1) seed = .ok (0, pk, sk) ∧
    signature f (List.replicate 2420 0) 0 m sk = .ok (0, sig, 2420) ∧ signature f (List.replicate 2420 1) 5 m sk = .ok (0, sig, 2420) := by
  obtain ⟨pk, sk, sig, hk, hs⟩ := Witness.dilithium_run
  have hl : (7 :: List.replicate 31 0 : Bytes).length = 32 := by rw [List.length_cons, List.length_replicate]
  obtain ⟨F1, h1⟩ := (dil_keygen_spec (pk := List.replicate 1312 0) (sk := List.replicate 2560 0) isShake128_S128 isShake256_S256 List.length_replicate List.length_replicate hl).2.2 _ _ hk
  obtain ⟨F2, h2⟩ := (dil_keygen_spec (pk := List.replicate 1312 1) (sk := List.replicate 2560 1) isShake128_S128 isShake256_S256 List.length_replicate List.length_replicate hl).2.2 _ _ hk
  have lsk := ((dil_keygen_spec (pk := List.replicate 1312 0) (sk := List.replicate 2560 0) isShake128_S128 isShake256_S256 List.length_replicate List.length_replicate hl).2.1 _ _ _ _ (h1 F1 (Nat.le_refl _))).2.2.2
  obtain ⟨F3, h3⟩ := (dil_sign_spec (sig := List.replicate 2420 0) (n := 0) isShake128_S128 isShake256_S256 lsk List.length_replicate).2.2 _ _ hs
  obtain ⟨F4, h4⟩ := (dil_sign_spec (sig := List.replicate 2420 1) (n := 5) isShake128_S128 isShake256_S256 lsk List.length_replicate).2.2 _ _ hs
  exact ⟨F1 + F2 + F3 + F4, _, pk, sk, sig, _, hl, lsk, h1 _ (by omega), h2 _ (by omega), h3 _ (by omega), h4 _ (by omega)⟩

end Verif.Dilithium
