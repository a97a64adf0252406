import Verif.Real.WeakKey
import Verif.Witness.HybridC

/-!
The property C108: verification does not examine the public key, and there are public keys under which everybody can sign in compact mode.
-/

namespace Verif.Real
open Verif Verif.Hybrid Dilithium

/-- A public key made of the neutral point, a Dilithium key with t1 = 0 and any SPHINCS+ key (layout of hybrid-dilithium-sphincs/hybrid.c:202-244). -/
def weakPk (rho spx : Bytes) : Bytes := neutral ++ zeroPk rho ++ spx

theorem weak_parts {rho spx : Bytes} (hr : rho.length = 32) (hs : spx.length = 64) :
    pkEd (weakPk rho spx) = neutral ∧ pkDil (weakPk rho spx) = zeroPk rho ∧ pkSpx (weakPk rho spx) = spx :=
  pk_parts rfl (by rw [zeroPk, List.length_append, hr, List.length_replicate]) hs

/-- C108, compact mode: for every message, every nonce and every SPHINCS+ part, the buffer made of the neutral Ed25519 signature, the Dilithium signature with z = 0 and the message, all computed from the
public key, the nonce and the message, is accepted (if the rejection loops that expand rho and the challenge end, as they must for any verification to return). -/
theorem weak_key_compact {rho spx nonce mb x : Bytes} (hr : rho.length = 32) (hs : spx.length = 64) (hn : nonce.length = 40) (h1 : 1 ≤ mb.length) (h64 : mb.length ≤ 64)
    (hx : IsCompactHash nonce mb spx x) {A : List Vec} {c : List Int} (hA : Dilithium.Spec.IsMatrix S128 rho A)
    (hc : Dilithium.Spec.IsBall S256 (zeroChallenge (zeroPk rho) x) c) {V : World} (hV : V.WF) {sm m pk : Ptr} {n k : Nat}
    (hsm : V.view sm n = some (compactWire neutralSig (zeroSig (zeroPk rho) x) nonce mb)) (hpk : V.view pk 1408 = some (weakPk rho spx)) (hm : V.view m k = some mb) :
    ∃ F, ∀ fuel, F ≤ fuel → verifyCompact (real fuel) (some m) k (some sm) n (some pk) V = .ok (0, V) := by
  obtain ⟨p1, p2, p3⟩ := weak_parts hr hs
  refine (real_compact_verify isShake128_S128 isShake256_S256 hV hsm hpk hm).2 ⟨h1, h64, _, _, _, x, rfl, length_zeroSig _ _, hn, rfl, ?_, ?_, ?_⟩
  · rw [p3]; exact hx
  · rw [p1]; exact neutral_valid neutral_decodes x
  · rw [p2]; exact zeroSig_valid hr hA hc

/-- C108, full mode: with such a key the buffer that holds the neutral Ed25519 signature, the Dilithium signature with z = 0 and some SPHINCS+ signature is accepted if and only if the SPHINCS+ signature is
valid, so the key is as strong as its SPHINCS+ part. -/
theorem weak_key_full {rho spx mb sp : Bytes} (hr : rho.length = 32) (hs : spx.length = 64) (h1 : 1 ≤ mb.length) (h64 : mb.length ≤ 64) (hsp : sp.length = 49856)
    {A : List Vec} {c : List Int} (hA : Dilithium.Spec.IsMatrix S128 rho A)
    (hc : Dilithium.Spec.IsBall S256 (zeroChallenge (zeroPk rho) mb) c) {V : World} (hV : V.WF) {sm m pk : Ptr} {n k : Nat}
    (hsm : V.view sm n = some (fullWire neutralSig mb (zeroSig (zeroPk rho) mb) sp)) (hpk : V.view pk 1408 = some (weakPk rho spx)) (hm : V.view m k = some mb) :
    (Sphincs.Spec.Valid S256 spx sp mb → ∃ F, ∀ fuel, F ≤ fuel → verifyFull (real fuel) (some m) k (some sm) n (some pk) V = .ok (0, V)) ∧
    (∀ fuel V', verifyFull (real fuel) (some m) k (some sm) n (some pk) V = .ok (0, V') → Sphincs.Spec.Valid S256 spx sp mb) := by
  obtain ⟨p1, p2, p3⟩ := weak_parts hr hs
  refine ⟨fun hv => (real_full_verify isShake128_S128 isShake256_S256 hV hsm hpk hm).2 ⟨h1, h64, _, _, _, rfl, length_zeroSig _ _, hsp, rfl, ?_, ?_, ?_⟩, fun fuel V' h => ?_⟩
  · rw [p1]; exact neutral_valid neutral_decodes mb
  · rw [p2]; exact zeroSig_valid hr hA hc
  · rw [p3]; exact hv
  · obtain ⟨-, -, -, ed, dil, sp', g1, g2, g3, e, -, -, v⟩ := (real_full_verify isShake128_S128 isShake256_S256 hV hsm hpk hm).1 _ _ h
    rw [p3] at v
    obtain ⟨-, -, -, -, -, i3, -⟩ := wire_full_slices (ed := neutralSig) (dil := zeroSig (zeroPk rho) mb) (spx := sp) rfl (length_zeroSig _ _) hsp h64
    obtain ⟨-, -, -, -, -, j3, -⟩ := wire_full_slices g1 g2 g3 h64
    rw [e] at i3
    rw [← i3.symm.trans j3] at v
    exact v

/-! ### A concrete key -/

open Verif.Witness in
theorem run_matrix {seed msg : Bytes} (R : Run seed msg) : ∃ (rho : Bytes) (A : List Vec), rho.length = 32 ∧ ofLe rho = R.rho ∧ Dilithium.Spec.IsMatrix S128 rho A := by
  have lS : (S256 seed 128).length = 128 := Keccak.length_stream ..
  have eS : ofLe (S256 seed 128) = R.E := by rw [ofLe_S256 (k := 1) (by omega) R.hseed rfl rfl, R.hE]
  have lrho : (slice (S256 seed 128) 0 32).length = 32 := length_slice (by omega)
  have erho : ofLe (slice (S256 seed 128) 0 32) = R.rho := by rw [ofLe_slice0 rfl, eS, R.hrho]
  generalize slice (S256 seed 128) 0 32 = r at *
  refine ⟨r, Dilithium.Spec.vec fun i => Dilithium.Spec.vec fun j => ofN (R.A i j), lrho, erho, length_vec _, fun i hi => ?_⟩
  rw [at_vec _ hi]
  refine ⟨length_vec _, fun j hj => ?_⟩
  rw [at_vec _ hj]
  refine ⟨840, uniformOf_eq (k := 280) (Keccak.length_stream ..) ?_ (R.hA i hi j hj).2⟩
  rw [← (R.hA i hi j hj).1, entryN, full128 (k := 5) rfl (length_nonce lrho rfl) (ofLe_nonce lrho erho rfl (by omega))]

open Verif.Witness in
theorem weak_rho : ∃ (rho : Bytes) (A : List Vec), rho.length = 32 ∧ ofLe rho = Run7.rho ∧ Dilithium.Spec.IsMatrix S128 rho A := run_matrix Run7.run

namespace Weak
set_option maxRecDepth 100000
open Verif.Witness

/-- SHAKE256 of the public key, as a number (compare dilithium2/sign.c:286). -/
def tr : Nat := 11351593000229957330917718265424434745619392599022615929981013391782726498391941419349645133274987480730611977702240253469808398759628873703608870727260744
/-- The message representative (compare dilithium2/sign.c:287-292). -/
def mu : Nat := 83681345868553632266892529582541929539885642314181542996491583951970319059046154343814644764944388917170008581018906946228001747800154405666461096207495
/-- The challenge hash (compare dilithium2/sign.c:315-321). -/
def ct : Nat := 43140216709685981902569658366474169654517077754300404561437522818746000801559

theorem k_tr : Nat.beq (shakeN 136 1312 (join Run7.rho 256 0) 1 % 2 ^ 512) tr = true := by decide +kernel
theorem k_mu : Nat.beq (shakeN 136 128 (join tr 512 RunC.hashN) 1 % 2 ^ 512) mu = true := by decide +kernel
theorem k_ct : Nat.beq (shakeN 136 832 (join mu 512 0) 1 % 2 ^ 256) ct = true := by decide +kernel
theorem e_tr : shakeN 136 1312 (join Run7.rho 256 0) 1 % 2 ^ 512 = tr := Run7.beq_eq k_tr
theorem e_mu : shakeN 136 128 (join tr 512 RunC.hashN) 1 % 2 ^ 512 = mu := Run7.beq_eq k_mu
theorem e_ct : shakeN 136 832 (join mu 512 0) 1 % 2 ^ 256 = ct := Run7.beq_eq k_ct
theorem k_c : (challN ct).isSome = true := by decide +kernel
end Weak

open Verif.Witness in
theorem weak_ball {rho : Bytes} (hr : rho.length = 32) (er : ofLe rho = Run7.rho) : ∃ c, Dilithium.Spec.IsBall S256 (zeroChallenge (zeroPk rho) RunC.hash) c := by
  obtain ⟨c, hc⟩ := Option.isSome_iff_exists.1 Weak.k_c
  have z : ∀ n, ofLe (List.replicate n 0) = 0 := fun n => by
    induction n with
    | zero => rfl
    | succ n ih => rw [List.replicate_succ, ofLe, ih]; rfl
  have e1 : ofLe (S256 (zeroPk rho) 64) = Weak.tr := by
    rw [ofLe_S256 (k := 1) (w := 512) (by omega) (l := 1312) (by rw [zeroPk, List.length_append, hr, List.length_replicate]) (v := join Run7.rho 256 0) (by rw [zeroPk]; exact ofLe_join hr er rfl (z _)) rfl, Weak.e_tr]
  have e2 : ofLe (S256 (S256 (zeroPk rho) 64 ++ RunC.hash) 64) = Weak.mu := by
    have l : (S256 (zeroPk rho) 64).length = 64 := Keccak.length_stream ..
    rw [ofLe_S256 (k := 1) (w := 512) (by omega) (l := 128) (by rw [List.length_append, l, hash_length]) (ofLe_join l e1 rfl hash_num) rfl, Weak.e_mu]
  have e3 : ofLe (zeroChallenge (zeroPk rho) RunC.hash) = Weak.ct := by
    have l : (S256 (S256 (zeroPk rho) 64 ++ RunC.hash) 64).length = 64 := Keccak.length_stream ..
    rw [zeroChallenge, ofLe_S256 (k := 1) (w := 256) (by omega) (l := 832) (by rw [List.length_append, l, List.length_replicate]) (ofLe_join l e2 rfl (z _)) rfl, Weak.e_ct]
  have l : (zeroChallenge (zeroPk rho) RunC.hash).length = 32 := Keccak.length_stream ..
  rw [← e3] at hc
  exact ⟨_, (ball_of l hc).1⟩

open Verif.Witness in
/-- C108, a concrete case: a public key, a message and a buffer computed from them that the code accepts (hybrid-dilithium-sphincs/hybrid.c:669-696). -/
theorem weak_key_exists : ∃ rho spx nonce mb x, rho.length = 32 ∧ spx.length = 64 ∧ IsCompactHash nonce mb spx x ∧
    AcceptsCompact (weakPk rho spx) mb (compactWire neutralSig (zeroSig (zeroPk rho) x) nonce mb) := by
  obtain ⟨rho, A, hr, er, hA⟩ := weak_rho
  obtain ⟨c, hc⟩ := weak_ball hr er
  refine ⟨rho, List.replicate 64 0, nonceC, [2], RunC.hash, hr, List.length_replicate .., hashC, ?_⟩
  have lp : (weakPk rho (List.replicate 64 0)).length = 1408 := by
    rw [weakPk, zeroPk, List.length_append, List.length_append, List.length_append, hr, List.length_replicate, List.length_replicate]; rfl
  generalize hsb : compactWire neutralSig (zeroSig (zeroPk rho) RunC.hash) nonceC [2] = sb at *
  generalize hpb : weakPk rho (List.replicate 64 0) = pkb at *
  obtain ⟨V, hV, v0, v1, v2⟩ : ∃ V : World, V.WF ∧ V.mem 0 = some [2] ∧ V.mem 1 = some sb ∧ V.mem 2 = some pkb :=
    ⟨{ mem := fun b => if b = 0 then some [2] else if b = 1 then some sb else if b = 2 then some pkb else none, sp := 3, rng := optRng (List.replicate 32 0) List.length_replicate }, by
      intro b hb
      have hb : 3 ≤ b := hb
      show (if b = 0 then some [2] else if b = 1 then some sb else if b = 2 then some pkb else none) = none
      rw [if_neg (by omega), if_neg (by omega), if_neg (by omega)], rfl, rfl, rfl⟩
  have a0 : V.view ⟨0, 0⟩ 1 = some [2] := view_block v0 rfl
  have a1 : V.view ⟨1, 0⟩ sb.length = some sb := view_block v1 rfl
  have a2 : V.view ⟨2, 0⟩ 1408 = some pkb := view_block v2 lp
  obtain ⟨F, hF⟩ := weak_key_compact (spx := List.replicate 64 0) hr (List.length_replicate ..) (by decide) (by decide) (by decide) hashC hA hc hV (by rw [hsb]; exact a1) (by rw [hpb]; exact a2) a0
  exact ⟨F, V, _, _, _, hV, a0, a1, a2, hF F (Nat.le_refl _)⟩

open Verif.Witness in
/-- C108, full mode, a concrete case with a SPHINCS+ key and a valid SPHINCS+ signature (hybrid-dilithium-sphincs/hybrid.c:439-466). -/
example : ∃ (rho spx sp mb : Bytes) (A : List Vec) (c : List Int), rho.length = 32 ∧ spx.length = 64 ∧ 1 ≤ mb.length ∧ mb.length ≤ 64 ∧ sp.length = 49856 ∧
    Dilithium.Spec.IsMatrix S128 rho A ∧ Dilithium.Spec.IsBall S256 (zeroChallenge (zeroPk rho) mb) c ∧ Sphincs.Spec.Valid S256 spx sp mb := by
  obtain ⟨rho, A, hr, er, hA⟩ := weak_rho
  obtain ⟨c, hc⟩ := weak_ball hr er
  have hsh : ∀ m n, (S256 m n).length = n := fun _ _ => Keccak.length_stream ..
  refine ⟨rho, Sphincs.Spec.publicKey S256 ⟨List.replicate 32 1, List.replicate 32 2⟩,
    Sphincs.Spec.sign S256 ⟨List.replicate 32 1, List.replicate 32 2⟩ (List.replicate 32 3) (Sphincs.Spec.publicKey S256 ⟨List.replicate 32 1, List.replicate 32 2⟩) (List.replicate 32 4) RunC.hash,
    RunC.hash, A, c, hr, ?_, by rw [hash_length]; omega, by rw [hash_length], Sphincs.length_sign hsh _ _ _ _ _, hA, hc, ?_⟩
  · rw [Sphincs.Spec.publicKey, List.length_append, Sphincs.length_xmssRoot hsh]; rfl
  · exact Sphincs.sign_valid hsh (by rfl) _ _ _

end Verif.Real
