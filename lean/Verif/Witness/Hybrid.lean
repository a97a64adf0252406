import Verif.Witness.Check
import Verif.Real.Forgery

/-!
A complete run of the library exists: a key pair, a signature in full mode and a successful verification, without any assumption.  The theorems about generated keys and successful calls
(C01, C02, C31, C67 to C69, C90) are therefore not vacuous for the component code.
-/

namespace Verif.Witness
open Verif Verif.Hybrid Verif.Real Verif.Dilithium

/-- A seed for hybrid-dilithium-sphincs/hybrid.c:174-245: bytes 32 to 63 are those of the run of Dilithium in `Verif/Witness/Data.lean`. -/
def seed160 : Bytes := List.replicate 32 0 ++ (7 :: List.replicate 31 0) ++ List.replicate 96 0

theorem length_seed160 : seed160.length = 160 := by rw [seed160, List.length_append, List.length_append, List.length_cons, List.length_replicate, List.length_replicate, List.length_replicate]

/-- The specification determines the key pair of a seed. -/
theorem keyGen_unique {seed p s p' s' : Bytes} (hl : seed.length = 32) (h : Spec.KeyGen S128 S256 seed p s) (h' : Spec.KeyGen S128 S256 seed p' s') : p = p' ∧ s = s' := by
  obtain ⟨F, hF⟩ := (dil_keygen_spec (pk := zeros 1312) (sk := zeros 2560) isShake128_S128 isShake256_S256 List.length_replicate List.length_replicate hl).2.2 _ _ h
  obtain ⟨G, hG⟩ := (dil_keygen_spec (pk := zeros 1312) (sk := zeros 2560) isShake128_S128 isShake256_S256 List.length_replicate List.length_replicate hl).2.2 _ _ h'
  have e := (hF (max F G) (Nat.le_max_left _ _)).symm.trans (hG (max F G) (Nat.le_max_right _ _))
  simp only [Except.ok.injEq, Prod.mk.injEq] at e
  exact ⟨e.2.1, e.2.2⟩

theorem keys_and_signature : ∃ pk sk sig, KeysOf S128 S256 seed160 pk sk ∧ FullSigned S128 S256 sk [2] (List.replicate 32 0) sig := by
  obtain ⟨dpk, dsk, dsig, hk, hs⟩ := dilithium_run
  have e : (seed160.drop 32).take 32 = 7 :: List.replicate 31 0 := by
    rw [seed160, List.append_assoc, List.drop_left' List.length_replicate, List.take_left' (by rw [List.length_cons, List.length_replicate])]
  obtain ⟨pk, sk, h⟩ : ∃ pk sk, KeysOf S128 S256 seed160 pk sk := by
    refine ⟨_, _, dpk, dsk, ?_, rfl, rfl⟩
    rw [e]; exact hk
  have hd := (keysOf_parts isShake128_S128 isShake256_S256 length_seed160 h).2.2.2.2.2.1
  rw [e] at hd
  obtain ⟨-, rfl⟩ := keyGen_unique (by rw [List.length_cons, List.length_replicate]) hk hd
  exact ⟨pk, sk, _, h, 0, dsig, hs, rfl⟩

/-- A key pair that hybrid-dilithium-sphincs/hybrid.c:174-245 makes, a signature that hybrid-dilithium-sphincs/hybrid.c:259-344 makes with it in a session, and a call of
hybrid-dilithium-sphincs/hybrid.c:439-466 that accepts it. -/
theorem complete_run : ∃ (fuel : Nat) (pkb skb sig : Bytes), Generated (real fuel) pkb skb ∧ (∃ W, Session skb W [.full [2] sig]) ∧ FullMeets S128 S256 pkb [2] sig ∧
    ∃ (V : World) (m sm pk : Ptr), V.WF ∧ V.view m 1 = some [2] ∧ V.view sm 52343 = some sig ∧ V.view pk 1408 = some pkb ∧
      verifyFull (real fuel) (some m) 1 (some sm) 52343 (some pk) V = .ok (0, V) := by
  obtain ⟨pkb, skb, sig, hk, hs⟩ := keys_and_signature
  obtain ⟨F, hF⟩ := keysOf_generated isShake128_S128 isShake256_S256 length_seed160 hk
  have hl := keysOf_parts isShake128_S128 isShake256_S256 length_seed160 hk
  have hm : FullMeets S128 S256 pkb [2] sig := full_scheme_correct isShake128_S128 isShake256_S256 length_seed160 (by decide) (by decide) hk hs
  have hsl : sig.length = 52343 := by
    obtain ⟨-, -, ed, dil, spx, l1, l2, l3, rfl, -⟩ := hm
    rw [(wire_full_slices (msg := [2]) l1 l2 l3 (by decide)).1]; rfl
  obtain ⟨V, hV, v0, v1, v2⟩ : ∃ V : World, V.WF ∧ V.mem 0 = some [2] ∧ V.mem 1 = some sig ∧ V.mem 2 = some pkb :=
    ⟨{ mem := fun b => if b = 0 then some [2] else if b = 1 then some sig else if b = 2 then some pkb else none, sp := 3, rng := optRng (List.replicate 32 0) List.length_replicate }, by
      intro b hb
      have hb : 3 ≤ b := hb
      show (if b = 0 then some [2] else if b = 1 then some sig else if b = 2 then some pkb else none) = none
      rw [if_neg (by omega), if_neg (by omega), if_neg (by omega)], rfl, rfl, rfl⟩
  have a0 : V.view ⟨0, 0⟩ 1 = some [2] := view_block v0 rfl
  have a1 : V.view ⟨1, 0⟩ 52343 = some sig := view_block v1 hsl
  have a2 : V.view ⟨2, 0⟩ 1408 = some pkb := view_block v2 hl.1
  obtain ⟨G, hG⟩ := (real_verify_total isShake128_S128 isShake256_S256 hV a1 a2 a0 hm).2
  exact ⟨max F G, pkb, skb, sig, hF _ (Nat.le_max_left _ _), session_exists hl.2.1 (by decide) (by decide) List.length_replicate hs, hm, V, _, _, _, hV, a0, a1, a2, hG _ (Nat.le_max_right _ _)⟩

/-- The hypotheses of C90 can be met: a generated key pair, a session, and an accepted buffer for a message that was not asked (the list of queries is empty). -/
example : ∃ (fk fv : Nat) (pkb skb : Bytes) (U : World), Generated (real fk) pkb skb ∧ Session skb U [] ∧
    ∃ (W : World) (m sm pk : Ptr) (sb : Bytes), W.WF ∧ W.view sm 52343 = some sb ∧ W.view pk 1408 = some pkb ∧ W.view m 1 = some [2] ∧
      verifyFull (real fv) (some m) 1 (some sm) 52343 (some pk) W = .ok (0, W) ∧ ∀ sig, Query.full [2] sig ∉ ([] : List Query) := by
  obtain ⟨fuel, pkb, skb, sig, hg, ⟨W, hW⟩, -, V, m, sm, pk, hV, v0, v1, v2, hv⟩ := complete_run
  exact ⟨fuel, fuel, pkb, skb, W, hg, Session.start W, V, m, sm, pk, sig, hV, v1, v2, v0, hv, fun _ h => nomatch h⟩

end Verif.Witness
