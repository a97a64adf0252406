import Verif.Witness.Hybrid
import Verif.Witness.CheckC

/-!
A signature in compact mode and its verification exist.  The Ed25519 and the Dilithium keys are generated ones; in place of the SPHINCS+ key, which compact mode only hashes, there are zero bytes.
-/

namespace Verif.Witness
open Verif Verif.Hybrid Verif.Real Verif.Dilithium

/-- The nonce (compare hybrid-dilithium-sphincs/hybrid.c:497-504). -/
def nonceC : Bytes := 6 :: List.replicate 39 0

theorem k_hash : Nat.beq (sha3N 72 105 (ofLe (nonceC ++ [2] ++ List.replicate 64 0)) % 2 ^ 512) RunC.hashN = true := by decide +kernel

theorem hash_length : RunC.hash.length = 64 := by decide +kernel
theorem hash_num : ofLe RunC.hash = RunC.hashN := by decide +kernel
theorem nonceC_length : (nonceC ++ [2] ++ List.replicate 64 0).length = 105 := by decide +kernel

theorem ofLe_inj {a b : Bytes} (hl : a.length = b.length) (h : ofLe a = ofLe b) : a = b := by
  induction a generalizing b with
  | nil => cases b with
    | nil => rfl
    | cons y b => simp at hl
  | cons x a ih => cases b with
    | nil => simp at hl
    | cons y b =>
      rw [List.length_cons, List.length_cons] at hl
      simp only [ofLe] at h
      have hx := x.isLt
      have hy := y.isLt
      have e : x.toNat = y.toNat := by omega
      have e' := ih (b := b) (by omega) (by omega)
      rw [BitVec.eq_of_toNat_eq e, e']

/-- SHA3-512 of a string from its number. -/
theorem sha3_num {m d : Bytes} {l n v : Nat} (hd : d.length = 64) (hv : ofLe d = v) (hl : m.length = l) (hn : ofLe m = n) (h : Nat.beq (sha3N 72 l n % 2 ^ 512) v = true) :
    d = Keccak.stream 72 0x06 m 64 := by
  refine ofLe_inj (by rw [hd, Keccak.length_stream]) ?_
  rw [hv, ← Keccak.stream_prefix 72 0x06 _ 64 8, ofLe_take, sha3N_eq (by decide) (by decide), hl, hn]
  exact (Nat.eq_of_beq_eq_true h).symm

theorem hashC : IsCompactHash nonceC [2] (List.replicate 64 0) RunC.hash := by
  have e : RunC.hash = Keccak.stream 72 0x06 (nonceC ++ [2] ++ List.replicate 64 0) 64 := sha3_num hash_length hash_num nonceC_length rfl k_hash
  rw [IsCompactHash, e]
  exact Keccak.stream_spec (by omega) (by omega) Keccak.suffix_sha3 _ _

theorem compact_signature : ∃ pk sk sig, pkEd pk = Ed25519.Spec.publicKey (List.replicate 32 0) ∧ pk.length = 1408 ∧ sk.length = 4064 ∧ CompactSigned S128 S256 sk [2] nonceC sig ∧ CompactMeets S128 S256 pk [2] sig ∧
    Spec.KeyGen S128 S256 (7 :: List.replicate 31 0) (pkDil pk) (skDil sk) ∧ sk.take 32 = List.replicate 32 0 ∧ (sk.drop 32).take 32 = pkEd pk ∧ skSpxPk sk = pkSpx pk ∧ skSpx sk = List.replicate 128 0 := by
  obtain ⟨dpk, dsk, dsig, hk, hs⟩ := RunC.run.signs
  obtain ⟨l1, l2⟩ : dpk.length = 1312 ∧ dsk.length = 2560 := by
    have hl : (7 :: List.replicate 31 0 : Bytes).length = 32 := by rw [List.length_cons, List.length_replicate]
    obtain ⟨F, hF⟩ := (dil_keygen_spec (pk := zeros 1312) (sk := zeros 2560) isShake128_S128 isShake256_S256 List.length_replicate List.length_replicate hl).2.2 _ _ hk
    exact ((dil_keygen_spec (pk := zeros 1312) (sk := zeros 2560) isShake128_S128 isShake256_S256 List.length_replicate List.length_replicate hl).2.1 _ _ _ _ (hF F (Nat.le_refl _))).2.2
  have lE : (Ed25519.Spec.publicKey (List.replicate 32 0)).length = 32 := Ed25519.length_encode _
  have l0 : (List.replicate 32 0 : Bytes).length = 32 := List.length_replicate
  have ld := dilSigned_length isShake128_S128 isShake256_S256 l2 hs
  obtain ⟨p1, p2, p3⟩ := pk_parts (c := List.replicate 64 0) lE l1 List.length_replicate
  obtain ⟨q1, q2, q3, q4⟩ := sk_parts (a := List.replicate 32 0 ++ Ed25519.Spec.publicKey (List.replicate 32 0)) (d := List.replicate 128 0)
    (by rw [List.length_append]; omega) l2 l1 List.length_replicate
  have q4 := q4.trans (List.drop_replicate ..)
  refine ⟨Ed25519.Spec.publicKey (List.replicate 32 0) ++ dpk ++ List.replicate 64 0,
    List.replicate 32 0 ++ Ed25519.Spec.publicKey (List.replicate 32 0) ++ dsk ++ dpk ++ List.replicate 128 0, _, p1, ?_, ?_, ⟨RunC.hash, 0, dsig, ?_, ?_, rfl⟩, ?_, ?_⟩
  · rw [List.length_append, List.length_append, List.length_replicate]; omega
  · rw [List.length_append, List.length_append, List.length_append, List.length_append, List.length_replicate, List.length_replicate]; omega
  · rw [q4]; exact hashC
  · rw [q2]; exact hs
  · refine ⟨by decide, by decide, _, dsig, nonceC, RunC.hash, Ed25519.length_specSign _ _ _, ld, by decide, rfl, ?_, ?_, ?_⟩
    · rw [p3]; exact hashC
    · rw [p1]
      simp only [List.append_assoc]
      rw [List.take_left' l0, List.drop_left' l0, List.take_left' lE]
      exact Ed25519.valid_sign _ _
    · rw [p2]
      exact dil_scheme_correct isShake128_S128 isShake256_S256 hk hs
  · refine ⟨by rw [p2, q2]; exact hk, ?_, ?_, by rw [q4, p3], q3⟩
    · simp only [List.append_assoc]
      rw [List.take_left' l0]
    · rw [p1]
      simp only [List.append_assoc]
      rw [List.drop_left' l0, List.take_left' lE]

/-- A call of hybrid-dilithium-sphincs/hybrid.c:669-696 that accepts a signature made by hybrid-dilithium-sphincs/hybrid.c:468-564. -/
theorem compact_run : ∃ (fuel : Nat) (pkb skb sig : Bytes), pkEd pkb = Ed25519.Spec.publicKey (List.replicate 32 0) ∧ CompactSigned S128 S256 skb [2] nonceC sig ∧
    ∃ (V : World) (m sm pk : Ptr), V.WF ∧ V.view m 1 = some [2] ∧ V.view sm 2527 = some sig ∧ V.view pk 1408 = some pkb ∧
      verifyCompact (real fuel) (some m) 1 (some sm) 2527 (some pk) V = .ok (0, V) := by
  obtain ⟨pkb, skb, sig, hE, lp, ls, hs, hm, -⟩ := compact_signature
  have hsl : sig.length = 2527 := by
    obtain ⟨-, -, ed, dil, nonce, h, l1, l2, l3, rfl, -⟩ := hm
    rw [(wire_compact_slices (msg := [2]) l1 l2 l3 (by decide)).1]; rfl
  obtain ⟨V, hV, v0, v1, v2⟩ : ∃ V : World, V.WF ∧ V.mem 0 = some [2] ∧ V.mem 1 = some sig ∧ V.mem 2 = some pkb :=
    ⟨{ mem := fun b => if b = 0 then some [2] else if b = 1 then some sig else if b = 2 then some pkb else none, sp := 3, rng := optRng (List.replicate 32 0) List.length_replicate }, by
      intro b hb
      have hb : 3 ≤ b := hb
      show (if b = 0 then some [2] else if b = 1 then some sig else if b = 2 then some pkb else none) = none
      rw [if_neg (by omega), if_neg (by omega), if_neg (by omega)], rfl, rfl, rfl⟩
  have a0 : V.view ⟨0, 0⟩ 1 = some [2] := view_block v0 rfl
  have a1 : V.view ⟨1, 0⟩ 2527 = some sig := view_block v1 hsl
  have a2 : V.view ⟨2, 0⟩ 1408 = some pkb := view_block v2 lp
  obtain ⟨G, hG⟩ := (real_verify_total_compact isShake128_S128 isShake256_S256 hV a1 a2 a0 hm).2
  exact ⟨G, pkb, skb, sig, hE, hs, V, _, _, _, hV, a0, a1, a2, hG _ (Nat.le_refl _)⟩

/-- The hypotheses of C90 for compact mode can be met. -/
example : ∃ (fv : Nat) (pkb skb : Bytes) (U W : World) (m sm pk : Ptr) (sb : Bytes), Session skb U [] ∧ W.WF ∧ W.view sm 2527 = some sb ∧ W.view pk 1408 = some pkb ∧
    W.view m 1 = some [2] ∧ verifyCompact (real fv) (some m) 1 (some sm) 2527 (some pk) W = .ok (0, W) ∧ ∀ sig, Query.compact [2] sig ∉ ([] : List Query) := by
  obtain ⟨fuel, pkb, skb, sig, -, -, V, m, sm, pk, hV, v0, v1, v2, hv⟩ := compact_run
  exact ⟨fuel, pkb, skb, V, V, m, sm, pk, sig, Session.start V, hV, v1, v2, v0, hv, fun _ h => nomatch h⟩

end Verif.Witness
