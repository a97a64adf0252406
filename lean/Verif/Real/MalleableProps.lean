import Verif.Real.ForgeryProps3

/-!
What is true of C21: an accepted signature whose number S is below L can be changed only by breaking a hard problem, as long as the first 32 bytes of the parts stay.
The full statement of C21 is false (`hybrid_malleable`, `real_malleable`): the verifier also accepts S + L.
-/

namespace Verif.Real
open Verif Verif.Hybrid Dilithium

/-- The number S of an Ed25519 signature is below the group order, as RFC 8032 requires (compare tweetnacl/tweetnacl.c:796-825, which does not check it). -/
def Reduced (ed : Bytes) : Prop := Ed25519.Spec.leVal (ed.drop 32) < Ed25519.Spec.L

theorem variant_reduced {ed ed' : Bytes} (l : ed.length = 64) (l' : ed'.length = 64) (h : EdVariant ed ed') (r : Reduced ed) (r' : Reduced ed') : ed = ed' := by
  obtain ⟨e1, e2⟩ := h
  unfold Reduced at r r'
  rw [Nat.mod_eq_of_lt r, Nat.mod_eq_of_lt r'] at e2
  have d : (ed.drop 32).length = 32 := by rw [List.length_drop]; omega
  have d' : (ed'.drop 32).length = 32 := by rw [List.length_drop]; omega
  have e := Ed25519.leBytes_leVal (ed.drop 32)
  have e' := Ed25519.leBytes_leVal (ed'.drop 32)
  rw [d] at e
  rw [d'] at e'
  rw [← List.take_append_drop 32 ed, ← List.take_append_drop 32 ed', e1, ← e, e2, e']

theorem reduce_valid {pk x ed : Bytes} (l : ed.length = 64) (h : Ed25519.Spec.Valid pk x ed) :
    ∃ ed', ed'.length = 64 ∧ Reduced ed' ∧ Ed25519.Spec.Valid pk x ed' := by
  have lR : (ed.take 32).length = 32 := by rw [List.length_take]; omega
  have hL : 0 < Ed25519.Spec.L := by decide +kernel
  have hL2 : Ed25519.Spec.L < 256 ^ 32 := by decide +kernel
  have lt := Nat.mod_lt (Ed25519.Spec.leVal (ed.drop 32)) hL
  have hv : Ed25519.Spec.leVal (Ed25519.Spec.leBytes 32 (Ed25519.Spec.leVal (ed.drop 32) % Ed25519.Spec.L)) = Ed25519.Spec.leVal (ed.drop 32) % Ed25519.Spec.L := by
    rw [Ed25519.leVal_leBytes, Nat.mod_eq_of_lt (lt.trans hL2)]
  refine ⟨ed.take 32 ++ Ed25519.Spec.leBytes 32 (Ed25519.Spec.leVal (ed.drop 32) % Ed25519.Spec.L), by rw [List.length_append, lR, Ed25519.length_leBytes], ?_, ?_⟩
  · unfold Reduced
    rw [List.drop_left' lR, hv]
    exact lt
  · rw [← List.take_append_drop 32 ed] at h
    refine Ed25519.valid_shift lR ?_ h
    rw [hv, Ed25519.smul_B_iff, ZMod.natCast_mod]

/-- C21, full mode, what holds: two buffers accepted for one message under a generated public key whose parts begin with the same 32 bytes each (Ed25519 point, Dilithium challenge hash, SPHINCS+
randomiser) and whose numbers S are below L are the same buffer, or break the Dilithium or the SPHINCS+ problem.  Missing from C21: S need not be below L (`real_malleable`), and nothing is said of
buffers with other first bytes. -/
theorem hybrid_full_malleable_partial {fk fv fv' : Nat} {pkb skb : Bytes} (hg : Generated (real fk) pkb skb) {W W' V V' : World} (hW : W.WF) (hV : V.WF) {sm m pk sm' m' pk' : Ptr} {n k n' k' : Nat}
    {mb ed dil spx ed' dil' spx' : Bytes} (l1 : ed.length = 64) (l2 : dil.length = 2420) (l3 : spx.length = 49856) (l1' : ed'.length = 64) (l2' : dil'.length = 2420) (l3' : spx'.length = 49856)
    (hsm : W.view sm n = some (fullWire ed mb dil spx)) (hpk : W.view pk 1408 = some pkb) (hm : W.view m k = some mb)
    (h : verifyFull (real fv) (some m) k (some sm) n (some pk) W = .ok (0, W'))
    (hsm' : V.view sm' n' = some (fullWire ed' mb dil' spx')) (hpk' : V.view pk' 1408 = some pkb) (hm' : V.view m' k' = some mb)
    (h' : verifyFull (real fv') (some m') k' (some sm') n' (some pk') V = .ok (0, V'))
    (c1 : ed.take 32 = ed'.take 32) (c2 : dil.take 32 = dil'.take 32) (c3 : spx.take 32 = spx'.take 32) (r : Reduced ed) (r' : Reduced ed') :
    fullWire ed mb dil spx = fullWire ed' mb dil' spx' ∨
      DilBreak (pkDil pkb) mb dil dil' ∨ SpxBreak skb (pkSpx pkb) mb spx ∨ SpxBreak skb (pkSpx pkb) mb spx' := by
  rcases hybrid_full_variants hg hW hV l1 l2 l3 l1' l2' l3' hsm hpk hm h hsm' hpk' hm' h' c1 c2 c3 with ⟨a, rfl, rfl⟩ | b
  · exact .inl (by rw [variant_reduced l1 l1' a r r'])
  · exact .inr b

/-- C21, compact mode, what holds: the same for two buffers with the same nonce. -/
theorem hybrid_compact_malleable_partial {fv fv' : Nat} {seed pkb : Bytes} (hg : pkEd pkb = Ed25519.Spec.publicKey seed) {W W' V V' : World} (hW : W.WF) (hV : V.WF) {sm m pk sm' m' pk' : Ptr}
    {n k n' k' : Nat} {mb ed dil ed' dil' nonce : Bytes} (l1 : ed.length = 64) (l2 : dil.length = 2420) (l1' : ed'.length = 64) (l2' : dil'.length = 2420) (ln : nonce.length = 40)
    (hsm : W.view sm n = some (compactWire ed dil nonce mb)) (hpk : W.view pk 1408 = some pkb) (hm : W.view m k = some mb)
    (h : verifyCompact (real fv) (some m) k (some sm) n (some pk) W = .ok (0, W'))
    (hsm' : V.view sm' n' = some (compactWire ed' dil' nonce mb)) (hpk' : V.view pk' 1408 = some pkb) (hm' : V.view m' k' = some mb)
    (h' : verifyCompact (real fv') (some m') k' (some sm') n' (some pk') V = .ok (0, V'))
    (c1 : ed.take 32 = ed'.take 32) (c2 : dil.take 32 = dil'.take 32) (r : Reduced ed) (r' : Reduced ed') :
    compactWire ed dil nonce mb = compactWire ed' dil' nonce mb ∨ ∃ x, IsCompactHash nonce mb (pkSpx pkb) x ∧ DilBreak (pkDil pkb) x dil dil' := by
  rcases hybrid_compact_variants hg hW hV l1 l2 l1' l2' ln hsm hpk hm h hsm' hpk' hm' h' c1 c2 with ⟨a, rfl⟩ | b
  · exact .inl (by rw [variant_reduced l1 l1' a r r'])
  · exact .inr b

/-- An accepted full buffer with S below L, under a generated key. -/
example : ∃ (fk fv : Nat) (pkb skb : Bytes) (W : World) (mb ed dil spx : Bytes), Generated (real fk) pkb skb ∧ W.WF ∧ ed.length = 64 ∧ dil.length = 2420 ∧ spx.length = 49856 ∧
    W.view ⟨0, 0⟩ 52343 = some (fullWire ed mb dil spx) ∧ W.view ⟨1, 0⟩ 1408 = some pkb ∧ W.view ⟨2, 0⟩ 1 = some mb ∧
    verifyFull (real fv) (some ⟨2, 0⟩) 1 (some ⟨0, 0⟩) 52343 (some ⟨1, 0⟩) W = .ok (0, W) ∧ Reduced ed := by
  obtain ⟨fuel, pkb, skb, sig, hg, -, hm, _, _, _, _, -, -, -, v2, -⟩ := Witness.complete_run
  have lp := length_of_view v2
  obtain ⟨-, -, ed, dil, spx, l1, l2, l3, -, w1, w2, w3⟩ := hm
  obtain ⟨e, le, re, we⟩ := reduce_valid l1 w1
  have a0 : (holding [fullWire e [2] dil spx, pkb, [2]]).view ⟨0, 0⟩ 52343 = some (fullWire e [2] dil spx) :=
    holding_view rfl (by rw [(wire_full_slices (msg := [2]) le l2 l3 (by decide)).1]; rfl)
  have a1 : (holding [fullWire e [2] dil spx, pkb, [2]]).view ⟨1, 0⟩ 1408 = some pkb := holding_view rfl lp
  have a2 : (holding [fullWire e [2] dil spx, pkb, [2]]).view ⟨2, 0⟩ 1 = some [2] := holding_view rfl rfl
  obtain ⟨F, hF⟩ := (real_verify_total isShake128_S128 isShake256_S256 (holding_WF _) a0 a1 a2 ⟨by decide, by decide, e, dil, spx, le, l2, l3, rfl, we, w2, w3⟩).2
  exact ⟨fuel, F, pkb, skb, _, [2], e, dil, spx, hg, holding_WF _, le, l2, l3, a0, a1, a2, hF F (Nat.le_refl _), re⟩

/-- An accepted compact buffer with S below L. -/
example : ∃ (fv : Nat) (seed pkb : Bytes) (W : World) (mb ed dil nonce : Bytes), pkEd pkb = Ed25519.Spec.publicKey seed ∧ W.WF ∧ ed.length = 64 ∧ dil.length = 2420 ∧ nonce.length = 40 ∧
    W.view ⟨0, 0⟩ 2527 = some (compactWire ed dil nonce mb) ∧ W.view ⟨1, 0⟩ 1408 = some pkb ∧ W.view ⟨2, 0⟩ 1 = some mb ∧
    verifyCompact (real fv) (some ⟨2, 0⟩) 1 (some ⟨0, 0⟩) 2527 (some ⟨1, 0⟩) W = .ok (0, W) ∧ Reduced ed := by
  obtain ⟨pkb, -, sig, hE, lp, -, -, hm, -⟩ := Witness.compact_signature
  obtain ⟨-, -, ed, dil, nonce, x, l1, l2, l3, -, w0, w1, w2⟩ := hm
  obtain ⟨e, le, re, we⟩ := reduce_valid l1 w1
  have a0 : (holding [compactWire e dil nonce [2], pkb, [2]]).view ⟨0, 0⟩ 2527 = some (compactWire e dil nonce [2]) :=
    holding_view rfl (by rw [(wire_compact_slices (msg := [2]) le l2 l3 (by decide)).1]; rfl)
  have a1 : (holding [compactWire e dil nonce [2], pkb, [2]]).view ⟨1, 0⟩ 1408 = some pkb := holding_view rfl lp
  have a2 : (holding [compactWire e dil nonce [2], pkb, [2]]).view ⟨2, 0⟩ 1 = some [2] := holding_view rfl rfl
  obtain ⟨F, hF⟩ := (real_verify_total_compact isShake128_S128 isShake256_S256 (holding_WF _) a0 a1 a2 ⟨by decide, by decide, e, dil, nonce, x, le, l2, l3, rfl, w0, we, w2⟩).2
  exact ⟨F, _, pkb, _, [2], e, dil, nonce, hE, holding_WF _, le, l2, l3, a0, a1, a2, hF F (Nat.le_refl _), re⟩

end Verif.Real
