import Verif.Real.Props3
import Verif.Witness.Hybrid

/-! C22 with the component code: `crypto_verify_dilithium` in terms of the Dilithium specification. -/

namespace Verif.Real
open Verif Verif.Hybrid Dilithium

variable {fuel : Nat} {H128 H256 : Bytes → Nat → Bytes}

/-- C22: whatever the memory holds, `crypto_verify_dilithium` accepts exactly the 2420-byte signatures of a message of 1 to 64 bytes that are valid by the Dilithium specification; it leaves the memory
alone.  The fuel plays no part, as in C66. -/
theorem real_dilithium_verify (h1 : IsShake128 H128) (h2 : IsShake256 H256) {W : World} {sm m pk : Ptr} {n k : Nat} {sb pkb mb : Bytes}
    (hsm : W.view sm n = some sb) (hpk : W.view pk 1312 = some pkb) (hm : W.view m k = some mb) :
    (∀ fuel W', verifyDilithium (real fuel) (some m) k (some sm) n (some pk) W = .ok (0, W') →
      W' = W ∧ 1 ≤ mb.length ∧ mb.length ≤ 64 ∧ sb.length = 2420 ∧ Dilithium.Spec.Valid H128 H256 pkb mb sb) ∧
    (1 ≤ mb.length → mb.length ≤ 64 → sb.length = 2420 → Dilithium.Spec.Valid H128 H256 pkb mb sb →
      ∃ F, ∀ fuel, F ≤ fuel → verifyDilithium (real fuel) (some m) k (some sm) n (some pk) W = .ok (0, W)) := by
  have hp := length_of_view hpk
  constructor
  · intro fuel W' h
    obtain ⟨e, l1, l2, l3, ha⟩ := (dilithium_verify_iff hsm hpk hm).1 h
    exact ⟨e, l1, l2, l3, dilAccepts_sound h1 h2 hp l3 ha⟩
  · intro l1 l2 l3 hv
    obtain ⟨F, hF⟩ := dilAccepts_complete h1 h2 hp l3 hv
    exact ⟨F, fun fuel hf => (dilithium_verify_iff hsm hpk hm).2 ⟨rfl, l1, l2, l3, hF fuel hf⟩⟩

/-- C22: the Dilithium part of a buffer that full verification accepts is valid by the specification and is accepted on its own with every large enough fuel, also when it is moved elsewhere. -/
theorem real_dilithium_strip (h1 : IsShake128 H128) (h2 : IsShake256 H256) {W W' V : World} (hW : W.WF) {sm m pk sm' m' pk' : Ptr} {n k : Nat} {sb pkb mb : Bytes}
    (hsm : W.view sm n = some sb) (hpk : W.view pk 1408 = some pkb) (hm : W.view m k = some mb)
    (h : verifyFull (real fuel) (some m) k (some sm) n (some pk) W = .ok (0, W'))
    (hsm' : V.view sm' 2420 = some ((sb.drop (66 + mb.length)).take 2420)) (hpk' : V.view pk' 1312 = some ((pkb.drop 32).take 1312)) (hm' : V.view m' k = some mb) :
    Dilithium.Spec.Valid H128 H256 ((pkb.drop 32).take 1312) mb ((sb.drop (66 + mb.length)).take 2420) ∧
    ∃ F, ∀ fuel, F ≤ fuel → verifyDilithium (real fuel) (some m') k (some sm') 2420 (some pk') V = .ok (0, V) := by
  obtain ⟨-, l1, l2, ed, dil, spx, e1, e2, e3, rfl, -, hd, -⟩ := (real_full_verify h1 h2 hW hsm hpk hm).1 _ _ h
  have hs : ((fullWire ed mb dil spx).drop (66 + mb.length)).take 2420 = dil := (wire_full_slices e1 e2 e3 l2).2.2.2.2.1
  rw [hs] at hsm' ⊢
  have hd : Dilithium.Spec.Valid H128 H256 ((pkb.drop 32).take 1312) mb dil := hd
  exact ⟨hd, (real_dilithium_verify h1 h2 hsm' hpk' hm').2 l1 l2 e2 hd⟩

/-- A buffer that full verification really accepts, and its Dilithium part in another memory. -/
example : ∃ (fuel : Nat) (W V : World) (sm m pk sm' m' pk' : Ptr) (sb pkb : Bytes), W.WF ∧ W.view sm 52343 = some sb ∧ W.view pk 1408 = some pkb ∧ W.view m 1 = some [2] ∧
    verifyFull (real fuel) (some m) 1 (some sm) 52343 (some pk) W = .ok (0, W) ∧
    V.view sm' 2420 = some ((sb.drop (66 + [(2 : Byte)].length)).take 2420) ∧ V.view pk' 1312 = some ((pkb.drop 32).take 1312) ∧ V.view m' 1 = some [2] := by
  obtain ⟨fuel, pkb, skb, sig, -, -, -, W, m, sm, pk, hW, a0, a1, a2, e⟩ := Witness.complete_run
  have l1 := length_of_view a1
  have l2 := length_of_view a2
  refine ⟨fuel, W, { Toy.demo with mem := fun b => if b = 0 then some ((sig.drop 67).take 2420) else if b = 1 then some ((pkb.drop 32).take 1312) else some [2] },
    sm, m, pk, ⟨0, 0⟩, ⟨2, 0⟩, ⟨1, 0⟩, sig, pkb, hW, a1, a2, a0, e, view_block rfl ?_, view_block rfl ?_, view_block rfl rfl⟩
  · rw [List.length_take, List.length_drop, l1]; rfl
  · rw [List.length_take, List.length_drop, l2]; rfl

end Verif.Real
