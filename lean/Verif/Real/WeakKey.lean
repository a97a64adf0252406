import Verif.Real.SubstProps
import Verif.Dilithium.SimProps

/-! Helper lemmas for the property C108: public keys whose Ed25519 and Dilithium parts have no secret. -/

namespace Verif.Real
open Verif Verif.Hybrid Dilithium

/-- A Dilithium public key with t1 = 0 (compare dilithium2/packing.c:15-28). -/
def zeroPk (rho : Bytes) : Bytes := rho ++ List.replicate 1280 0
/-- The vector of four zero polynomials (no line of its own). -/
def zeroVec : List (List Int) := List.replicate 4 (List.replicate 256 0)
/-- The challenge hash for w1 = 0 (compare dilithium2/sign.c:286-321). -/
def zeroChallenge (pk x : Bytes) : Bytes := S256 (S256 (S256 pk 64 ++ x) 64 ++ List.replicate 768 0) 32
/-- The Dilithium signature with z = 0 and no hints, made from the public key and the string alone (compare dilithium2/packing.c:168-199). -/
def zeroSig (pk x : Bytes) : Bytes := Dilithium.Spec.encodeSig (zeroChallenge pk x) zeroVec zeroVec

theorem co_zeros (k : Nat) : Dilithium.Spec.co (List.replicate 256 0) k = 0 := by
  unfold Dilithium.Spec.co; rw [List.getD_eq_getElem?_getD, List.getElem?_replicate]; split <;> rfl

theorem co_zeroVec (i k : Nat) : Dilithium.Spec.co (Dilithium.Spec.at_ zeroVec i) k = 0 := by
  unfold Dilithium.Spec.at_ zeroVec
  rw [List.getD_eq_getElem?_getD, List.getElem?_replicate]
  split
  · exact co_zeros k
  · rfl

theorem mul_zeros (b d : List Int) (hd : ∀ k, Dilithium.Spec.co d k = 0) : Dilithium.Spec.mul b d = Dilithium.Spec.mk fun _ => 0 := by
  unfold Dilithium.Spec.mul
  simp only [hd, neg_zero, ite_self, mul_zero, List.map_const', List.length_range, List.sum_replicate, smul_zero, Int.zero_emod]

theorem co_mk0 (k : Nat) : Dilithium.Spec.co (Dilithium.Spec.mk fun _ => 0) k = 0 := by
  by_cases hk : k < 256
  · exact co_mk _ hk
  · unfold Dilithium.Spec.co; rw [List.getD_eq_getElem?_getD, List.getElem?_eq_none (by rw [length_mk]; omega)]; rfl

theorem matVec_zeroVec (A : List Vec) : Dilithium.Spec.matVec A zeroVec = Dilithium.Spec.vec fun _ => Dilithium.Spec.mk fun _ => 0 := by
  unfold Dilithium.Spec.matVec
  simp only [mul_zeros _ _ (co_zeroVec _), co_mk0, List.map_const', List.length_range, List.sum_replicate, smul_zero, Int.zero_emod]

theorem unpack_zeros (i : Nat) (rho : Bytes) (hr : rho.length = 32) (hi : i < 4) :
    Dilithium.Spec.unpackPos 10 (slice (zeroPk rho) (32 + i * 320) 320) = List.replicate 256 0 := by
  have e : slice (zeroPk rho) (32 + i * 320) 320 = List.replicate 320 0 := by
    unfold slice zeroPk
    rw [← List.drop_drop, List.drop_left' hr, List.drop_replicate, List.take_replicate]
    congr 1; omega
  rw [e]
  decide +kernel

theorem w1_zero (A : List Vec) (c : List Int) {rho : Bytes} (hr : rho.length = 32) :
    (Dilithium.Spec.w1Of A zeroVec (Dilithium.Spec.vec fun i => Dilithium.Spec.unpackPos 10 (slice (zeroPk rho) (32 + i * 320) 320)) zeroVec c).flatMap (Dilithium.Spec.packPos 6) =
      List.replicate 768 0 := by
  have h : Dilithium.Spec.w1Of A zeroVec (Dilithium.Spec.vec fun i => Dilithium.Spec.unpackPos 10 (slice (zeroPk rho) (32 + i * 320) 320)) zeroVec c =
      Dilithium.Spec.vec fun _ => Dilithium.Spec.mk fun _ => 0 := by
    unfold Dilithium.Spec.w1Of Dilithium.Spec.wApprox
    refine vec_ext (length_vec _) (length_vec _) fun i hi => ?_
    conv_rhs => rw [at_vec _ hi]
    rw [at_vec _ hi]
    refine co_ext (length_mk _) (length_mk _) fun j hj => ?_
    rw [co_mk _ hj, co_mk0, co_zeroVec, at_vec _ hi, matVec_zeroVec, at_vec _ hi, at_vec _ hi, unpack_zeros i rho hr hi]
    have : ∀ k, Dilithium.Spec.co (Dilithium.Spec.scale 8192 (List.replicate 256 0)) k = 0 := fun k => by
      unfold Dilithium.Spec.scale
      simp only [co_zeros, mul_zero, Int.zero_emod]
      exact co_mk0 k
    rw [mul_zeros _ _ this]
    unfold Dilithium.Spec.sub
    rw [co_mk _ hj, co_mk0]; decide
  rw [h]
  decide +kernel

theorem length_zeroSig (pk x : Bytes) : (zeroSig pk x).length = 2420 := by
  have l : (zeroChallenge pk x).length = 32 := Keccak.length_stream ..
  have h1 : (zeroVec.flatMap (Dilithium.Spec.packAt 18 131072)).length = 2304 := by decide +kernel
  have h2 : (Dilithium.Spec.packHint zeroVec).length = 84 := by decide +kernel
  rw [zeroSig, Dilithium.Spec.encodeSig, List.length_append, List.length_append, l, h1, h2]

theorem zeroSig_valid {rho x : Bytes} (hr : rho.length = 32) {A : List Vec} {c : List Int} (hA : Dilithium.Spec.IsMatrix S128 rho A)
    (hc : Dilithium.Spec.IsBall S256 (zeroChallenge (zeroPk rho) x) c) : Dilithium.Spec.Valid S128 S256 (zeroPk rho) x (zeroSig (zeroPk rho) x) := by
  refine ⟨_, zeroVec, zeroVec, c, A, Keccak.length_stream .., by decide, ?_, ?_, by decide +kernel, rfl, hc, ?_, ?_⟩
  · intro y hy
    obtain rfl := List.eq_of_mem_replicate hy
    refine ⟨List.length_replicate .., fun v hv => ?_⟩
    obtain rfl := List.eq_of_mem_replicate hv
    decide
  · refine ⟨by decide, fun y hy => ?_⟩
    obtain rfl := List.eq_of_mem_replicate hy
    refine ⟨List.length_replicate .., fun v hv => ?_⟩
    obtain rfl := List.eq_of_mem_replicate hv
    exact .inl rfl
  · have : slice (zeroPk rho) 0 32 = rho := by unfold slice zeroPk; rw [List.drop_zero, List.take_left' hr]
    rw [this]; exact hA
  · rw [w1_zero A c hr]

end Verif.Real
