import Verif.Conc.VerifySteps
import Verif.Dilithium.Run

/-!
The computations of Dilithium verification between its reads have no undefined behaviour, whatever bytes were read.
-/

namespace Verif.Conc
open Verif
open Verif.Dilithium
open Verif.Dilithium.Spec

theorem verifyRest_safe (fuel : Nat) {rho c mu : Bytes} {t1 z h : Vec} (lrho : rho.length = 32) (bt1 : VB t1 1024) (bt1n : ∀ i, i < 4 → ∀ j, j < 256 → 0 ≤ co (at_ t1 i) j) (hc : c.length = 32)
    (bz : VB z 131073) (hh : IsHint h) (hmu : mu.length = 64) : Dilithium.Safe (verifyRest fuel rho t1 c z h mu) := by
  unfold verifyRest
  refine (polyChallenge_safe fuel hc).bind fun cp ecp => (matrixExpand_safe fuel lrho).bind fun A eA => ?_
  have hA := matrix_MB (matrixExpand_sound lrho eA)
  obtain ⟨ch, ech, bch, -⟩ := nttc_ok (ball_PB (polyChallenge_sound hc ecp))
  obtain ⟨zh, ezh, bzh, -⟩ := vecNtt_ok bz (by omega)
  obtain ⟨w, ew, bw, -⟩ := matrixPointwise_ok hA bzh (by omega)
  have bs : VB (vec fun i => mk fun j => co (at_ t1 i) j * 8192) 8380417 := VB_vec fun i hi j hj => by
    have := (bt1.2 i hi).2 j hj; have := bt1n i hi j hj; omega
  obtain ⟨th, eth, bth, -⟩ := vecNtt_ok bs (by omega)
  obtain ⟨a, ea, ba, -⟩ := vecPointwisePoly_ok bch bth (by omega)
  obtain ⟨r, er, br, -⟩ := vecReduce_ok (v := vec fun i => mk fun j => co (at_ w i) j - co (at_ a i) j) (VB_vec fun i hi j hj => by
    have := (bw.2 i hi).2 j hj; have := (ba.2 i hi).2 j hj; omega)
  obtain ⟨d, ed, bd, -⟩ := vecInvntt_ok (br.mono (by omega))
  rw [ezh, ok_bind, ew, ok_bind, ech, ok_bind, vecShiftl_ok bt1, ok_bind, eth, ok_bind, ea, ok_bind, vecSub_ok bw ba (by omega), ok_bind, er, ok_bind, ed, ok_bind,
    vecCaddq_ok (bd.mono (by omega)), ok_bind]
  have hwl : (vec fun i => mk fun j => co (at_ d i) j % 8380417).length = 4 := length_vec _
  have hwr : ∀ i, i < 4 → Res (at_ (vec fun i => mk fun j => co (at_ d i) j % 8380417) i) := fun i hi => by
    rw [at_vec _ hi]
    exact ⟨length_mk _, fun j hj => by rw [co_mk _ hj]; omega⟩
  generalize (vec fun i => mk fun j => co (at_ d i) j % 8380417) = u at hwl hwr
  have eu : vecUseHint u h = .ok (vec fun i => mk fun j => Spec.useHint (co (at_ h i) j) (co (at_ u i) j)) := by
    unfold vecUseHint
    rw [vzip_eq hwl hh.1 (fun a b => mk fun j => Spec.useHint (co b j) (co a j)) fun i hi => ?_]
    have hm := hh.2 _ (at_mem (v := h) (i := i) (by rw [hh.1]; exact hi))
    exact polyUseHint_ok (hwr i hi).1 (hwr i hi).2 hm.1 fun j hj => hm.2 _ (co_mem (by rw [hm.1]; exact hj))
  have lw : (vec fun i => mk fun j => Spec.useHint (co (at_ h i) j) (co (at_ u i) j)).length = 4 := length_vec _
  have hwb : ∀ x ∈ (vec fun i => mk fun j => Spec.useHint (co (at_ h i) j) (co (at_ u i) j)), x.length = 256 ∧ ∀ c ∈ x, 0 ≤ c ∧ c < 64 := by
    intro x hx
    obtain ⟨i, hi, rfl⟩ := mem_vec hx
    refine ⟨length_mk _, fun c hc => ?_⟩
    obtain ⟨j, hj, rfl⟩ := mem_mk hc
    have := (hwr i hi).2 j hj
    exact useHint_range this.1 this.2
  rw [eu, ok_bind]
  generalize (vec fun i => mk fun j => Spec.useHint (co (at_ h i) j) (co (at_ u i) j)) = w1 at lw hwb
  have lp : (w1.flatMap (packPos 6)).length = 768 := length_flatMap_vec lw fun x hx => length_packPos (hwb x hx).1
  have l768 : (List.replicate 768 (0 : Byte)).length = 768 := List.length_replicate ..
  have l32 : (List.replicate 32 (0 : Byte)).length = 32 := List.length_replicate ..
  rw [vecPackW1_ok lw hwb (by omega), ok_bind, splice_all (by omega), shake256Inc2_ok hmu.symm (by omega) (by omega), ok_bind, splice_all (by rw [Keccak.length_stream, l32])]
  obtain ⟨b', e', -⟩ := compare_ok hc (Keccak.length_stream 136 0x1F (mu ++ (w1.flatMap (packPos 6)).take 768) 32)
  rw [e', ok_bind]
  cases b' <;> exact safe_ok _

end Verif.Conc
