import Verif.Ct.SphincsLemmas
import Verif.Ct.Dilithium
import Verif.Dilithium.Run

/-! Every function of Verif/Ct/Dilithium.lean, without the trace, is the function of the model. -/

namespace Verif.Ct.Dilithium
open Verif.Dilithium (Poly Vec SkParts SignCtx ChalSt)
open Verif.Keccak (Inc)
open Verif.Ct.Keccak (touch diverge incAbsorb incFinalize incSqueeze shake256 touch_res incAbsorb_res incFinalize_res incSqueeze_res shake_res)

variable {α : Type}

theorem lift_res (x : C α) : (lift x).res = x := rfl

theorem build_res {n : Nat} {d : α} {f : Nat → T α} {g : Nat → C α} (h : ∀ i, (f i).res = g i) : (build n d f).res = Verif.Dilithium.build n d g :=
  loop_res (fun k _ => bind_res (h k) fun _ => rfl) _ _ _

theorem anyBad_res {f : Nat → T Bool} {g : Nat → C Bool} (h : ∀ i, (f i).res = g i) (n : Nat) : ∀ i, (anyBad f i n).res = Verif.Dilithium.anyBad g i n := by
  induction n with
  | zero => intro i; rfl
  | succ n ih =>
    intro i
    rw [anyBad, Verif.Dilithium.anyBad]
    exact touch_res _ _ (bind_res (h i) fun b => cond_res rfl (ih _))

theorem makeHint_res (a0 a1 : Int) : (makeHint a0 a1).res = .ok (Verif.Dilithium.makeHint a0 a1) := by
  unfold makeHint Verif.Dilithium.makeHint
  by_cases h1 : a0 > 95232
  · rw [if_pos (Or.inl h1)]; exact cond_res_pos h1 rfl
  · refine cond_res_neg h1 ?_
    by_cases h2 : a0 < -95232
    · rw [if_pos (Or.inr (Or.inl h2))]; exact cond_res_pos h2 rfl
    · refine cond_res_neg h2 ?_
      by_cases h3 : a0 = -95232
      · refine cond_res_pos h3 ?_
        by_cases h4 : a1 ≠ 0
        · rw [if_pos (Or.inr (Or.inr ⟨h3, h4⟩))]; exact cond_res_pos h4 rfl
        · rw [if_neg fun h => h.elim h1 fun h => h.elim h2 fun h => h4 h.2]; exact cond_res_neg h4 rfl
      · rw [if_neg fun h => h.elim h1 fun h => h.elim h2 fun h => h3 h.1]
        exact cond_res_neg h3 rfl

theorem nttBlock_res (zeta : Int) (len start : Nat) (a : Poly) : (nttBlock zeta len start a).res = Verif.Dilithium.nttBlock zeta len start a := by
  unfold nttBlock Verif.Dilithium.nttBlock
  er [lift_res _]

theorem nttLayer_res (len : Nat) (s : Poly × Nat) : (nttLayer len s).res = Verif.Dilithium.nttLayer len s := by
  unfold nttLayer Verif.Dilithium.nttLayer
  er [nttBlock_res _ _ _ _]

theorem ntt_res (a : Poly) : (ntt a).res = Verif.Dilithium.ntt a := by
  unfold ntt Verif.Dilithium.ntt
  er [nttLayer_res _ _]

theorem invnttBlock_res (zeta : Int) (len start : Nat) (a : Poly) : (invnttBlock zeta len start a).res = Verif.Dilithium.invnttBlock zeta len start a := by
  unfold invnttBlock Verif.Dilithium.invnttBlock
  er [lift_res _]

theorem invnttLayer_res (len : Nat) (s : Poly × Nat) : (invnttLayer len s).res = Verif.Dilithium.invnttLayer len s := by
  unfold invnttLayer Verif.Dilithium.invnttLayer
  er [invnttBlock_res _ _ _ _, lift_res _]

theorem invntt_res (a : Poly) : (invntt a).res = Verif.Dilithium.invntt a := by
  unfold invntt Verif.Dilithium.invntt
  refine bind_res (loop_res (fun _ _ => invnttLayer_res _ _) _ _ _) fun _ => build_res fun _ => ?_
  er [lift_res _]

theorem polyReduce_res (a : Poly) : (polyReduce a).res = Verif.Dilithium.polyReduce a := build_res fun _ => by er [lift_res _]
theorem polyCaddq_res (a : Poly) : (polyCaddq a).res = Verif.Dilithium.polyCaddq a := build_res fun _ => by er [lift_res _]
theorem polyAdd_res (a b : Poly) : (polyAdd a b).res = Verif.Dilithium.polyAdd a b := build_res fun _ => by er [lift_res _]
theorem polySub_res (a b : Poly) : (polySub a b).res = Verif.Dilithium.polySub a b := build_res fun _ => by er [lift_res _]
theorem polyPointwise_res (a b : Poly) : (polyPointwise a b).res = Verif.Dilithium.polyPointwise a b := build_res fun _ => by er [lift_res _]
theorem polyPower2round_res (a : Poly) : (polyPower2round a).res = Verif.Dilithium.polyPower2round a := build_res fun _ => by er [lift_res _]
theorem polyDecompose_res (a : Poly) : (polyDecompose a).res = Verif.Dilithium.polyDecompose a := build_res fun _ => by er [lift_res _]
theorem polyMakeHint_res (a b : Poly) : (polyMakeHint a b).res = Verif.Dilithium.polyMakeHint a b := build_res fun _ => by er [makeHint_res _ _]

theorem coeffBad_res (a : Poly) (B : Int) (i : Nat) : (coeffBad a B i).res = Verif.Dilithium.coeffBad a B i := by
  unfold coeffBad Verif.Dilithium.coeffBad
  er [lift_res _]

theorem polyChknorm_res (a : Poly) (B : Int) : (polyChknorm a B).res = Verif.Dilithium.polyChknorm a B :=
  cond_res rfl (anyBad_res (fun i => coeffBad_res a B i) _ _)

theorem streamInit_res (r : Nat) (seed : Bytes) (seedlen : Nat) (nonce : BitVec 16) : (streamInit r seed seedlen nonce).res = Verif.Dilithium.streamInit r seed seedlen nonce := by
  unfold streamInit Verif.Dilithium.streamInit
  er [incAbsorb_res _ _ _ _, incFinalize_res _ _ _]

theorem squeezeAt_res (buf : Bytes) (off n : Nat) (st : Inc) (r : Nat) : (squeezeAt buf off n st r).res = Verif.Dilithium.squeezeAt buf off n st r := by
  unfold squeezeAt Verif.Dilithium.squeezeAt
  er [incSqueeze_res _ _ _ _]

theorem rejUniformLoop_res (base len : Nat) (buf : Bytes) (buflen : Nat) (a : Poly) (ctr pos : Nat) :
    (rejUniformLoop base len buf buflen a ctr pos).res = Verif.Dilithium.rejUniformLoop base len buf buflen a ctr pos := by
  induction h : buflen - pos using Nat.strongRecOn generalizing a ctr pos with
  | _ n ih =>
    rw [rejUniformLoop, Verif.Dilithium.rejUniformLoop]
    split
    · refine touch_res _ _ (bind_res (rd_res _ _) fun _ => bind_res (rd_res _ _) fun _ => bind_res (rd_res _ _) fun _ => cond_res (bind_res (wr_res _ _ _) fun _ => ?_) ?_)
      · exact ih _ (by omega) _ _ _ rfl
      · exact ih _ (by omega) _ _ _ rfl
    · rfl

theorem rejUniform_res (a : Poly) (base len : Nat) (buf : Bytes) (buflen : Nat) : (rejUniform a base len buf buflen).res = Verif.Dilithium.rejUniform a base len buf buflen :=
  rejUniformLoop_res _ _ _ _ _ _ _

theorem polyUniformLoop_res (fuel : Nat) : ∀ (a : Poly) (buf : Bytes) (buflen ctr : Nat) (st : Inc),
    (polyUniformLoop fuel a buf buflen ctr st).res = Verif.Dilithium.polyUniformLoop fuel a buf buflen ctr st := by
  induction fuel with
  | zero =>
    intro a buf buflen ctr st
    rw [polyUniformLoop, Verif.Dilithium.polyUniformLoop]
    exact cond_res rfl rfl
  | succ fuel ih =>
    intro a buf buflen ctr st
    rw [polyUniformLoop, Verif.Dilithium.polyUniformLoop]
    refine cond_res ?_ rfl
    er [squeezeAt_res _ _ _ _ _, rejUniform_res _ _ _ _ _, ih _ _ _ _ _]

theorem polyUniform_res (fuel : Nat) (seed : Bytes) (nonce : BitVec 16) : (polyUniform fuel seed nonce).res = Verif.Dilithium.polyUniform fuel seed nonce := by
  unfold polyUniform Verif.Dilithium.polyUniform
  er [streamInit_res _ _ _ _, squeezeAt_res _ _ _ _ _, rejUniform_res _ _ _ _ _, polyUniformLoop_res _ _ _ _ _ _]

theorem rejEtaLoop_res (base len : Nat) (buf : Bytes) (buflen : Nat) (a : Poly) (ctr pos : Nat) :
    (rejEtaLoop base len buf buflen a ctr pos).res = Verif.Dilithium.rejEtaLoop base len buf buflen a ctr pos := by
  induction h : buflen - pos using Nat.strongRecOn generalizing a ctr pos with
  | _ n ih =>
    rw [rejEtaLoop, Verif.Dilithium.rejEtaLoop]
    split
    · refine touch_res _ _ (bind_res (rd_res _ _) fun _ => bind_res (cond_res (bind_res (wr_res _ _ _) fun _ => rfl) rfl) fun _ =>
        bind_res (cond_res (bind_res (wr_res _ _ _) fun _ => rfl) rfl) fun _ => ?_)
      exact ih _ (by omega) _ _ _ rfl
    · rfl

theorem rejEta_res (a : Poly) (base len : Nat) (buf : Bytes) (buflen : Nat) : (rejEta a base len buf buflen).res = Verif.Dilithium.rejEta a base len buf buflen :=
  rejEtaLoop_res _ _ _ _ _ _ _

theorem polyUniformEtaLoop_res (fuel : Nat) : ∀ (a : Poly) (buf : Bytes) (ctr : Nat) (st : Inc),
    (polyUniformEtaLoop fuel a buf ctr st).res = Verif.Dilithium.polyUniformEtaLoop fuel a buf ctr st := by
  induction fuel with
  | zero =>
    intro a buf ctr st
    rw [polyUniformEtaLoop, Verif.Dilithium.polyUniformEtaLoop]
    exact cond_res rfl rfl
  | succ fuel ih =>
    intro a buf ctr st
    rw [polyUniformEtaLoop, Verif.Dilithium.polyUniformEtaLoop]
    refine cond_res ?_ rfl
    er [squeezeAt_res _ _ _ _ _, rejEta_res _ _ _ _ _, ih _ _ _ _]

theorem polyUniformEta_res (fuel : Nat) (seed : Bytes) (nonce : BitVec 16) : (polyUniformEta fuel seed nonce).res = Verif.Dilithium.polyUniformEta fuel seed nonce := by
  unfold polyUniformEta Verif.Dilithium.polyUniformEta
  er [streamInit_res _ _ _ _, squeezeAt_res _ _ _ _ _, rejEta_res _ _ _ _ _, polyUniformEtaLoop_res _ _ _ _ _]

theorem rdN_res (a : List α) (o n : Nat) : (rdN a o n).res = Verif.Dilithium.rdN a o n := rfl

theorem packLoop_res (m k n : Nat) (f : List Int → C Bytes) (r : Bytes) (base : Nat) (a : Poly) : (packLoop m k n f r base a).res = Verif.Dilithium.packLoop m k n f r base a := by
  unfold packLoop Verif.Dilithium.packLoop
  er [rdN_res _ _ _, lift_res _]

theorem unpackLoop_res (m k n : Nat) (f : Bytes → C (List Int)) (src : Bytes) (base : Nat) : (unpackLoop m k n f src base).res = Verif.Dilithium.unpackLoop m k n f src base := by
  unfold unpackLoop Verif.Dilithium.unpackLoop
  er [rdN_res _ _ _, lift_res _]

theorem polyUniformGamma1_res (seed : Bytes) (nonce : BitVec 16) : (polyUniformGamma1 seed nonce).res = Verif.Dilithium.polyUniformGamma1 seed nonce := by
  unfold polyUniformGamma1 Verif.Dilithium.polyUniformGamma1
  exact bind_res (streamInit_res _ _ _ _) fun _ => bind_res (squeezeAt_res _ _ _ _ _) fun _ => unpackLoop_res _ _ _ _ _ _

theorem challengeByte_res (fuel : Nat) : ∀ (i : Nat) (s : ChalSt), (challengeByte fuel i s).res = Verif.Dilithium.challengeByte fuel i s := by
  induction fuel with
  | zero => intro i s; rfl
  | succ fuel ih =>
    intro i s
    rw [challengeByte, Verif.Dilithium.challengeByte]
    er [squeezeAt_res _ _ _ _ _, ih _ _]

theorem challengeStep_res (fuel i : Nat) (s : Poly × BitVec 64 × ChalSt) : (challengeStep fuel i s).res = Verif.Dilithium.challengeStep fuel i s := by
  unfold challengeStep Verif.Dilithium.challengeStep
  er [challengeByte_res _ _ _]

theorem polyChallenge_res (fuel : Nat) (seed : Bytes) : (polyChallenge fuel seed).res = Verif.Dilithium.polyChallenge fuel seed := by
  unfold polyChallenge Verif.Dilithium.polyChallenge
  er [incAbsorb_res _ _ _ _, incFinalize_res _ _ _, squeezeAt_res _ _ _ _ _, challengeStep_res _ _ _]

theorem vmap_res {f : Poly → T Poly} {g : Poly → C Poly} (h : ∀ a, (f a).res = g a) (v : Vec) : (vmap f v).res = Verif.Dilithium.vmap g v :=
  build_res fun _ => bind_res rfl fun _ => h _
theorem vzip_res {f : Poly → Poly → T Poly} {g : Poly → Poly → C Poly} (h : ∀ a b, (f a b).res = g a b) (u v : Vec) : (vzip f u v).res = Verif.Dilithium.vzip g u v :=
  build_res fun _ => bind_res rfl fun _ => bind_res rfl fun _ => h _ _

theorem matrixExpand_res (fuel : Nat) (rho : Bytes) : (matrixExpand fuel rho).res = Verif.Dilithium.matrixExpand fuel rho :=
  build_res fun _ => build_res fun _ => polyUniform_res _ _ _

theorem pointwiseAcc_res (u v : Vec) : (pointwiseAcc u v).res = Verif.Dilithium.pointwiseAcc u v := by
  unfold pointwiseAcc Verif.Dilithium.pointwiseAcc
  er [polyPointwise_res _ _, polyAdd_res _ _]

theorem matrixPointwise_res (mat : List Vec) (v : Vec) : (matrixPointwise mat v).res = Verif.Dilithium.matrixPointwise mat v :=
  build_res fun _ => bind_res rfl fun _ => pointwiseAcc_res _ _

theorem vecUniformEta_res (fuel : Nat) (seed : Bytes) (nonce : BitVec 16) : (vecUniformEta fuel seed nonce).res = Verif.Dilithium.vecUniformEta fuel seed nonce :=
  build_res fun _ => polyUniformEta_res _ _ _
theorem vecUniformGamma1_res (seed : Bytes) (nonce : BitVec 16) : (vecUniformGamma1 seed nonce).res = Verif.Dilithium.vecUniformGamma1 seed nonce :=
  build_res fun _ => polyUniformGamma1_res _ _

theorem vecReduce_res (v : Vec) : (vecReduce v).res = Verif.Dilithium.vecReduce v := vmap_res polyReduce_res v
theorem vecCaddq_res (v : Vec) : (vecCaddq v).res = Verif.Dilithium.vecCaddq v := vmap_res polyCaddq_res v
theorem vecAdd_res (u v : Vec) : (vecAdd u v).res = Verif.Dilithium.vecAdd u v := vzip_res polyAdd_res u v
theorem vecSub_res (u v : Vec) : (vecSub u v).res = Verif.Dilithium.vecSub u v := vzip_res polySub_res u v
theorem vecNtt_res (v : Vec) : (vecNtt v).res = Verif.Dilithium.vecNtt v := vmap_res ntt_res v
theorem vecInvntt_res (v : Vec) : (vecInvntt v).res = Verif.Dilithium.vecInvntt v := vmap_res invntt_res v
theorem vecPointwisePoly_res (a : Poly) (v : Vec) : (vecPointwisePoly a v).res = Verif.Dilithium.vecPointwisePoly a v := vmap_res (polyPointwise_res a) v
theorem vecChknorm_res (v : Vec) (B : Int) : (vecChknorm v B).res = Verif.Dilithium.vecChknorm v B := anyBad_res (fun _ => bind_res rfl fun _ => polyChknorm_res _ _) _ _
theorem vecPower2round_res (v : Vec) : (vecPower2round v).res = Verif.Dilithium.vecPower2round v :=
  bind_res (build_res fun _ => bind_res rfl fun _ => polyPower2round_res _) fun _ => rfl
theorem vecDecompose_res (v : Vec) : (vecDecompose v).res = Verif.Dilithium.vecDecompose v :=
  bind_res (build_res fun _ => bind_res rfl fun _ => polyDecompose_res _) fun _ => rfl
theorem vecMakeHint_res (u v : Vec) : (vecMakeHint u v).res = Verif.Dilithium.vecMakeHint u v :=
  bind_res (vzip_res polyMakeHint_res _ _) fun _ => rfl

theorem vecPack_res {f : Bytes → Nat → Poly → T Bytes} {g : Bytes → Nat → Poly → C Bytes} (h : ∀ r o a, (f r o a).res = g r o a) (size : Nat) (r : Bytes) (base : Nat) (v : Vec) :
    (vecPack f size r base v).res = Verif.Dilithium.vecPack g size r base v := loop_res (fun _ _ => bind_res rfl fun _ => h _ _ _) _ _ _
theorem vecUnpack_res {f : Bytes → Nat → T Poly} {g : Bytes → Nat → C Poly} (h : ∀ a o, (f a o).res = g a o) (size : Nat) (a : Bytes) (base : Nat) :
    (vecUnpack f size a base).res = Verif.Dilithium.vecUnpack g size a base := build_res fun _ => h _ _

theorem vecPackW1_res (r : Bytes) (v : Vec) : (vecPackW1 r v).res = Verif.Dilithium.vecPackW1 r v := vecPack_res (fun _ _ _ => packLoop_res _ _ _ _ _ _ _) _ _ _ _

theorem packPk_res (pk rho : Bytes) (t1 : Vec) : (packPk pk rho t1).res = Verif.Dilithium.packPk pk rho t1 :=
  bind_res (copy_res _ _ _ _ _) fun _ => vecPack_res (fun _ _ _ => packLoop_res _ _ _ _ _ _ _) _ _ _ _

theorem packSk_res (sk rho tr key : Bytes) (t0 s1 s2 : Vec) : (packSk sk rho tr key t0 s1 s2).res = Verif.Dilithium.packSk sk rho tr key t0 s1 s2 :=
  bind_res (copy_res _ _ _ _ _) fun _ => bind_res (copy_res _ _ _ _ _) fun _ => bind_res (copy_res _ _ _ _ _) fun _ =>
  bind_res (vecPack_res (fun _ _ _ => packLoop_res _ _ _ _ _ _ _) _ _ _ _) fun _ => bind_res (vecPack_res (fun _ _ _ => packLoop_res _ _ _ _ _ _ _) _ _ _ _) fun _ =>
  vecPack_res (fun _ _ _ => packLoop_res _ _ _ _ _ _ _) _ _ _ _

theorem unpackSk_res (sk : Bytes) : (unpackSk sk).res = Verif.Dilithium.unpackSk sk :=
  bind_res (copy_res _ _ _ _ _) fun _ => bind_res (copy_res _ _ _ _ _) fun _ => bind_res (copy_res _ _ _ _ _) fun _ =>
  bind_res (vecUnpack_res (fun _ _ => unpackLoop_res _ _ _ _ _ _) _ _ _) fun _ => bind_res (vecUnpack_res (fun _ _ => unpackLoop_res _ _ _ _ _ _) _ _ _) fun _ =>
  bind_res (vecUnpack_res (fun _ _ => unpackLoop_res _ _ _ _ _ _) _ _ _) fun _ => rfl

theorem packHintPoly_res (o : Nat) (h : Poly) (s : Bytes × Nat) : (packHintPoly o h s).res = Verif.Dilithium.packHintPoly o h s := by
  unfold packHintPoly Verif.Dilithium.packHintPoly
  er [rfl]

theorem packSig_res (sig c : Bytes) (z h : Vec) : (packSig sig c z h).res = Verif.Dilithium.packSig sig c z h := by
  unfold packSig Verif.Dilithium.packSig
  refine bind_res (copy_res _ _ _ _ _) fun _ => bind_res (vecPack_res (fun _ _ _ => packLoop_res _ _ _ _ _ _ _) _ _ _ _) fun _ => ?_
  er [packHintPoly_res _ _ _]

theorem shake256Inc2_res (x : Bytes) (xlen : Nat) (y : Bytes) (ylen : Nat) (out : Bytes) (outlen : Nat) :
    (shake256Inc2 x xlen y ylen out outlen).res = Verif.Dilithium.shake256Inc2 x xlen y ylen out outlen := by
  unfold shake256Inc2 Verif.Dilithium.shake256Inc2
  er [incAbsorb_res _ _ _ _, incFinalize_res _ _ _, incSqueeze_res _ _ _ _]

theorem shake256_res (output : Bytes) (outlen : Nat) (input : Bytes) (inlen : Nat) : (shake256 output outlen input inlen).res = Verif.Keccak.shake256 output outlen input inlen :=
  shake_res _ _ _ _ _

theorem keypairSeed_res (fuel : Nat) (pk sk seed : Bytes) : (keypairSeed fuel pk sk seed).res = Verif.Dilithium.keypairSeed fuel pk sk seed := by
  unfold keypairSeed Verif.Dilithium.keypairSeed
  refine bind_res (copy_res _ _ _ _ _) fun _ => bind_res (shake256_res _ _ _ _) fun _ => ?_
  exact bind_res (matrixExpand_res _ _) fun _ => bind_res (vecUniformEta_res _ _ _) fun _ => bind_res (vecUniformEta_res _ _ _) fun _ => bind_res (vecNtt_res _) fun _ =>
    bind_res (matrixPointwise_res _ _) fun _ => bind_res (vecReduce_res _) fun _ => bind_res (vecInvntt_res _) fun _ => bind_res (vecAdd_res _ _) fun _ => bind_res (vecCaddq_res _) fun _ =>
    bind_res (vecPower2round_res _) fun _ => bind_res (packPk_res _ _ _) fun _ => bind_res (shake256_res _ _ _ _) fun _ => bind_res (packSk_res _ _ _ _ _ _ _) fun _ => rfl

theorem polyChallenge_take_res (fuel : Nat) (sig : Bytes) : (polyChallenge fuel (sig.take 32)).res = Verif.Dilithium.polyChallenge fuel sig := by
  rw [polyChallenge_res]
  by_cases h : 32 ≤ sig.length
  · rw [Verif.Dilithium.polyChallenge_take fuel h]
  · rw [List.take_of_length_le (by omega)]

theorem signAttempt_res (fuel : Nat) (x : SignCtx) (sig : Bytes) (nonce : BitVec 16) :
    (signAttempt fuel x sig nonce).res = Verif.Dilithium.signAttempt fuel x sig nonce := by
  unfold signAttempt Verif.Dilithium.signAttempt
  refine bind_res (vecUniformGamma1_res _ _) fun _ => bind_res (vecNtt_res _) fun _ => bind_res (matrixPointwise_res _ _) fun _ => bind_res (vecReduce_res _) fun _ =>
    bind_res (vecInvntt_res _) fun _ => bind_res (vecCaddq_res _) fun _ => bind_res (vecDecompose_res _) fun _ => bind_res (vecPackW1_res _ _) fun _ =>
    bind_res (shake256Inc2_res _ _ _ _ _ _) fun _ => bind_res (polyChallenge_take_res _ _) fun _ => bind_res (ntt_res _) fun _ => bind_res (vecPointwisePoly_res _ _) fun _ =>
    bind_res (vecInvntt_res _) fun _ => bind_res (vecAdd_res _ _) fun _ => bind_res (vecReduce_res _) fun _ => bind_res (vecChknorm_res _ _) fun _ => cond_res rfl ?_
  refine bind_res (vecPointwisePoly_res _ _) fun _ => bind_res (vecInvntt_res _) fun _ => bind_res (vecSub_res _ _) fun _ => bind_res (vecReduce_res _) fun _ =>
    bind_res (vecChknorm_res _ _) fun _ => cond_res rfl ?_
  refine bind_res (vecPointwisePoly_res _ _) fun _ => bind_res (vecInvntt_res _) fun _ => bind_res (vecReduce_res _) fun _ =>
    bind_res (vecChknorm_res _ _) fun _ => cond_res rfl ?_
  exact bind_res (vecAdd_res _ _) fun _ => bind_res (vecMakeHint_res _ _) fun _ => cond_res rfl (bind_res (packSig_res _ _ _ _) fun _ => rfl)

theorem signLoop_res (fuel : Nat) (x : SignCtx) (rounds : Nat) : ∀ (sig : Bytes) (nonce : BitVec 16),
    (signLoop fuel x rounds sig nonce).res = Verif.Dilithium.signLoop fuel x rounds sig nonce := by
  induction rounds with
  | zero => intro sig nonce; rfl
  | succ rounds ih =>
    intro sig nonce
    rw [signLoop, Verif.Dilithium.signLoop]
    refine bind_res (signAttempt_res _ _ _ _) fun r => ?_
    obtain ⟨b, s⟩ := r
    cases b with
    | false => exact ih _ _
    | true => rfl

theorem signature_res (fuel : Nat) (sig : Bytes) (siglen : Nat) (m sk : Bytes) : (signature fuel sig siglen m sk).res = Verif.Dilithium.signature fuel sig siglen m sk := by
  unfold signature Verif.Dilithium.signature
  refine bind_res (unpackSk_res _) fun _ => ?_
  refine bind_res (shake256Inc2_res _ _ _ _ _ _) fun _ => bind_res (copy_res _ _ _ _ _) fun _ => bind_res (loop_res (fun _ _ => wr_res _ _ _) _ _ _) fun _ => bind_res (shake256_res _ _ _ _) fun _ =>
    bind_res (matrixExpand_res _ _) fun _ => bind_res (vecNtt_res _) fun _ => bind_res (vecNtt_res _) fun _ => bind_res (vecNtt_res _) fun _ => bind_res (signLoop_res _ _ _ _ _) fun _ => rfl

end Verif.Ct.Dilithium
