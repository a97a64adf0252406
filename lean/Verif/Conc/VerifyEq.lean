import Verif.Conc.VerifyAccept

/-!
What `crypto_verify_dilithium` has verified when it returns 0, whatever other threads write in the meantime: helpers.
-/

namespace Verif.Conc
open Verif
open Verif.Dilithium
open Verif.Dilithium.Spec

set_option maxRecDepth 4000 in
/-- What verification computes from the parts it has read. -/
theorem verifyRest_eq (fuel : Nat) {rho c mu : Bytes} {t1 z h : Vec} (lrho : rho.length = 32) (bt1 : VB t1 1024) (bt1n : ∀ i, i < 4 → ∀ j, j < 256 → 0 ≤ co (at_ t1 i) j) (hc : c.length = 32)
    (bz : VB z 131073) (hh : IsHint h) (hmu : mu.length = 64) : verifyRest fuel rho t1 c z h mu = (do
      let cp ← polyChallenge fuel c
      let A ← matrixExpand fuel rho
      .ok (if c = S256 (mu ++ (w1Of A z t1 h cp).flatMap (packPos 6)) 32 then 0 else -1)) := by
  unfold verifyRest
  rcases (polyChallenge_safe fuel hc).cases with ⟨cp, ecp⟩ | e
  swap
  · rw [e]; rfl
  rw [ecp, ok_bind, ok_bind]
  rcases (matrixExpand_safe fuel lrho).cases with ⟨A, eA⟩ | e
  swap
  · rw [e]; rfl
  rw [eA, ok_bind, ok_bind]
  have hA := matrix_MB (matrixExpand_sound lrho eA)
  obtain ⟨ch, ech, bch, hch⟩ := nttc_ok (ball_PB (polyChallenge_sound hc ecp))
  obtain ⟨zh, ezh, bzh, hzh⟩ := vecNtt_ok bz (by omega)
  obtain ⟨w, ew, bw, hw⟩ := matrixPointwise_ok hA bzh (by omega)
  have bs : VB (vec fun i => mk fun j => co (at_ t1 i) j * 8192) 8380417 := VB_vec fun i hi j hj => by
    have := (bt1.2 i hi).2 j hj; have := bt1n i hi j hj; omega
  obtain ⟨th, eth, bth, hth⟩ := vecNtt_ok bs (by omega)
  obtain ⟨a, ea, ba, ha⟩ := vecPointwisePoly_ok bch bth (by omega)
  obtain ⟨r, er, br, hr⟩ := vecReduce_ok (v := vec fun i => mk fun j => co (at_ w i) j - co (at_ a i) j) (VB_vec fun i hi j hj => by
    have := (bw.2 i hi).2 j hj; have := (ba.2 i hi).2 j hj; omega)
  obtain ⟨d, ed, bd, hd⟩ := vecInvntt_ok (br.mono (by omega))
  have edw : (vec fun i => mk fun j => co (at_ d i) j % 8380417) = wApprox A z t1 cp := by
    refine vec_ext (length_vec _) (length_vec _) fun i hi => ?_
    have e' : at_ (wApprox A z t1 cp) i = Spec.sub (at_ (matVec A z) i) (Spec.mul cp (scale 8192 (at_ t1 i))) := at_vec _ hi
    rw [at_vec _ hi, e']
    refine res_ext (res_mk _) (res_mk _) fun j hj => ?_
    have e1 : cf (mk fun j => co (at_ d i) j % 8380417) j = cf (at_ d i) j := by unfold cf; rw [co_mk _ hj]; exact cast_emod _
    rw [e1]
    clear e1
    revert j
    refine evalAt_inj fun j hj => ?_
    have e2 : cf (at_ r i) j = cf (at_ w i) j - cf (at_ a i) j := by
      rw [cf_eq_iff.2 (hr i hi j hj), at_vec _ hi]
      unfold cf
      rw [co_mk _ hj]; push_cast; rfl
    rw [hd i hi j hj, e2, hw i hi j hj, ha i hi j hj, evalAt_congr (fun t ht => cf_sub _ _ ht), evalAt_sub, matVec_eval A z hi hj, mul_eval _ _ hj, mul_sub, sum_Rinv,
      hch j hj, hth i hi j hj]
    have e3 : evalAt (cf (at_ (vec fun i => mk fun j => co (at_ t1 i) j * 8192) i)) (root j) = evalAt (cf (scale 8192 (at_ t1 i))) (root j) := by
      refine evalAt_congr (fun t ht => ?_) _
      rw [cf_scale _ _ ht, at_vec _ hi]
      unfold cf
      rw [co_mk _ ht]; push_cast; ring
    rw [e3]
    have e4 : ((List.range 4).map fun k => cf (at_ (at_ A i) k) j * cf (at_ zh k) j).sum =
        ((List.range 4).map fun k => cf (at_ (at_ A i) k) j * evalAt (cf (at_ z k)) (root j)).sum :=
      congrArg _ (List.map_congr_left fun k hk => by rw [hzh k (List.mem_range.1 hk) j hj])
    rw [e4]
    linear_combination (-(evalAt (cf cp) (root j) * evalAt (cf (scale 8192 (at_ t1 i))) (root j))) * Rm_Rinv
  rw [ezh, ok_bind, ew, ok_bind, ech, ok_bind, vecShiftl_ok bt1, ok_bind, eth, ok_bind, ea, ok_bind, vecSub_ok bw ba (by omega), ok_bind, er, ok_bind, ed, ok_bind,
    vecCaddq_ok (bd.mono (by omega)), ok_bind, edw]
  have hwr : ∀ i, i < 4 → Res (at_ (wApprox A z t1 cp) i) := fun i hi => by
    have e' : at_ (wApprox A z t1 cp) i = Spec.sub (at_ (matVec A z) i) (Spec.mul cp (scale 8192 (at_ t1 i))) := at_vec _ hi
    rw [e']; exact res_mk _
  have eu : vecUseHint (wApprox A z t1 cp) h = .ok (w1Of A z t1 h cp) := by
    unfold vecUseHint
    rw [vzip_eq (show (wApprox A z t1 cp).length = 4 from length_vec _) hh.1 (fun a b => mk fun j => Spec.useHint (co b j) (co a j)) fun i hi => ?_]
    · rfl
    · have hm := hh.2 _ (Dilithium.at_mem (v := h) (i := i) (by rw [hh.1]; exact hi))
      exact polyUseHint_ok (hwr i hi).1 (hwr i hi).2 hm.1 fun j hj => hm.2 _ (co_mem (by rw [hm.1]; exact hj))
  have hwb : ∀ x ∈ w1Of A z t1 h cp, x.length = 256 ∧ ∀ c ∈ x, 0 ≤ c ∧ c < 64 := by
    intro x hx
    unfold w1Of at hx
    obtain ⟨i, hi, rfl⟩ := mem_vec hx
    refine ⟨length_mk _, fun c hc => ?_⟩
    obtain ⟨j, hj, rfl⟩ := mem_mk hc
    have := (hwr i hi).2 j hj
    exact useHint_range this.1 this.2
  have lw : (w1Of A z t1 h cp).length = 4 := length_vec _
  have lp : ((w1Of A z t1 h cp).flatMap (packPos 6)).length = 768 := length_flatMap_vec lw fun x hx => length_packPos (hwb x hx).1
  have l768 : (List.replicate 768 (0 : Byte)).length = 768 := List.length_replicate ..
  have l32 : (List.replicate 32 (0 : Byte)).length = 32 := List.length_replicate ..
  rw [eu, ok_bind, vecPackW1_ok lw hwb (by omega), ok_bind, splice_all (by omega), shake256Inc2_ok hmu.symm (by omega) (by omega), ok_bind,
    splice_all (by rw [Keccak.length_stream, l32]), List.take_of_length_le (by omega)]
  obtain ⟨b', e', hb'⟩ := compare_ok hc (Keccak.length_stream 136 0x1F (mu ++ (w1Of A z t1 h cp).flatMap (packPos 6)) 32)
  rw [e', ok_bind]
  cases b' with
  | true => rw [if_pos rfl, if_neg (fun hc => by have := hb'.2 hc; cases this)]
  | false => simp only [Bool.false_eq_true, if_false]; rw [if_pos (hb'.1 rfl)]

/-! ### What was read -/

section
variable {F : Fault → Prop} {A : Addr → Prop} {V : Addr → Byte → Prop}

/-- A hint polynomial whose ones are at positions that were read from the hint part of the signature, or behind it (no line of its own; compare dilithium2/packing.c:241-247). -/
def FromHints (V : Addr → Byte → Prop) (sig : Ptr) (h : Poly) : Prop := Zeros h ∧ ∀ j, j < 256 → co h j ≠ 0 → ∃ o, o < 255 ∧ V (sig.blk, sig.off + (2336 + o)) (BitVec.ofNat 8 j)

theorem fromHints_zero (sig : Ptr) : FromHints V sig (List.replicate 256 0) := by
  refine ⟨zeros_replicate, fun j hj h => absurd ?_ h⟩
  unfold co
  rw [List.getD_eq_getElem?_getD, List.getElem?_replicate, if_pos hj]; rfl

theorem FromHints.set {sig : Ptr} {h : Poly} (hh : FromHints V sig h) {o : Nat} (ho : o < 255) {x : Byte} (hx : V (sig.blk, sig.off + (2336 + o)) x) : FromHints V sig (h.set x.toNat 1) := by
  refine ⟨hh.1.set _, fun j hj hc => ?_⟩
  by_cases e : x.toNat = j
  · refine ⟨o, ho, ?_⟩
    rw [← e, BitVec.ofNat_toNat, BitVec.setWidth_eq]; exact hx
  · refine hh.2 j hj ?_
    unfold co at hc ⊢
    rw [List.getD_eq_getElem?_getD, List.getElem?_set_ne e] at hc
    rw [List.getD_eq_getElem?_getD]; exact hc

theorem hints_hintPoly {sig : Ptr} {i k : Nat} (hF : ∀ e, F e) (hA : ∀ o, A (sig.blk, o)) (n j : Nat) (hn : j + n = 256) (h : Poly) (hh : FromHints V sig h) :
    ReadsIn F A V (fun r => ∀ h', r = some h' → FromHints V sig h') (hintPoly sig i k n j h) := by
  induction n generalizing j h with
  | zero => exact hF _
  | succ n ih =>
    unfold hintPoly
    refine (reads_load (hA _)).bind fun e _ => ?_
    split
    · rintro h' ⟨⟩; exact hh
    · rename_i he
      have hj : j < 255 := by have := e.isLt; omega
      refine ReadsIn.bind (Q := fun _ => True) ?_ fun b _ => ?_
      · split
        · exact (reads_load (hA _)).bind fun _ _ => (reads_load (hA _)).bind fun _ _ => trivial
        · trivial
      · split
        · rintro h' ⟨⟩
        · refine (reads_load (hA _)).bind fun x hx => (reads_ok (Q := fun h' => h' = h.set x.toNat 1) (wr_ok (by rw [hh.1.1]; exact x.isLt)) rfl).bind fun h' e => ?_
          subst e
          exact ih (j + 1) (by omega) _ (hh.set hj hx)

theorem hints_hints {sig : Ptr} (hF : ∀ e, F e) (hA : ∀ o, A (sig.blk, o)) (n i k : Nat) (hk : k ≤ 256) :
    ReadsIn F A V (fun r => ∀ hs k', r = some (hs, k') → hs.length = n ∧ ∀ x ∈ hs, FromHints V sig x) (hints sig n i k) := by
  induction n generalizing i k with
  | zero => rintro hs k' ⟨⟩; exact ⟨rfl, by simp⟩
  | succ n ih =>
    unfold hints
    refine (reads_load (hA _)).bind fun e _ => ?_
    split
    · rintro hs k' ⟨⟩
    · refine (reads_load (hA _)).bind fun e _ => ?_
      split
      · rintro hs k' ⟨⟩
      · refine (hints_hintPoly hF hA _ _ (by omega) _ (fromHints_zero sig)).bind fun r hr => ?_
        rcases r with - | h
        · rintro hs k' ⟨⟩
        · refine (reads_load (hA _)).bind fun e _ => (ih (i + 1) e.toNat (by have := e.isLt; omega)).bind fun r hr' => ?_
          rcases r with - | ⟨hs, k'⟩
          · rintro hs k' ⟨⟩
          · rintro hs' k'' ⟨⟩
            obtain ⟨h1, h2⟩ := hr' _ _ rfl
            refine ⟨by rw [List.length_cons, h1], fun x hx => ?_⟩
            rcases List.mem_cons.1 hx with rfl | hx
            · exact hr _ rfl
            · exact h2 x hx

theorem hints_rest {sig : Ptr} (hA : ∀ o, A (sig.blk, o)) (n j : Nat) : ReadsIn F A V (fun _ => True) (hintRest sig n j) := by
  induction n generalizing j with
  | zero => trivial
  | succ n ih =>
    unfold hintRest
    refine (reads_load (hA _)).bind fun x _ => ?_
    split
    · trivial
    · exact ih _

/-- A vector of four polynomials whose coefficients are the values `f` of `b` bytes each that were read behind the first 32 bytes at `p`, from where fields of `w` bits in parts of `size` bytes lie (no line of its own; compare dilithium2/poly.c:620-628, 795-818). -/
def FromBytes (V : Addr → Byte → Prop) (p : Ptr) (size w b : Nat) (f : Nat → Bytes → Int) (x : Vec) : Prop :=
  ∀ i, i < 4 → ∀ j, j < 256 → ∃ y : Bytes, y.length = b ∧ (∀ l v, y[l]? = some v → V (p.blk, p.off + (32 + i * size + w * j / 8 + l)) v) ∧ co (at_ x i) j = f j y

/-- What the decoder of signatures returns comes from bytes it has read. -/
theorem parts_unpackSig {sig : Ptr} (hF : ∀ e, F e) (hA : ∀ o, A (sig.blk, o)) :
    ReadsIn F A V (fun r => ∀ c z h, r = some (c, z, h) → c.length = 32 ∧ (∀ k v, c[k]? = some v → V (sig.blk, sig.off + k) v) ∧
      VB z 131073 ∧ FromBytes V sig 576 18 3 zVal z ∧
      h.length = 4 ∧ ∀ x ∈ h, FromHints V sig x) (unpackSigSteps sig) := by
  unfold unpackSigSteps
  refine (reads_part fun k _ => hA _).bind fun c hc => (reads_z fun k _ => hA _).bind fun z hz => ?_
  refine (hints_hints hF hA 4 0 0 (by omega)).bind fun r hr => ?_
  rcases r with - | ⟨h, k⟩
  · rintro _ _ _ ⟨⟩
  · refine (hints_rest hA _ _).bind fun b _ => ?_
    split
    · rintro _ _ _ ⟨⟩
    · rintro _ _ _ ⟨⟩
      obtain ⟨h1, h2⟩ := hr _ _ rfl
      refine ⟨hc.1, fun k v hk => ?_, hz.1, hz.2, h1, h2⟩
      have := hc.2 k v hk
      rwa [Nat.zero_add] at this

/-- The equation that verification checks: the challenge hash `ct` with the vectors `z` and `h`, the matrix of the seed `rho`, the vector `t1`, and the hash of the key `pk2` with the message (dilithium2/sign.c:285-328, where `rho` and `t1` are those of `pk`). -/
def Equation (ct : Bytes) (z h : Vec) (rho : Bytes) (t1 : Vec) (pk2 msg : Bytes) : Prop :=
  ∃ c M, IsBall S256 ct c ∧ IsMatrix S128 rho M ∧ ct = S256 (S256 (S256 pk2 64 ++ msg) 64 ++ (w1Of M z t1 h c).flatMap (packPos 6)) 32

/-- What a call that returns 0 has found out, in terms of bytes it has read (no line of its own; compare dilithium2/sign.c:257-328). -/
def Found (V : Addr → Byte → Prop) (sm m pk : Ptr) (mlen : Nat) : Prop :=
  ∃ (ct rho pk2 msg : Bytes) (z t1 h : Vec), ct.length = 32 ∧ rho.length = 32 ∧ pk2.length = 1312 ∧ msg.length = mlen ∧
    (∀ k v, ct[k]? = some v → V (sm.blk, sm.off + k) v) ∧ (∀ k v, rho[k]? = some v → V (pk.blk, pk.off + k) v) ∧
    (∀ k v, pk2[k]? = some v → V (pk.blk, pk.off + k) v) ∧ (∀ k v, msg[k]? = some v → V (m.blk, m.off + k) v) ∧
    VB z 131073 ∧ FromBytes V sm 576 18 3 zVal z ∧ (∀ x ∈ z, ∀ v ∈ x, -(131072 - 78) < v ∧ v < 131072 - 78) ∧ VB t1 1024 ∧ FromBytes V pk 320 10 2 t1Val t1 ∧ h.length = 4 ∧ (∀ x ∈ h, FromHints V sm x) ∧ Equation ct z h rho t1 pk2 msg

theorem reads_found {fuel : Nat} {sm m pk : Ptr} {mlen smlen : Nat} (hF : ∀ e, F e) (hA : ∀ o, A (sm.blk, o)) (hAm : ∀ o, A (m.blk, o)) (hAp : ∀ o, A (pk.blk, o)) :
    ReadsIn F A V (fun r => r = 0 → smlen = 2420 ∧ 1 ≤ mlen ∧ mlen ≤ 64 ∧ Found V sm m pk mlen) (verifyDilithiumSteps fuel (some m) mlen (some sm) smlen (some pk)) := by
  simp only [verifyDilithiumSteps]
  split
  · intro h; cases h
  · refine ReadsIn.bind (Q := fun r => r = 0 → smlen = 2420 ∧ Found V sm m pk mlen) ?_ fun r hr => ?_
    · unfold dilVerifySteps
      split
      · intro h; cases h
      · refine (reads_part fun k _ => hAp _).bind fun rho hrho => (reads_t1 fun k _ => hAp _).bind fun t1 ht1 => ?_
        refine (parts_unpackSig hF hA).bind fun r hr => ?_
        rcases r with - | ⟨c, z, h⟩
        · intro h; cases h
        · obtain ⟨lc, hc, bz, hz, lh, hh⟩ := hr _ _ _ rfl
          obtain ⟨b, eb, hb⟩ := vecChknorm_ok (B := 130994) (bz.mono (by omega)) (by omega)
          simp only
          refine (reads_ok (Q := fun b' => b' = b) eb rfl).bind fun b' eb' => ?_
          subst eb'
          cases b' with
          | true => intro h; cases h
          | false =>
            rw [if_neg (by decide)]
            refine (reads_bytes fun k _ => hAp _).bind fun pk2 hpk2 => ?_
            refine (reads_ok (Q := fun mu => mu = S256 pk2 64) (shake256_ok 64 pk2 1312 hpk2.1.symm (List.length_replicate ..).symm) rfl).bind fun mu emu => ?_
            refine (reads_bytes fun k _ => hAm _).bind fun msg hmsg => ?_
            have lmu : mu.length = 64 := by rw [emu]; exact Keccak.length_stream ..
            refine (reads_ok (Q := fun mu' => mu' = S256 (S256 pk2 64 ++ msg) 64) (shake256Inc2_ok lmu.symm (by rw [hmsg.1]) (by omega)) (by
              rw [splice_all (by rw [Keccak.length_stream, lmu]), emu, ← hmsg.1, List.take_length])).bind fun mu' emu' => ?_
            have lmu' : mu'.length = 64 := by rw [emu']; exact Keccak.length_stream ..
            rw [verifyRest_eq fuel hrho.1 ht1.1 ht1.2.1 lc bz ⟨lh, fun x hx => (hh x hx).1⟩ lmu']
            refine reads_all hF fun r er h0 => ?_
            obtain ⟨cp, ecp, er⟩ := bind_eq_ok.1 er
            obtain ⟨M, eM, er⟩ := bind_eq_ok.1 er
            subst h0
            have he : c = S256 (mu' ++ (w1Of M z t1 h cp).flatMap (packPos 6)) 32 := by
              by_contra hne
              rw [if_neg hne] at er
              cases er
            rw [emu'] at he
            refine ⟨by omega, c, rho, pk2, msg, z, t1, h, lc, hrho.1, hpk2.1, hmsg.1, hc, fun k v hk => by have := hrho.2 k v hk; rwa [Nat.zero_add] at this, hpk2.2, hmsg.2, bz, hz, ?_, ht1.1, ht1.2.2, lh, hh, cp, M, polyChallenge_sound lc ecp, matrixExpand_sound hrho.1 eM, he⟩
            intro x hx v hv
            obtain ⟨i, hi, rfl⟩ := List.getElem_of_mem hx
            have li : i < 4 := by have := bz.1; omega
            have e : at_ z i = z[i] := by unfold at_; rw [List.getD_eq_getElem?_getD, List.getElem?_eq_getElem hi]; rfl
            obtain ⟨j, hj, rfl⟩ := List.getElem_of_mem hv
            have lj : j < 256 := by have := (bz.2 i li).1; rw [e] at this; omega
            have ec : co (at_ z i) j = z[i][j] := by unfold co; rw [e, List.getD_eq_getElem?_getD, List.getElem?_eq_getElem hj]; rfl
            have := hb.1 rfl i li j lj
            rw [ec] at this
            omega
    · split
      · intro h; cases h
      · rename_i hr0
        obtain ⟨h1, h2⟩ := hr (by omega)
        exact fun _ => ⟨h1, by omega, by omega, h2⟩
end

end Verif.Conc
