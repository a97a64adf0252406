import Verif.Dilithium.Exec

/-! Key generation, signing and verification of sign.c against the relations of the specification. -/

namespace Verif.Dilithium
open Verif Spec Keccak

/-! ### Key generation -/

theorem tOf_VRes (A : List Vec) (s1 s2 : Vec) : VRes (tOf A s1 s2) := ⟨length_vec _, fun i hi => by unfold tOf; rw [at_vec _ hi]; exact res_mk _⟩

theorem power2Round_range (r : Int) : (0 ≤ (power2Round r).1 ∧ (power2Round r).1 < 1024) ∧ -4096 < (power2Round r).2 ∧ (power2Round r).2 ≤ 4096 := by
  unfold power2Round cmod q
  simp only
  constructor
  · split <;> omega
  · split <;> omega

theorem power2Round_eq (r : Int) : (power2Round r).1 * 8192 + (power2Round r).2 = r % 8380417 := by
  unfold power2Round cmod q
  simp only
  split <;> omega

theorem mem_map_map {v : Vec} {f : Int → Int} (hl : VRes v) {x : List Int} (hx : x ∈ v.map (·.map f)) : x.length = 256 ∧ ∀ c ∈ x, ∃ r, c = f r := by
  rw [map_map_vec v f hl.1 fun i hi => (hl.2 i hi).1] at hx
  obtain ⟨i, hi, rfl⟩ := mem_vec hx
  refine ⟨length_mk _, fun c hc => ?_⟩
  obtain ⟨j, _, rfl⟩ := mem_mk hc
  exact ⟨_, rfl⟩

/-- What key generation writes, from the sampled matrix and vectors. -/
def pkOf (rho : Bytes) (A : List Vec) (s1 s2 : Vec) : Bytes := encodePk rho ((tOf A s1 s2).map (·.map fun r => (power2Round r).1))
/-- The secret key bytes of key generation in terms of the specification (layout of dilithium2/packing.c:67-104). -/
def skOf (rho key : Bytes) (A : List Vec) (s1 s2 : Vec) : Bytes :=
  encodeSk rho key (S256 (pkOf rho A s1 s2) 64) s1 s2 ((tOf A s1 s2).map (·.map fun r => (power2Round r).2))

theorem length_pkOf {rho : Bytes} (h : rho.length = 32) (A : List Vec) (s1 s2 : Vec) : (pkOf rho A s1 s2).length = 1312 := by
  unfold pkOf encodePk
  have hv := tOf_VRes A s1 s2
  rw [List.length_append, h, length_flatMap_vec (k := 320) (by rw [List.length_map]; exact hv.1) fun x hx => length_packPos (mem_map_map hv hx).1]

theorem etaVec_mem {seed : Bytes} {n : Nat} {v : Vec} (h : IsEtaVec S256 seed n v) : ∀ x ∈ v, x.length = 256 ∧ ∀ c ∈ x, -6 < c ∧ c ≤ 2 := by
  intro x hx
  obtain ⟨i, hi, e⟩ := List.mem_iff_getElem.1 hx
  have hr := eta_range (h.2 i (by rw [← h.1]; exact hi))
  have ex : at_ v i = x := by unfold at_; rw [List.getD_eq_getElem?_getD, List.getElem?_eq_getElem hi, e]; rfl
  rw [ex] at hr
  exact ⟨hr.1, fun c hc => by have := hr.2 c hc; omega⟩

theorem keypairSeed_eq (fuel : Nat) {pk sk seed : Bytes} (hpk : pk.length = 1312) (hsk : sk.length = 2560) (hs : seed.length = 32) :
    keypairSeed fuel pk sk seed = (do
      let A ← matrixExpand fuel (slice (S256 seed 128) 0 32)
      let s1 ← vecUniformEta fuel (slice (S256 seed 128) 32 64) 0
      let s2 ← vecUniformEta fuel (slice (S256 seed 128) 32 64) 4
      .ok (0, pkOf (slice (S256 seed 128) 0 32) A s1 s2, skOf (slice (S256 seed 128) 0 32) (slice (S256 seed 128) 96 32) A s1 s2)) := by
  have l0 : (List.replicate 128 (0 : Byte)).length = 128 := List.length_replicate ..
  have l1 : (splice (List.replicate 128 (0 : Byte)) 0 seed).length = 128 := by rw [length_splice (by rw [hs, l0]; omega), l0]
  have hS : (S256 seed 128).length = 128 := length_stream ..
  have hrho : (slice (S256 seed 128) 0 32).length = 32 := length_slice (by omega)
  have hrp : (slice (S256 seed 128) 32 64).length = 64 := length_slice (by omega)
  have hkey : (slice (S256 seed 128) 96 32).length = 32 := length_slice (by omega)
  unfold keypairSeed
  rw [copy_whole hs (by omega), ok_bind, shake256_take 128 _ 32 (by omega) (by omega) (by omega), ok_bind, take_splice_zero hs]
  rcases (matrixExpand_safe fuel hrho).cases with ⟨A, eA⟩ | eA
  swap
  · simp only [eA]; rfl
  rcases (vecUniformEta_safe fuel hrp 0).cases with ⟨s1, e1⟩ | e1
  swap
  · simp only [eA, e1]; rfl
  rcases (vecUniformEta_safe fuel hrp 4).cases with ⟨s2, e2⟩ | e2
  swap
  · simp only [eA, e1, e2]; rfl
  simp only [eA, e1, e2, ok_bind]
  have hA := matrix_MB (matrixExpand_sound hrho eA)
  have h1 := vecUniformEta_sound hrp (n := 0) (by omega) e1
  have h2 := vecUniformEta_sound hrp (n := 4) (by omega) e2
  obtain ⟨a, b, c, d, ea, eb, ec, ed, bd, hd⟩ := matVec_ok hA (etaVec_VB h1) (by omega)
  rw [ea, ok_bind, eb, ok_bind, ec, ok_bind, ed, ok_bind, vecAdd_ok bd (etaVec_VB h2) (by omega), ok_bind]
  have b2 := etaVec_VB h2
  rw [vecCaddq_ok (VB_vec fun i hi j hj => by
    have := (bd.2 i hi).2 j hj; have := (b2.2 i hi).2 j hj; omega), ok_bind]
  have et : (vec fun i => mk fun j => co (at_ (vec fun i => mk fun j => co (at_ d i) j + co (at_ s2 i) j) i) j % 8380417) = tOf A s1 s2 := by
    refine vec_ext (length_vec _) (length_vec _) fun i hi => ?_
    have e' : at_ (tOf A s1 s2) i = Spec.add (at_ (matVec A s1) i) (at_ s2 i) := at_vec _ hi
    rw [at_vec _ hi, e']
    unfold Spec.add
    refine co_ext (length_mk _) (length_mk _) fun j hj => ?_
    rw [co_mk _ hj, at_vec _ hi, co_mk _ hj, co_mk _ hj, ← hd i hi j hj]
    unfold q
    omega
  rw [et]
  have hv := tOf_VRes A s1 s2
  rw [vecPower2round_ok hv, ok_bind]
  simp only
  rw [packPk_ok hpk hrho (by rw [List.length_map]; exact hv.1) fun x hx => ⟨(mem_map_map hv hx).1, fun c hc => by
    obtain ⟨r, rfl⟩ := (mem_map_map hv hx).2 c hc; exact (power2Round_range r).1⟩, ok_bind]
  have hpl := length_pkOf hrho A s1 s2
  have eP : encodePk (slice (S256 seed 128) 0 32) ((tOf A s1 s2).map (·.map fun r => (power2Round r).1)) = pkOf (slice (S256 seed 128) 0 32) A s1 s2 := rfl
  rw [eP, shake256_ok 64 _ 1312 hpl.symm (List.length_replicate ..).symm, ok_bind,
    packSk_ok hsk hrho (length_stream ..) hkey (by rw [List.length_map]; exact hv.1) h1.1 h2.1 (fun x hx => ⟨(mem_map_map hv hx).1, fun c hc => by
      obtain ⟨r, rfl⟩ := (mem_map_map hv hx).2 c hc; exact (power2Round_range r).2⟩) (etaVec_mem h1) (etaVec_mem h2), ok_bind]
  rfl

theorem keypairSeed_safe (fuel : Nat) {pk sk seed : Bytes} (hpk : pk.length = 1312) (hsk : sk.length = 2560) (hs : seed.length = 32) :
    Safe (keypairSeed fuel pk sk seed) := by
  have hS : (S256 seed 128).length = 128 := length_stream ..
  rw [keypairSeed_eq fuel hpk hsk hs]
  exact (matrixExpand_safe fuel (length_slice (by omega))).bind fun A _ => (vecUniformEta_safe fuel (length_slice (by omega)) 0).bind fun s1 _ =>
    (vecUniformEta_safe fuel (length_slice (by omega)) 4).bind fun s2 _ => safe_ok _

theorem keypairSeed_sound {fuel : Nat} {pk sk seed pk' sk' : Bytes} {r : Int} (hpk : pk.length = 1312) (hsk : sk.length = 2560) (hs : seed.length = 32)
    (h : keypairSeed fuel pk sk seed = .ok (r, pk', sk')) : r = 0 ∧ KeyGen S128 S256 seed pk' sk' := by
  have hS : (S256 seed 128).length = 128 := length_stream ..
  rw [keypairSeed_eq fuel hpk hsk hs] at h
  obtain ⟨A, eA, h⟩ := bind_eq_ok.1 h
  obtain ⟨s1, e1, h⟩ := bind_eq_ok.1 h
  obtain ⟨s2, e2, h⟩ := bind_eq_ok.1 h
  cases h
  exact ⟨rfl, A, s1, s2, matrixExpand_sound (length_slice (by omega)) eA, vecUniformEta_sound (length_slice (by omega)) (n := 0) (by omega) e1,
    vecUniformEta_sound (length_slice (by omega)) (n := 4) (by omega) e2, rfl, rfl⟩

theorem keypairSeed_complete {pk sk seed pk' sk' : Bytes} (hpk : pk.length = 1312) (hsk : sk.length = 2560) (hs : seed.length = 32)
    (h : KeyGen S128 S256 seed pk' sk') : ∃ F, ∀ fuel, F ≤ fuel → keypairSeed fuel pk sk seed = .ok (0, pk', sk') := by
  have hS : (S256 seed 128).length = 128 := length_stream ..
  obtain ⟨A, s1, s2, hA, h1, h2, rfl, rfl⟩ := h
  obtain ⟨F, hF⟩ := matrixExpand_complete (length_slice (by omega)) hA
  obtain ⟨G, hG⟩ := vecUniformEta_complete (length_slice (by omega)) (n := 0) (by omega) h1
  obtain ⟨H, hH⟩ := vecUniformEta_complete (length_slice (by omega)) (n := 4) (by omega) h2
  refine ⟨max F (max G H), fun fuel hf => ?_⟩
  rw [keypairSeed_eq fuel hpk hsk hs, hF fuel (by omega), ok_bind]
  have eG := hG fuel (by omega); have eH := hH fuel (by omega)
  change vecUniformEta fuel _ 0 = _ at eG
  change vecUniformEta fuel _ 4 = _ at eH
  rw [eG, ok_bind, eH, ok_bind]
  rfl

/-! ### Signing -/

/-- The code's context holds the NTT representations of the vectors of the specification's context. -/
structure Match (x : SignCtx) (X : Ctx) : Prop where
  mat : x.mat = X.A
  mb : MB X.A
  mu : x.mu = X.mu
  mul : X.mu.length = 64
  rp : x.rhoprime = X.rhoprime
  rpl : X.rhoprime.length = 64
  b1 : VB x.s1 75423753
  b2 : VB x.s2 75423753
  b0 : VB x.t0 75423753
  n1 : ∀ i, i < 4 → ∀ j, j < 256 → cf (at_ x.s1 i) j = evalAt (cf (at_ X.s1 i)) (root j)
  n2 : ∀ i, i < 4 → ∀ j, j < 256 → cf (at_ x.s2 i) j = evalAt (cf (at_ X.s2 i)) (root j)
  n0 : ∀ i, i < 4 → ∀ j, j < 256 → cf (at_ x.t0 i) j = evalAt (cf (at_ X.t0 i)) (root j)

theorem yOf_VB (X : Ctx) (k : Nat) : VB (yOf S256 X k) 131073 :=
  ⟨length_vec _, fun i hi => by
    unfold yOf; rw [at_vec _ hi]
    exact PB_of_mem (mask_range _ _).1 fun x hx => by have := (mask_range _ _).2 x hx; omega⟩

theorem highBits_range {v : Vec} (h : VRes v) : ∀ x ∈ v.map (·.map highBits), x.length = 256 ∧ ∀ c ∈ x, 0 ≤ c ∧ c < 64 := by
  intro x hx
  rw [map_map_vec v _ h.1 fun i hi => (h.2 i hi).1] at hx
  obtain ⟨i, hi, rfl⟩ := mem_vec hx
  refine ⟨length_mk _, fun c hc => ?_⟩
  obtain ⟨j, hj, rfl⟩ := mem_mk hc
  have := (h.2 i hi).2 j hj
  have := (decompose_spec _ this.1 this.2).1
  omega

theorem lowBits_VB {v : Vec} (h : VRes v) : VB (v.map (·.map lowBits)) 95233 := by
  rw [map_map_vec v _ h.1 fun i hi => (h.2 i hi).1]
  refine VB_vec fun i hi j hj => ?_
  have := (h.2 i hi).2 j hj
  have := (decompose_spec _ this.1 this.2).2
  omega

theorem hOf_bits (X : Ctx) (k : Nat) (c : List Int) : ∀ x ∈ hOf S256 X k c, x.length = 256 ∧ ∀ b ∈ x, b = 0 ∨ b = 1 := by
  intro x hx
  unfold hOf at hx
  obtain ⟨i, hi, rfl⟩ := mem_vec hx
  refine ⟨length_mk _, fun b hb => ?_⟩
  obtain ⟨j, hj, rfl⟩ := mem_mk hb
  unfold hintBit
  split
  · exact Or.inr rfl
  · exact Or.inl rfl

theorem length_encodeSig {c : Bytes} {z h : Vec} (hc : c.length = 32) (hz : z.length = 4) (hzl : ∀ x ∈ z, x.length = 256) (hw : weight h ≤ 80) :
    (encodeSig c z h).length = 2420 := by
  unfold encodeSig
  rw [List.length_append, List.length_append, hc, length_packHint hw, length_flatMap_vec hz fun x hx => length_packAt (hzl x hx)]

theorem signAttempt_run {x : SignCtx} {X : Ctx} (hx : Match x X) {sig : Bytes} (hsig : sig.length = 2420) (fuel k : Nat) :
    (polyChallenge fuel (cTilde S256 X k) = .error .diverge → signAttempt fuel x sig (BitVec.ofNat 16 k) = .error .diverge) ∧
    ∀ c, polyChallenge fuel (cTilde S256 X k) = .ok c → ∃ b sig', signAttempt fuel x sig (BitVec.ofNat 16 k) = .ok (b, sig') ∧ sig'.length = 2420 ∧
      (b = true ↔ Accept S256 X k c) ∧ (b = true → sig' = encodeSig (cTilde S256 X k) (zOf S256 X k c) (hOf S256 X k c)) := by
  have hct : (cTilde S256 X k).length = 32 := length_stream ..
  obtain ⟨a, b, c0, d, ea, eb, ec, ed, bd, hd⟩ := matVec_ok hx.mb (yOf_VB X k) (by omega)
  have ey : vecUniformGamma1 x.rhoprime (BitVec.ofNat 16 k) = .ok (yOf S256 X k) := by
    rw [hx.rp, vecUniformGamma1_ok hx.rpl]; rfl
  have ew : (vec fun i => mk fun j => co (at_ d i) j % 8380417) = wOf S256 X k := by
    refine vec_ext (length_vec _) (length_vec _) fun i hi => ?_
    rw [at_vec _ hi]
    refine co_ext (length_mk _) (matVec_res _ _ hi).1 fun j hj => ?_
    rw [co_mk _ hj, hd i hi j hj]; rfl
  have hw : VRes (wOf S256 X k) := matVec_VRes _ _
  have hw1 := highBits_range hw
  have lw1 : ((wOf S256 X k).map (·.map highBits)).length = 4 := by rw [List.length_map]; exact hw.1
  have lp : (((wOf S256 X k).map (·.map highBits)).flatMap (packPos 6)).length = 768 := length_flatMap_vec lw1 fun x hx => length_packPos (hw1 x hx).1
  have ls1 : (splice sig 0 (((wOf S256 X k).map (·.map highBits)).flatMap (packPos 6))).length = 2420 := by rw [length_splice (by omega), hsig]
  have ls2 : (splice (splice sig 0 (((wOf S256 X k).map (·.map highBits)).flatMap (packPos 6))) 0 (cTilde S256 X k)).length = 2420 := by
    rw [length_splice (by omega), ls1]
  unfold signAttempt
  rw [ey, ok_bind, ea, ok_bind, hx.mat, eb, ok_bind, ec, ok_bind, ed, ok_bind, vecCaddq_ok (bd.mono (by omega)), ok_bind, ew, vecDecompose_ok hw, ok_bind]
  simp only
  rw [vecPackW1_ok lw1 hw1 (by omega), ok_bind, shake256Inc2_ok (by rw [hx.mu, hx.mul]) (by omega) (by omega), ok_bind, take_splice_zero lp, hx.mu]
  have hfold : S256 (X.mu ++ ((wOf S256 X k).map (·.map highBits)).flatMap (packPos 6)) 32 = cTilde S256 X k := rfl
  rw [hfold]
  have hpc : polyChallenge fuel (splice (splice sig 0 (((wOf S256 X k).map (·.map highBits)).flatMap (packPos 6))) 0 (cTilde S256 X k)) =
      polyChallenge fuel (cTilde S256 X k) := by rw [polyChallenge_take fuel (by omega), take_splice_zero hct]
  have hsl : slice (splice (splice sig 0 (((wOf S256 X k).map (·.map highBits)).flatMap (packPos 6))) 0 (cTilde S256 X k)) 0 32 = cTilde S256 X k := by
    unfold slice; rw [List.drop_zero, take_splice_zero hct]
  generalize splice (splice sig 0 (((wOf S256 X k).map (·.map highBits)).flatMap (packPos 6))) 0 (cTilde S256 X k) = sg at *
  rw [hpc]
  refine ⟨fun h => by rw [h]; rfl, fun c hc => ?_⟩
  have hball := polyChallenge_sound hct hc
  obtain ⟨ch, ech, bch, hch⟩ := nttc_ok (ball_PB hball)
  obtain ⟨z0, z1, ez0, _, _, ez1, bz1, hz1⟩ := cs_ok bch hch hx.b1 hx.n1
  have by_ := yOf_VB X k
  obtain ⟨z, ez, bz, hz⟩ := vecReduce_ok (v := vec fun i => mk fun j => co (at_ z1 i) j + co (at_ (yOf S256 X k) i) j) (VB_vec fun i hi j hj => by
    have := (bz1.2 i hi).2 j hj; have := (by_.2 i hi).2 j hj; omega)
  have hz' : ∀ i, i < 4 → ∀ j, j < 256 → co (at_ z i) j % 8380417 = (co (Spec.mul c (at_ X.s1 i)) j + co (at_ (yOf S256 X k) i) j) % 8380417 := by
    intro i hi j hj
    have := hz1 i hi j hj
    rw [hz i hi j hj, at_vec _ hi, co_mk _ hj]; omega
  obtain ⟨bz0, ebz0, hbz0⟩ := vecChknorm_ok (B := 130994) (bz.mono (by omega)) (by omega)
  obtain ⟨nz, qz⟩ := reduced_norm (B := 130994) bz (by omega) hz'
  change _ ↔ NormLt (zOf S256 X k c) (131072 - 78) at nz
  change _ → z = zOf S256 X k c at qz
  rw [hc, ok_bind, ech, ok_bind, ez0, ok_bind, ez1, ok_bind, vecAdd_ok bz1 by_ (by omega), ok_bind, ez, ok_bind]
  have eg : GAMMA1 - BETA = 130994 := rfl
  rw [eg, ebz0, ok_bind]
  cases bz0 with
  | true =>
    refine ⟨false, sg, rfl, ls2, ⟨fun h => (nomatch h), fun h => ?_⟩, fun h => nomatch h⟩
    have := hbz0.2 (nz.2 h.1); cases this
  | false =>
  have hzb := hbz0.1 rfl
  simp only [Bool.false_eq_true, if_false]
  obtain ⟨h0, h1, eh0, _, _, eh1, bh1, hh1⟩ := cs_ok bch hch hx.b2 hx.n2
  have bw0 : VB ((wOf S256 X k).map (·.map lowBits)) 95233 := lowBits_VB hw
  obtain ⟨r0, er0, br0, hr0⟩ := vecReduce_ok (v := vec fun i => mk fun j => co (at_ ((wOf S256 X k).map (·.map lowBits)) i) j - co (at_ h1 i) j) (VB_vec fun i hi j hj => by
    have := (bw0.2 i hi).2 j hj; have := (bh1.2 i hi).2 j hj; omega)
  have elow : ∀ i, i < 4 → ∀ j, j < 256 → co (at_ ((wOf S256 X k).map (·.map lowBits)) i) j = lowBits (co (at_ (wOf S256 X k) i) j) := by
    intro i hi j hj
    rw [map_map_vec _ _ hw.1 fun i hi => (hw.2 i hi).1, at_vec _ hi, co_mk _ hj]
  have hr0' : ∀ i, i < 4 → ∀ j, j < 256 → co (at_ r0 i) j % 8380417 = (lowBits (co (at_ (wOf S256 X k) i) j) - co (Spec.mul c (at_ X.s2 i)) j) % 8380417 := by
    intro i hi j hj
    have := hh1 i hi j hj
    rw [hr0 i hi j hj, at_vec _ hi, co_mk _ hj, elow i hi j hj]; omega
  obtain ⟨br, ebr, hbr⟩ := vecChknorm_ok (B := 95154) (br0.mono (by omega)) (by omega)
  obtain ⟨nr, qr⟩ := reduced_norm (B := 95154) br0 (by omega) hr0'
  change _ ↔ NormLt (r0Of S256 X k c) (95232 - 78) at nr
  change _ → r0 = r0Of S256 X k c at qr
  have eg2 : GAMMA2 - BETA = 95154 := rfl
  rw [eh0, ok_bind, eh1, ok_bind, vecSub_ok bw0 bh1 (by omega), ok_bind, er0, ok_bind, eg2, ebr, ok_bind]
  cases br with
  | true =>
    refine ⟨false, sg, rfl, ls2, ⟨fun h => (nomatch h), fun h => ?_⟩, fun h => nomatch h⟩
    have := hbr.2 (nr.2 h.2.1); cases this
  | false =>
  have hrb := hbr.1 rfl
  simp only [Bool.false_eq_true, if_false]
  obtain ⟨t0, t1, et0, _, _, et1, bt1, ht1⟩ := cs_ok bch hch hx.b0 hx.n0
  obtain ⟨t, et, bt, ht⟩ := vecReduce_ok (bt1.mono (by omega))
  have ht' : ∀ i, i < 4 → ∀ j, j < 256 → co (at_ t i) j % 8380417 = co (Spec.mul c (at_ X.t0 i)) j % 8380417 := by
    intro i hi j hj
    rw [ht i hi j hj, ht1 i hi j hj]
  obtain ⟨btt, ebt, hbt⟩ := vecChknorm_ok (B := 95232) (bt.mono (by omega)) (by omega)
  obtain ⟨nt, qt⟩ := reduced_norm (B := 95232) bt (by omega) ht'
  change _ ↔ NormLt (ct0Of X c) 95232 at nt
  change _ → t = ct0Of X c at qt
  have eg3 : GAMMA2 = 95232 := rfl
  rw [et0, ok_bind, et1, ok_bind, et, ok_bind, eg3, ebt, ok_bind]
  cases btt with
  | true =>
    refine ⟨false, sg, rfl, ls2, ⟨fun h => (nomatch h), fun h => ?_⟩, fun h => nomatch h⟩
    have := hbt.2 (nt.2 h.2.2.1); cases this
  | false =>
  have htb := hbt.1 rfl
  simp only [Bool.false_eq_true, if_false]
  rw [vecAdd_ok br0 bt (by omega), ok_bind]
  have eh : vecMakeHint (vec fun i => mk fun j => co (at_ r0 i) j + co (at_ t i) j) ((wOf S256 X k).map (·.map highBits)) =
      .ok (hOf S256 X k c, (weight (hOf S256 X k c) : Int)) := by
    unfold vecMakeHint
    rw [vzip_eq (length_vec _) lw1 (fun a b => mk fun j => hintBit (co a j) (co b j)) fun i hi => polyMakeHint_ok (by rw [at_vec _ hi, length_mk])
      (hw1 _ (at_mem (by rw [lw1]; exact hi))).1, ok_bind]
    have : (vec fun i => mk fun j => hintBit (co (at_ (vec fun i => mk fun j => co (at_ r0 i) j + co (at_ t i) j) i) j)
        (co (at_ ((wOf S256 X k).map (·.map highBits)) i) j)) = hOf S256 X k c := by
      refine vec_ext (length_vec _) (length_vec _) fun i hi => ?_
      have e' : at_ (hOf S256 X k c) i = mk fun j => hintBit (co (at_ (r0Of S256 X k c) i) j + co (at_ (ct0Of X c) i) j) (highBits (co (at_ (wOf S256 X k) i) j)) := at_vec _ hi
      rw [at_vec _ hi, e']
      refine co_ext (length_mk _) (length_mk _) fun j hj => ?_
      rw [co_mk _ hj, co_mk _ hj, at_vec _ hi, co_mk _ hj, qr hrb, qt htb, map_map_vec _ _ hw.1 fun i hi => (hw.2 i hi).1, at_vec _ hi, co_mk _ hj]
    rw [this, weight_sum _ (hOf_bits X k c)]
  rw [eh, ok_bind]
  simp only
  have hacc : Accept S256 X k c ↔ weight (hOf S256 X k c) ≤ 80 :=
    ⟨fun h => h.2.2.2, fun h => ⟨nz.1 hzb, nr.1 hrb, nt.1 htb, h⟩⟩
  by_cases hwt : weight (hOf S256 X k c) ≤ 80
  · rw [if_neg (by omega), hsl, qz hzb, packSig_ok ls2 hct (show (zOf S256 X k c).length = 4 from length_vec _) (fun x hx => ?_) (show (hOf S256 X k c).length = 4 from length_vec _) (fun x hx => (hOf_bits X k c x hx).1) hwt, ok_bind]
    · exact ⟨true, _, rfl, length_encodeSig hct (length_vec _) (fun x hx => by obtain ⟨i, _, rfl⟩ := mem_vec hx; exact length_mk _) hwt,
        ⟨fun _ => hacc.2 hwt, fun _ => rfl⟩, fun _ => rfl⟩
    · rw [← qz hzb] at hx
      obtain ⟨i, hi, e⟩ := List.mem_iff_getElem.1 hx
      have ex : at_ z i = x := by unfold at_; rw [List.getD_eq_getElem?_getD, List.getElem?_eq_getElem hi, e]; rfl
      have hi4 : i < 4 := by rw [bz.1] at hi; exact hi
      rw [← ex]
      refine ⟨(bz.2 i hi4).1, fun v hv => ?_⟩
      obtain ⟨j, hj, ev⟩ := List.mem_iff_getElem.1 hv
      have := hzb i hi4 j (by rw [(bz.2 i hi4).1] at hj; exact hj)
      have ec : co (at_ z i) j = v := by unfold co; rw [List.getD_eq_getElem?_getD, List.getElem?_eq_getElem hj, ev]; rfl
      rw [ec] at this
      omega
  · rw [if_pos (by omega)]
    exact ⟨false, sg, rfl, ls2, ⟨fun h => (nomatch h), fun h => absurd (hacc.1 h) hwt⟩, fun h => nomatch h⟩

/-! ### The samples are unique -/

theorem uniform_unique {s : Bytes} {n : Nat} {a b : List Int} (ha : IsUniform S128 s n a) (hb : IsUniform S128 s n b) : a = b := by
  obtain ⟨N, ha⟩ := ha
  obtain ⟨M, hb⟩ := hb
  have h1 := uniformOf_mono _ (Nat.le_max_left N M) ha
  have h2 := uniformOf_mono _ (Nat.le_max_right N M) hb
  rw [h1] at h2
  exact Option.some.inj h2

theorem eta_unique {s : Bytes} {n : Nat} {a b : List Int} (ha : IsEta S256 s n a) (hb : IsEta S256 s n b) : a = b := by
  obtain ⟨N, ha⟩ := ha
  obtain ⟨M, hb⟩ := hb
  have h1 := etaOf_mono _ (Nat.le_max_left N M) ha
  have h2 := etaOf_mono _ (Nat.le_max_right N M) hb
  rw [h1] at h2
  exact Option.some.inj h2

theorem ball_unique {s : Bytes} (hs : s.length = 32) {a b : List Int} (ha : IsBall S256 s a) (hb : IsBall S256 s b) : a = b := by
  obtain ⟨F, hF⟩ := polyChallenge_complete hs ha
  obtain ⟨G, hG⟩ := polyChallenge_complete hs hb
  have h1 := hF (max F G) (by omega)
  rw [hG (max F G) (by omega)] at h1
  cases h1; rfl

theorem matrix_unique {rho : Bytes} {A B : List Vec} (hA : IsMatrix S128 rho A) (hB : IsMatrix S128 rho B) : A = B :=
  vec_ext hA.1 hB.1 fun i hi => vec_ext (hA.2 i hi).1 (hB.2 i hi).1 fun j hj => uniform_unique ((hA.2 i hi).2 j hj) ((hB.2 i hi).2 j hj)

theorem etaVec_unique {s : Bytes} {n : Nat} {u v : Vec} (hu : IsEtaVec S256 s n u) (hv : IsEtaVec S256 s n v) : u = v :=
  vec_ext hu.1 hv.1 fun i hi => eta_unique (hu.2 i hi) (hv.2 i hi)

/-! ### The rejection loop -/

theorem nonce_succ (k : Nat) : BitVec.ofNat 16 k + 1 = BitVec.ofNat 16 (k + 1) := by
  apply BitVec.eq_of_toNat_eq
  rw [BitVec.toNat_add, BitVec.toNat_ofNat, BitVec.toNat_ofNat]
  change (k % 65536 + 1) % 65536 = (k + 1) % 65536
  omega

theorem cTilde_len (X : Ctx) (k : Nat) : (cTilde S256 X k).length = 32 := length_stream ..

theorem polyChallenge_safe (fuel : Nat) {seed : Bytes} (hs : seed.length = 32) : Safe (polyChallenge fuel seed) := by
  rw [polyChallenge_ok fuel hs]; exact resultOf_safe _

/-- The attempts from number `k` on are rejected up to number `k'`, which gives the signature. -/
def SignsFrom (X : Ctx) (k k' : Nat) (sig : Bytes) : Prop :=
  (∀ i, k ≤ i → i < k' → ∃ c, IsBall S256 (cTilde S256 X i) c ∧ ¬ Accept S256 X i c) ∧
  ∃ c, IsBall S256 (cTilde S256 X k') c ∧ Accept S256 X k' c ∧ sig = encodeSig (cTilde S256 X k') (zOf S256 X k' c) (hOf S256 X k' c)

theorem signLoop_safe {x : SignCtx} {X : Ctx} (hx : Match x X) (fuel : Nat) : ∀ (rounds : Nat) (sig : Bytes) (k : Nat), sig.length = 2420 →
    Safe (signLoop fuel x rounds sig (BitVec.ofNat 16 k)) := by
  intro rounds
  induction rounds with
  | zero => intro sig k _; exact safe_div
  | succ n ih =>
    intro sig k hs
    unfold signLoop
    obtain ⟨h1, h2⟩ := signAttempt_run hx hs fuel k
    rcases (polyChallenge_safe fuel (cTilde_len X k)).cases with ⟨c, e⟩ | e
    · obtain ⟨b, sig', e, hl, _⟩ := h2 c e
      rw [e, ok_bind]
      simp only
      split
      · exact safe_ok _
      · rw [nonce_succ]; exact ih sig' (k + 1) hl
    · rw [h1 e]; exact safe_div

theorem signLoop_sound {x : SignCtx} {X : Ctx} (hx : Match x X) (fuel : Nat) : ∀ (rounds : Nat) (sig : Bytes) (k : Nat) (out : Bytes), sig.length = 2420 →
    signLoop fuel x rounds sig (BitVec.ofNat 16 k) = .ok out → ∃ k', k ≤ k' ∧ SignsFrom X k k' out := by
  intro rounds
  induction rounds with
  | zero => intro sig k out _ h; cases h
  | succ n ih =>
    intro sig k out hs h
    unfold signLoop at h
    obtain ⟨h1, h2⟩ := signAttempt_run hx hs fuel k
    rcases (polyChallenge_safe fuel (cTilde_len X k)).cases with ⟨c, ec⟩ | e
    · obtain ⟨b, sig', e, hl, hb, hv⟩ := h2 c ec
      have hc := polyChallenge_sound (cTilde_len X k) ec
      rw [e, ok_bind] at h
      simp only at h
      cases b with
      | true =>
        rw [if_pos rfl] at h
        cases h
        exact ⟨k, Nat.le_refl _, fun i h1 h2 => absurd h2 (by omega), c, hc, hb.1 rfl, hv rfl⟩
      | false =>
        simp only [Bool.false_eq_true, if_false] at h
        rw [nonce_succ] at h
        obtain ⟨k', hk, hr, hg⟩ := ih sig' (k + 1) out hl h
        refine ⟨k', by omega, fun i hi1 hi2 => ?_, hg⟩
        by_cases c' : i = k
        · subst c'
          exact ⟨c, hc, fun ha => by have := hb.2 ha; cases this⟩
        · exact hr i (by omega) hi2
    · rw [h1 e] at h; cases h

theorem signLoop_complete {X : Ctx} (k' : Nat) (out : Bytes) : ∀ (n k : Nat), k' = k + n → SignsFrom X k k' out →
    ∃ F, ∀ fuel, F ≤ fuel → ∀ x, Match x X → ∀ rounds sig, n < rounds → sig.length = 2420 → signLoop fuel x rounds sig (BitVec.ofNat 16 k) = .ok out := by
  intro n
  induction n with
  | zero =>
    intro k hk h
    obtain ⟨_, c, hc, ha, ho⟩ := h
    obtain ⟨F, hF⟩ := polyChallenge_complete (cTilde_len X k') hc
    refine ⟨F, fun fuel hf x hx rounds sig hr hs => ?_⟩
    cases rounds with
    | zero => omega
    | succ r =>
      unfold signLoop
      have ek : k' = k := by omega
      subst ek
      obtain ⟨b, sig', e, hl, hb, hv⟩ := (signAttempt_run hx hs fuel k').2 c (hF fuel hf)
      rw [e, ok_bind]
      simp only
      rw [if_pos (hb.2 ha), hv (hb.2 ha), ho]
  | succ n ih =>
    intro k hk h
    obtain ⟨F, hF⟩ := ih (k + 1) (by omega) ⟨fun i h1 h2 => h.1 i (by omega) h2, h.2⟩
    obtain ⟨c, hc, ha⟩ := h.1 k (Nat.le_refl _) (by omega)
    obtain ⟨G, hG⟩ := polyChallenge_complete (cTilde_len X k) hc
    refine ⟨max F G, fun fuel hf x hx rounds sig hr hs => ?_⟩
    cases rounds with
    | zero => omega
    | succ r =>
      unfold signLoop
      obtain ⟨b, sig', e, hl, hb, hv⟩ := (signAttempt_run hx hs fuel k).2 c (hG fuel (by omega))
      rw [e, ok_bind]
      simp only
      rw [if_neg (fun hbt => ha (hb.1 hbt)), nonce_succ]
      exact hF fuel (by omega) x hx r sig' (by omega) hl

/-! ### The whole of signing -/

theorem splice_mid {α : Type} {a b c x : List α} {o : Nat} (ho : a.length = o) (hx : x.length = b.length) : splice (a ++ b ++ c) o x = a ++ x ++ c := by
  unfold splice
  subst ho
  rw [List.append_assoc a b c, List.take_left, hx]
  have : (a ++ (b ++ c)).drop (a.length + b.length) = c := by
    rw [← List.append_assoc, ← List.length_append, List.drop_left]
  rw [this]

/-- The specification's context for a secret key, with a given matrix. -/
def ctxOf (A : List Vec) (sk m : Bytes) : Ctx where
  A := A
  s1 := vec fun i => unpackAt 3 2 (slice sk (128 + i * 96) 96)
  s2 := vec fun i => unpackAt 3 2 (slice sk (512 + i * 96) 96)
  t0 := vec fun i => unpackAt 13 4096 (slice sk (896 + i * 416) 416)
  mu := S256 (slice sk 64 64 ++ m) 64
  rhoprime := S256 (slice sk 32 32 ++ List.replicate 32 0 ++ S256 (slice sk 64 64 ++ m) 64) 64

theorem ctx_iff {sk m : Bytes} {X : Ctx} : IsCtx S128 S256 sk m X ↔ ∃ A, IsMatrix S128 (slice sk 0 32) A ∧ X = ctxOf A sk m := by
  constructor
  · rintro ⟨hA, h1, h2, h0, hm, hr⟩
    refine ⟨X.A, hA, ?_⟩
    cases X
    simp only at *
    subst h1 h2 h0 hm hr
    rfl
  · rintro ⟨A, hA, rfl⟩
    exact ⟨hA, rfl, rfl, rfl, rfl, rfl⟩

theorem unpackAt_PB (w : Nat) (c B : Int) (b : Bytes) (h : 2 ^ w - c ≤ B) (h' : c < B) : PB (unpackAt w c b) B :=
  PB_of_mem length_unpackAt fun x hx => by have := unpackAt_bound x hx; omega

theorem signature_run (fuel : Nat) {sig m sk : Bytes} (siglen : Nat) (hsk : sk.length = 2560) (_hsig : sig.length = 2420) :
    (matrixExpand fuel (slice sk 0 32) = .error .diverge → signature fuel sig siglen m sk = .error .diverge) ∧
    ∀ A, matrixExpand fuel (slice sk 0 32) = .ok A → ∃ x, Match x (ctxOf A sk m) ∧
      signature fuel sig siglen m sk = (do let s ← signLoop fuel x fuel sig (BitVec.ofNat 16 0); .ok (0, s, 2420)) := by
  have l0 : (slice sk 0 32).length = 32 := length_slice (by omega)
  have l1 : (slice sk 64 64).length = 64 := length_slice (by omega)
  have l2 : (slice sk 32 32).length = 32 := length_slice (by omega)
  generalize e0 : slice sk 0 32 = rho at *
  generalize e1 : slice sk 64 64 = tr at *
  generalize e2 : slice sk 32 32 = key at *
  have hmu : (S256 (tr ++ m) 64).length = 64 := length_stream ..
  have z160 : (List.replicate 160 (0 : Byte)) = List.replicate 32 0 ++ List.replicate 64 0 ++ List.replicate 64 0 := by
    rw [List.replicate_append_replicate, List.replicate_append_replicate]
  have hsb : rho ++ tr ++ key ++ List.replicate 160 0 = (rho ++ tr ++ key ++ List.replicate 32 0) ++ List.replicate 64 0 ++ List.replicate 64 0 := by
    rw [z160]; simp only [List.append_assoc]
  have c1 : slice (rho ++ tr ++ key ++ List.replicate 160 0) 32 64 = tr := by
    rw [List.append_assoc, List.append_assoc, slice_append_right l0, List.take_left' l1]
  have lsb : (rho ++ tr ++ key ++ List.replicate 160 (0 : Byte)).length = 288 := by
    rw [List.length_append, List.length_append, List.length_append, List.length_replicate, l0, l1, l2]
  have c2 : copy (rho ++ tr ++ key ++ List.replicate 160 0) 160 (S256 (tr ++ m) 64) 0 64 =
      .ok ((rho ++ tr ++ key) ++ List.replicate 32 0 ++ (S256 (tr ++ m) 64 ++ List.replicate 64 0)) := by
    rw [copy_whole hmu (by omega), hsb, splice_mid (by
      rw [List.length_append, List.length_append, List.length_append, List.length_replicate, l0, l1, l2]) (by rw [hmu, List.length_replicate])]
    simp only [List.append_assoc]
  have l128 : (rho ++ tr ++ key).length = 128 := by rw [List.length_append, List.length_append, l0, l1, l2]
  have c3 : loop (fun n b => wr b (128 + n) (0 : Byte)) 0 32 ((rho ++ tr ++ key) ++ List.replicate 32 0 ++ (S256 (tr ++ m) 64 ++ List.replicate 64 0)) =
      .ok ((rho ++ tr ++ key) ++ List.replicate 32 0 ++ (S256 (tr ++ m) 64 ++ List.replicate 64 0)) := by
    rw [zero_loop (by rw [List.length_append, List.length_append, l128, List.length_replicate, List.length_append, hmu, List.length_replicate]; omega),
      splice_mid l128 rfl]
  have lbuf : ((rho ++ tr ++ key) ++ List.replicate 32 0 ++ (S256 (tr ++ m) 64 ++ List.replicate 64 0)).length = 288 := by
    rw [List.length_append, List.length_append, l128, List.length_replicate, List.length_append, hmu, List.length_replicate]
  have c4 : slice ((rho ++ tr ++ key) ++ List.replicate 32 0 ++ (S256 (tr ++ m) 64 ++ List.replicate 64 0)) 96 128 =
      key ++ List.replicate 32 0 ++ S256 (tr ++ m) 64 := by
    have : (rho ++ tr ++ key) ++ List.replicate 32 0 ++ (S256 (tr ++ m) 64 ++ List.replicate 64 0) =
        (rho ++ tr) ++ ((key ++ List.replicate 32 0 ++ S256 (tr ++ m) 64) ++ List.replicate 64 0) := by simp only [List.append_assoc]
    rw [this, slice_append_right (by rw [List.length_append, l0, l1]), List.take_left' (by
      rw [List.length_append, List.length_append, l2, List.length_replicate, hmu])]
  have c5 : slice ((rho ++ tr ++ key) ++ List.replicate 32 0 ++ (S256 (tr ++ m) 64 ++ List.replicate 64 0)) 0 32 = rho := by
    rw [List.append_assoc, List.append_assoc, List.append_assoc, slice_append_left (by omega), ← l0, slice_zero_length]
  have c6 : slice ((rho ++ tr ++ key) ++ List.replicate 32 0 ++ (S256 (tr ++ m) 64 ++ List.replicate 64 0)) 160 64 = S256 (tr ++ m) 64 := by
    rw [slice_append_right (by rw [List.length_append, l128, List.length_replicate]), List.take_left' hmu]
  unfold signature
  rw [unpackSk_ok hsk, ok_bind, e0, e1, e2]
  simp only
  rw [c1, shake256Inc2_ok l1.symm (by omega) (by rw [length_slice (by omega)]), ok_bind, List.take_length,
    splice_all (by rw [hmu, length_slice (by omega)]), c2, ok_bind, c3, ok_bind, c4,
    shake256_ok 64 _ 128 (by rw [List.length_append, List.length_append, l2, List.length_replicate, hmu]) (by rw [length_slice (by omega)]), ok_bind, c5, c6]
  refine ⟨fun h => by rw [h]; rfl, fun A hA => ?_⟩
  obtain ⟨n1, en1, bn1, hn1⟩ := vecNtt_ok (v := vec fun i => unpackAt 3 2 (slice sk (128 + i * 96) 96)) (B := 6)
    ⟨length_vec _, fun i hi => by rw [at_vec _ hi]; exact unpackAt_PB 3 2 6 _ (by decide) (by decide)⟩ (by omega)
  obtain ⟨n2, en2, bn2, hn2⟩ := vecNtt_ok (v := vec fun i => unpackAt 3 2 (slice sk (512 + i * 96) 96)) (B := 6)
    ⟨length_vec _, fun i hi => by rw [at_vec _ hi]; exact unpackAt_PB 3 2 6 _ (by decide) (by decide)⟩ (by omega)
  obtain ⟨n0, en0, bn0, hn0⟩ := vecNtt_ok (v := vec fun i => unpackAt 13 4096 (slice sk (896 + i * 416) 416)) (B := 4097)
    ⟨length_vec _, fun i hi => by rw [at_vec _ hi]; exact unpackAt_PB 13 4096 4097 _ (by decide) (by decide)⟩ (by omega)
  refine ⟨⟨A, n1, n2, n0, S256 (tr ++ m) 64, S256 (key ++ List.replicate 32 0 ++ S256 (tr ++ m) 64) 64⟩, ?_, ?_⟩
  · have hM := matrix_MB (matrixExpand_sound l0 hA)
    exact ⟨rfl, hM, by unfold ctxOf; rw [e1], length_stream .., by unfold ctxOf; rw [e1, e2], length_stream .., bn1.mono (by omega), bn2.mono (by omega), bn0.mono (by omega),
      hn1, hn2, hn0⟩
  · rw [hA, ok_bind, en1, ok_bind, en2, ok_bind, en0, ok_bind]
    rfl

theorem signature_safe (fuel : Nat) {sig m sk : Bytes} (siglen : Nat) (hsk : sk.length = 2560) (hsig : sig.length = 2420) :
    Safe (signature fuel sig siglen m sk) := by
  obtain ⟨h1, h2⟩ := signature_run fuel (m := m) siglen hsk hsig
  rcases (matrixExpand_safe fuel (rho := slice sk 0 32) (length_slice (by omega))).cases with ⟨A, e⟩ | e
  · obtain ⟨x, hx, e⟩ := h2 A e
    rw [e]
    exact (signLoop_safe hx fuel fuel sig 0 hsig).bind fun _ _ => safe_ok _
  · rw [h1 e]; exact safe_div

theorem signature_sound {fuel : Nat} {sig m sk sig' : Bytes} {siglen n : Nat} {r : Int} (hsk : sk.length = 2560) (hsig : sig.length = 2420)
    (h : signature fuel sig siglen m sk = .ok (r, sig', n)) : r = 0 ∧ n = 2420 ∧ ∃ k, Signs S128 S256 sk m k sig' := by
  obtain ⟨h1, h2⟩ := signature_run fuel (m := m) siglen hsk hsig
  rcases (matrixExpand_safe fuel (rho := slice sk 0 32) (length_slice (by omega))).cases with ⟨A, eA⟩ | e
  · obtain ⟨x, hx, e⟩ := h2 A eA
    rw [e] at h
    obtain ⟨s, es, h⟩ := bind_eq_ok.1 h
    cases h
    obtain ⟨k', _, hr, hg⟩ := signLoop_sound hx fuel fuel sig 0 _ hsig es
    exact ⟨rfl, rfl, k', ctxOf A sk m, ctx_iff.2 ⟨A, matrixExpand_sound (length_slice (by omega)) eA, rfl⟩, fun i hi => hr i (by omega) hi, hg⟩
  · rw [h1 e] at h; cases h

theorem signature_complete {sig m sk sig' : Bytes} (siglen : Nat) {k : Nat} (hsk : sk.length = 2560) (hsig : sig.length = 2420)
    (h : Signs S128 S256 sk m k sig') : ∃ F, ∀ fuel, F ≤ fuel → signature fuel sig siglen m sk = .ok (0, sig', 2420) := by
  obtain ⟨X, hX, hr, hg⟩ := h
  obtain ⟨A, hA, rfl⟩ := ctx_iff.1 hX
  obtain ⟨F, hF⟩ := matrixExpand_complete (length_slice (by omega)) hA
  obtain ⟨G, hG⟩ := signLoop_complete k sig' k 0 (by omega) ⟨fun i _ hi => hr i hi, hg⟩
  refine ⟨max F (max G (k + 1)), fun fuel hf => ?_⟩
  obtain ⟨x, hx, e⟩ := (signature_run fuel (m := m) siglen hsk hsig).2 A (hF fuel (by omega))
  rw [e, hG fuel (by omega) x hx fuel sig (by omega) hsig]
  rfl

/-! ### Verification -/

theorem useHint_range {h r : Int} (h1 : 0 ≤ r) (h2 : r < 8380417) : 0 ≤ Spec.useHint h r ∧ Spec.useHint h r < 64 := by
  have := (decompose_spec r h1 h2).1
  unfold Spec.useHint
  split
  · split <;> omega
  · omega

theorem mem_at {α : Type} {v : List (List α)} {x : List α} (h : x ∈ v) : ∃ i, i < v.length ∧ x = at_ v i := by
  obtain ⟨i, hi, e⟩ := List.mem_iff_getElem.1 h
  exact ⟨i, hi, by unfold at_; rw [List.getD_eq_getElem?_getD, List.getElem?_eq_getElem hi, e]; rfl⟩

theorem mem_co {x : List Int} {v : Int} (h : v ∈ x) : ∃ i, i < x.length ∧ v = co x i := by
  obtain ⟨i, hi, e⟩ := List.mem_iff_getElem.1 h
  exact ⟨i, hi, by unfold co; rw [List.getD_eq_getElem?_getD, List.getElem?_eq_getElem hi, e]; rfl⟩

/-- The 32 bytes that the verifier compares with the challenge of the signature. -/
def challengeOf (A : List Vec) (pk m : Bytes) (z h : Vec) (c : List Int) : Bytes :=
  S256 (S256 (S256 pk 64 ++ m) 64 ++ (w1Of A z (vec fun i => unpackPos 10 (slice pk (32 + i * 320) 320)) h c).flatMap (packPos 6)) 32

/-- The bound on z that the verifier checks. -/
def ZBound (z : Vec) : Prop := ∀ i, i < 4 → ∀ j, j < 256 → -130994 < co (at_ z i) j ∧ co (at_ z i) j < 130994

theorem compare_ok {c d : Bytes} (hc : c.length = 32) (hd : d.length = 32) :
    ∃ b, anyBad (fun i => do
      let x ← rd c i
      let y ← rd d i
      .ok (decide (x ≠ y))) 0 32 = .ok b ∧ (b = false ↔ c = d) := by
  obtain ⟨b, e, hb⟩ := anyBad_ok (f := fun i => do
      let x ← rd c i
      let y ← rd d i
      .ok (decide (x ≠ y))) (g := fun i => decide (c.getD i 0 ≠ d.getD i 0)) 0 32 (fun k _ hk => by
    rw [rd_ok (by omega : k < c.length), ok_bind, rd_ok (by omega : k < d.length), ok_bind, List.getD_eq_getElem?_getD, List.getD_eq_getElem?_getD,
      List.getElem?_eq_getElem (by omega), List.getElem?_eq_getElem (by omega)]
    rfl)
  refine ⟨b, e, ?_⟩
  constructor
  · rintro rfl
    apply List.ext_getElem (by omega)
    intro i h1 h2
    by_contra hne
    have := hb.2 ⟨i, by omega, by omega, by
      rw [List.getD_eq_getElem?_getD, List.getD_eq_getElem?_getD, List.getElem?_eq_getElem h1, List.getElem?_eq_getElem h2]
      exact decide_eq_true hne⟩
    cases this
  · rintro rfl
    cases b with
    | false => rfl
    | true =>
      obtain ⟨k, _, _, hk⟩ := hb.1 rfl
      simp at hk

theorem verify_run (fuel : Nat) {sig m pk c : Bytes} {z h : Vec} (hpk : pk.length = 1312) (hu : unpackSig sig = .ok (some (c, z, h))) (hp : SigParts c z h) :
    (¬ ZBound z → verify fuel sig 2420 m pk = .ok (-1)) ∧
    (ZBound z → Safe (verify fuel sig 2420 m pk) ∧
      (∀ v, verify fuel sig 2420 m pk = .ok v → ∃ cp A, polyChallenge fuel c = .ok cp ∧ matrixExpand fuel (slice pk 0 32) = .ok A ∧
        v = if c = challengeOf A pk m z h cp then 0 else -1) ∧
      (∀ cp A, polyChallenge fuel c = .ok cp → matrixExpand fuel (slice pk 0 32) = .ok A →
        verify fuel sig 2420 m pk = .ok (if c = challengeOf A pk m z h cp then 0 else -1))) := by
  obtain ⟨hc, hz, hzb, hh, hw⟩ := hp
  have bz : VB z 131073 := ⟨hz, fun i hi => PB_of_mem (hzb _ (at_mem (by omega))).1 fun x hx => by
    have := (hzb _ (at_mem (v := z) (i := i) (by omega))).2 x hx; omega⟩
  obtain ⟨b, eb, hb⟩ := vecChknorm_ok (B := 130994) (bz.mono (by omega)) (by omega)
  have eg : GAMMA1 - BETA = 130994 := rfl
  have lrho : (slice pk 0 32).length = 32 := length_slice (by omega)
  have main : ∀ K : C Int, K = verify fuel sig 2420 m pk → (b = true → K = .ok (-1)) ∧ (b = false → K = (do
      let cp ← polyChallenge fuel c
      let A ← matrixExpand fuel (slice pk 0 32)
      .ok (if c = challengeOf A pk m z h cp then 0 else -1))) := by
    rintro K rfl
    unfold verify
    rw [if_neg (by omega), unpackPk_ok hpk, ok_bind]
    simp only
    rw [hu, ok_bind]
    simp only
    rw [eg, eb, ok_bind]
    refine ⟨fun hb => by rw [hb]; rfl, fun hb => ?_⟩
    rw [hb]
    simp only [Bool.false_eq_true, if_false]
    rw [shake256_ok 64 pk 1312 hpk.symm (List.length_replicate ..).symm, ok_bind, shake256Inc2_ok (length_stream ..).symm (by omega) (by rw [length_stream]), ok_bind,
      List.take_length, splice_all (by rw [length_stream, length_stream])]
    rcases (polyChallenge_safe fuel hc).cases with ⟨cp, ecp⟩ | e
    swap
    · rw [e]; rfl
    rw [ecp, ok_bind, ok_bind]
    rcases (matrixExpand_safe fuel lrho).cases with ⟨A, eA⟩ | e
    swap
    · rw [e]; rfl
    rw [eA, ok_bind, ok_bind]
    have hA := matrix_MB (matrixExpand_sound lrho eA)
    obtain ⟨ch, ech, bch, hch⟩ := nttc_ok (ball_PB (polyChallenge_sound hc ecp))
    obtain ⟨zh, ezh, bzh, hzh⟩ := vecNtt_ok bz (by omega)
    obtain ⟨w, ew, bw, hw⟩ := matrixPointwise_ok hA bzh (by omega)
    have bt1 : VB (vec fun i => unpackPos 10 (slice pk (32 + i * 320) 320)) 1024 := ⟨length_vec _, fun i hi => by
      rw [at_vec _ hi]; exact PB_of_mem length_unpackPos fun x hx => by have := unpackPos_bound x hx; omega⟩
    have bt1n : ∀ i, i < 4 → ∀ j, j < 256 → 0 ≤ co (at_ (vec fun i => unpackPos 10 (slice pk (32 + i * 320) 320)) i) j := fun i hi j hj => by
      rw [at_vec _ hi]
      exact (unpackPos_bound _ (co_mem (a := unpackPos 10 _) (by rw [length_unpackPos]; exact hj))).1
    unfold challengeOf
    generalize (vec fun i => unpackPos 10 (slice pk (32 + i * 320) 320)) = t1 at bt1 bt1n ⊢
    have bs : VB (vec fun i => mk fun j => co (at_ t1 i) j * 8192) 8380417 := VB_vec fun i hi j hj => by
      have := (bt1.2 i hi).2 j hj; have := bt1n i hi j hj; omega
    obtain ⟨th, eth, bth, hth⟩ := vecNtt_ok bs (by omega)
    obtain ⟨a, ea, ba, ha⟩ := vecPointwisePoly_ok bch bth (by omega)
    obtain ⟨r, er, br, hr⟩ := vecReduce_ok (v := vec fun i => mk fun j => co (at_ w i) j - co (at_ a i) j) (VB_vec fun i hi j hj => by
      have := (bw.2 i hi).2 j hj; have := (ba.2 i hi).2 j hj; omega)
    obtain ⟨d, ed, bd, hd⟩ := vecInvntt_ok (br.mono (by omega))
    have edw : (vec fun i => mk fun j => co (at_ d i) j % 8380417) = wApprox A z t1 cp := by
      refine vec_ext (length_vec _) (length_vec _) fun i hi => ?_
      have e' : at_ (wApprox A z t1 cp) i = Spec.sub (at_ (matVec A z) i) (Spec.mul cp (scale 8192 (at_ t1 i))) := at_vec _ hi
      rw [at_vec _ hi, e']
      refine res_ext (res_mk _) (res_mk _) fun j hj => ?_
      have e1 : cf (mk fun j => co (at_ d i) j % 8380417) j = cf (at_ d i) j := by unfold cf; rw [co_mk _ hj]; exact cast_emod _
      rw [e1]
      clear e1
      revert j
      refine evalAt_inj fun j hj => ?_
      have e2 : cf (at_ r i) j = cf (at_ w i) j - cf (at_ a i) j := by
        rw [cf_eq_iff.2 (hr i hi j hj), at_vec _ hi]
        unfold cf
        rw [co_mk _ hj]; push_cast; rfl
      rw [hd i hi j hj, e2, hw i hi j hj, ha i hi j hj, evalAt_congr (fun t ht => cf_sub _ _ ht), evalAt_sub, matVec_eval A z hi hj, mul_eval _ _ hj, mul_sub, sum_Rinv,
        hch j hj, hth i hi j hj]
      have e3 : evalAt (cf (at_ (vec fun i => mk fun j => co (at_ t1 i) j * 8192) i)) (root j) = evalAt (cf (scale 8192 (at_ t1 i))) (root j) := by
        refine evalAt_congr (fun t ht => ?_) _
        rw [cf_scale _ _ ht, at_vec _ hi]
        unfold cf
        rw [co_mk _ ht]; push_cast; ring
      rw [e3]
      have e4 : ((List.range 4).map fun k => cf (at_ (at_ A i) k) j * cf (at_ zh k) j).sum =
          ((List.range 4).map fun k => cf (at_ (at_ A i) k) j * evalAt (cf (at_ z k)) (root j)).sum :=
        congrArg _ (List.map_congr_left fun k hk => by rw [hzh k (List.mem_range.1 hk) j hj])
      rw [e4]
      linear_combination (-(evalAt (cf cp) (root j) * evalAt (cf (scale 8192 (at_ t1 i))) (root j))) * Rm_Rinv
    rw [ezh, ok_bind, ew, ok_bind, ech, ok_bind, vecShiftl_ok bt1, ok_bind, eth, ok_bind, ea, ok_bind, vecSub_ok bw ba (by omega), ok_bind, er, ok_bind, ed, ok_bind,
      vecCaddq_ok (bd.mono (by omega)), ok_bind, edw]
    have hwr : ∀ i, i < 4 → Res (at_ (wApprox A z t1 cp) i) := fun i hi => by
      have e' : at_ (wApprox A z t1 cp) i = Spec.sub (at_ (matVec A z) i) (Spec.mul cp (scale 8192 (at_ t1 i))) := at_vec _ hi
      rw [e']; exact res_mk _
    have eu : vecUseHint (wApprox A z t1 cp) h = .ok (w1Of A z t1 h cp) := by
      unfold vecUseHint
      rw [vzip_eq (show (wApprox A z t1 cp).length = 4 from length_vec _) hh.1 (fun a b => mk fun j => Spec.useHint (co b j) (co a j)) fun i hi => ?_]
      · rfl
      · have hm := hh.2 _ (at_mem (v := h) (i := i) (by rw [hh.1]; exact hi))
        exact polyUseHint_ok (hwr i hi).1 (hwr i hi).2 hm.1 fun j hj => hm.2 _ (co_mem (by rw [hm.1]; exact hj))
    have hwb : ∀ x ∈ w1Of A z t1 h cp, x.length = 256 ∧ ∀ c ∈ x, 0 ≤ c ∧ c < 64 := by
      intro x hx
      unfold w1Of at hx
      obtain ⟨i, hi, rfl⟩ := mem_vec hx
      refine ⟨length_mk _, fun c hc => ?_⟩
      obtain ⟨j, hj, rfl⟩ := mem_mk hc
      have := (hwr i hi).2 j hj
      exact useHint_range this.1 this.2
    have lw : (w1Of A z t1 h cp).length = 4 := length_vec _
    have lp : ((w1Of A z t1 h cp).flatMap (packPos 6)).length = 768 := length_flatMap_vec lw fun x hx => length_packPos (hwb x hx).1
    have l768 : (List.replicate 768 (0 : Byte)).length = 768 := List.length_replicate ..
    have l32 : (List.replicate 32 (0 : Byte)).length = 32 := List.length_replicate ..
    rw [eu, ok_bind, vecPackW1_ok lw hwb (by omega), ok_bind, splice_all (by omega), shake256Inc2_ok (length_stream ..).symm (by omega) (by omega), ok_bind,
      splice_all (by rw [length_stream, l32]), List.take_of_length_le (by omega)]
    obtain ⟨b', e', hb'⟩ := compare_ok hc (length_stream 136 0x1F (S256 (S256 pk 64 ++ m) 64 ++ (w1Of A z t1 h cp).flatMap (packPos 6)) 32)
    rw [e', ok_bind]
    cases b' with
    | true => rw [if_pos rfl, if_neg (fun hc => by have := hb'.2 hc; cases this)]
    | false => simp only [Bool.false_eq_true, if_false]; rw [if_pos (hb'.1 rfl)]
  obtain ⟨m1, m2⟩ := main _ rfl
  constructor
  · intro hz
    refine m1 ?_
    cases b with
    | true => rfl
    | false => exact absurd (hb.1 rfl) hz
  · intro hz
    have e := m2 (hb.2 hz)
    refine ⟨?_, fun v hv => ?_, fun cp A h1 h2 => ?_⟩
    · rw [e]
      exact (polyChallenge_safe fuel hc).bind fun _ _ => (matrixExpand_safe fuel lrho).bind fun _ _ => safe_ok _
    · rw [e] at hv
      obtain ⟨cp, e1, hv⟩ := bind_eq_ok.1 hv
      obtain ⟨A, e2, hv⟩ := bind_eq_ok.1 hv
      cases hv
      exact ⟨cp, A, e1, e2, rfl⟩
    · rw [e, h1, ok_bind, h2, ok_bind]

theorem zbound_iff {z : Vec} (hz : z.length = 4) (hl : ∀ x ∈ z, x.length = 256) :
    ZBound z ↔ ∀ x ∈ z, ∀ v ∈ x, -(131072 - 78) < v ∧ v < 131072 - 78 := by
  constructor
  · intro h x hx v hv
    obtain ⟨i, hi, rfl⟩ := mem_at hx
    obtain ⟨j, hj, rfl⟩ := mem_co hv
    rw [hl _ hx] at hj
    exact h i (by omega) j hj
  · intro h i hi j hj
    have hm := at_mem (v := z) (i := i) (by omega)
    exact h _ hm _ (co_mem (by rw [hl _ hm]; exact hj))

theorem verify_safe (fuel : Nat) {sig pk : Bytes} (m : Bytes) (hs : sig.length = 2420) (hpk : pk.length = 1312) : Safe (verify fuel sig 2420 m pk) := by
  obtain ⟨r, hu, hr⟩ := unpackSig_iff hs
  match r, hu, hr with
  | none, hu, hr =>
    unfold verify
    rw [if_neg (by omega), unpackPk_ok hpk, ok_bind]
    simp only
    rw [hu, ok_bind]
    exact safe_ok _
  | some (c, z, h), hu, hr =>
    obtain ⟨hp, _⟩ := (hr c z h).1 rfl
    obtain ⟨h1, h2⟩ := verify_run fuel (m := m) hpk hu hp
    by_cases hz : ZBound z
    · exact (h2 hz).1
    · rw [h1 hz]; exact safe_ok _

theorem verify_sound {fuel : Nat} {sig pk m : Bytes} {v : Int} (hs : sig.length = 2420) (hpk : pk.length = 1312) (h : verify fuel sig 2420 m pk = .ok v) :
    (v = 0 ∧ Valid S128 S256 pk m sig) ∨ (v = -1 ∧ ¬ Valid S128 S256 pk m sig) := by
  have lrho : (slice pk 0 32).length = 32 := length_slice (by omega)
  obtain ⟨r, hu, hr⟩ := unpackSig_iff hs
  have parts : ∀ ct z h, ct.length = 32 → z.length = 4 → (∀ x ∈ z, x.length = 256 ∧ ∀ v ∈ x, -(131072 - 78) < v ∧ v < 131072 - 78) → IsHint h → weight h ≤ 80 →
      sig = encodeSig ct z h → r = some (ct, z, h) := fun ct z h h1 h2 h3 h4 h5 h6 =>
    (hr ct z h).2 ⟨⟨h1, h2, fun x hx => ⟨(h3 x hx).1, fun v hv => by have := (h3 x hx).2 v hv; omega⟩, h4, h5⟩, h6⟩
  match r, hu, hr, parts with
  | none, hu, hr, parts =>
    right
    unfold verify at h
    rw [if_neg (by omega), unpackPk_ok hpk, ok_bind] at h
    simp only at h
    rw [hu, ok_bind] at h
    cases h
    refine ⟨rfl, ?_⟩
    rintro ⟨ct, z, h, c, A, h1, h2, h3, h4, h5, h6, _⟩
    have := parts ct z h h1 h2 h3 h4 h5 h6
    cases this
  | some (c, z, hh), hu, hr, parts =>
    obtain ⟨hp, hsig⟩ := (hr c z hh).1 rfl
    obtain ⟨h1, h2⟩ := verify_run fuel (m := m) hpk hu hp
    have hzi := zbound_iff hp.2.1 fun x hx => (hp.2.2.1 x hx).1
    by_cases hz : ZBound z
    · obtain ⟨cp, A, ec, eA, hv⟩ := (h2 hz).2.1 v h
      have hc := polyChallenge_sound hp.1 ec
      have hA := matrixExpand_sound lrho eA
      by_cases he : c = challengeOf A pk m z hh cp
      · left
        rw [if_pos he] at hv
        exact ⟨hv, c, z, hh, cp, A, hp.1, hp.2.1, fun x hx => ⟨(hp.2.2.1 x hx).1, hzi.1 hz x hx⟩, hp.2.2.2.1, hp.2.2.2.2, hsig, hc, hA, he⟩
      · right
        rw [if_neg he] at hv
        refine ⟨hv, ?_⟩
        rintro ⟨ct, z', h', c', A', g1, g2, g3, g4, g5, g6, g7, g8, g9⟩
        have := parts ct z' h' g1 g2 g3 g4 g5 g6
        cases this
        cases ball_unique hp.1 hc g7
        cases matrix_unique hA g8
        exact he g9
    · right
      rw [h1 hz] at h
      cases h
      refine ⟨rfl, ?_⟩
      rintro ⟨ct, z', h', c', A', g1, g2, g3, g4, g5, g6, g7, g8, g9⟩
      have := parts ct z' h' g1 g2 g3 g4 g5 g6
      cases this
      exact hz (hzi.2 fun x hx => (g3 x hx).2)

theorem verify_complete {sig pk m : Bytes} (hs : sig.length = 2420) (hpk : pk.length = 1312) (h : Valid S128 S256 pk m sig) :
    ∃ F, ∀ fuel, F ≤ fuel → verify fuel sig 2420 m pk = .ok 0 := by
  have lrho : (slice pk 0 32).length = 32 := length_slice (by omega)
  obtain ⟨ct, z, h, c, A, h1, h2, h3, h4, h5, h6, h7, h8, h9⟩ := h
  obtain ⟨r, hu, hr⟩ := unpackSig_iff hs
  have hp : SigParts ct z h := ⟨h1, h2, fun x hx => ⟨(h3 x hx).1, fun v hv => by have := (h3 x hx).2 v hv; omega⟩, h4, h5⟩
  have er := (hr ct z h).2 ⟨hp, h6⟩
  rw [er] at hu
  obtain ⟨F, hF⟩ := polyChallenge_complete h1 h7
  obtain ⟨G, hG⟩ := matrixExpand_complete lrho h8
  refine ⟨max F G, fun fuel hf => ?_⟩
  obtain ⟨_, h10⟩ := verify_run fuel (m := m) hpk hu hp
  rw [(h10 ((zbound_iff h2 fun x hx => (h3 x hx).1).2 fun x hx => (h3 x hx).2)).2.2 c A (hF fuel (by omega)) (hG fuel (by omega)), if_pos (show ct = challengeOf A pk m z h c from h9)]

end Verif.Dilithium
