import Verif.Ct.DilithiumSign

/-! Two attempts of the rejection loop of Dilithium signing compared. -/

namespace Verif.Ct.Dilithium
open Verif.Dilithium (Poly Vec SkParts SignCtx ChalSt PB VB VRes S128 S256 Match ctxOf at_vec co_mk vec_ext co_ext length_vec length_mk VB_vec)
open Verif.Dilithium.Spec
open Verif.Ct.Dilithium.Spec

/-- The values of the first part of an attempt (dilithium2/sign.c:150-168), up to the challenge hash. -/
structure Vals1 (x : SignCtx) (X : Ctx) (sig : Bytes) (k : Nat) where
  a : Vec
  b : Vec
  c : Vec
  d : Vec
  s0 : Bytes
  s1 : Bytes
  ey : Verif.Dilithium.vecUniformGamma1 x.rhoprime (BitVec.ofNat 16 k) = .ok (yOf S256 X k)
  ea : Verif.Dilithium.vecNtt (yOf S256 X k) = .ok a
  eb : Verif.Dilithium.matrixPointwise x.mat a = .ok b
  ec : Verif.Dilithium.vecReduce b = .ok c
  ed : Verif.Dilithium.vecInvntt c = .ok d
  ew : Verif.Dilithium.vecCaddq d = .ok (wOf S256 X k)
  ex : Verif.Dilithium.vecDecompose (wOf S256 X k) = .ok ((wOf S256 X k).map (·.map highBits), (wOf S256 X k).map (·.map lowBits))
  ep : Verif.Dilithium.vecPackW1 sig ((wOf S256 X k).map (·.map highBits)) = .ok s0
  eh : Verif.Dilithium.shake256Inc2 x.mu 64 s0 768 s0 32 = .ok s1
  hs : s1.take 32 = cTilde S256 X k
  hl : s1.length = 2420

theorem vals1 {x : SignCtx} {X : Ctx} (hx : Match x X) {sig : Bytes} (hsig : sig.length = 2420) (k : Nat) : Nonempty (Vals1 x X sig k) := by
  have hct : (cTilde S256 X k).length = 32 := Verif.Keccak.length_stream ..
  obtain ⟨a, b, c0, d, ea, eb, ec, ed, bd, hd⟩ := Verif.Dilithium.matVec_ok hx.mb (Verif.Dilithium.yOf_VB X k) (by omega)
  have ey : Verif.Dilithium.vecUniformGamma1 x.rhoprime (BitVec.ofNat 16 k) = .ok (yOf S256 X k) := by
    rw [hx.rp, Verif.Dilithium.vecUniformGamma1_ok hx.rpl]; rfl
  have ew : (vec fun i => mk fun j => co (at_ d i) j % 8380417) = wOf S256 X k := by
    refine vec_ext (length_vec _) (length_vec _) fun i hi => ?_
    rw [at_vec _ hi]
    refine co_ext (length_mk _) (Verif.Dilithium.matVec_res _ _ hi).1 fun j hj => ?_
    rw [co_mk _ hj, hd i hi j hj]; rfl
  have hw : VRes (wOf S256 X k) := Verif.Dilithium.matVec_VRes _ _
  have hw1 := Verif.Dilithium.highBits_range hw
  have lw1 : ((wOf S256 X k).map (·.map highBits)).length = 4 := by rw [List.length_map]; exact hw.1
  have lp : (((wOf S256 X k).map (·.map highBits)).flatMap (packPos 6)).length = 768 := Verif.Dilithium.length_flatMap_vec lw1 fun x hx => Verif.Dilithium.length_packPos (hw1 x hx).1
  have ls1 : (splice sig 0 (((wOf S256 X k).map (·.map highBits)).flatMap (packPos 6))).length = 2420 := by rw [length_splice (by omega), hsig]
  have ls2 : (splice (splice sig 0 (((wOf S256 X k).map (·.map highBits)).flatMap (packPos 6))) 0 (cTilde S256 X k)).length = 2420 := by
    rw [length_splice (by omega), ls1]
  refine ⟨⟨a, b, c0, d, _, _, ey, ea, ?_, ec, ed, ?_, Verif.Dilithium.vecDecompose_ok hw, Verif.Dilithium.vecPackW1_ok lw1 hw1 (by omega),
    Verif.Dilithium.shake256Inc2_ok (by rw [hx.mu, hx.mul]) (by omega) (by omega), ?_, ?_⟩⟩
  · rw [hx.mat]; exact eb
  · rw [Verif.Dilithium.vecCaddq_ok (bd.mono (by omega)), ew]
  · rw [Verif.Dilithium.take_splice_zero lp, hx.mu]
    exact Verif.Dilithium.take_splice_zero hct
  · rw [Verif.Dilithium.take_splice_zero lp, hx.mu]
    exact ls2

/-- The values of the second part of an attempt (dilithium2/sign.c:169-198) with challenge `c`. -/
structure Vals2 (x : SignCtx) (X : Ctx) (k : Nat) (c : List Int) where
  ch : Poly
  za : Vec
  zb : Vec
  zc : Vec
  z : Vec
  ha : Vec
  hb : Vec
  rc : Vec
  r : Vec
  ta : Vec
  tb : Vec
  t : Vec
  s : Vec
  ech : Verif.Dilithium.ntt c = .ok ch
  ez1 : Verif.Dilithium.vecPointwisePoly ch x.s1 = .ok za
  ez2 : Verif.Dilithium.vecInvntt za = .ok zb
  ez3 : Verif.Dilithium.vecAdd zb (yOf S256 X k) = .ok zc
  ez : Verif.Dilithium.vecReduce zc = .ok z
  bz : VB z 6283010
  hz : ∀ i, i < 4 → ∀ j, j < 256 → co (at_ z i) j % 8380417 = (co (mul c (at_ X.s1 i)) j + co (at_ (yOf S256 X k) i) j) % 8380417
  er1 : Verif.Dilithium.vecPointwisePoly ch x.s2 = .ok ha
  er2 : Verif.Dilithium.vecInvntt ha = .ok hb
  er3 : Verif.Dilithium.vecSub ((wOf S256 X k).map (·.map lowBits)) hb = .ok rc
  er : Verif.Dilithium.vecReduce rc = .ok r
  br : VB r 6283010
  hr : ∀ i, i < 4 → ∀ j, j < 256 → co (at_ r i) j % 8380417 = (lowBits (co (at_ (wOf S256 X k) i) j) - co (mul c (at_ X.s2 i)) j) % 8380417
  et1 : Verif.Dilithium.vecPointwisePoly ch x.t0 = .ok ta
  et2 : Verif.Dilithium.vecInvntt ta = .ok tb
  et : Verif.Dilithium.vecReduce tb = .ok t
  bt : VB t 6283010
  ht : ∀ i, i < 4 → ∀ j, j < 256 → co (at_ t i) j % 8380417 = co (mul c (at_ X.t0 i)) j % 8380417
  es : Verif.Dilithium.vecAdd r t = .ok s
  hs : s = vec fun i => mk fun j => co (at_ r i) j + co (at_ t i) j

theorem vals2 {x : SignCtx} {X : Ctx} (hx : Match x X) (k : Nat) {c : List Int} (hball : IsBall S256 (cTilde S256 X k) c) : Nonempty (Vals2 x X k c) := by
  have hw : VRes (wOf S256 X k) := Verif.Dilithium.matVec_VRes _ _
  obtain ⟨ch, ech, bch, hch⟩ := Verif.Dilithium.nttc_ok (Verif.Dilithium.ball_PB hball)
  obtain ⟨z0, z1, ez0, _, _, ez1, bz1, hz1⟩ := Verif.Dilithium.cs_ok bch hch hx.b1 hx.n1
  have by_ := Verif.Dilithium.yOf_VB X k
  obtain ⟨z, ez, bz, hz⟩ := Verif.Dilithium.vecReduce_ok (v := vec fun i => mk fun j => co (at_ z1 i) j + co (at_ (yOf S256 X k) i) j) (VB_vec fun i hi j hj => by
    have := (bz1.2 i hi).2 j hj; have := (by_.2 i hi).2 j hj; omega)
  have hz' : ∀ i, i < 4 → ∀ j, j < 256 → co (at_ z i) j % 8380417 = (co (mul c (at_ X.s1 i)) j + co (at_ (yOf S256 X k) i) j) % 8380417 := by
    intro i hi j hj
    have := hz1 i hi j hj
    rw [hz i hi j hj, at_vec _ hi, co_mk _ hj]; omega
  obtain ⟨h0, h1, eh0, _, _, eh1, bh1, hh1⟩ := Verif.Dilithium.cs_ok bch hch hx.b2 hx.n2
  have bw0 : VB ((wOf S256 X k).map (·.map lowBits)) 95233 := Verif.Dilithium.lowBits_VB hw
  obtain ⟨r0, er0, br0, hr0⟩ := Verif.Dilithium.vecReduce_ok (v := vec fun i => mk fun j => co (at_ ((wOf S256 X k).map (·.map lowBits)) i) j - co (at_ h1 i) j) (VB_vec fun i hi j hj => by
    have := (bw0.2 i hi).2 j hj; have := (bh1.2 i hi).2 j hj; omega)
  have elow : ∀ i, i < 4 → ∀ j, j < 256 → co (at_ ((wOf S256 X k).map (·.map lowBits)) i) j = lowBits (co (at_ (wOf S256 X k) i) j) := by
    intro i hi j hj
    rw [Verif.Dilithium.map_map_vec _ _ hw.1 fun i hi => (hw.2 i hi).1, at_vec _ hi, co_mk _ hj]
  have hr0' : ∀ i, i < 4 → ∀ j, j < 256 → co (at_ r0 i) j % 8380417 = (lowBits (co (at_ (wOf S256 X k) i) j) - co (mul c (at_ X.s2 i)) j) % 8380417 := by
    intro i hi j hj
    have := hh1 i hi j hj
    rw [hr0 i hi j hj, at_vec _ hi, co_mk _ hj, elow i hi j hj]; omega
  obtain ⟨t0, t1, et0, _, _, et1, bt1, ht1⟩ := Verif.Dilithium.cs_ok bch hch hx.b0 hx.n0
  obtain ⟨t, et, bt, ht⟩ := Verif.Dilithium.vecReduce_ok (bt1.mono (by omega))
  have ht' : ∀ i, i < 4 → ∀ j, j < 256 → co (at_ t i) j % 8380417 = co (mul c (at_ X.t0 i)) j % 8380417 := by
    intro i hi j hj
    rw [ht i hi j hj, ht1 i hi j hj]
  exact ⟨⟨ch, z0, z1, _, z, h0, h1, _, r0, t0, t1, t, _, ech, ez0, ez1, Verif.Dilithium.vecAdd_ok bz1 by_ (by omega), ez, bz, hz', eh0, eh1,
    Verif.Dilithium.vecSub_ok bw0 bh1 (by omega), er0, br0, hr0', et0, et1, et, bt, ht', Verif.Dilithium.vecAdd_ok br0 bt (by omega), rfl⟩⟩

/-! ### The norm checks in terms of the specification -/

theorem bad_iff {r : Vec} {g : Nat → Nat → Int} {B : Int} (hr : VB r 6283010) (hB : B ≤ 131072)
    (h : ∀ i, i < 4 → ∀ j, j < 256 → co (at_ r i) j % 8380417 = g i j % 8380417) {p : Nat} (hp : p < 1024) :
    Bad (at_ r (p / 256)) B (p % 256) ↔ Bad (at_ (vec fun i => mk fun j => cmod (g i j) q) (p / 256)) B (p % 256) := by
  unfold Bad
  rw [at_vec _ (by omega), co_mk _ (by omega)]
  exact not_congr (Verif.Dilithium.norm_iff (h _ (by omega) _ (by omega)) ((hr.2 _ (by omega)).2 _ (by omega)) hB)

/-- Two norm checks show the same if the vectors of the specification have their first too big coefficients at the same place. -/
theorem chknorm_rel {r r' : Vec} {g g' : Nat → Nat → Int} {B : Int} (hr : VB r 6283010) (hr' : VB r' 6283010) (hB : B ≤ 131072)
    (h : ∀ i, i < 4 → ∀ j, j < 256 → co (at_ r i) j % 8380417 = g i j % 8380417) (h' : ∀ i, i < 4 → ∀ j, j < 256 → co (at_ r' i) j % 8380417 = g' i j % 8380417)
    (e : firstBad B (vec fun i => mk fun j => cmod (g i j) q) = firstBad B (vec fun i => mk fun j => cmod (g' i j) q)) :
    Rel (fun b b' => b = b' ∧ (b = true ↔ firstBad B (vec fun i => mk fun j => cmod (g i j) q) < 1024) ∧
      (b = false → r = (vec fun i => mk fun j => cmod (g i j) q) ∧ r' = vec fun i => mk fun j => cmod (g' i j) q)) (vecChknorm r B) (vecChknorm r' B) := by
  have vals : ∀ {r : Vec} {g : Nat → Nat → Int}, VB r 6283010 → (∀ i, i < 4 → ∀ j, j < 256 → co (at_ r i) j % 8380417 = g i j % 8380417) → ∀ b, (vecChknorm r B).res = .ok b →
      ((b = true ↔ firstBad B (vec fun i => mk fun j => cmod (g i j) q) < 1024) ∧ (b = false → r = vec fun i => mk fun j => cmod (g i j) q)) := by
    intro r g hr h b hb
    obtain ⟨b', e, hb'⟩ := Verif.Dilithium.vecChknorm_ok (B := B) (hr.mono (by omega)) (by omega)
    have hbad : firstBad B (vec fun i => mk fun j => cmod (g i j) q) < 1024 ↔ ∃ p, p < 1024 ∧ Bad (at_ r (p / 256)) B (p % 256) := by
      rw [firstBad_lt]
      exact exists_congr fun p => and_congr_right fun hp => (bad_iff hr hB h hp).symm
    rw [vecChknorm_res, e] at hb
    cases hb
    refine ⟨?_, fun hbf => (Verif.Dilithium.reduced_norm hr hB h).2 (hb'.1 hbf)⟩
    rw [hbad]
    constructor
    · intro hbt
      by_contra hx
      have : b = false := hb'.2 fun i hi j hj => by
        by_contra hx'
        refine hx ⟨256 * i + j, by omega, ?_⟩
        rw [show (256 * i + j) / 256 = i by omega, show (256 * i + j) % 256 = j by omega]
        exact hx'
      rw [hbt] at this
      cases this
    · rintro ⟨p, hp, hx⟩
      cases hbf : b with
      | true => rfl
      | false => exact absurd (hb'.1 hbf _ (by omega) _ (by omega)) hx
  refine ((vecChknorm_same (hr.mono (by omega)) (hr'.mono (by omega)) (by omega) fun p hp hq => ?_).and (vals hr h) (vals hr' h')).mono ?_
  · rw [bad_iff hr hB h hp, bad_iff hr' hB h' hp]
    exact firstBad_agree e hp fun q hq' => by
      rw [← bad_iff hr hB h (by omega)]
      exact hq q hq'
  · rintro b _ ⟨rfl, h1, h2⟩
    exact ⟨rfl, h1.1, fun hb => ⟨h1.2 hb, h2.2 hb⟩⟩

/-! ### One attempt -/

theorem classes_eq {X X' : Ctx} {k : Nat} {c : List Int} (h : classes X k c = classes X' k c) {p : Nat} (hp : p < 1024) :
    hintClass (co (at_ (r0Of S256 X k c) (p / 256)) (p % 256) + co (at_ (ct0Of X c) (p / 256)) (p % 256)) (highBits (co (at_ (wOf S256 X k) (p / 256)) (p % 256))) =
    hintClass (co (at_ (r0Of S256 X' k c) (p / 256)) (p % 256) + co (at_ (ct0Of X' c) (p / 256)) (p % 256)) (highBits (co (at_ (wOf S256 X' k) (p / 256)) (p % 256))) := by
  unfold classes at h
  exact List.map_inj_left.1 h p (List.mem_range.2 hp)


/-- A step with known values in both runs. -/
macro "st" h:term:max e:term:max e':term:max : tactic =>
  `(tactic| (refine (Rel.vals $h (Eq.trans (by with_reducible first | exact vecUniformGamma1_res _ _ | exact vecNtt_res _ | exact matrixPointwise_res _ _ | exact vecReduce_res _ | exact vecInvntt_res _ | exact vecCaddq_res _ | exact vecDecompose_res _ | exact vecPackW1_res _ _ | exact shake256Inc2_res _ _ _ _ _ _ | exact ntt_res _ | exact vecPointwisePoly_res _ _ | exact vecAdd_res _ _ | exact vecSub_res _ _) $e) (Eq.trans (by with_reducible first | exact vecUniformGamma1_res _ _ | exact vecNtt_res _ | exact matrixPointwise_res _ _ | exact vecReduce_res _ | exact vecInvntt_res _ | exact vecCaddq_res _ | exact vecDecompose_res _ | exact vecPackW1_res _ _ | exact shake256Inc2_res _ _ _ _ _ _ | exact ntt_res _ | exact vecPointwisePoly_res _ _ | exact vecAdd_res _ _ | exact vecSub_res _ _) $e')).bind ?_; intro u v h; have h1 := h.1; have h2 := h.2.1; clear h; subst h1; subst h2))

theorem signAttempt_same {x x' : SignCtx} {X X' : Ctx} (hx : Match x X) (hx' : Match x' X') {sig sig' : Bytes} (hs : sig.length = 2420) (hs' : sig'.length = 2420) (fuel fuel' k : Nat)
    {l : Bytes × List Nat} (hl : Leak X k l) (hl' : Leak X' k l) :
    Rel (fun u v => u.1 = v.1) (signAttempt fuel x sig (BitVec.ofNat 16 k)) (signAttempt fuel' x' sig' (BitVec.ofNat 16 k)) := by
  obtain ⟨c, hc, rfl⟩ := hl
  obtain ⟨c', hc', e⟩ := hl'
  injection e with ect el
  have hct : (cTilde S256 X k).length = 32 := Verif.Keccak.length_stream ..
  have ecc : c' = c := Verif.Dilithium.ball_unique hct (by rw [ect]; exact hc') hc
  subst ecc
  obtain ⟨v⟩ := vals1 hx hs k
  obtain ⟨v'⟩ := vals1 hx' hs' k
  obtain ⟨w⟩ := vals2 hx k hc
  obtain ⟨w'⟩ := vals2 hx' k hc'
  have hw : VRes (wOf S256 X k) := Verif.Dilithium.matVec_VRes _ _
  have hw' : VRes (wOf S256 X' k) := Verif.Dilithium.matVec_VRes _ _
  unfold signAttempt
  st (vecUniformGamma1_same _ _ _ _) v.ey v'.ey
  st (vecNtt_same _ _) v.ea v'.ea
  st (matrixPointwise_same _ _ _ _) v.eb v'.eb
  st (vecReduce_same _ _) v.ec v'.ec
  st (vecInvntt_same _ _) v.ed v'.ed
  st (vecCaddq_same _ _) v.ew v'.ew
  st (vecDecompose_same _ _) v.ex v'.ex
  dsimp only
  st (vecPackW1_same _ _ _ _) v.ep v'.ep
  st (shake256Inc2_same _ _ _ _ _ _ _ _ _) v.eh v'.eh
  rw [v.hs, v'.hs, ← ect]
  have hpc : ∀ fuel d, (polyChallenge fuel (cTilde S256 X k)).res = .ok d → d = c' := fun fuel d hd =>
    Verif.Dilithium.ball_unique hct (Verif.Dilithium.polyChallenge_sound hct ((polyChallenge_res _ _).symm.trans hd)) hc
  refine ((polyChallenge_fuel fuel fuel' _).and (P := fun d => d = c') (Q := fun d => d = c') (hpc fuel) (hpc fuel')).bind ?_
  rintro d d' ⟨-, h1, h2⟩
  rw [h1, h2]
  clear h1 h2 d d'
  st (ntt_same _ _) w.ech w'.ech
  st (vecPointwisePoly_same _ _ _ _) w.ez1 w'.ez1
  st (vecInvntt_same _ _) w.ez2 w'.ez2
  st (vecAdd_same _ _ _ _) w.ez3 w'.ez3
  st (vecReduce_same _ _) w.ez w'.ez
  unfold leakOf at el
  injection el with e1 el
  refine (chknorm_rel (B := 130994) w.bz w'.bz (by omega) w.hz w'.hz e1).bind ?_
  rintro b _ ⟨rfl, hb, qz⟩
  refine Rel.cond Iff.rfl (fun _ => Rel.pure rfl) fun hbf => ?_
  have g1 : ¬ firstBad (131072 - 78) (zOf S256 X k c') < 1024 := fun h => hbf (hb.2 h)
  have g1' : ¬ firstBad (131072 - 78) (zOf S256 X' k c') < 1024 := by rw [← e1]; exact g1
  rw [if_neg g1, if_neg g1'] at el
  injection el with e2 el
  clear hb hbf qz b
  st (vecPointwisePoly_same _ _ _ _) w.er1 w'.er1
  st (vecInvntt_same _ _) w.er2 w'.er2
  st (vecSub_same _ _ _ _) w.er3 w'.er3
  st (vecReduce_same _ _) w.er w'.er
  refine (chknorm_rel (B := 95154) w.br w'.br (by omega) w.hr w'.hr e2).bind ?_
  rintro b _ ⟨rfl, hb, qr⟩
  refine Rel.cond Iff.rfl (fun _ => Rel.pure rfl) fun hbf => ?_
  have g2 : ¬ firstBad (95232 - 78) (r0Of S256 X k c') < 1024 := fun h => hbf (hb.2 h)
  have g2' : ¬ firstBad (95232 - 78) (r0Of S256 X' k c') < 1024 := by rw [← e2]; exact g2
  rw [if_neg g2, if_neg g2'] at el
  injection el with e3 el
  replace qr := qr (Bool.eq_false_iff.2 hbf)
  clear hb hbf b
  st (vecPointwisePoly_same _ _ _ _) w.et1 w'.et1
  st (vecInvntt_same _ _) w.et2 w'.et2
  st (vecReduce_same _ _) w.et w'.et
  refine (chknorm_rel (B := 95232) w.bt w'.bt (by omega) w.ht w'.ht e3).bind ?_
  rintro b _ ⟨rfl, hb, qt⟩
  refine Rel.cond Iff.rfl (fun _ => Rel.pure rfl) fun hbf => ?_
  have g3 : ¬ firstBad 95232 (ct0Of X c') < 1024 := fun h => hbf (hb.2 h)
  have g3' : ¬ firstBad 95232 (ct0Of X' c') < 1024 := by rw [← e3]; exact g3
  rw [if_neg g3, if_neg g3'] at el
  replace qt := qt (Bool.eq_false_iff.2 hbf)
  clear hb hbf b
  st (vecAdd_same _ _ _ _) w.es w'.es
  have lw : ∀ {Y : Ctx}, VRes (wOf S256 Y k) → (((wOf S256 Y k).map (·.map highBits)).length = 4 ∧ ∀ i, i < 4 → (at_ ((wOf S256 Y k).map (·.map highBits)) i).length = 256 ∧
      ∀ j, j < 256 → co (at_ ((wOf S256 Y k).map (·.map highBits)) i) j = highBits (co (at_ (wOf S256 Y k) i) j)) := by
    intro Y h
    rw [Verif.Dilithium.map_map_vec _ _ h.1 fun i hi => (h.2 i hi).1]
    exact ⟨length_vec _, fun i hi => by rw [at_vec _ hi]; exact ⟨length_mk _, fun j hj => co_mk _ hj⟩⟩
  have cls : ∀ i, i < 4 → ∀ j, j < 256 → hintClass (co (at_ (r0Of S256 X k c') i) j + co (at_ (ct0Of X c') i) j) (highBits (co (at_ (wOf S256 X k) i) j)) =
      hintClass (co (at_ (r0Of S256 X' k c') i) j + co (at_ (ct0Of X' c') i) j) (highBits (co (at_ (wOf S256 X' k) i) j)) := by
    intro i hi j hj
    have := classes_eq el (p := 256 * i + j) (by omega)
    rwa [show (256 * i + j) / 256 = i by omega, show (256 * i + j) % 256 = j by omega] at this
  have es : ∀ {r t : Vec}, (vec fun i => mk fun j => co (at_ r i) j + co (at_ t i) j).length = 4 ∧ ∀ i, i < 4 → (at_ (vec fun i => mk fun j => co (at_ r i) j + co (at_ t i) j) i).length = 256 ∧
      ∀ j, j < 256 → co (at_ (vec fun i => mk fun j => co (at_ r i) j + co (at_ t i) j) i) j = co (at_ r i) j + co (at_ t i) j :=
    ⟨length_vec _, fun i hi => by rw [at_vec _ hi]; exact ⟨length_mk _, fun j hj => co_mk _ hj⟩⟩
  rw [w.hs, w'.hs]
  refine (vecMakeHint_same es.1 es.1 (lw hw).1 (lw hw').1 (fun i hi => (es.2 i hi).1) (fun i hi => (es.2 i hi).1) (fun i hi => ((lw hw).2 i hi).1) (fun i hi => ((lw hw').2 i hi).1) fun i hi j hj => ?_).bind ?_
  · rw [(es.2 i hi).2 j hj, (es.2 i hi).2 j hj, ((lw hw).2 i hi).2 j hj, ((lw hw').2 i hi).2 j hj, qr.1, qr.2, qt.1, qt.2]
    exact cls i hi j hj
  · rintro ⟨h, n⟩ _ rfl
    exact Rel.cond Iff.rfl (fun _ => Rel.pure rfl) fun _ => (packSig_same _ _ _ _ _ _ _).bind fun _ _ _ => Rel.pure rfl

/-! ### The rejection loop -/

theorem signLoop_same {x x' : SignCtx} {X X' : Ctx} (hx : Match x X) (hx' : Match x' X') (fuel fuel' K : Nat) (hK : ∃ c, IsBall S256 (cTilde S256 X K) c ∧ Accept S256 X K c)
    (hl : ∀ j, j ≤ K → ∃ l, Leak X j l ∧ Leak X' j l) (rounds : Nat) : ∀ (rounds' : Nat) (sig sig' : Bytes) (k : Nat), sig.length = 2420 → sig'.length = 2420 → k ≤ K →
    Same (signLoop fuel x rounds sig (BitVec.ofNat 16 k)) (signLoop fuel' x' rounds' sig' (BitVec.ofNat 16 k)) := by
  induction rounds with
  | zero => intro rounds' sig sig' k _ _ _; exact diverge_rel
  | succ n ih =>
    intro rounds' sig sig' k hs hs' hk
    cases rounds' with
    | zero => exact diverge_rel'
    | succ n' =>
      rw [signLoop, signLoop]
      have run : ∀ {x : SignCtx} {X : Ctx} (_ : Match x X) {sig : Bytes} (_ : sig.length = 2420) (fuel : Nat) (u : Bool × Bytes), (signAttempt fuel x sig (BitVec.ofNat 16 k)).res = .ok u →
          u.2.length = 2420 ∧ ((∃ c, IsBall S256 (cTilde S256 X k) c ∧ Accept S256 X k c) → u.1 = true) := by
        intro x X hx sig hs fuel u hu
        rw [signAttempt_res] at hu
        obtain ⟨h1, h2⟩ := Verif.Dilithium.signAttempt_run hx hs fuel k
        rcases (Verif.Dilithium.polyChallenge_safe fuel (Verif.Dilithium.cTilde_len X k)).cases with ⟨c, e⟩ | e
        · obtain ⟨b, s, e', hlen, hb, _⟩ := h2 c e
          rw [e'] at hu
          cases hu
          refine ⟨hlen, fun ⟨c', hc', ha⟩ => hb.2 ?_⟩
          rwa [← Verif.Dilithium.ball_unique (Verif.Dilithium.cTilde_len X k) hc' (Verif.Dilithium.polyChallenge_sound (Verif.Dilithium.cTilde_len X k) e)]
        · rw [h1 e] at hu
          cases hu
      obtain ⟨l, hl1, hl2⟩ := hl k hk
      refine ((signAttempt_same hx hx' hs hs' fuel fuel' k hl1 hl2).and (run hx hs fuel) (run hx' hs' fuel')).bind ?_
      rintro ⟨b, s⟩ ⟨b', s'⟩ ⟨hb, ⟨l1, acc⟩, l2, -⟩
      dsimp only at hb l1 l2 acc ⊢
      subst hb
      cases b with
      | true => exact Rel.pure trivial
      | false =>
        rw [if_neg Bool.false_ne_true, if_neg Bool.false_ne_true, Verif.Dilithium.nonce_succ]
        refine ih n' _ _ (k + 1) l1 l2 ?_
        by_contra hkK
        have : k = K := by omega
        subst this
        have := acc hK
        cases this

/-! ### The whole of signing -/

/-- The values before the rejection loop (dilithium2/sign.c:119-147). -/
theorem signature_vals {sk : Bytes} (m : Bytes) (hsk : sk.length = 2560) : ∃ (p : SkParts) (mu b1 b2 rp : Bytes) (n1 n2 n0 : Vec), Verif.Dilithium.unpackSk sk = .ok p ∧
    Verif.Dilithium.shake256Inc2 (slice (p.rho ++ p.tr ++ p.key ++ List.replicate 160 0) 32 64) 64 m m.length (slice (p.rho ++ p.tr ++ p.key ++ List.replicate 160 0) 160 64) 64 = .ok mu ∧
    Verif.copy (p.rho ++ p.tr ++ p.key ++ List.replicate 160 0) 160 mu 0 64 = .ok b1 ∧ Verif.loop (fun n b => Verif.wr b (128 + n) 0) 0 32 b1 = .ok b2 ∧
    Verif.Keccak.shake256 (slice b2 224 64) 64 (slice b2 96 128) 128 = .ok rp ∧ slice b2 0 32 = slice sk 0 32 ∧
    Verif.Dilithium.vecNtt p.s1 = .ok n1 ∧ Verif.Dilithium.vecNtt p.s2 = .ok n2 ∧ Verif.Dilithium.vecNtt p.t0 = .ok n0 ∧
    ∀ A, IsMatrix S128 (slice sk 0 32) A → Match ⟨A, n1, n2, n0, slice b2 160 64, rp⟩ (ctxOf A sk m) := by
  have l0 : (slice sk 0 32).length = 32 := length_slice (by omega)
  have l1 : (slice sk 64 64).length = 64 := length_slice (by omega)
  have l2 : (slice sk 32 32).length = 32 := length_slice (by omega)
  generalize e0 : slice sk 0 32 = rho at *
  generalize e1 : slice sk 64 64 = tr at *
  generalize e2 : slice sk 32 32 = key at *
  have hmu : (S256 (tr ++ m) 64).length = 64 := Verif.Keccak.length_stream ..
  have z160 : (List.replicate 160 (0 : Byte)) = List.replicate 32 0 ++ List.replicate 64 0 ++ List.replicate 64 0 := by
    rw [List.replicate_append_replicate, List.replicate_append_replicate]
  have hsb : rho ++ tr ++ key ++ List.replicate 160 0 = (rho ++ tr ++ key ++ List.replicate 32 0) ++ List.replicate 64 0 ++ List.replicate 64 0 := by
    rw [z160]; simp only [List.append_assoc]
  have c1 : slice (rho ++ tr ++ key ++ List.replicate 160 0) 32 64 = tr := by
    rw [List.append_assoc, List.append_assoc, Verif.Dilithium.slice_append_right l0, List.take_left' l1]
  have lsb : (rho ++ tr ++ key ++ List.replicate 160 (0 : Byte)).length = 288 := by
    rw [List.length_append, List.length_append, List.length_append, List.length_replicate, l0, l1, l2]
  have c2 : Verif.copy (rho ++ tr ++ key ++ List.replicate 160 0) 160 (S256 (tr ++ m) 64) 0 64 =
      .ok ((rho ++ tr ++ key) ++ List.replicate 32 0 ++ (S256 (tr ++ m) 64 ++ List.replicate 64 0)) := by
    rw [Verif.Dilithium.copy_whole hmu (by omega), hsb, Verif.Dilithium.splice_mid (by
      rw [List.length_append, List.length_append, List.length_append, List.length_replicate, l0, l1, l2]) (by rw [hmu, List.length_replicate])]
    simp only [List.append_assoc]
  have l128 : (rho ++ tr ++ key).length = 128 := by rw [List.length_append, List.length_append, l0, l1, l2]
  have c3 : Verif.loop (fun n b => Verif.wr b (128 + n) (0 : Byte)) 0 32 ((rho ++ tr ++ key) ++ List.replicate 32 0 ++ (S256 (tr ++ m) 64 ++ List.replicate 64 0)) =
      .ok ((rho ++ tr ++ key) ++ List.replicate 32 0 ++ (S256 (tr ++ m) 64 ++ List.replicate 64 0)) := by
    rw [Verif.Dilithium.zero_loop (by rw [List.length_append, List.length_append, l128, List.length_replicate, List.length_append, hmu, List.length_replicate]; omega),
      Verif.Dilithium.splice_mid l128 rfl]
  have lbuf : ((rho ++ tr ++ key) ++ List.replicate 32 0 ++ (S256 (tr ++ m) 64 ++ List.replicate 64 0)).length = 288 := by
    rw [List.length_append, List.length_append, l128, List.length_replicate, List.length_append, hmu, List.length_replicate]
  have c4 : slice ((rho ++ tr ++ key) ++ List.replicate 32 0 ++ (S256 (tr ++ m) 64 ++ List.replicate 64 0)) 96 128 =
      key ++ List.replicate 32 0 ++ S256 (tr ++ m) 64 := by
    have : (rho ++ tr ++ key) ++ List.replicate 32 0 ++ (S256 (tr ++ m) 64 ++ List.replicate 64 0) =
        (rho ++ tr) ++ ((key ++ List.replicate 32 0 ++ S256 (tr ++ m) 64) ++ List.replicate 64 0) := by simp only [List.append_assoc]
    rw [this, Verif.Dilithium.slice_append_right (by rw [List.length_append, l0, l1]), List.take_left' (by
      rw [List.length_append, List.length_append, l2, List.length_replicate, hmu])]
  have c5 : slice ((rho ++ tr ++ key) ++ List.replicate 32 0 ++ (S256 (tr ++ m) 64 ++ List.replicate 64 0)) 0 32 = rho := by
    rw [List.append_assoc, List.append_assoc, List.append_assoc, Verif.Dilithium.slice_append_left (by omega), ← l0, Verif.slice_zero_length]
  have c6 : slice ((rho ++ tr ++ key) ++ List.replicate 32 0 ++ (S256 (tr ++ m) 64 ++ List.replicate 64 0)) 160 64 = S256 (tr ++ m) 64 := by
    rw [Verif.Dilithium.slice_append_right (by rw [List.length_append, l128, List.length_replicate]), List.take_left' hmu]
  obtain ⟨n1, en1, bn1, hn1⟩ := Verif.Dilithium.vecNtt_ok (v := vec fun i => unpackAt 3 2 (slice sk (128 + i * 96) 96)) (B := 6)
    ⟨length_vec _, fun i hi => by rw [at_vec _ hi]; exact Verif.Dilithium.unpackAt_PB 3 2 6 _ (by decide) (by decide)⟩ (by omega)
  obtain ⟨n2, en2, bn2, hn2⟩ := Verif.Dilithium.vecNtt_ok (v := vec fun i => unpackAt 3 2 (slice sk (512 + i * 96) 96)) (B := 6)
    ⟨length_vec _, fun i hi => by rw [at_vec _ hi]; exact Verif.Dilithium.unpackAt_PB 3 2 6 _ (by decide) (by decide)⟩ (by omega)
  obtain ⟨n0, en0, bn0, hn0⟩ := Verif.Dilithium.vecNtt_ok (v := vec fun i => unpackAt 13 4096 (slice sk (896 + i * 416) 416)) (B := 4097)
    ⟨length_vec _, fun i hi => by rw [at_vec _ hi]; exact Verif.Dilithium.unpackAt_PB 13 4096 4097 _ (by decide) (by decide)⟩ (by omega)
  refine ⟨_, S256 (tr ++ m) 64, _, _, S256 (key ++ List.replicate 32 0 ++ S256 (tr ++ m) 64) 64, n1, n2, n0, Verif.Dilithium.unpackSk_ok hsk, ?_, ?_, c3, ?_, c5, ?_, ?_, ?_, ?_⟩
  · rw [e0, e1, e2]
    dsimp only
    rw [c1, Verif.Dilithium.shake256Inc2_ok l1.symm (by omega) (by rw [length_slice (by omega)]), List.take_length, Verif.splice_all (by rw [hmu, length_slice (by omega)])]
  · rw [e0, e1, e2]
    exact c2
  · rw [c4, Verif.Dilithium.shake256_ok 64 _ 128 (by rw [List.length_append, List.length_append, l2, List.length_replicate, hmu]) (by rw [length_slice (by omega)])]
  · exact en1
  · exact en2
  · exact en0
  · intro A hA
    rw [c6]
    exact ⟨rfl, Verif.Dilithium.matrix_MB hA, by unfold ctxOf; rw [e1], Verif.Keccak.length_stream .., by unfold ctxOf; rw [e1, e2], Verif.Keccak.length_stream .., bn1.mono (by omega),
      bn2.mono (by omega), bn0.mono (by omega), hn1, hn2, hn0⟩

theorem signature_same {sk sk' m m' : Bytes} (hsk : sk.length = 2560) (hsk' : sk'.length = 2560) (hm : m.length = m'.length) (hrho : slice sk 0 32 = slice sk' 0 32)
    {ls : List (Bytes × List Nat)} (hl : Leaks sk m ls) (hl' : Leaks sk' m' ls) {sig sig' : Bytes} (hs : sig.length = 2420) (hs' : sig'.length = 2420) (fuel fuel' n n' : Nat) :
    Same (signature fuel sig n m sk) (signature fuel' sig' n' m' sk') := by
  obtain ⟨X, hX, K, sg, hK, hlen, hls⟩ := hl
  obtain ⟨X', hX', K', sg', hK', hlen', hls'⟩ := hl'
  obtain ⟨A, hA, rfl⟩ := Verif.Dilithium.ctx_iff.1 hX
  obtain ⟨A', hA', rfl⟩ := Verif.Dilithium.ctx_iff.1 hX'
  obtain ⟨p, mu, b1, b2, rp, n1, n2, n0, ep, emu, eb1, eb2, erp, erho, en1, en2, en0, hM⟩ := signature_vals m hsk
  obtain ⟨p', mu', b1', b2', rp', n1', n2', n0', ep', emu', eb1', eb2', erp', erho', en1', en2', en0', hM'⟩ := signature_vals m' hsk'
  have lrho : (slice sk 0 32).length = 32 := length_slice (by omega)
  unfold signature
  refine ((unpackSk_same _ _).vals ((unpackSk_res _).trans ep) ((unpackSk_res _).trans ep')).bind ?_
  rintro _ _ ⟨rfl, rfl, -⟩
  dsimp only
  rw [← hm]
  rw [← hm] at emu'
  refine ((shake256Inc2_same _ _ _ _ _ _ _ _ _).vals ((shake256Inc2_res _ _ _ _ _ _).trans emu) ((shake256Inc2_res _ _ _ _ _ _).trans emu')).bind ?_
  rintro _ _ ⟨rfl, rfl, -⟩
  refine (Same.copy.vals ((copy_res _ _ _ _ _).trans eb1) ((copy_res _ _ _ _ _).trans eb1')).bind ?_
  rintro d d' ⟨hd, hd', -⟩
  rw [hd, hd']
  have sl : Same (loop (fun n b => wr b (128 + n) (0 : Byte)) 0 32 b1) (loop (fun n b => wr b (128 + n) (0 : Byte)) 0 32 b1') := Same.loop _ _ fun _ _ _ => Same.wr
  refine (sl.vals ((loop_res (fun _ _ => wr_res _ _ _) _ _ _).trans eb2) ((loop_res (fun _ _ => wr_res _ _ _) _ _ _).trans eb2')).bind ?_
  rintro _ _ ⟨rfl, rfl, -⟩
  refine ((Keccak.shake_same 136 64 128).vals ((Keccak.shake_res _ _ _ _ _).trans erp) ((Keccak.shake_res _ _ _ _ _).trans erp')).bind ?_
  rintro _ _ ⟨rfl, rfl, -⟩
  rw [erho, erho', ← hrho]
  rw [← hrho] at hA' hM'
  have mv : ∀ fuel B, (matrixExpand fuel (slice sk 0 32)).res = .ok B → B = A := fun fuel B hB =>
    Verif.Dilithium.matrix_unique (Verif.Dilithium.matrixExpand_sound lrho ((matrixExpand_res _ _).symm.trans hB)) hA
  refine ((matrixExpand_fuel fuel fuel' _).and (P := fun B => B = A) (Q := fun B => B = A) (mv fuel) (mv fuel')).bind ?_
  rintro B B' ⟨-, hB, hB'⟩
  rw [hB, hB']
  have hAA : A' = A := Verif.Dilithium.matrix_unique hA' hA
  rw [hAA] at hK' hls'
  refine ((vecNtt_same _ _).vals ((vecNtt_res _).trans en1) ((vecNtt_res _).trans en1')).bind ?_
  rintro _ _ ⟨rfl, rfl, -⟩
  refine ((vecNtt_same _ _).vals ((vecNtt_res _).trans en2) ((vecNtt_res _).trans en2')).bind ?_
  rintro _ _ ⟨rfl, rfl, -⟩
  refine ((vecNtt_same _ _).vals ((vecNtt_res _).trans en0) ((vecNtt_res _).trans en0')).bind ?_
  rintro _ _ ⟨rfl, rfl, -⟩
  refine (signLoop_same (hM A hA) (hM' A hA) fuel fuel' K ?_ ?_ fuel fuel' sig sig' 0 hs hs' (Nat.zero_le _)).bind fun _ _ _ => Rel.pure trivial
  · obtain ⟨-, c, hc, ha, -⟩ := hK
    exact ⟨c, hc, ha⟩
  · intro j hj
    have hj' : j < ls.length := by omega
    exact ⟨ls[j], hls j _ (List.getElem?_eq_getElem hj'), hls' j _ (List.getElem?_eq_getElem hj')⟩

end Verif.Ct.Dilithium
