import Verif.Ct.DilithiumLemmas

/-! Two runs of the functions of Verif/Ct/Dilithium.lean with the same public data have the same trace. -/

namespace Verif.Ct.Dilithium
open Verif.Dilithium (Poly Vec SkParts SignCtx ChalSt PB VB)
open Verif.Dilithium.Spec (co at_)
open Verif.Keccak (Inc incInit)
open Verif.Ct.Keccak (Cnt touch diverge incAbsorb incFinalize incSqueeze shake256 touch_same incAbsorb_same incFinalize_same incSqueeze_same shake_same)

variable {α β : Type}

theorem lift_same {x : C α} {y : C β} : Same (lift x) (lift y) := fun _ _ _ _ => ⟨rfl, trivial⟩

theorem build_same {n : Nat} {d : α} {d' : β} {f : Nat → T α} {g : Nat → T β} (h : ∀ i, Same (f i) (g i)) : Same (build n d f) (build n d' g) :=
  Same.loop _ _ fun k _ _ => (h k).bind fun _ _ _ => Same.wr

theorem build_eq {n : Nat} {d : α} {f g : Nat → T α} (h : ∀ i, i < n → Rel (· = ·) (f i) (g i)) : Rel (· = ·) (build n d f) (build n d g) :=
  Rel.loop (R := fun _ s t => s = t) 0 n rfl fun k s t _ hk e => by
    subst e
    exact (h k (by omega)).bind fun a b e => by subst e; exact Rel.refl _

/-! ### Arithmetic -/

theorem nttBlock_same (zeta zeta' : Int) (len start : Nat) (a a' : Poly) : Same (nttBlock zeta len start a) (nttBlock zeta' len start a') := by
  unfold nttBlock
  ct [lift_same]

theorem nttLayer_same (len : Nat) {s t : Poly × Nat} (h : s.2 = t.2) : Rel (fun s t => s.2 = t.2) (nttLayer len s) (nttLayer len t) := by
  unfold nttLayer
  refine Rel.loop (R := fun _ (s t : Poly × Nat) => s.2 = t.2) _ _ h fun k s t _ _ e => ?_
  dsimp only
  rw [e]
  exact Same.rd.bind fun _ _ _ => (nttBlock_same _ _ _ _ _ _).bind fun _ _ _ => Rel.pure rfl

theorem ntt_same (a a' : Poly) : Same (ntt a) (ntt a') := by
  unfold ntt
  exact (Rel.loop (R := fun _ s t => s.2 = t.2) 0 8 rfl fun k s t _ _ e => nttLayer_same _ e).bind fun _ _ _ => Rel.pure trivial

theorem invnttBlock_same (zeta zeta' : Int) (len start : Nat) (a a' : Poly) : Same (invnttBlock zeta len start a) (invnttBlock zeta' len start a') := by
  unfold invnttBlock
  ct [lift_same]

theorem invnttLayer_same (len : Nat) {s t : Poly × Nat} (h : s.2 = t.2) : Rel (fun s t => s.2 = t.2) (invnttLayer len s) (invnttLayer len t) := by
  unfold invnttLayer
  refine Rel.loop (R := fun _ (s t : Poly × Nat) => s.2 = t.2) _ _ h fun k s t _ _ e => ?_
  dsimp only
  rw [e]
  split
  · exact Rel.ub
  · exact Same.rd.bind fun _ _ _ => lift_same.bind fun _ _ _ => (invnttBlock_same _ _ _ _ _ _).bind fun _ _ _ => Rel.pure rfl

theorem invntt_same (a a' : Poly) : Same (invntt a) (invntt a') := by
  unfold invntt
  refine (Rel.loop (R := fun _ s t => s.2 = t.2) 0 8 rfl fun k s t _ _ e => invnttLayer_same _ e).bind fun _ _ _ => build_same fun _ => ?_
  ct [lift_same]

theorem polyReduce_same (a a' : Poly) : Same (polyReduce a) (polyReduce a') := build_same fun _ => by ct [lift_same]
theorem polyCaddq_same (a a' : Poly) : Same (polyCaddq a) (polyCaddq a') := build_same fun _ => by ct [lift_same]
theorem polyAdd_same (a a' b b' : Poly) : Same (polyAdd a b) (polyAdd a' b') := build_same fun _ => by ct [lift_same]
theorem polySub_same (a a' b b' : Poly) : Same (polySub a b) (polySub a' b') := build_same fun _ => by ct [lift_same]
theorem polyPointwise_same (a a' b b' : Poly) : Same (polyPointwise a b) (polyPointwise a' b') := build_same fun _ => by ct [lift_same]
theorem polyPower2round_same (a a' : Poly) : Same (polyPower2round a) (polyPower2round a') := build_same fun _ => by ct [lift_same]
theorem polyDecompose_same (a a' : Poly) : Same (polyDecompose a) (polyDecompose a') := build_same fun _ => by ct [lift_same]

/-! ### Streams -/

theorem incInit_cnt : Cnt incInit incInit := rfl

theorem streamInit_same (r : Nat) (seed seed' : Bytes) (seedlen : Nat) (nonce nonce' : BitVec 16) :
    Rel Cnt (streamInit r seed seedlen nonce) (streamInit r seed' seedlen nonce') := by
  unfold streamInit
  exact (incAbsorb_same r seedlen incInit_cnt).bind fun _ _ h => (incAbsorb_same r 2 h).bind fun _ _ h => incFinalize_same r h

theorem squeezeAt_same (buf buf' : Bytes) (off n : Nat) {st st' : Inc} (r : Nat) (h : Cnt st st') :
    Rel (fun x y => Cnt x.2 y.2) (squeezeAt buf off n st r) (squeezeAt buf' off n st' r) := by
  unfold squeezeAt
  exact (incSqueeze_same n r h).bind fun _ _ h => Rel.pure h

/-! ### Packing -/

theorem rdN_same {a : List α} {b : List β} {o n : Nat} : Same (rdN a o n) (rdN b o n) := fun _ _ _ _ => ⟨rfl, trivial⟩

theorem packLoop_same (m k n : Nat) (f f' : List Int → C Bytes) (r r' : Bytes) (base : Nat) (a a' : Poly) : Same (packLoop m k n f r base a) (packLoop m k n f' r' base a') := by
  unfold packLoop
  ct [lift_same, rdN_same]

theorem unpackLoop_same (m k n : Nat) (f f' : Bytes → C (List Int)) (src src' : Bytes) (base : Nat) : Same (unpackLoop m k n f src base) (unpackLoop m k n f' src' base) := by
  unfold unpackLoop
  ct [lift_same, rdN_same]

theorem polyetaPack_same (r r' : Bytes) (o : Nat) (a a' : Poly) : Same (polyetaPack r o a) (polyetaPack r' o a') := by
  unfold polyetaPack
  exact packLoop_same _ _ _ _ _ _ _ _ _ _
theorem polyt1Pack_same (r r' : Bytes) (o : Nat) (a a' : Poly) : Same (polyt1Pack r o a) (polyt1Pack r' o a') := by
  unfold polyt1Pack
  exact packLoop_same _ _ _ _ _ _ _ _ _ _
theorem polyt0Pack_same (r r' : Bytes) (o : Nat) (a a' : Poly) : Same (polyt0Pack r o a) (polyt0Pack r' o a') := by
  unfold polyt0Pack
  exact packLoop_same _ _ _ _ _ _ _ _ _ _
theorem polyzPack_same (r r' : Bytes) (o : Nat) (a a' : Poly) : Same (polyzPack r o a) (polyzPack r' o a') := by
  unfold polyzPack
  exact packLoop_same _ _ _ _ _ _ _ _ _ _
theorem polyw1Pack_same (r r' : Bytes) (o : Nat) (a a' : Poly) : Same (polyw1Pack r o a) (polyw1Pack r' o a') := by
  unfold polyw1Pack
  exact packLoop_same _ _ _ _ _ _ _ _ _ _
theorem polyetaUnpack_same (r r' : Bytes) (o : Nat) : Same (polyetaUnpack r o) (polyetaUnpack r' o) := by
  unfold polyetaUnpack
  exact unpackLoop_same _ _ _ _ _ _ _ _
theorem polyt0Unpack_same (r r' : Bytes) (o : Nat) : Same (polyt0Unpack r o) (polyt0Unpack r' o) := by
  unfold polyt0Unpack
  exact unpackLoop_same _ _ _ _ _ _ _ _
theorem polyzUnpack_same (r r' : Bytes) (o : Nat) : Same (polyzUnpack r o) (polyzUnpack r' o) := by
  unfold polyzUnpack
  exact unpackLoop_same _ _ _ _ _ _ _ _

theorem polyUniformGamma1_same (seed seed' : Bytes) (nonce nonce' : BitVec 16) : Same (polyUniformGamma1 seed nonce) (polyUniformGamma1 seed' nonce') := by
  unfold polyUniformGamma1
  exact (streamInit_same _ _ _ _ _ _).bind fun _ _ h => (squeezeAt_same _ _ _ _ _ h).bind fun _ _ _ => polyzUnpack_same _ _ _

/-! ### Vectors -/

theorem vmap_same {f f' : Poly → T Poly} (h : ∀ x y, Same (f x) (f' y)) (v v' : Vec) : Same (vmap f v) (vmap f' v') :=
  build_same fun _ => Same.rd.bind fun _ _ _ => h _ _
theorem vzip_same {f f' : Poly → Poly → T Poly} (h : ∀ x x' y y', Same (f x y) (f' x' y')) (u u' v v' : Vec) : Same (vzip f u v) (vzip f' u' v') :=
  build_same fun _ => Same.rd.bind fun _ _ _ => Same.rd.bind fun _ _ _ => h _ _ _ _

theorem pointwiseAcc_same (u u' v v' : Vec) : Same (pointwiseAcc u v) (pointwiseAcc u' v') := by
  unfold pointwiseAcc
  ct [polyPointwise_same _ _ _ _, polyAdd_same _ _ _ _]

theorem matrixPointwise_same (m m' : List Vec) (v v' : Vec) : Same (matrixPointwise m v) (matrixPointwise m' v') :=
  build_same fun _ => Same.rd.bind fun _ _ _ => pointwiseAcc_same _ _ _ _

theorem vecUniformGamma1_same (seed seed' : Bytes) (nonce nonce' : BitVec 16) : Same (vecUniformGamma1 seed nonce) (vecUniformGamma1 seed' nonce') :=
  build_same fun _ => polyUniformGamma1_same _ _ _ _
theorem vecReduce_same (v v' : Vec) : Same (vecReduce v) (vecReduce v') := vmap_same polyReduce_same _ _
theorem vecCaddq_same (v v' : Vec) : Same (vecCaddq v) (vecCaddq v') := vmap_same polyCaddq_same _ _
theorem vecAdd_same (u u' v v' : Vec) : Same (vecAdd u v) (vecAdd u' v') := vzip_same polyAdd_same _ _ _ _
theorem vecSub_same (u u' v v' : Vec) : Same (vecSub u v) (vecSub u' v') := vzip_same polySub_same _ _ _ _
theorem vecNtt_same (v v' : Vec) : Same (vecNtt v) (vecNtt v') := vmap_same ntt_same _ _
theorem vecInvntt_same (v v' : Vec) : Same (vecInvntt v) (vecInvntt v') := vmap_same invntt_same _ _
theorem vecPointwisePoly_same (a a' : Poly) (v v' : Vec) : Same (vecPointwisePoly a v) (vecPointwisePoly a' v') := vmap_same (fun _ _ => polyPointwise_same _ _ _ _) _ _

theorem vecPower2round_same (v v' : Vec) : Same (vecPower2round v) (vecPower2round v') :=
  (build_same fun _ => Same.rd.bind fun _ _ _ => polyPower2round_same _ _).bind fun _ _ _ => Rel.pure trivial
theorem vecDecompose_same (v v' : Vec) : Same (vecDecompose v) (vecDecompose v') :=
  (build_same fun _ => Same.rd.bind fun _ _ _ => polyDecompose_same _ _).bind fun _ _ _ => Rel.pure trivial

theorem vecPack_same {p p' : Bytes → Nat → Poly → T Bytes} (h : ∀ r r' o x x', Same (p r o x) (p' r' o x')) (size : Nat) (r r' : Bytes) (base : Nat) (v v' : Vec) :
    Same (vecPack p size r base v) (vecPack p' size r' base v') :=
  Same.loop _ _ fun _ _ _ => Same.rd.bind fun _ _ _ => h _ _ _ _ _
theorem vecUnpack_same {p p' : Bytes → Nat → T Poly} (h : ∀ r r' o, Same (p r o) (p' r' o)) (size : Nat) (r r' : Bytes) (base : Nat) :
    Same (vecUnpack p size r base) (vecUnpack p' size r' base) := build_same fun _ => h _ _ _
theorem vecPackW1_same (r r' : Bytes) (v v' : Vec) : Same (vecPackW1 r v) (vecPackW1 r' v') := vecPack_same polyw1Pack_same _ _ _ _ _ _

theorem packPk_same (pk pk' rho rho' : Bytes) (t1 t1' : Vec) : Same (packPk pk rho t1) (packPk pk' rho' t1') :=
  Same.copy.bind fun _ _ _ => vecPack_same polyt1Pack_same _ _ _ _ _ _

theorem packSk_same (sk sk' rho rho' tr tr' key key' : Bytes) (t0 t0' s1 s1' s2 s2' : Vec) : Same (packSk sk rho tr key t0 s1 s2) (packSk sk' rho' tr' key' t0' s1' s2') := by
  unfold packSk
  ct [vecPack_same polyetaPack_same _ _ _ _ _ _, vecPack_same polyt0Pack_same _ _ _ _ _ _]

theorem unpackSk_same (sk sk' : Bytes) : Same (unpackSk sk) (unpackSk sk') := by
  unfold unpackSk
  ct [vecUnpack_same polyetaUnpack_same _ _ _ _, vecUnpack_same polyt0Unpack_same _ _ _ _]

theorem shake256Inc2_same (x x' : Bytes) (xlen : Nat) (y y' : Bytes) (ylen : Nat) (out out' : Bytes) (outlen : Nat) :
    Same (shake256Inc2 x xlen y ylen out outlen) (shake256Inc2 x' xlen y' ylen out' outlen) := by
  unfold shake256Inc2
  exact (incAbsorb_same _ _ incInit_cnt).bind fun _ _ h => (incAbsorb_same _ _ h).bind fun _ _ h => (incFinalize_same _ h).bind fun _ _ h =>
    (incSqueeze_same _ _ h).bind fun _ _ _ => Rel.pure trivial

/-! ### Loops with fuel: the fuel does not show -/

theorem diverge_rel {R : α → β → Prop} {y : T β} : Rel R (diverge : T α) y := by
  intro a b ha
  cases ha
theorem diverge_rel' {R : α → β → Prop} {x : T α} : Rel R x (diverge : T β) := by
  intro a b _ hb
  cases hb

theorem polyUniformLoop_fuel (fuel : Nat) : ∀ (fuel' : Nat) (a : Poly) (buf : Bytes) (buflen ctr : Nat) (st : Inc),
    Rel (· = ·) (polyUniformLoop fuel a buf buflen ctr st) (polyUniformLoop fuel' a buf buflen ctr st) := by
  induction fuel with
  | zero =>
    intro fuel' a buf buflen ctr st
    rw [polyUniformLoop, polyUniformLoop.eq_def fuel']
    exact Rel.cond Iff.rfl (fun _ => diverge_rel) fun _ => Rel.refl _
  | succ fuel ih =>
    intro fuel' a buf buflen ctr st
    rw [polyUniformLoop, polyUniformLoop.eq_def fuel']
    refine Rel.cond Iff.rfl (fun _ => ?_) fun _ => Rel.refl _
    cases fuel' with
    | zero => exact diverge_rel'
    | succ fuel' =>
      dsimp only
      refine (Rel.refl _).bind ?_
      rintro b _ rfl
      refine (Rel.refl _).bind ?_
      rintro ⟨b, st⟩ _ rfl
      refine (Rel.refl _).bind ?_
      rintro ⟨a, n⟩ _ rfl
      exact ih _ _ _ _ _ _

theorem polyUniform_fuel (fuel fuel' : Nat) (seed : Bytes) (nonce : BitVec 16) : Rel (· = ·) (polyUniform fuel seed nonce) (polyUniform fuel' seed nonce) := by
  unfold polyUniform
  refine (Rel.refl _).bind ?_
  rintro st _ rfl
  refine (Rel.refl _).bind ?_
  rintro ⟨b, st⟩ _ rfl
  refine (Rel.refl _).bind ?_
  rintro ⟨a, n⟩ _ rfl
  exact polyUniformLoop_fuel _ _ _ _ _ _ _

theorem matrixExpand_fuel (fuel fuel' : Nat) (rho : Bytes) : Rel (· = ·) (matrixExpand fuel rho) (matrixExpand fuel' rho) :=
  build_eq fun _ _ => build_eq fun _ _ => polyUniform_fuel _ _ _ _

theorem challengeByte_fuel (fuel : Nat) : ∀ (fuel' i : Nat) (s : ChalSt), Rel (· = ·) (challengeByte fuel i s) (challengeByte fuel' i s) := by
  induction fuel with
  | zero => intro fuel' i s; exact diverge_rel
  | succ fuel ih =>
    intro fuel' i s
    cases fuel' with
    | zero => exact diverge_rel'
    | succ fuel' =>
      rw [challengeByte, challengeByte]
      refine (Rel.refl _).bind ?_
      rintro s _ rfl
      refine (Rel.refl _).bind ?_
      rintro b _ rfl
      exact Rel.cond Iff.rfl (fun _ => ih _ _ _) fun _ => Rel.refl _

theorem polyChallenge_fuel (fuel fuel' : Nat) (seed : Bytes) : Rel (· = ·) (polyChallenge fuel seed) (polyChallenge fuel' seed) := by
  unfold polyChallenge
  refine (Rel.refl _).bind ?_
  rintro st _ rfl
  refine (Rel.refl _).bind ?_
  rintro st _ rfl
  refine (Rel.refl _).bind ?_
  rintro ⟨b, st⟩ _ rfl
  refine (Rel.refl _).bind ?_
  rintro signs _ rfl
  refine (Rel.loop (R := fun _ s t => s = t) _ _ rfl fun k s t _ _ e => ?_).bind ?_
  · subst e
    obtain ⟨c, sg, cs⟩ := s
    unfold challengeStep
    refine (challengeByte_fuel _ _ _ _).bind ?_
    rintro ⟨b, cs⟩ _ rfl
    exact Rel.refl _
  · rintro ⟨c, sg, cs⟩ _ rfl
    exact Rel.refl _

/-! ### Rejection of half bytes -/

/-- Half byte `i` of the stream of `m` (low half first) is accepted (dilithium2/poly.c:396-404). -/
def acc (m : Bytes) (i : Nat) : Bool :=
  decide ((if i % 2 = 0 then (Verif.Dilithium.sb m (i / 2)).toNat % 16 else (Verif.Dilithium.sb m (i / 2)).toNat / 16) < 15)

/-- Accepted half bytes among the first `i` (the counter of dilithium2/poly.c:395-407). -/
def cnt (m : Bytes) : Nat → Nat
  | 0 => 0
  | i + 1 => cnt m i + if acc m i then 1 else 0

/-- The two streams agree in which half bytes are accepted, until 256 have been (dilithium2/poly.c:395-407). -/
def Agree (m m' : Bytes) : Prop := ∀ i, cnt m i < 256 → cnt m' i = cnt m i ∧ acc m' i = acc m i

theorem acc_even (m : Bytes) (k : Nat) : acc m (2 * k) = decide ((Verif.Dilithium.sb m k).toNat % 16 < 15) := by
  unfold acc
  rw [if_pos (by omega), show 2 * k / 2 = k by omega]
theorem acc_odd (m : Bytes) (k : Nat) : acc m (2 * k + 1) = decide ((Verif.Dilithium.sb m k).toNat / 16 < 15) := by
  unfold acc
  rw [if_neg (by omega), show (2 * k + 1) / 2 = k by omega]
theorem cnt_mono (m : Bytes) {i j : Nat} (h : i ≤ j) : cnt m i ≤ cnt m j := by
  induction h with
  | refl => exact Nat.le_refl _
  | step _ ih => exact Nat.le_trans ih (Nat.le_add_right ..)

theorem rejEtaLoop_same {m m' buf buf' : Bytes} {base len buflen N : Nat} (ha : Agree m m') (hbl : base + len = 256)
    (hb : ∀ p, p < buflen → buf[p]? = some (Verif.Dilithium.sb m (N + p))) (hb' : ∀ p, p < buflen → buf'[p]? = some (Verif.Dilithium.sb m' (N + p)))
    (a a' : Poly) (ctr pos : Nat) (hp : pos ≤ buflen) (hc : base + ctr = min (cnt m (2 * (N + pos))) 256) :
    Rel (fun s t => s.2 = t.2 ∧ base + s.2 = min (cnt m (2 * (N + buflen))) 256) (rejEtaLoop base len buf buflen a ctr pos) (rejEtaLoop base len buf' buflen a' ctr pos) := by
  induction h : buflen - pos using Nat.strongRecOn generalizing a a' ctr pos with
  | _ n ih =>
    rw [rejEtaLoop, rejEtaLoop]
    split
    case isFalse hn =>
      refine touch_same.bind fun _ _ _ => Rel.pure ⟨rfl, ?_⟩
      by_cases e : pos = buflen
      · subst e; exact hc
      · have := cnt_mono m (show 2 * (N + pos) ≤ 2 * (N + buflen) by omega)
        dsimp only
        omega
    case isTrue hn =>
      have hlt : cnt m (2 * (N + pos)) < 256 := by omega
      obtain ⟨g1, g2⟩ := ha _ hlt
      refine touch_same.bind fun _ _ _ => (Rel.rd (R := fun x y => x = Verif.Dilithium.sb m (N + pos) ∧ y = Verif.Dilithium.sb m' (N + pos)) fun x y hx hy => ?_).bind ?_
      · rw [hb pos hn.2] at hx
        rw [hb' pos hn.2] at hy
        cases hx
        cases hy
        exact ⟨rfl, rfl⟩
      rintro _ _ ⟨rfl, rfl⟩
      obtain ⟨e1, e2, -, -⟩ := Verif.Dilithium.eta_vals (Verif.Dilithium.sb m (N + pos))
      obtain ⟨e1', e2', -, -⟩ := Verif.Dilithium.eta_vals (Verif.Dilithium.sb m' (N + pos))
      have a0 := acc_even m (N + pos)
      have a0' := acc_even m' (N + pos)
      have a1 := acc_odd m (N + pos)
      have a1' := acc_odd m' (N + pos)
      have c0 : cnt m (2 * (N + pos) + 1) = cnt m (2 * (N + pos)) + if acc m (2 * (N + pos)) then 1 else 0 := rfl
      have c1 : cnt m (2 * (N + pos) + 1 + 1) = cnt m (2 * (N + pos) + 1) + if acc m (2 * (N + pos) + 1) then 1 else 0 := rfl
      dsimp only
      rw [e1, e1', e2, e2']
      refine Rel.bind (R := fun (s t : Poly × Nat) => s.2 = t.2 ∧ base + s.2 = cnt m (2 * (N + pos) + 1)) (Rel.cond ?_ (fun ht => ?_) fun ht => ?_) ?_
      · rw [a0', a0] at g2
        exact decide_eq_decide.1 g2.symm
      · rw [a0, decide_eq_true ht, if_pos rfl] at c0
        exact Same.wr.bind fun _ _ _ => Rel.pure ⟨rfl, by dsimp only; omega⟩
      · rw [a0, decide_eq_false ht, if_neg Bool.false_ne_true] at c0
        exact Rel.pure ⟨rfl, by dsimp only; omega⟩
      rintro ⟨b, c⟩ ⟨b', c'⟩ ⟨hcc, hb1⟩
      dsimp only at hcc hb1 ⊢
      subst hcc
      refine Rel.bind (R := fun (s t : Poly × Nat) => s.2 = t.2 ∧ base + s.2 = min (cnt m (2 * (N + pos) + 1 + 1)) 256) (Rel.cond ?_ (fun ht => ?_) fun ht => ?_) ?_
      · by_cases hl : c < len
        · obtain ⟨-, g3⟩ := ha (2 * (N + pos) + 1) (by omega)
          rw [a1, a1'] at g3
          rw [decide_eq_decide.1 g3.symm]
        · exact ⟨fun h => absurd h.2 hl, fun h => absurd h.2 hl⟩
      · rw [a1, decide_eq_true ht.1, if_pos rfl] at c1
        exact Same.wr.bind fun _ _ _ => Rel.pure ⟨rfl, by dsimp only; omega⟩
      · refine Rel.pure ⟨rfl, ?_⟩
        dsimp only
        by_cases hl : c < len
        · rw [a1, decide_eq_false fun h => ht ⟨h, hl⟩, if_neg Bool.false_ne_true] at c1
          omega
        · have : (if acc m (2 * (N + pos)) = true then 1 else 0) ≤ 1 := by split <;> omega
          omega
      rintro ⟨b, c⟩ ⟨b', c'⟩ ⟨hcc, hb2⟩
      dsimp only at hcc hb2 ⊢
      subst hcc
      exact ih _ (by omega) _ _ _ _ (by omega) (by rw [hb2, show 2 * (N + (pos + 1)) = 2 * (N + pos) + 1 + 1 by omega]) rfl

/-- Two computations with known results. -/
theorem _root_.Verif.Ct.Rel.vals {R : α → β → Prop} {x : T α} {y : T β} {a : α} {b : β} (h : Rel R x y) (hx : x.res = .ok a) (hy : y.res = .ok b) : Rel (fun u v => u = a ∧ v = b ∧ R a b) x y := by
  intro u v hu hv
  obtain ⟨h1, h2⟩ := h u v hu hv
  rw [hx] at hu
  rw [hy] at hv
  cases hu
  cases hv
  exact ⟨h1, rfl, rfl, h2⟩

theorem squeezed (m : Bytes) (N : Nat) {buf : Bytes} {p : Nat} (hp : p < 136) :
    (Verif.splice buf 0 (Verif.Keccak.nextN 136 (Verif.Dilithium.after 136 m N) 136).1)[p]? = some (Verif.Dilithium.sb m (N + p)) := by
  have h1 := Verif.Dilithium.sb_eq m (k := N + p) (n := N + 136) (by omega)
  rw [Verif.Dilithium.S256, Verif.Dilithium.stream_add, List.getElem?_append_right (by rw [Verif.Keccak.length_stream]; omega), Verif.Keccak.length_stream, show N + p - N = p by omega] at h1
  have h2 := Verif.Dilithium.take_splice_zero (b := buf) (Verif.Keccak.length_nextN 136 (Verif.Dilithium.after 136 m N) 136)
  rw [← h2, List.getElem?_take, if_pos hp] at h1
  exact h1

theorem polyUniformEtaLoop_same {m m' : Bytes} (ha : Agree m m') (fuel : Nat) : ∀ (fuel' : Nat) (a a' : Poly) (buf buf' : Bytes) (ctr N : Nat), buf.length = 136 → buf'.length = 136 →
    Cnt (Verif.Dilithium.after 136 m N) (Verif.Dilithium.after 136 m' N) → ctr = min (cnt m (2 * N)) 256 →
    Same (polyUniformEtaLoop fuel a buf ctr (Verif.Dilithium.after 136 m N)) (polyUniformEtaLoop fuel' a' buf' ctr (Verif.Dilithium.after 136 m' N)) := by
  induction fuel with
  | zero =>
    intro fuel' a a' buf buf' ctr N _ _ _ _
    rw [polyUniformEtaLoop, polyUniformEtaLoop.eq_def fuel']
    exact Rel.cond Iff.rfl (fun _ => diverge_rel) fun _ => Rel.pure trivial
  | succ fuel ih =>
    intro fuel' a a' buf buf' ctr N hl hl' hst hc
    rw [polyUniformEtaLoop, polyUniformEtaLoop.eq_def fuel']
    refine Rel.cond Iff.rfl (fun h256 => ?_) fun _ => Rel.pure trivial
    cases fuel' with
    | zero => exact diverge_rel'
    | succ fuel' =>
      refine ((squeezeAt_same _ _ 0 136 136 hst).vals ((squeezeAt_res _ _ _ _ _).trans (Verif.Dilithium.squeezeAt_ok (by omega) (by omega) m N 136 buf (by omega)))
        ((squeezeAt_res _ _ _ _ _).trans (Verif.Dilithium.squeezeAt_ok (by omega) (by omega) m' N 136 buf' (by omega)))).bind ?_
      rintro ⟨_, _⟩ ⟨_, _⟩ ⟨e, e', hst'⟩
      cases e
      cases e'
      have l1 := Verif.Keccak.length_nextN 136 (Verif.Dilithium.after 136 m N) 136
      have l2 := Verif.Keccak.length_nextN 136 (Verif.Dilithium.after 136 m' N) 136
      dsimp only
      refine (rejEtaLoop_same (N := N) ha (by omega) (fun p hp => squeezed m N hp) (fun p hp => squeezed m' N hp) _ _ 0 0 (by omega) (by rw [Nat.add_zero, Nat.add_zero]; exact hc)).bind ?_
      rintro ⟨b, c⟩ ⟨b', c'⟩ ⟨hcc, hb2⟩
      dsimp only at hcc hb2 ⊢
      subst hcc
      exact ih _ _ _ _ _ _ _ (by rw [length_splice (by omega), hl]) (by rw [length_splice (by omega), hl']) hst' hb2

theorem polyUniformEta_same {seed seed' : Bytes} (hs : seed.length = 64) (hs' : seed'.length = 64) (nonce nonce' : BitVec 16)
    (ha : Agree (seed ++ Verif.Dilithium.Spec.le16 nonce.toNat) (seed' ++ Verif.Dilithium.Spec.le16 nonce'.toNat)) (fuel fuel' : Nat) :
    Same (polyUniformEta fuel seed nonce) (polyUniformEta fuel' seed' nonce') := by
  unfold polyUniformEta
  have i1 := Verif.Dilithium.streamInit_ok (r := 136) (by omega) (by omega) (seed := seed) nonce
  have i2 := Verif.Dilithium.streamInit_ok (r := 136) (by omega) (by omega) (seed := seed') nonce'
  rw [hs] at i1
  rw [hs'] at i2
  refine ((streamInit_same 136 seed seed' 64 nonce nonce').vals ((streamInit_res _ _ _ _).trans i1) ((streamInit_res _ _ _ _).trans i2)).bind ?_
  rintro _ _ ⟨rfl, rfl, hst⟩
  generalize seed ++ Verif.Dilithium.Spec.le16 nonce.toNat = m at *
  generalize seed' ++ Verif.Dilithium.Spec.le16 nonce'.toNat = m' at *
  have l0 : (List.replicate 136 (0 : Byte)).length = 136 := List.length_replicate ..
  refine ((squeezeAt_same _ _ 0 136 136 hst).vals ((squeezeAt_res _ _ _ _ _).trans (Verif.Dilithium.squeezeAt_ok (by omega) (by omega) m 0 136 _ (by omega)))
    ((squeezeAt_res _ _ _ _ _).trans (Verif.Dilithium.squeezeAt_ok (by omega) (by omega) m' 0 136 _ (by omega)))).bind ?_
  rintro ⟨_, _⟩ ⟨_, _⟩ ⟨e, e', hst'⟩
  cases e
  cases e'
  have l1 := Verif.Keccak.length_nextN 136 (Verif.Dilithium.after 136 m 0) 136
  have l2 := Verif.Keccak.length_nextN 136 (Verif.Dilithium.after 136 m' 0) 136
  dsimp only
  refine (rejEtaLoop_same (N := 0) ha (by omega) (fun p hp => squeezed m 0 hp) (fun p hp => squeezed m' 0 hp) _ _ 0 0 (by omega) rfl).bind ?_
  rintro ⟨b, c⟩ ⟨b', c'⟩ ⟨hcc, hb2⟩
  dsimp only at hcc hb2 ⊢
  subst hcc
  rw [Nat.zero_add] at hb2
  exact polyUniformEtaLoop_same ha _ _ _ _ _ _ _ _ (by rw [length_splice (by omega), l0]) (by rw [length_splice (by omega), l0]) hst' hb2

end Verif.Ct.Dilithium
