import Verif.Dilithium.Run

/-! Signatures of the specification verify: the identity A z - c t1 2^13 = w - c s2 + c t0, and the recovery of the high bits. -/

namespace Verif.Dilithium
open Verif Spec Keccak

/-! ### Decoding keys -/

theorem encodeSk_parts {rho key tr : Bytes} {s1 s2 t0 : Vec} (hr : rho.length = 32) (hk : key.length = 32) (ht : tr.length = 64)
    (h1 : s1.length = 4) (h2 : s2.length = 4) (h0 : t0.length = 4)
    (b1 : ∀ x ∈ s1, x.length = 256 ∧ ∀ c ∈ x, -6 < c ∧ c ≤ 2) (b2 : ∀ x ∈ s2, x.length = 256 ∧ ∀ c ∈ x, -6 < c ∧ c ≤ 2)
    (b0 : ∀ x ∈ t0, x.length = 256 ∧ ∀ c ∈ x, -4096 < c ∧ c ≤ 4096) :
    (encodeSk rho key tr s1 s2 t0).length = 2560 ∧
    slice (encodeSk rho key tr s1 s2 t0) 0 32 = rho ∧ slice (encodeSk rho key tr s1 s2 t0) 32 32 = key ∧ slice (encodeSk rho key tr s1 s2 t0) 64 64 = tr ∧
    (vec fun i => unpackAt 3 2 (slice (encodeSk rho key tr s1 s2 t0) (128 + i * 96) 96)) = s1 ∧
    (vec fun i => unpackAt 3 2 (slice (encodeSk rho key tr s1 s2 t0) (512 + i * 96) 96)) = s2 ∧
    (vec fun i => unpackAt 13 4096 (slice (encodeSk rho key tr s1 s2 t0) (896 + i * 416) 416)) = t0 := by
  have l1 : (s1.flatMap (packAt 3 2)).length = 384 := length_flatMap_vec h1 fun x hx => length_packAt (b1 x hx).1
  have l2 : (s2.flatMap (packAt 3 2)).length = 384 := length_flatMap_vec h2 fun x hx => length_packAt (b2 x hx).1
  have l0 : (t0.flatMap (packAt 13 4096)).length = 1664 := length_flatMap_vec h0 fun x hx => length_packAt (b0 x hx).1
  have u1 : ∀ i, i < 4 → unpackAt 3 2 (slice (s1.flatMap (packAt 3 2)) (i * 96) 96) = at_ s1 i := fun i hi => by
    have := congrArg (fun v => at_ v i) (vec_decode h1 (packAt 3 2) (unpackAt 3 2) 96 (fun x hx => length_packAt (b1 x hx).1)
      fun x hx => unpackAt_packAt (b1 x hx).1 fun c hc => by have := (b1 x hx).2 c hc; omega)
    rwa [at_vec _ hi] at this
  have u2 : ∀ i, i < 4 → unpackAt 3 2 (slice (s2.flatMap (packAt 3 2)) (i * 96) 96) = at_ s2 i := fun i hi => by
    have := congrArg (fun v => at_ v i) (vec_decode h2 (packAt 3 2) (unpackAt 3 2) 96 (fun x hx => length_packAt (b2 x hx).1)
      fun x hx => unpackAt_packAt (b2 x hx).1 fun c hc => by have := (b2 x hx).2 c hc; omega)
    rwa [at_vec _ hi] at this
  have u0 : ∀ i, i < 4 → unpackAt 13 4096 (slice (t0.flatMap (packAt 13 4096)) (i * 416) 416) = at_ t0 i := fun i hi => by
    have := congrArg (fun v => at_ v i) (vec_decode h0 (packAt 13 4096) (unpackAt 13 4096) 416 (fun x hx => length_packAt (b0 x hx).1)
      fun x hx => unpackAt_packAt (b0 x hx).1 fun c hc => by have := (b0 x hx).2 c hc; omega)
    rwa [at_vec _ hi] at this
  unfold encodeSk
  generalize s1.flatMap (packAt 3 2) = p1 at *
  generalize s2.flatMap (packAt 3 2) = p2 at *
  generalize t0.flatMap (packAt 13 4096) = p0 at *
  have lr : (rho ++ key ++ tr).length = 128 := by rw [List.length_append, List.length_append, hr, hk, ht]
  have lr1 : (rho ++ key ++ tr ++ p1).length = 512 := by rw [List.length_append, lr, l1]
  have lr2 : (rho ++ key ++ tr ++ p1 ++ p2).length = 896 := by rw [List.length_append, lr1, l2]
  refine ⟨by rw [List.length_append, lr2, l0], ?_, ?_, ?_, ?_, ?_, ?_⟩
  · rw [List.append_assoc, List.append_assoc, List.append_assoc, List.append_assoc, slice_append_left (by omega), ← hr, slice_zero_length]
  · rw [List.append_assoc, List.append_assoc, List.append_assoc, List.append_assoc, slice_append_right hr, List.take_left' hk]
  · rw [List.append_assoc, List.append_assoc, List.append_assoc, slice_append_right (by rw [List.length_append, hr, hk]), List.take_left' ht]
  · refine vec_ext (length_vec _) h1 fun i hi => ?_
    rw [at_vec _ hi, slice_append_left (by omega), slice_append_left (by omega), slice_append_add lr, u1 i hi]
  · refine vec_ext (length_vec _) h2 fun i hi => ?_
    rw [at_vec _ hi, slice_append_left (by omega), slice_append_add lr1, u2 i hi]
  · refine vec_ext (length_vec _) h0 fun i hi => ?_
    rw [at_vec _ hi, slice_append_add lr2, u0 i hi]

theorem encodePk_parts {rho : Bytes} {t1 : Vec} (hr : rho.length = 32) (h1 : t1.length = 4) (b1 : ∀ x ∈ t1, x.length = 256 ∧ ∀ c ∈ x, 0 ≤ c ∧ c < 1024) :
    (encodePk rho t1).length = 1312 ∧ slice (encodePk rho t1) 0 32 = rho ∧ (vec fun i => unpackPos 10 (slice (encodePk rho t1) (32 + i * 320) 320)) = t1 := by
  have l1 : (t1.flatMap (packPos 10)).length = 1280 := length_flatMap_vec h1 fun x hx => length_packPos (b1 x hx).1
  have u1 : ∀ i, i < 4 → unpackPos 10 (slice (t1.flatMap (packPos 10)) (i * 320) 320) = at_ t1 i := fun i hi => by
    have := congrArg (fun v => at_ v i) (vec_decode h1 (packPos 10) (unpackPos 10) 320 (fun x hx => length_packPos (b1 x hx).1)
      fun x hx => unpackPos_packPos (b1 x hx).1 fun c hc => by have := (b1 x hx).2 c hc; omega)
    rwa [at_vec _ hi] at this
  unfold encodePk
  refine ⟨by rw [List.length_append, hr, l1], by rw [slice_append_left (by omega), ← hr, slice_zero_length], ?_⟩
  refine vec_ext (length_vec _) h1 fun i hi => ?_
  rw [at_vec _ hi, slice_append_add hr, u1 i hi]

/-! ### The identity behind verification -/

theorem sum4 (f : Nat → Zq) : ((List.range 4).map f).sum = f 0 + f 1 + f 2 + f 3 := by
  simp [List.range_succ]; ring

theorem identity {A : List Vec} {s1 s2 y z t1 t0 : Vec} {c : List Int} {i : Nat} (hi : i < 4)
    (hz : ∀ i, i < 4 → ∀ j, j < 256 → cf (at_ z i) j = cf (Spec.mul c (at_ s1 i)) j + cf (at_ y i) j)
    (ht : ∀ j, j < 256 → 8192 * cf (at_ t1 i) j + cf (at_ t0 i) j = cf (at_ (matVec A s1) i) j + cf (at_ s2 i) j) :
    ∀ j, j < 256 → cf (at_ (wApprox A z t1 c) i) j = cf (at_ (matVec A y) i) j - cf (Spec.mul c (at_ s2 i)) j + cf (Spec.mul c (at_ t0 i)) j := by
  have e' : at_ (wApprox A z t1 c) i = Spec.sub (at_ (matVec A z) i) (Spec.mul c (scale 8192 (at_ t1 i))) := at_vec _ hi
  rw [e']
  refine evalAt_inj fun j hj => ?_
  rw [evalAt_congr (fun t ht => cf_sub _ _ ht), evalAt_sub, evalAt_add (fun i_1 => cf (at_ (matVec A y) i) i_1 - cf (Spec.mul c (at_ s2 i)) i_1), evalAt_sub,
    matVec_eval A z hi hj, matVec_eval A y hi hj, mul_eval _ _ hj, mul_eval _ _ hj, mul_eval _ _ hj, sum4, sum4]
  have ez : ∀ k, k < 4 → evalAt (cf (at_ z k)) (root j) = evalAt (cf c) (root j) * evalAt (cf (at_ s1 k)) (root j) + evalAt (cf (at_ y k)) (root j) := fun k hk => by
    rw [evalAt_congr (hz k hk), evalAt_add, mul_eval _ _ hj]
  have et : evalAt (cf (scale 8192 (at_ t1 i))) (root j) + evalAt (cf (at_ t0 i)) (root j) =
      ((List.range 4).map fun k => cf (at_ (at_ A i) k) j * evalAt (cf (at_ s1 k)) (root j)).sum + evalAt (cf (at_ s2 i)) (root j) := by
    rw [← matVec_eval A s1 hi hj, ← evalAt_add, ← evalAt_add]
    refine evalAt_congr (fun t h => ?_) _
    rw [cf_scale _ _ h]
    have := ht t h
    push_cast
    exact this
  rw [sum4] at et
  rw [ez 0 (by omega), ez 1 (by omega), ez 2 (by omega), ez 3 (by omega)]
  linear_combination (-evalAt (cf c) (root j)) * et

/-- What the verifier computes from an accepted attempt under a generated key: the high parts of w, from a value that differs from w by c t0 - c s2. -/
theorem signs_facts {seed pk sk m : Bytes} {k : Nat} {X : Ctx} {c : List Int} (hk : KeyGen S128 S256 seed pk sk) (hX : IsCtx S128 S256 sk m X) (ha : Accept S256 X k c) :
    IsMatrix S128 (slice pk 0 32) X.A ∧ X.mu = S256 (S256 pk 64 ++ m) 64 ∧
    w1Of X.A (zOf S256 X k c) (vec fun i => unpackPos 10 (slice pk (32 + i * 320) 320)) (hOf S256 X k c) c = (wOf S256 X k).map (·.map highBits) ∧
    ∀ i, i < 4 → ∀ j, j < 256 → co (at_ (wApprox X.A (zOf S256 X k c) (vec fun i => unpackPos 10 (slice pk (32 + i * 320) 320)) c) i) j % 8380417 =
      (co (at_ (wOf S256 X k) i) j - co (Spec.mul c (at_ X.s2 i)) j + co (Spec.mul c (at_ X.t0 i)) j) % 8380417 := by
  obtain ⟨A, s1, s2, hA, h1, h2, hpk, hsk⟩ := hk
  have hS : (S256 seed 128).length = 128 := length_stream ..
  have hrho : (slice (S256 seed 128) 0 32).length = 32 := length_slice (by omega)
  have hkey : (slice (S256 seed 128) 96 32).length = 32 := length_slice (by omega)
  generalize slice (S256 seed 128) 0 32 = rho at *
  generalize slice (S256 seed 128) 96 32 = key at *
  have hv := tOf_VRes A s1 s2
  have bt1 : ∀ x ∈ (tOf A s1 s2).map (·.map fun r => (power2Round r).1), x.length = 256 ∧ ∀ c ∈ x, 0 ≤ c ∧ c < 1024 := fun x hx =>
    ⟨(mem_map_map hv hx).1, fun c hc => by obtain ⟨r, rfl⟩ := (mem_map_map hv hx).2 c hc; exact (power2Round_range r).1⟩
  have bt0 : ∀ x ∈ (tOf A s1 s2).map (·.map fun r => (power2Round r).2), x.length = 256 ∧ ∀ c ∈ x, -4096 < c ∧ c ≤ 4096 := fun x hx =>
    ⟨(mem_map_map hv hx).1, fun c hc => by obtain ⟨r, rfl⟩ := (mem_map_map hv hx).2 c hc; exact (power2Round_range r).2⟩
  have lt1 : ((tOf A s1 s2).map (·.map fun r => (power2Round r).1)).length = 4 := by rw [List.length_map]; exact hv.1
  have lt0 : ((tOf A s1 s2).map (·.map fun r => (power2Round r).2)).length = 4 := by rw [List.length_map]; exact hv.1
  have et : ∀ i, i < 4 → ∀ j, j < 256 → 8192 * cf (at_ ((tOf A s1 s2).map (·.map fun r => (power2Round r).1)) i) j +
      cf (at_ ((tOf A s1 s2).map (·.map fun r => (power2Round r).2)) i) j = cf (at_ (matVec A s1) i) j + cf (at_ s2 i) j := by
    intro i hi j hj
    rw [map_map_vec _ _ hv.1 fun i hi => (hv.2 i hi).1, map_map_vec _ _ hv.1 fun i hi => (hv.2 i hi).1, at_vec _ hi, at_vec _ hi]
    have e1 := power2Round_eq (co (at_ (tOf A s1 s2) i) j)
    have e2 : cf (at_ (tOf A s1 s2) i) j = cf (at_ (matVec A s1) i) j + cf (at_ s2 i) j := by
      have e' : at_ (tOf A s1 s2) i = Spec.add (at_ (matVec A s1) i) (at_ s2 i) := at_vec _ hi
      rw [e', cf_add _ _ hj]
    rw [← e2]
    unfold cf
    rw [co_mk _ hj, co_mk _ hj]
    have e3 := congrArg (fun x : Int => (x : Zq)) e1
    have e4 : ((co (at_ (tOf A s1 s2) i) j % 8380417 : Int) : Zq) = co (at_ (tOf A s1 s2) i) j := cast_emod _
    rw [e4] at e3
    rw [← e3]
    push_cast; ring
  obtain ⟨lpk, ppk1, ppk2⟩ := encodePk_parts hrho lt1 bt1
  obtain ⟨lsk, q1, q2, q3, q4, q5, q6⟩ := encodeSk_parts (tr := S256 pk 64) hrho hkey (length_stream ..) h1.1 h2.1 lt0 (etaVec_mem h1) (etaVec_mem h2) bt0
  rw [← hpk] at lpk ppk1 ppk2
  rw [← hsk] at lsk q1 q2 q3 q4 q5 q6
  generalize (tOf A s1 s2).map (·.map fun r => (power2Round r).1) = t1 at *
  generalize (tOf A s1 s2).map (·.map fun r => (power2Round r).2) = t0 at *
  obtain ⟨A', hA', hXe⟩ := ctx_iff.1 hX
  rw [q1] at hA'
  cases matrix_unique hA hA'
  unfold ctxOf at hXe
  rw [q2, q3, q4, q5, q6] at hXe
  obtain ⟨nz, nr, nt, hw⟩ := ha
  have xA : X.A = A := by rw [hXe]
  have x1 : X.s1 = s1 := by rw [hXe]
  have x2 : X.s2 = s2 := by rw [hXe]
  have x0 : X.t0 = t0 := by rw [hXe]
  have xm : X.mu = S256 (S256 pk 64 ++ m) 64 := by rw [hXe]
  have az : ∀ i, i < 4 → at_ (zOf S256 X k c) i = mk fun j => cmod (co (Spec.mul c (at_ s1 i)) j + co (at_ (yOf S256 X k) i) j) q := fun i hi => by rw [← x1]; exact at_vec _ hi
  have ar : ∀ i, i < 4 → at_ (r0Of S256 X k c) i = mk fun j => cmod (lowBits (co (at_ (wOf S256 X k) i) j) - co (Spec.mul c (at_ s2 i)) j) q := fun i hi => by rw [← x2]; exact at_vec _ hi
  have at0 : ∀ i, i < 4 → at_ (ct0Of X c) i = mk fun j => cmod (co (Spec.mul c (at_ t0 i)) j) q := fun i hi => by rw [← x0]; exact at_vec _ hi
  have ah : ∀ i, i < 4 → at_ (hOf S256 X k c) i = mk fun j => hintBit (co (at_ (r0Of S256 X k c) i) j + co (at_ (ct0Of X c) i) j) (highBits (co (at_ (wOf S256 X k) i) j)) :=
    fun i hi => at_vec _ hi
  have ew : wOf S256 X k = matVec A (yOf S256 X k) := by unfold wOf; rw [xA]
  have hid' : ∀ i, i < 4 → ∀ j, j < 256 → co (at_ (wApprox A (zOf S256 X k c) t1 c) i) j % 8380417 =
      (co (at_ (wOf S256 X k) i) j - co (Spec.mul c (at_ s2 i)) j + co (Spec.mul c (at_ t0 i)) j) % 8380417 := by
    intro i hi j hj
    have hid := identity (A := A) (s1 := s1) (s2 := s2) (y := yOf S256 X k) (z := zOf S256 X k c) (t1 := t1) (t0 := t0) (c := c) hi (fun i hi j hj => by
      rw [az i hi]
      unfold cf
      rw [co_mk _ hj, ← Int.cast_add]
      exact cast_eq.2 (cmod_mod _)) (et i hi) j hj
    rw [ew]
    apply cast_eq.1
    push_cast
    exact hid
  have hw1 : w1Of A (zOf S256 X k c) t1 (hOf S256 X k c) c = (wOf S256 X k).map (·.map highBits) := by
    have hwR : VRes (wOf S256 X k) := matVec_VRes _ _
    rw [map_map_vec _ _ hwR.1 fun i hi => (hwR.2 i hi).1]
    refine vec_ext (length_vec _) (length_vec _) fun i hi => ?_
    have e' : at_ (w1Of A (zOf S256 X k c) t1 (hOf S256 X k c) c) i =
      mk fun j => Spec.useHint (co (at_ (hOf S256 X k c) i) j) (co (at_ (wApprox A (zOf S256 X k c) t1 c) i) j) := at_vec _ hi
    rw [e', at_vec _ hi]
    refine co_ext (length_mk _) (length_mk _) fun j hj => ?_
    rw [co_mk _ hj, co_mk _ hj, ah i hi, co_mk _ hj]
    replace hid' := hid' i hi j hj
    have wr := (hwR.2 i hi).2 j hj
    have vr : 0 ≤ co (at_ (wApprox A (zOf S256 X k c) t1 c) i) j ∧ co (at_ (wApprox A (zOf S256 X k c) t1 c) i) j < 8380417 := by
      have e' : at_ (wApprox A (zOf S256 X k c) t1 c) i = Spec.sub (at_ (matVec A (zOf S256 X k c)) i) (Spec.mul c (scale 8192 (at_ t1 i))) := at_vec _ hi
      rw [e']
      exact (res_mk _).2 j hj
    have br := nr i hi j hj
    have bt := nt i hi j hj
    have er : co (at_ (r0Of S256 X k c) i) j = cmod (lowBits (co (at_ (wOf S256 X k) i) j) - co (Spec.mul c (at_ s2 i)) j) q := by rw [ar i hi, co_mk _ hj]
    have e0 : co (at_ (ct0Of X c) i) j = cmod (co (Spec.mul c (at_ t0 i)) j) q := by rw [at0 i hi, co_mk _ hj]
    rw [er, cmod_cmod] at br
    rw [e0, cmod_cmod] at bt
    have m1 := cmod_mod (lowBits (co (at_ (wOf S256 X k) i) j) - co (Spec.mul c (at_ s2 i)) j)
    have m2 := cmod_mod (co (Spec.mul c (at_ t0 i)) j)
    rw [er, e0]
    have er' : co (at_ (r0Of S256 X k c) i) j = co (at_ (r0Of S256 X k c) i) j := rfl
    change cmod _ 8380417 % _ = _ at m1
    change cmod _ 8380417 % _ = _ at m2
    change -(95232 - 78) < cmod _ 8380417 ∧ cmod _ 8380417 < _ at br
    change -95232 < cmod _ 8380417 ∧ cmod _ 8380417 < _ at bt
    change Spec.useHint (hintBit (cmod _ 8380417 + cmod _ 8380417) _) _ = _
    generalize cmod (lowBits (co (at_ (wOf S256 X k) i) j) - co (Spec.mul c (at_ s2 i)) j) 8380417 = r0 at *
    generalize cmod (co (Spec.mul c (at_ t0 i)) j) 8380417 = u0 at *
    generalize co (at_ (wApprox A (zOf S256 X k c) t1 c) i) j = v at *
    generalize co (at_ (wOf S256 X k) i) j = w at *
    have := hint_recovers (w := w) (e := r0 + u0 - lowBits w) (v := v) wr.1 wr.2 (by omega) vr.1 vr.2 (by omega)
    rw [show lowBits w + (r0 + u0 - lowBits w) = r0 + u0 by ring] at this
    exact this
  refine ⟨by rw [ppk1, xA]; exact hA, xm, ?_, ?_⟩
  · rw [ppk2, xA]; exact hw1
  · rw [ppk2, xA, x2, x0]; exact hid'

/-- A signature made with a generated key is valid. -/
theorem signs_valid {seed pk sk m sig : Bytes} {k : Nat} (hk : KeyGen S128 S256 seed pk sk) (hs : Signs S128 S256 sk m k sig) : Valid S128 S256 pk m sig := by
  obtain ⟨X, hX, _, c, hc, ha, hsig⟩ := hs
  obtain ⟨hA, xm, hw1, -⟩ := signs_facts hk hX ha
  obtain ⟨nz, nr, nt, hw⟩ := ha
  have az : ∀ i, i < 4 → at_ (zOf S256 X k c) i = mk fun j => cmod (co (Spec.mul c (at_ X.s1 i)) j + co (at_ (yOf S256 X k) i) j) q := fun i hi => at_vec _ hi
  refine ⟨cTilde S256 X k, zOf S256 X k c, hOf S256 X k c, c, X.A, length_stream .., length_vec _, fun x hx => ?_, ⟨length_vec _, hOf_bits X k c⟩, hw, hsig, hc,
    hA, ?_⟩
  · obtain ⟨i, hi, e⟩ := mem_at hx
    have hi : i < 4 := by have : (zOf S256 X k c).length = 4 := length_vec _; omega
    have hl : x.length = 256 := by rw [e, az i hi]; exact length_mk _
    refine ⟨hl, fun v hv => ?_⟩
    obtain ⟨j, hj, ev⟩ := mem_co hv
    have hj : j < 256 := by omega
    have := nz i hi j hj
    rw [ev, e]
    have ec : cmod (co (at_ (zOf S256 X k c) i) j) q = co (at_ (zOf S256 X k c) i) j := by rw [az i hi, co_mk _ hj, cmod_cmod]
    rw [ec] at this
    exact this
  · rw [hw1, ← xm]
    rfl

end Verif.Dilithium
