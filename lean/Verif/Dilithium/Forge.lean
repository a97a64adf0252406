import Verif.Dilithium.ForgeSpec
import Verif.Dilithium.Final

/-! Accepted Dilithium signatures as solutions of lattice problems. -/

namespace Verif.Dilithium
open Verif Spec Keccak

/-! ### Hints and rounding errors -/

theorem useHint_range43 {r h : Int} (h1 : 0 ≤ r) (h2 : r < 8380417) : 0 ≤ Spec.useHint h r ∧ Spec.useHint h r ≤ 43 := by
  have := decompose_spec r h1 h2
  unfold Spec.useHint
  generalize Spec.highBits r = a at *
  split
  · split <;> omega
  · omega

theorem useHint_err {r h : Int} (h1 : 0 ≤ r) (h2 : r < 8380417) :
    ∃ e, (r + e - 190464 * Spec.useHint h r) % 8380417 = 0 ∧ (-190465 ≤ e ∧ e ≤ 190465) ∧ (h = 0 → -95232 ≤ e ∧ e ≤ 95232) := by
  have hd := decompose_spec r h1 h2
  unfold Spec.useHint
  generalize Spec.highBits r = a at *
  generalize Spec.lowBits r = b at *
  by_cases hh : h = 1
  · subst hh
    rw [if_pos rfl]
    split
    · by_cases ha : a = 43
      · subst ha
        exact ⟨190464 - b + 1, by omega, by omega, by omega⟩
      · rw [show (a + 1) % 44 = a + 1 by omega]
        exact ⟨190464 - b, by omega, by omega, by omega⟩
    · by_cases ha : a = 0
      · subst ha
        rw [show ((0 : Int) - 1) % 44 = 43 by decide]
        exact ⟨-190464 - b - 1, by omega, by omega, by omega⟩
      · rw [show (a - 1) % 44 = a - 1 by omega]
        exact ⟨-190464 - b, by omega, by omega, by omega⟩
  · rw [if_neg hh]
    exact ⟨-b, by omega, by omega, by omega⟩

theorem useHint_inj {r h h' : Int} (h1 : 0 ≤ r) (h2 : r < 8380417) (hh : h = 0 ∨ h = 1) (hh' : h' = 0 ∨ h' = 1) (e : Spec.useHint h r = Spec.useHint h' r) : h = h' := by
  have hd := decompose_spec r h1 h2
  unfold Spec.useHint at e
  generalize Spec.highBits r = a at *
  generalize Spec.lowBits r = b at *
  rcases hh with rfl | rfl <;> rcases hh' with rfl | rfl
  · rfl
  · rw [if_neg (by decide), if_pos rfl] at e
    split at e <;> omega
  · rw [if_pos rfl, if_neg (by decide : ¬ (0 : Int) = 1)] at e
    split at e <;> omega
  · rfl

/-! ### Decoding a signature -/

theorem encodeSig_decode {ct : Bytes} {z h : Vec} (h1 : ct.length = 32) (h2 : z.length = 4) (h3 : ∀ x ∈ z, x.length = 256 ∧ ∀ v ∈ x, -(131072 - 78) < v ∧ v < 131072 - 78)
    (hw : weight h ≤ 80) : (encodeSig ct z h).length = 2420 ∧ slice (encodeSig ct z h) 0 32 = ct ∧ zOfSig (encodeSig ct z h) = z := by
  have hZ : (z.flatMap (packAt 18 131072)).length = 2304 := length_flatMap_vec h2 fun x hx => length_packAt (h3 x hx).1
  unfold encodeSig
  refine ⟨?_, ?_, ?_⟩
  · rw [List.length_append, List.length_append, length_packHint hw]; omega
  · rw [List.append_assoc, slice_append_left (by omega), ← h1, slice_zero_length]
  · refine Eq.trans ?_ (vec_decode h2 (packAt 18 131072) (unpackAt 18 131072) 576 (fun x hx => length_packAt (h3 x hx).1)
        (fun x hx => unpackAt_packAt (h3 x hx).1 (fun v hv => by have := (h3 x hx).2 v hv; omega)))
    unfold zOfSig vec
    refine List.map_congr_left fun i hi => ?_
    have := List.mem_range.1 hi
    rw [slice_append_left (by rw [List.length_append]; omega), slice_append_add h1]

/-! ### Linearity -/

theorem equation_iff {A : List Vec} {t1 z u v : Vec} {c : List Int} : Equation A t1 z c u v ↔ ∀ i, i < 4 → ∀ j, j < 256 →
    cf (at_ (matVec A z) i) j - cf (Spec.mul c (scale 8192 (at_ t1 i))) j + cf (at_ u i) j = cf (at_ v i) j := by
  unfold Equation
  refine forall_congr' fun i => forall_congr' fun _ => forall_congr' fun j => forall_congr' fun _ => ?_
  unfold cf
  rw [← Int.cast_sub, ← Int.cast_add, cast_eq]
  unfold q
  omega

theorem cf_diff (a b : List Int) {j : Nat} (hj : j < 256) : cf (diff a b) j = cf a j - cf b j := by
  unfold cf diff
  rw [co_mk _ hj, Int.cast_sub]

theorem matVec_diff (A : List Vec) (z z' : Vec) {i : Nat} (hi : i < 4) : ∀ j, j < 256 →
    cf (at_ (matVec A (diffV z z')) i) j = cf (at_ (matVec A z) i) j - cf (at_ (matVec A z') i) j := by
  refine evalAt_inj fun j hj => ?_
  rw [evalAt_sub, matVec_eval A _ hi hj, matVec_eval A _ hi hj, matVec_eval A _ hi hj, sum4, sum4, sum4]
  have ez : ∀ k, k < 4 → evalAt (cf (at_ (diffV z z') k)) (root j) = evalAt (cf (at_ z k)) (root j) - evalAt (cf (at_ z' k)) (root j) := fun k hk => by
    unfold diffV
    rw [at_vec _ hk, evalAt_congr (fun t ht => cf_diff _ _ ht), evalAt_sub]
  rw [ez 0 (by omega), ez 1 (by omega), ez 2 (by omega), ez 3 (by omega)]
  ring

theorem mul_diff (c c' a : List Int) : ∀ j, j < 256 → cf (Spec.mul (diff c c') a) j = cf (Spec.mul c a) j - cf (Spec.mul c' a) j := by
  refine evalAt_inj fun j hj => ?_
  rw [evalAt_sub, mul_eval _ _ hj, mul_eval _ _ hj, mul_eval _ _ hj, evalAt_congr (fun t ht => cf_diff _ _ ht), evalAt_sub]
  ring

theorem equation_diff {A : List Vec} {t1 z u v z' u' : Vec} {c c' : List Int} (h : Equation A t1 z c u v) (h' : Equation A t1 z' c' u' v) :
    Equation A t1 (diffV z z') (diff c c') (diffV u u') (vec fun _ => mk fun _ => 0) := by
  rw [equation_iff] at *
  intro i hi j hj
  have e1 := h i hi j hj
  have e2 := h' i hi j hj
  have e3 : at_ (diffV u u') i = diff (at_ u i) (at_ u' i) := at_vec _ hi
  have e4 : cf (at_ (vec fun _ => mk fun _ => 0) i) j = 0 := by
    unfold cf
    rw [at_vec _ hi, co_mk _ hj]; exact Int.cast_zero
  rw [matVec_diff A z z' hi j hj, mul_diff c c' _ j hj, e3, cf_diff _ _ hj, e4]
  linear_combination e1 - e2

theorem short_diff {u u' : Vec} {B : Int} (h : Short u B) (h' : Short u' B) : Short (diffV u u') (2 * B) := by
  refine ⟨length_vec _, fun i hi => ?_⟩
  have e : at_ (diffV u u') i = diff (at_ u i) (at_ u' i) := at_vec _ hi
  rw [e]
  refine ⟨length_mk _, fun j hj => ?_⟩
  unfold diff
  rw [co_mk _ hj]
  have := (h.2 i hi).2 j hj
  have := (h'.2 i hi).2 j hj
  omega

/-! ### Accepted signatures -/

theorem valid_solution {pk m sig : Bytes} (h : Valid S128 S256 pk m sig) : ∃ A c u w1 h, Checked S128 S256 pk m sig A c u w1 h := by
  obtain ⟨ct, z, h, c, A, lc, lz, bz, hh, hw, rfl, hb, hA, he⟩ := h
  obtain ⟨d1, d2, d3⟩ := encodeSig_decode lc lz bz hw
  have vr : ∀ i, i < 4 → ∀ j, j < 256 → 0 ≤ co (at_ (wApprox A z (t1Of pk) c) i) j ∧ co (at_ (wApprox A z (t1Of pk) c) i) j < 8380417 := by
    intro i hi j hj
    have e' : at_ (wApprox A z (t1Of pk) c) i = Spec.sub (at_ (matVec A z) i) (Spec.mul c (scale 8192 (at_ (t1Of pk) i))) := at_vec _ hi
    rw [e']
    exact (res_mk _).2 j hj
  have bu : ∀ i, i < 4 → ∀ j, j < 256 → ∃ e, (co (at_ (wApprox A z (t1Of pk) c) i) j + e - 190464 * Spec.useHint (co (at_ h i) j) (co (at_ (wApprox A z (t1Of pk) c) i) j)) % 8380417 = 0 ∧
      (-190465 ≤ e ∧ e ≤ 190465) ∧ (co (at_ h i) j = 0 → -95232 ≤ e ∧ e ≤ 95232) := fun i hi j hj => useHint_err (vr i hi j hj).1 (vr i hi j hj).2
  have bu' : ∀ i j, ∃ e, i < 4 → j < 256 → (co (at_ (wApprox A z (t1Of pk) c) i) j + e - 190464 * Spec.useHint (co (at_ h i) j) (co (at_ (wApprox A z (t1Of pk) c) i) j)) % 8380417 = 0 ∧
      (-190465 ≤ e ∧ e ≤ 190465) ∧ (co (at_ h i) j = 0 → -95232 ≤ e ∧ e ≤ 95232) := fun i j => by
    by_cases hi : i < 4
    · by_cases hj : j < 256
      · obtain ⟨e, he⟩ := bu i hi j hj
        exact ⟨e, fun _ _ => he⟩
      · exact ⟨0, fun _ h => absurd h hj⟩
    · exact ⟨0, fun h _ => absurd h hi⟩
  choose e he' using bu'
  have aw : ∀ i, i < 4 → at_ (w1Of A z (t1Of pk) h c) i = mk fun j => Spec.useHint (co (at_ h i) j) (co (at_ (wApprox A z (t1Of pk) c) i) j) := fun i hi => at_vec _ hi
  refine ⟨A, c, vec fun i => mk (e i), w1Of A z (t1Of pk) h c, h, ⟨⟨d1, hA, by rw [d2]; exact hb, ⟨(ball_range hb).1, (ball_range hb).2, ball_nz hb⟩, ?_, ?_, ⟨hh, hw⟩, ?_, ?_, ?_, ?_⟩, ?_, ?_⟩⟩
  · rw [d3]
    refine ⟨lz, fun i hi => ?_⟩
    have hm : at_ z i ∈ z := at_mem (by omega)
    refine ⟨(bz _ hm).1, fun j hj => ?_⟩
    have := (bz _ hm).2 _ (co_mem (i := j) (by rw [(bz _ hm).1]; exact hj))
    omega
  · refine ⟨length_vec _, fun i hi => ?_⟩
    rw [at_vec _ hi]
    refine ⟨length_mk _, fun j hj => ?_⟩
    rw [co_mk _ hj]
    exact (he' i j hi hj).2.1
  · intro i hi j hj h0
    rw [at_vec _ hi, co_mk _ hj]
    exact (he' i j hi hj).2.2 h0
  · refine ⟨length_vec _, fun i hi => ?_⟩
    rw [aw i hi]
    refine ⟨length_mk _, fun j hj => ?_⟩
    rw [co_mk _ hj]
    exact useHint_range43 (vr i hi j hj).1 (vr i hi j hj).2
  · rw [d3]
    intro i hi j hj
    have e1 := (he' i j hi hj).1
    have e' : at_ (wApprox A z (t1Of pk) c) i = Spec.sub (at_ (matVec A z) i) (Spec.mul c (scale 8192 (at_ (t1Of pk) i))) := at_vec _ hi
    have e2 : co (at_ (wApprox A z (t1Of pk) c) i) j = (co (at_ (matVec A z) i) j - co (Spec.mul c (scale 8192 (at_ (t1Of pk) i))) j) % 8380417 := by
      rw [e']; unfold Spec.sub; rw [co_mk _ hj]
    rw [at_vec _ hi, at_vec _ hi, aw i hi]
    unfold scale
    rw [co_mk _ hj, co_mk _ hj, co_mk _ hj]
    unfold scale at e2
    generalize Spec.useHint (co (at_ h i) j) (co (at_ (wApprox A z (t1Of pk) c) i) j) = w at *
    generalize co (at_ (wApprox A z (t1Of pk) c) i) j = v at *
    unfold q at *
    omega
  · rw [d2]; exact he
  · rw [d2, d3]
  · rw [d3]

end Verif.Dilithium
