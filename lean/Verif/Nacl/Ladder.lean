import Verif.Nacl.Curve
import Mathlib.Tactic.FieldSimp
import Mathlib.Tactic.LinearCombination

/-! Supporting lemmas: the Montgomery ladder on Curve25519. -/

namespace Verif.Nacl
open WeierstrassCurve Verif.Nacl.Spec

variable {K : Type} [Field K]

/-- (X : Z) represents the x-coordinate of P. -/
def XRep (X Z : K) : (mont K).Point → Prop
  | .zero => Z = 0 ∧ X ≠ 0
  | .some x _ _ => X = x * Z ∧ Z ≠ 0

theorem eqn {x y : K} (h : (mont K).Nonsingular x y) : y ^ 2 = x ^ 3 + 486662 * x ^ 2 + x := by
  have := ((mont K).equation_iff x y).mp h.1
  simp only [mont] at this
  linear_combination this

theorem negY_eq (x y : K) : (mont K).negY x y = -y := by simp [Affine.negY, mont]

variable [DecidableEq K]

/-- Doubling. -/
theorem double_rep (h2 : (2 : K) ≠ 0) (hA1 : (486664 : K) ≠ 0) (hA2 : (486660 : K) ≠ 0) {P : (mont K).Point} {X Z : K} (h : XRep X Z P) :
    XRep ((X ^ 2 - Z ^ 2) ^ 2) (4 * X * Z * (X ^ 2 + 486662 * X * Z + Z ^ 2)) (P + P) := by
  rcases P with _ | ⟨x, y, hn⟩
  · obtain ⟨h1, h3⟩ := h
    show XRep _ _ (0 + 0)
    rw [add_zero]
    refine ⟨by rw [h1]; ring, ?_⟩
    rw [h1]
    have : (X ^ 2 - 0 ^ 2) ^ 2 = X ^ 4 := by ring
    rw [this]
    exact pow_ne_zero _ h3
  · obtain ⟨h1, h3⟩ := h
    have he := eqn hn
    have hZ : 4 * X * Z * (X ^ 2 + 486662 * X * Z + Z ^ 2) = 4 * y ^ 2 * Z ^ 4 := by
      rw [h1, he]; ring
    have hX : (X ^ 2 - Z ^ 2) ^ 2 = (x ^ 2 - 1) ^ 2 * Z ^ 4 := by rw [h1]; ring
    rw [hZ, hX]
    by_cases hy : y = 0
    · rw [Affine.Point.add_self_of_Y_eq (by rw [negY_eq, hy, neg_zero])]
      refine ⟨by rw [hy]; ring, ?_⟩
      refine mul_ne_zero (pow_ne_zero _ ?_) (pow_ne_zero _ h3)
      intro hc
      rw [hy] at he
      have h5 : x * (x ^ 2 + 486662 * x + 1) = 0 := by linear_combination -he
      rcases mul_eq_zero.mp h5 with h6 | h6
      · rw [h6] at hc
        simp at hc
      · have : (x - 1) * (x + 1) = 0 := by linear_combination hc
        rcases mul_eq_zero.mp this with h7 | h7
        · apply hA1
          linear_combination h6 - (x + 486663) * h7
        · apply hA2
          linear_combination -h6 + (x + 486661) * h7
    · have hy2 : y ≠ -y := by
        intro hc
        have : 2 * y = 0 := by linear_combination hc
        rcases mul_eq_zero.mp this with h | h
        · exact h2 h
        · exact hy h
      have hne : y ≠ (mont K).negY x y := by rw [negY_eq]; exact hy2
      rw [Affine.Point.add_self_of_Y_ne hne]
      constructor
      · have hd : y - -y ≠ 0 := sub_ne_zero.mpr hy2
        rw [Affine.slope_of_Y_ne rfl hne, negY_eq]
        simp only [Affine.addX, mont]
        have : y - -y = 2 * y := by ring
        rw [this]
        field_simp
        linear_combination (32 * x + 7786592) * he
      · have : (4 : K) = 2 ^ 2 := by norm_num
        rw [this]
        exact mul_ne_zero (mul_ne_zero (pow_ne_zero _ h2) (pow_ne_zero _ hy)) (pow_ne_zero _ h3)

omit [DecidableEq K] in
theorem xrep_neg {X Z : K} {P : (mont K).Point} (h : XRep X Z P) : XRep X Z (-P) := by
  rcases P with _ | ⟨x, y, hn⟩
  · exact h
  · exact h

omit [DecidableEq K] in
theorem xrep_affine {u v : K} (hn : (mont K).Nonsingular u v) : XRep u 1 (Affine.Point.some u v hn) := ⟨by ring, one_ne_zero⟩

/-- Differential addition: if the x-coordinate of P - Q is u and u is not zero. -/
theorem diff_rep (h2 : (2 : K) ≠ 0) {P Q : (mont K).Point} {X2 Z2 X3 Z3 u : K} (hP : XRep X2 Z2 P) (hQ : XRep X3 Z3 Q) (hD : XRep u 1 (P - Q)) (hu : u ≠ 0) :
    XRep (4 * (X2 * X3 - Z2 * Z3) ^ 2) (u * (4 * (X2 * Z3 - Z2 * X3) ^ 2)) (P + Q) := by
  have h4 : (4 : K) ≠ 0 := by
    have : (4 : K) = 2 ^ 2 := by norm_num
    rw [this]; exact pow_ne_zero _ h2
  rcases P with _ | ⟨x1, y1, hn1⟩
  · obtain ⟨a1, a2⟩ := hP
    have hD : XRep u 1 (0 - Q) := hD
    rw [zero_sub] at hD
    have hD := xrep_neg hD
    rw [neg_neg] at hD
    show XRep _ _ (0 + Q)
    rw [zero_add]
    rcases Q with _ | ⟨x2, y2, hn2⟩
    · exact absurd hD.1 one_ne_zero
    · obtain ⟨b1, b2⟩ := hQ
      have hx : u = x2 := by rw [hD.1]; ring
      refine ⟨by rw [a1, b1, hx]; ring, ?_⟩
      rw [a1]
      have : u * (4 * (X2 * Z3 - 0 * X3) ^ 2) = u * (4 * (X2 ^ 2 * Z3 ^ 2)) := by ring
      rw [this]
      exact mul_ne_zero hu (mul_ne_zero h4 (mul_ne_zero (pow_ne_zero _ a2) (pow_ne_zero _ b2)))
  · obtain ⟨a1, a2⟩ := hP
    rcases Q with _ | ⟨x2, y2, hn2⟩
    · obtain ⟨b1, b2⟩ := hQ
      have hD : XRep u 1 (Affine.Point.some x1 y1 hn1 - 0) := hD
      rw [sub_zero] at hD
      have hx : u = x1 := by rw [hD.1]; ring
      show XRep _ _ (Affine.Point.some x1 y1 hn1 + 0)
      rw [add_zero]
      refine ⟨by rw [a1, b1, hx]; ring, ?_⟩
      rw [b1]
      have : u * (4 * (X2 * 0 - Z2 * X3) ^ 2) = u * (4 * (Z2 ^ 2 * X3 ^ 2)) := by ring
      rw [this]
      exact mul_ne_zero hu (mul_ne_zero h4 (mul_ne_zero (pow_ne_zero _ a2) (pow_ne_zero _ b2)))
    · obtain ⟨b1, b2⟩ := hQ
      have e1 := eqn hn1
      have e2 := eqn hn2
      rw [sub_eq_add_neg, Affine.Point.neg_some] at hD
      have hX : 4 * (X2 * X3 - Z2 * Z3) ^ 2 = 4 * (x1 * x2 - 1) ^ 2 * (Z2 ^ 2 * Z3 ^ 2) := by rw [a1, b1]; ring
      have hZ : u * (4 * (X2 * Z3 - Z2 * X3) ^ 2) = u * (4 * (x1 - x2) ^ 2) * (Z2 ^ 2 * Z3 ^ 2) := by rw [a1, b1]; ring
      rw [hX, hZ]
      have hzz : Z2 ^ 2 * Z3 ^ 2 ≠ 0 := mul_ne_zero (pow_ne_zero _ a2) (pow_ne_zero _ b2)
      by_cases hx : x1 = x2
      · subst hx
        by_cases hy : y1 = -y2
        · rw [Affine.Point.add_of_Y_eq rfl (by rw [negY_eq]; exact hy)]
          refine ⟨by ring, mul_ne_zero (mul_ne_zero h4 (pow_ne_zero _ ?_)) hzz⟩
          have hy0 : y1 ≠ 0 := by
            intro h0
            rw [Affine.Point.add_of_Y_eq rfl (by rw [negY_eq, negY_eq, neg_neg, h0]; rw [h0] at hy; linear_combination -hy)] at hD
            exact one_ne_zero hD.1
          have hne : y1 ≠ (mont K).negY x1 ((mont K).negY x1 y2) := by
            rw [negY_eq, negY_eq, neg_neg]
            intro hc
            have : 2 * y1 = 0 := by linear_combination hy + hc
            rcases mul_eq_zero.mp this with h | h
            · exact h2 h
            · exact hy0 h
          rw [Affine.Point.add_of_Y_ne hne] at hD
          have hD1 := hD.1
          rw [Affine.slope_of_Y_ne rfl hne, negY_eq] at hD1
          simp only [Affine.addX, mont] at hD1
          have : y1 - -y1 = 2 * y1 := by ring
          rw [this] at hD1
          intro hc
          apply hu
          rw [hD1]
          have hy4 : 4 * y1 ^ 2 ≠ 0 := mul_ne_zero h4 (pow_ne_zero _ hy0)
          apply (mul_eq_zero_iff_right hy4).mp
          have hs : ((3 * x1 ^ 2 + 2 * 486662 * x1 + 1 - 0 * y1) / (2 * y1)) ^ 2 * (4 * y1 ^ 2) = (3 * x1 ^ 2 + 2 * 486662 * x1 + 1) ^ 2 := by
            rw [div_pow, div_mul_eq_mul_div, div_eq_iff (pow_ne_zero _ (mul_ne_zero h2 hy0))]
            ring
          generalize (3 * x1 ^ 2 + 2 * 486662 * x1 + 1 - 0 * y1) / (2 * y1) = t at hs ⊢
          linear_combination hs + (x1 * x1 - 1) * hc - 4 * (2 * x1 + 486662) * e1
        · exfalso
          have h3 : (y1 - y2) * (y1 + y2) = 0 := by linear_combination e1 - e2
          rcases mul_eq_zero.mp h3 with h | h
          · rw [Affine.Point.add_of_Y_eq rfl (by rw [negY_eq, negY_eq, neg_neg]; linear_combination h)] at hD
            exact one_ne_zero hD.1
          · exact hy (by linear_combination h)
      · have hs : x1 - x2 ≠ 0 := sub_ne_zero.mpr hx
        rw [Affine.Point.add_of_X_ne hx] at hD ⊢
        have hD1 := hD.1
        rw [Affine.slope_of_X_ne hx, negY_eq] at hD1
        simp only [Affine.addX, mont] at hD1
        refine ⟨?_, mul_ne_zero (mul_ne_zero hu (mul_ne_zero h4 (pow_ne_zero _ hs))) hzz⟩
        rw [Affine.slope_of_X_ne hx]
        simp only [Affine.addX, mont]
        have hD2 : u * (x1 - x2) ^ 2 = (y1 + y2) ^ 2 - (486662 + x1 + x2) * (x1 - x2) ^ 2 := by
          rw [hD1]; field_simp; ring
        have hD3 : (x1 * x2 - 1) ^ 2 * (x1 - x2) ^ 2 = ((y1 - y2) ^ 2 - (486662 + x1 + x2) * (x1 - x2) ^ 2) * (u * (x1 - x2) ^ 2) := by
          rw [hD2]
          have f1 : (y1 - y2) ^ 2 = y1 ^ 2 + y2 ^ 2 - 2 * (y1 * y2) := by ring
          have f2 : (y1 + y2) ^ 2 = y1 ^ 2 + y2 ^ 2 + 2 * (y1 * y2) := by ring
          have f3 : (y1 * y2) ^ 2 = (x1 ^ 3 + 486662 * x1 ^ 2 + x1) * (x2 ^ 3 + 486662 * x2 ^ 2 + x2) := by rw [mul_pow, e1, e2]
          rw [f1, f2, e1, e2]
          linear_combination (4 : K) * f3
        have hq : ((y1 - y2) / (x1 - x2)) * (x1 - x2) = y1 - y2 := div_mul_cancel₀ _ hs
        generalize (y1 - y2) / (x1 - x2) = t at hq ⊢
        rw [← hq] at hD3
        have hD4 : (x1 * x2 - 1) ^ 2 = (t ^ 2 - (486662 + x1 + x2)) * (u * (x1 - x2) ^ 2) := by
          apply mul_right_cancel₀ (pow_ne_zero 2 hs)
          linear_combination hD3
        linear_combination 4 * (Z2 ^ 2 * Z3 ^ 2) * hD4

end Verif.Nacl
