import Mathlib.Tactic.FieldSimp
import Mathlib.Tactic.LinearCombination
import Mathlib.Tactic.Ring
import Mathlib.Algebra.Field.Basic
import Mathlib.Algebra.Group.Even

/-!
The group of a twisted Edwards curve -x^2 + y^2 = 1 + d x^2 y^2 over a field in which -1 is a square and d is not.  Nothing here refers to the code.
The cofactors in the associativity proof come from dividing by the three curve equations.
-/

namespace Verif.Ed25519

/-- The conditions under which the addition law is complete. -/
class Complete {F : Type} [Field F] (d : F) : Prop where
  nonsquare : ¬ IsSquare d
  root : ∃ i : F, i * i = -1

/-- A point of the curve. -/
@[ext] structure Point {F : Type} [Field F] (d : F) where
  x : F
  y : F
  on : -x ^ 2 + y ^ 2 = 1 + d * x ^ 2 * y ^ 2

namespace Point
variable {F : Type} [Field F] {d : F}

/-- The denominators of the addition law never vanish. -/
theorem complete [h : Complete d] (P Q : Point d) : (d * P.x * Q.x * P.y * Q.y) ^ 2 ≠ 1 := by
  obtain ⟨x1, y1, e1⟩ := P
  obtain ⟨x2, y2, e2⟩ := Q
  obtain ⟨i, hi⟩ := h.root
  intro hs
  simp only at hs
  have hne : d * x1 * x2 * y1 * y2 ≠ 0 := by
    intro h0
    rw [h0] at hs
    simp at hs
  have hx1 : x1 ≠ 0 := by rintro rfl; simp at hne
  have hx2 : x2 ≠ 0 := by rintro rfl; simp at hne
  have hy1 : y1 ≠ 0 := by rintro rfl; simp at hne
  have hi0 : i ≠ 0 := by rintro rfl; simp at hi
  generalize he : d * x1 * x2 * y1 * y2 = e at *
  have key : ∀ s : F, s ^ 2 = 1 → (i * x1 + s * e * y1) ^ 2 = d * (x1 * y1 * (i * x2 + s * y2)) ^ 2 := by
    intro s hs1
    have hd : d ^ 2 * x1 ^ 2 * x2 ^ 2 * y1 ^ 2 * y2 ^ 2 = 1 := by rw [← hs, ← he]; ring
    linear_combination (x1 ^ 2 - d * x1 ^ 2 * y1 ^ 2 * x2 ^ 2) * hi + (e ^ 2 * y1 ^ 2 - d * x1 ^ 2 * y1 ^ 2 * y2 ^ 2) * hs1 + y1 ^ 2 * hs
      + e1 - d * x1 ^ 2 * y1 ^ 2 * e2 - hd - 2 * i * s * x1 * y1 * he
  have sq : ∀ s : F, s ^ 2 = 1 → i * x2 + s * y2 = 0 := by
    intro s hs1
    by_contra hn
    apply h.nonsquare
    have hz : x1 * y1 * (i * x2 + s * y2) ≠ 0 := mul_ne_zero (mul_ne_zero hx1 hy1) hn
    refine ⟨(i * x1 + s * e * y1) / (x1 * y1 * (i * x2 + s * y2)), ?_⟩
    rw [div_mul_div_comm, eq_div_iff (mul_ne_zero hz hz)]
    linear_combination -(key s hs1)
  have a := sq 1 (by ring)
  have b := sq (-1) (by ring)
  have h2 : 2 * (i * x2) = 0 := by linear_combination a + b
  rcases mul_eq_zero.1 h2 with h2 | h2
  · apply h.nonsquare
    refine ⟨?_, ?_⟩
    · exact 0
    · exfalso
      -- in characteristic two every element of the form below is a square, so d would be one
      have : (-1 : F) = 1 := by linear_combination -h2
      have e1' : (x1 + y1 + 1) ^ 2 = d * (x1 * y1) ^ 2 := by linear_combination e1 + (x1 ^ 2 + x1 * y1 + x1 + y1 + 1) * h2
      apply h.nonsquare
      have hz : x1 * y1 ≠ 0 := mul_ne_zero hx1 hy1
      refine ⟨(x1 + y1 + 1) / (x1 * y1), ?_⟩
      rw [div_mul_div_comm, eq_div_iff (mul_ne_zero hz hz)]
      linear_combination -e1'
  · exact mul_ne_zero hi0 hx2 h2

theorem one_add_ne [Complete d] (P Q : Point d) : 1 + d * P.x * Q.x * P.y * Q.y ≠ 0 := by
  intro h
  exact complete P Q (by linear_combination (d * P.x * Q.x * P.y * Q.y - 1) * h)

theorem one_sub_ne [Complete d] (P Q : Point d) : 1 - d * P.x * Q.x * P.y * Q.y ≠ 0 := by
  intro h
  exact complete P Q (by linear_combination (-d * P.x * Q.x * P.y * Q.y - 1) * h)

/-- The addition law. -/
def add [Complete d] (P Q : Point d) : Point d where
  x := (P.x * Q.y + P.y * Q.x) / (1 + d * P.x * Q.x * P.y * Q.y)
  y := (P.y * Q.y + P.x * Q.x) / (1 - d * P.x * Q.x * P.y * Q.y)
  on := by
    have h1 := one_add_ne P Q
    have h2 := one_sub_ne P Q
    obtain ⟨x1, y1, e1⟩ := P
    obtain ⟨x2, y2, e2⟩ := Q
    simp only at h1 h2 ⊢
    have h3 := mul_ne_zero (pow_ne_zero 2 h1) (pow_ne_zero 2 h2)
    rw [div_pow, div_pow, ← mul_right_inj' h3]
    have a1 : (x1 * y2 + y1 * x2) ^ 2 / (1 + d * x1 * x2 * y1 * y2) ^ 2 * (1 + d * x1 * x2 * y1 * y2) ^ 2 = (x1 * y2 + y1 * x2) ^ 2 :=
      div_mul_cancel₀ _ (pow_ne_zero 2 h1)
    have a2 : (y1 * y2 + x1 * x2) ^ 2 / (1 - d * x1 * x2 * y1 * y2) ^ 2 * (1 - d * x1 * x2 * y1 * y2) ^ 2 = (y1 * y2 + x1 * x2) ^ 2 :=
      div_mul_cancel₀ _ (pow_ne_zero 2 h2)
    generalize (x1 * y2 + y1 * x2) ^ 2 / (1 + d * x1 * x2 * y1 * y2) ^ 2 = X at *
    generalize (y1 * y2 + x1 * x2) ^ 2 / (1 - d * x1 * x2 * y1 * y2) ^ 2 = Y at *
    linear_combination (x1^2*y1^2*x2^4*y2^4*d^3 - x1^2*x2^4*y2^4*d^2 - x1^2*x2^4*y2^2*d + x1^2*x2^2*y2^4*d + y1^2*x2^4*y2^4*d^2 + y1^2*x2^4*y2^2*d - y1^2*x2^2*y2^4*d - x2^4*y2^4*d^2 - 2*x2^4*y2^4*d - 2*x2^4*y2^2 + x2^4 + 2*x2^2*y2^4 - 2*x2^2*y2^2*d - 4*x2^2*y2^2 + y2^4) * e1 + (x1^4*x2^2*y2^2*d + 2*x1^2*x2^2*y2^2*d + 2*x1^2*x2^2*y2^2 - x1^2*x2^2 + x1^2*y2^2 + y1^4*x2^2*y2^2*d - 2*y1^2*x2^2*y2^2*d - 2*y1^2*x2^2*y2^2 + y1^2*x2^2 - y1^2*y2^2 + x2^2*y2^2*d + 2*x2^2*y2^2 - x2^2 + y2^2 + 1) * e2
      - (1 - d * x1 * x2 * y1 * y2) ^ 2 * a1 + (1 + d * x1 * x2 * y1 * y2) ^ 2 * a2
      - d * Y * (1 - d * x1 * x2 * y1 * y2) ^ 2 * a1 - d * (x1 * y2 + y1 * x2) ^ 2 * a2

/-- The neutral element (0, 1). -/
def zero : Point d := ⟨0, 1, by ring⟩

/-- The negative (-x, y). -/
def neg (P : Point d) : Point d := ⟨-P.x, P.y, by linear_combination P.on⟩

theorem add_comm' [Complete d] (P Q : Point d) : add P Q = add Q P := by
  ext
  · simp only [add]; congr 1 <;> ring
  · simp only [add]; congr 1 <;> ring

theorem zero_add' [Complete d] (P : Point d) : add zero P = P := by
  ext <;> simp [add, zero]

theorem neg_add' [Complete d] (P : Point d) : add (neg P) P = zero := by
  have h2 := one_sub_ne (neg P) P
  ext
  · simp only [add, neg, zero]
    rw [show -P.x * P.y + P.y * P.x = 0 by ring, zero_div]
  · simp only [add, neg, zero] at h2 ⊢
    rw [div_eq_one_iff_eq h2]
    linear_combination P.on

theorem add_assoc' [Complete d] (P Q R : Point d) : add (add P Q) R = add P (add Q R) := by
  have a1 := one_add_ne P Q
  have a2 := one_sub_ne P Q
  have b1 := one_add_ne Q R
  have b2 := one_sub_ne Q R
  have c1 := one_add_ne (add P Q) R
  have c2 := one_sub_ne (add P Q) R
  have d1 := one_add_ne P (add Q R)
  have d2 := one_sub_ne P (add Q R)
  obtain ⟨x1, y1, e1⟩ := P
  obtain ⟨x2, y2, e2⟩ := Q
  obtain ⟨x3, y3, e3⟩ := R
  simp only [add] at *
  rw [Point.mk.injEq]
  have p4 : (x1 * y2 + y1 * x2) / (1 + d * x1 * x2 * y1 * y2) * (1 + d * x1 * x2 * y1 * y2) = x1 * y2 + y1 * x2 := div_mul_cancel₀ _ a1
  have q4 : (y1 * y2 + x1 * x2) / (1 - d * x1 * x2 * y1 * y2) * (1 - d * x1 * x2 * y1 * y2) = y1 * y2 + x1 * x2 := div_mul_cancel₀ _ a2
  have p5 : (x2 * y3 + y2 * x3) / (1 + d * x2 * x3 * y2 * y3) * (1 + d * x2 * x3 * y2 * y3) = x2 * y3 + y2 * x3 := div_mul_cancel₀ _ b1
  have q5 : (y2 * y3 + x2 * x3) / (1 - d * x2 * x3 * y2 * y3) * (1 - d * x2 * x3 * y2 * y3) = y2 * y3 + x2 * x3 := div_mul_cancel₀ _ b2
  generalize (x1 * y2 + y1 * x2) / (1 + d * x1 * x2 * y1 * y2) = x4 at *
  generalize (y1 * y2 + x1 * x2) / (1 - d * x1 * x2 * y1 * y2) = y4 at *
  generalize (x2 * y3 + y2 * x3) / (1 + d * x2 * x3 * y2 * y3) = x5 at *
  generalize (y2 * y3 + x2 * x3) / (1 - d * x2 * x3 * y2 * y3) = y5 at *
  have m4 : x4 * y4 * ((1 + d * x1 * x2 * y1 * y2) * (1 - d * x1 * x2 * y1 * y2)) = (x1 * y2 + y1 * x2) * (y1 * y2 + x1 * x2) := by
    rw [← p4, ← q4]; ring
  have m5 : x5 * y5 * ((1 + d * x2 * x3 * y2 * y3) * (1 - d * x2 * x3 * y2 * y3)) = (x2 * y3 + y2 * x3) * (y2 * y3 + x2 * x3) := by
    rw [← p5, ← q5]; ring
  have hne := mul_ne_zero (mul_ne_zero a1 a2) (mul_ne_zero b1 b2)
  constructor
  · rw [div_eq_div_iff c1 d1, ← mul_right_inj' hne]
    have hX : (1 + d * x1 * x2 * y1 * y2) * (1 - d * x1 * x2 * y1 * y2) * (x4 * y3 + y4 * x3) = (x1 * y2 + y1 * x2) * (1 - d * x1 * x2 * y1 * y2) * y3 + (y1 * y2 + x1 * x2) * (1 + d * x1 * x2 * y1 * y2) * x3 := by
      linear_combination (1 - d * x1 * x2 * y1 * y2) * y3 * p4 + (1 + d * x1 * x2 * y1 * y2) * x3 * q4
    have hD : (1 + d * x1 * x2 * y1 * y2) * (1 - d * x1 * x2 * y1 * y2) * (1 + d * x4 * x3 * y4 * y3) = (1 - (d * x1 * x2 * y1 * y2) ^ 2) + d * x3 * y3 * ((x1 * y2 + y1 * x2) * (y1 * y2 + x1 * x2)) := by
      linear_combination d * x3 * y3 * m4
    have hX' : (1 + d * x2 * x3 * y2 * y3) * (1 - d * x2 * x3 * y2 * y3) * (x1 * y5 + y1 * x5) = x1 * (y2 * y3 + x2 * x3) * (1 + d * x2 * x3 * y2 * y3) + y1 * (x2 * y3 + y2 * x3) * (1 - d * x2 * x3 * y2 * y3) := by
      linear_combination (1 + d * x2 * x3 * y2 * y3) * x1 * q5 + (1 - d * x2 * x3 * y2 * y3) * y1 * p5
    have hD' : (1 + d * x2 * x3 * y2 * y3) * (1 - d * x2 * x3 * y2 * y3) * (1 + d * x1 * x5 * y1 * y5) = (1 - (d * x2 * x3 * y2 * y3) ^ 2) + d * x1 * y1 * ((x2 * y3 + y2 * x3) * (y2 * y3 + x2 * x3)) := by
      linear_combination d * x1 * y1 * m5
    calc _ = ((1 + d * x1 * x2 * y1 * y2) * (1 - d * x1 * x2 * y1 * y2) * (x4 * y3 + y4 * x3)) * ((1 + d * x2 * x3 * y2 * y3) * (1 - d * x2 * x3 * y2 * y3) * (1 + d * x1 * x5 * y1 * y5)) := by ring
      _ = ((1 + d * x2 * x3 * y2 * y3) * (1 - d * x2 * x3 * y2 * y3) * (x1 * y5 + y1 * x5)) * ((1 + d * x1 * x2 * y1 * y2) * (1 - d * x1 * x2 * y1 * y2) * (1 + d * x4 * x3 * y4 * y3)) := by
        rw [hX, hD, hX', hD']
        linear_combination (- x1*x2^4*y2^3*x3^2*y3*d^2 - x1*x2^4*y2*x3^2*y3*d - x1*x2^3*y2^4*x3*y3^2*d^2 - x1*x2^3*y2^2*x3^3*d - x1*x2^3*y2^2*x3*d + x1*x2^2*y2^3*y3^3*d - x1*x2^2*y2^3*y3*d + x1*x2*y2^4*x3*y3^2*d + y1*x2^4*y2^3*x3*y3^2*d^2 + y1*x2^4*y2*x3*y3^2*d + y1*x2^3*y2^4*x3^2*y3*d^2 + y1*x2^3*y2^2*y3^3*d - y1*x2^3*y2^2*y3*d - y1*x2^2*y2^3*x3^3*d - y1*x2^2*y2^3*x3*d - y1*x2*y2^4*x3^2*y3*d) * e1
          + (x1^3*x2^2*y2*x3^2*y3*d + x1^3*x2*y2^2*x3*y3^2*d + x1^3*x2*x3^3*y3^2*d + x1^3*x2*x3^3 - x1^3*x2*x3*y3^2 + x1^3*x2*x3 + x1^3*y2*x3^2*y3^3*d + x1^3*y2*x3^2*y3 - x1^3*y2*y3^3 + x1^3*y2*y3 + x1^2*y1*x2^2*y2*x3^3*y3^2*d^2 - x1^2*y1*x2^2*y2*x3*y3^2*d - x1^2*y1*x2*y2^2*x3^2*y3^3*d^2 - x1^2*y1*x2*y2^2*x3^2*y3*d + x1^2*y1*x2*x3^2*y3^3*d + x1^2*y1*x2*x3^2*y3 - x1^2*y1*x2*y3^3 + x1^2*y1*x2*y3 + x1^2*y1*y2*x3^3*y3^2*d + x1^2*y1*y2*x3^3 - x1^2*y1*y2*x3*y3^2 + x1^2*y1*y2*x3 - x1*y1^2*x2^2*y2*x3^2*y3^3*d^2 - x1*y1^2*x2^2*y2*x3^2*y3*d + x1*y1^2*x2*y2^2*x3^3*y3^2*d^2 - x1*y1^2*x2*y2^2*x3*y3^2*d - x1*y1^2*x2*x3^3*y3^2*d - x1*y1^2*x2*x3^3 + x1*y1^2*x2*x3*y3^2 - x1*y1^2*x2*x3 - x1*y1^2*y2*x3^2*y3^3*d - x1*y1^2*y2*x3^2*y3 + x1*y1^2*y2*y3^3 - x1*y1^2*y2*y3 + x1*x2^2*y2*x3^2*y3*d + x1*x2*y2^2*x3*y3^2*d + x1*x2*x3^3*y3^2*d + x1*x2*x3^3 - x1*x2*x3*y3^2 + x1*x2*x3 + x1*y2*x3^2*y3^3*d + x1*y2*x3^2*y3 - x1*y2*y3^3 + x1*y2*y3 + y1^3*x2^2*y2*x3*y3^2*d + y1^3*x2*y2^2*x3^2*y3*d - y1^3*x2*x3^2*y3^3*d - y1^3*x2*x3^2*y3 + y1^3*x2*y3^3 - y1^3*x2*y3 - y1^3*y2*x3^3*y3^2*d - y1^3*y2*x3^3 + y1^3*y2*x3*y3^2 - y1^3*y2*x3 - y1*x2^2*y2*x3*y3^2*d - y1*x2*y2^2*x3^2*y3*d + y1*x2*x3^2*y3^3*d + y1*x2*x3^2*y3 - y1*x2*y3^3 + y1*x2*y3 + y1*y2*x3^3*y3^2*d + y1*y2*x3^3 - y1*y2*x3*y3^2 + y1*y2*x3) * e2
          + (- x1^3*x2^3*x3 - x1^3*x2^2*y2*y3 + x1^3*x2*y2^2*x3 - x1^3*x2*x3 + x1^3*y2^3*y3 - x1^3*y2*y3 - x1^2*y1*x2^3*y3 - x1^2*y1*x2^2*y2*x3*d - x1^2*y1*x2^2*y2*x3 + x1^2*y1*x2*y2^2*y3*d + x1^2*y1*x2*y2^2*y3 - x1^2*y1*x2*y3 + x1^2*y1*y2^3*x3 - x1^2*y1*y2*x3 + x1*y1^2*x2^3*x3 + x1*y1^2*x2^2*y2*y3*d + x1*y1^2*x2^2*y2*y3 - x1*y1^2*x2*y2^2*x3*d - x1*y1^2*x2*y2^2*x3 + x1*y1^2*x2*x3 - x1*y1^2*y2^3*y3 + x1*y1^2*y2*y3 - x1*x2^3*x3 - x1*x2^2*y2*y3 + x1*x2*y2^2*x3 - x1*x2*x3 + x1*y2^3*y3 - x1*y2*y3 + y1^3*x2^3*y3 + y1^3*x2^2*y2*x3 - y1^3*x2*y2^2*y3 + y1^3*x2*y3 - y1^3*y2^3*x3 + y1^3*y2*x3 - y1*x2^3*y3 - y1*x2^2*y2*x3 + y1*x2*y2^2*y3 - y1*x2*y3 + y1*y2^3*x3 - y1*y2*x3) * e3
      _ = _ := by ring
  · rw [div_eq_div_iff c2 d2, ← mul_right_inj' hne]
    have hX : (1 + d * x1 * x2 * y1 * y2) * (1 - d * x1 * x2 * y1 * y2) * (y4 * y3 + x4 * x3) = (y1 * y2 + x1 * x2) * (1 + d * x1 * x2 * y1 * y2) * y3 + (x1 * y2 + y1 * x2) * (1 - d * x1 * x2 * y1 * y2) * x3 := by
      linear_combination (1 - d * x1 * x2 * y1 * y2) * x3 * p4 + (1 + d * x1 * x2 * y1 * y2) * y3 * q4
    have hD : (1 + d * x1 * x2 * y1 * y2) * (1 - d * x1 * x2 * y1 * y2) * (1 - d * x4 * x3 * y4 * y3) = (1 - (d * x1 * x2 * y1 * y2) ^ 2) - d * x3 * y3 * ((x1 * y2 + y1 * x2) * (y1 * y2 + x1 * x2)) := by
      linear_combination -d * x3 * y3 * m4
    have hX' : (1 + d * x2 * x3 * y2 * y3) * (1 - d * x2 * x3 * y2 * y3) * (y1 * y5 + x1 * x5) = y1 * (y2 * y3 + x2 * x3) * (1 + d * x2 * x3 * y2 * y3) + x1 * (x2 * y3 + y2 * x3) * (1 - d * x2 * x3 * y2 * y3) := by
      linear_combination (1 + d * x2 * x3 * y2 * y3) * y1 * q5 + (1 - d * x2 * x3 * y2 * y3) * x1 * p5
    have hD' : (1 + d * x2 * x3 * y2 * y3) * (1 - d * x2 * x3 * y2 * y3) * (1 - d * x1 * x5 * y1 * y5) = (1 - (d * x2 * x3 * y2 * y3) ^ 2) - d * x1 * y1 * ((x2 * y3 + y2 * x3) * (y2 * y3 + x2 * x3)) := by
      linear_combination -d * x1 * y1 * m5
    calc _ = ((1 + d * x1 * x2 * y1 * y2) * (1 - d * x1 * x2 * y1 * y2) * (y4 * y3 + x4 * x3)) * ((1 + d * x2 * x3 * y2 * y3) * (1 - d * x2 * x3 * y2 * y3) * (1 - d * x1 * x5 * y1 * y5)) := by ring
      _ = ((1 + d * x2 * x3 * y2 * y3) * (1 - d * x2 * x3 * y2 * y3) * (y1 * y5 + x1 * x5)) * ((1 + d * x1 * x2 * y1 * y2) * (1 - d * x1 * x2 * y1 * y2) * (1 - d * x4 * x3 * y4 * y3)) := by
        rw [hX, hD, hX', hD']
        linear_combination (x1*x2^4*y2^3*x3*y3^2*d^2 + x1*x2^4*y2*x3*y3^2*d + x1*x2^3*y2^4*x3^2*y3*d^2 + x1*x2^3*y2^2*y3^3*d - x1*x2^3*y2^2*y3*d - x1*x2^2*y2^3*x3^3*d - x1*x2^2*y2^3*x3*d - x1*x2*y2^4*x3^2*y3*d - y1*x2^4*y2^3*x3^2*y3*d^2 - y1*x2^4*y2*x3^2*y3*d - y1*x2^3*y2^4*x3*y3^2*d^2 - y1*x2^3*y2^2*x3^3*d - y1*x2^3*y2^2*x3*d + y1*x2^2*y2^3*y3^3*d - y1*x2^2*y2^3*y3*d + y1*x2*y2^4*x3*y3^2*d) * e1
          + (- x1^3*x2^2*y2*x3*y3^2*d - x1^3*x2*y2^2*x3^2*y3*d + x1^3*x2*x3^2*y3^3*d + x1^3*x2*x3^2*y3 - x1^3*x2*y3^3 + x1^3*x2*y3 + x1^3*y2*x3^3*y3^2*d + x1^3*y2*x3^3 - x1^3*y2*x3*y3^2 + x1^3*y2*x3 + x1^2*y1*x2^2*y2*x3^2*y3^3*d^2 + x1^2*y1*x2^2*y2*x3^2*y3*d - x1^2*y1*x2*y2^2*x3^3*y3^2*d^2 + x1^2*y1*x2*y2^2*x3*y3^2*d + x1^2*y1*x2*x3^3*y3^2*d + x1^2*y1*x2*x3^3 - x1^2*y1*x2*x3*y3^2 + x1^2*y1*x2*x3 + x1^2*y1*y2*x3^2*y3^3*d + x1^2*y1*y2*x3^2*y3 - x1^2*y1*y2*y3^3 + x1^2*y1*y2*y3 - x1*y1^2*x2^2*y2*x3^3*y3^2*d^2 + x1*y1^2*x2^2*y2*x3*y3^2*d + x1*y1^2*x2*y2^2*x3^2*y3^3*d^2 + x1*y1^2*x2*y2^2*x3^2*y3*d - x1*y1^2*x2*x3^2*y3^3*d - x1*y1^2*x2*x3^2*y3 + x1*y1^2*x2*y3^3 - x1*y1^2*x2*y3 - x1*y1^2*y2*x3^3*y3^2*d - x1*y1^2*y2*x3^3 + x1*y1^2*y2*x3*y3^2 - x1*y1^2*y2*x3 - x1*x2^2*y2*x3*y3^2*d - x1*x2*y2^2*x3^2*y3*d + x1*x2*x3^2*y3^3*d + x1*x2*x3^2*y3 - x1*x2*y3^3 + x1*x2*y3 + x1*y2*x3^3*y3^2*d + x1*y2*x3^3 - x1*y2*x3*y3^2 + x1*y2*x3 - y1^3*x2^2*y2*x3^2*y3*d - y1^3*x2*y2^2*x3*y3^2*d - y1^3*x2*x3^3*y3^2*d - y1^3*x2*x3^3 + y1^3*x2*x3*y3^2 - y1^3*x2*x3 - y1^3*y2*x3^2*y3^3*d - y1^3*y2*x3^2*y3 + y1^3*y2*y3^3 - y1^3*y2*y3 + y1*x2^2*y2*x3^2*y3*d + y1*x2*y2^2*x3*y3^2*d + y1*x2*x3^3*y3^2*d + y1*x2*x3^3 - y1*x2*x3*y3^2 + y1*x2*x3 + y1*y2*x3^2*y3^3*d + y1*y2*x3^2*y3 - y1*y2*y3^3 + y1*y2*y3) * e2
          + (- x1^3*x2^3*y3 - x1^3*x2^2*y2*x3 + x1^3*x2*y2^2*y3 - x1^3*x2*y3 + x1^3*y2^3*x3 - x1^3*y2*x3 - x1^2*y1*x2^3*x3 - x1^2*y1*x2^2*y2*y3*d - x1^2*y1*x2^2*y2*y3 + x1^2*y1*x2*y2^2*x3*d + x1^2*y1*x2*y2^2*x3 - x1^2*y1*x2*x3 + x1^2*y1*y2^3*y3 - x1^2*y1*y2*y3 + x1*y1^2*x2^3*y3 + x1*y1^2*x2^2*y2*x3*d + x1*y1^2*x2^2*y2*x3 - x1*y1^2*x2*y2^2*y3*d - x1*y1^2*x2*y2^2*y3 + x1*y1^2*x2*y3 - x1*y1^2*y2^3*x3 + x1*y1^2*y2*x3 - x1*x2^3*y3 - x1*x2^2*y2*x3 + x1*x2*y2^2*y3 - x1*x2*y3 + x1*y2^3*x3 - x1*y2*x3 + y1^3*x2^3*x3 + y1^3*x2^2*y2*y3 - y1^3*x2*y2^2*x3 + y1^3*x2*x3 - y1^3*y2^3*y3 + y1^3*y2*y3 - y1*x2^3*x3 - y1*x2^2*y2*y3 + y1*x2*y2^2*x3 - y1*x2*x3 + y1*y2^3*y3 - y1*y2*y3) * e3
      _ = _ := by ring

/-- Notation for the addition of points. -/
instance [Complete d] : Add (Point d) := ⟨add⟩
/-- Notation for the neutral point. -/
instance [Complete d] : Zero (Point d) := ⟨zero⟩
/-- Notation for the negative of a point. -/
instance [Complete d] : Neg (Point d) := ⟨neg⟩

/-- The points form a commutative group. -/
instance [Complete d] : AddCommGroup (Point d) where
  add_assoc := add_assoc'
  zero_add := zero_add'
  add_zero P := (add_comm' _ _).trans (zero_add' P)
  nsmul := nsmulRec
  zsmul := zsmulRec
  neg_add_cancel := neg_add'
  add_comm := add_comm'

theorem add_x [Complete d] (P Q : Point d) : (P + Q).x = (P.x * Q.y + P.y * Q.x) / (1 + d * P.x * Q.x * P.y * Q.y) := rfl
theorem add_y [Complete d] (P Q : Point d) : (P + Q).y = (P.y * Q.y + P.x * Q.x) / (1 - d * P.x * Q.x * P.y * Q.y) := rfl
theorem zero_x [Complete d] : (0 : Point d).x = 0 := rfl
theorem zero_y [Complete d] : (0 : Point d).y = 1 := rfl
theorem neg_x [Complete d] (P : Point d) : (-P).x = -P.x := rfl
theorem neg_y [Complete d] (P : Point d) : (-P).y = P.y := rfl

end Point
end Verif.Ed25519
