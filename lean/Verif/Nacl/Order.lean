import Verif.Nacl.Dh
import Verif.Nacl.PrimeT
import Verif.Ed25519.OrderProps

/-!
The number of points with x-coordinate in the field on Curve25519 and on its twist (lemmas for C78 and C112).
-/

namespace Verif.Nacl
open Verif Verif.Ed25519 Verif.Nacl.Spec WeierstrassCurve
open Verif.Ed25519.Spec (leVal leBytes F p L d dNat sqrtm1 natCast_eq natCast_ne_zero)

/-! ### Squares -/

/-- The right hand side of the equation. -/
def rhs (u : F) : F := u ^ 3 + 486662 * u ^ 2 + u

theorem not_square {n : Nat} (h0 : n % p ≠ 0) (h : powMod n (p / 2) p ≠ 1) : ¬ IsSquare (n : F) := by
  rw [ZMod.euler_criterion p (natCast_ne_zero h0), zmod_pow_eq (c := powMod n (p / 2) p) (by decide +kernel) rfl]
  intro h1
  have h2 : ((powMod n (p / 2) p : Nat) : F) = ((1 : Nat) : F) := by rw [h1, Nat.cast_one]
  rw [ZMod.natCast_eq_natCast_iff] at h2
  unfold Nat.ModEq at h2
  have h3 : powMod n (p / 2) p < p := by rw [powMod_eq (by decide +kernel)]; exact Nat.mod_lt _ (by decide +kernel)
  rw [Nat.mod_eq_of_lt h3, Nat.mod_eq_of_lt (by decide +kernel)] at h2
  exact h h2

theorem square_mul {a k : F} (hk : k ≠ 0) : IsSquare (a * (k * k)) ↔ IsSquare a := by
  constructor
  · rintro ⟨w, hw⟩
    refine ⟨w / k, ?_⟩
    field_simp
    linear_combination hw
  · rintro ⟨w, rfl⟩
    exact ⟨w * k, by ring⟩

/-- A square root of 486664. -/
def c0 : Nat := 48802004052532134862652268456126542835229456083994414501085850622543968879637

theorem c0_sq : (c0 : F) * c0 = 486664 := by
  have : ((c0 * c0 : Nat) : F) = ((486664 : Nat) : F) := natCast_eq (by decide +kernel)
  push_cast at this
  exact this

theorem i_sq : (sqrtm1 : F) * sqrtm1 = -1 := by
  have : ((sqrtm1 * sqrtm1 + 1 : Nat) : F) = (0 : Nat) := natCast_eq (by decide +kernel)
  push_cast at this
  linear_combination this

theorem c0_ne : (c0 : F) ≠ 0 := natCast_ne_zero (by decide +kernel)
theorem i_ne : (sqrtm1 : F) ≠ 0 := natCast_ne_zero (by decide +kernel)

/-- u^2 + 486662 u + 1 has no root. -/
theorem quad_ne (u : F) : u ^ 2 + 486662 * u + 1 ≠ 0 := by
  intro h
  refine not_square (n := 486662 * 486662 - 4) (by decide +kernel) (by decide +kernel) ⟨2 * u + 486662, ?_⟩
  have e : ((486662 * 486662 - 4 : Nat) : F) = 486662 * 486662 - 4 := by
    rw [Nat.cast_sub (by norm_num)]
    push_cast
    ring
  rw [e]
  linear_combination -4 * h

theorem rhs_zero {u : F} : rhs u = 0 ↔ u = 0 := by
  constructor
  · intro h
    have : u * (u ^ 2 + 486662 * u + 1) = 0 := by rw [← h, rhs]; ring
    exact (mul_eq_zero.1 this).resolve_right (quad_ne u)
  · rintro rfl
    unfold rhs
    ring

/-- Curve25519 and the curve of Ed25519: y stands for u = (1 + y) / (1 - y). -/
theorem rhs_of_y {y : F} (hy : y ≠ 1) : IsSquare (rhs ((1 + y) / (1 - y))) ↔ ∃ P : Point d, P.y = y := by
  have h1 : 1 - y ≠ 0 := fun h => hy (by linear_combination -h)
  have e6 : (121666 : F) ≠ 0 := by
    have := natCast_ne_zero (n := 121666) (by decide +kernel)
    simpa using this
  have hd : d * 121666 = -121665 := by unfold Ed25519.Spec.d; field_simp
  rw [solvable_iff]
  have hk : (sqrtm1 : F) * c0 / (1 - y) ^ 2 ≠ 0 := div_ne_zero (mul_ne_zero i_ne c0_ne) (pow_ne_zero 2 h1)
  have : rhs ((1 + y) / (1 - y)) = (y * y - 1) * (d * (y * y) + 1) * ((sqrtm1 : F) * c0 / (1 - y) ^ 2 * ((sqrtm1 : F) * c0 / (1 - y) ^ 2)) := by
    have e1 : (sqrtm1 : F) * c0 / (1 - y) ^ 2 * ((sqrtm1 : F) * c0 / (1 - y) ^ 2) = -486664 / (1 - y) ^ 4 := by
      rw [div_mul_div_comm, show (sqrtm1 : F) * c0 * (sqrtm1 * c0) = (sqrtm1 * sqrtm1) * (c0 * c0) by ring, i_sq, c0_sq]
      ring
    rw [e1]
    unfold rhs
    field_simp
    linear_combination (4 * y ^ 2 * (y ^ 2 - 1)) * hd
  rw [this, square_mul hk]

theorem square_neg_one : ¬ IsSquare (rhs (-1)) := by
  have e : rhs (-1) = ((486660 : Nat) : F) := by unfold rhs; push_cast; ring
  rw [e]
  exact not_square (by decide +kernel) (by decide +kernel)

/-- How many u give a point of Curve25519 over the field. -/
theorem card_square : {u : F | u ≠ 0 ∧ IsSquare (rhs u)}.ncard = 4 * L - 1 := by
  have n2 : (2 : F) ≠ 0 := by
    have := natCast_ne_zero (n := 2) (by decide +kernel)
    simpa using this
  have hm : (1 : F) ≠ -1 := fun h => n2 (by linear_combination h)
  have e : {u : F | u ≠ 0 ∧ IsSquare (rhs u)}.ncard = ({y : F | ∃ P : Point d, P.y = y} \ {1, -1}).ncard := by
    symm
    refine Set.ncard_congr (fun y _ => (1 + y) / (1 - y)) ?_ ?_ ?_
    · rintro y ⟨hy, hn⟩
      simp only [Set.mem_insert_iff, Set.mem_singleton_iff, not_or] at hn
      refine ⟨div_ne_zero (fun h => hn.2 (by linear_combination h)) (fun h => hn.1 (by linear_combination -h)), (rhs_of_y hn.1).2 hy⟩
    · rintro y z ⟨-, hy⟩ ⟨-, hz⟩ h
      simp only [Set.mem_insert_iff, Set.mem_singleton_iff, not_or] at hy hz
      rw [div_eq_div_iff (fun h => hy.1 (by linear_combination -h)) (fun h => hz.1 (by linear_combination -h))] at h
      refine mul_left_cancel₀ n2 ?_
      linear_combination h
    · rintro u ⟨h0, hs⟩
      have h1 : u + 1 ≠ 0 := fun h => square_neg_one (by rwa [show u = -1 by linear_combination h] at hs)
      have hne : (u - 1) / (u + 1) ≠ 1 := by
        rw [ne_eq, div_eq_one_iff_eq h1]
        exact fun h => n2 (by linear_combination -h)
      have hu : (1 + (u - 1) / (u + 1)) / (1 - (u - 1) / (u + 1)) = u := by
        have e1 : 1 + (u - 1) / (u + 1) = 2 * u / (u + 1) := by field_simp; ring
        have e2 : 1 - (u - 1) / (u + 1) = 2 / (u + 1) := by field_simp; ring
        rw [e1, e2, div_div_div_cancel_right₀ h1, mul_div_cancel_left₀ _ n2]
      refine ⟨(u - 1) / (u + 1), ⟨?_, ?_⟩, hu⟩
      · rw [← hu, rhs_of_y hne] at hs
        exact hs
      · simp only [Set.mem_insert_iff, Set.mem_singleton_iff, not_or]
        refine ⟨hne, fun h => h0 ?_⟩
        rw [div_eq_iff h1] at h
        exact mul_left_cancel₀ n2 (by linear_combination h)
  rw [e, Set.ncard_sdiff (by
      rintro y hy
      simp only [Set.mem_insert_iff, Set.mem_singleton_iff] at hy
      rcases hy with rfl | rfl
      · exact ⟨0, Point.zero_y⟩
      · exact ⟨⟨0, -1, by ring⟩, rfl⟩), card_y, Set.ncard_pair hm]
  omega

theorem card_nonsquare : {u : F | u ≠ 0 ∧ ¬ IsSquare (rhs u)}.ncard = p - 4 * L := by
  have e : {u : F | u ≠ 0 ∧ ¬ IsSquare (rhs u)} = Set.univ \ ({u : F | u ≠ 0 ∧ IsSquare (rhs u)} ∪ {0}) := by
    ext u
    simp only [Set.mem_ofPred_eq, Set.mem_sdiff, Set.mem_univ, true_and, Set.mem_union, Set.mem_singleton_iff, not_or, not_and]
    tauto
  have hd : Disjoint {u : F | u ≠ 0 ∧ IsSquare (rhs u)} {0} := by
    rw [Set.disjoint_singleton_right]
    rintro ⟨h, -⟩
    exact h rfl
  rw [e, Set.ncard_sdiff (Set.subset_univ _), Set.ncard_univ, Nat.card_zmod, Set.ncard_union_eq hd, card_square, Set.ncard_singleton]
  have : 0 < L := by decide +kernel
  omega

end Verif.Nacl
