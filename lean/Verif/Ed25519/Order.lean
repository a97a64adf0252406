import Verif.Ed25519.ForgeProps
import Mathlib.GroupTheory.OrderOfElement
import Mathlib.Data.Fintype.Card
import Mathlib.SetTheory.Cardinal.Finite

/-!
The order of the group of the curve (lemmas for C111).
-/

namespace Verif.Ed25519
open Verif Spec

/-- The number that `encode` writes, as a pair, determines the point. -/
theorem y_parity_inj {P Q : Point d} (hy : P.y = Q.y) (hx : P.x.val % 2 = Q.x.val % 2) : P = Q :=
  encode_inj (by unfold encode; rw [hy, hx])

theorem pair_injective : Function.Injective fun P : Point d => ((P.y, ⟨P.x.val % 2, Nat.mod_lt _ (by omega)⟩) : F × Fin 2) := by
  intro P Q h
  simp only [Prod.mk.injEq, Fin.mk.injEq] at h
  exact y_parity_inj h.1 h.2

instance : Finite (Point d) := Finite.of_injective _ pair_injective

theorem card_le : Nat.card (Point d) ≤ 2 * p := by
  have h := Nat.card_le_card_of_injective _ pair_injective
  have e : Nat.card (F × Fin 2) = 2 * p := by rw [Nat.card_prod, Nat.card_zmod, Nat.card_fin, Nat.mul_comm]
  rwa [e] at h

/-- A point of order 8, x coordinate (no line of its own). -/
def T8x : Nat := 14399317868200118260347934320527232580618823971194345261214217575416788799818
/-- A point of order 8, y coordinate (no line of its own). -/
def T8y : Nat := 55188659117513257062467267217118295137698188065244968500265048394206261417927

/-- A point of order 8 (no line of its own). -/
def T8 : Point d where
  x := (T8x : F)
  y := (T8y : F)
  on := by
    have : ((T8y ^ 2 + 0 : Nat) : F) = ((1 + dNat * T8x ^ 2 * T8y ^ 2 + T8x ^ 2 : Nat) : F) := natCast_eq (by decide +kernel)
    push_cast at this
    rw [d_eq]
    linear_combination this

/-- The point as numbers, for computation (no line of its own). -/
def T8N : NQ := ⟨T8x, T8y, 1, T8x * T8y % Spec.p⟩

theorem T8N_rep : RepN T8 T8N := by
  refine ⟨?_, ?_, ?_, ?_⟩ <;> unfold T8N
  · simp
  · simp only [Nat.cast_one, mul_one]; rfl
  · simp only [Nat.cast_one, mul_one]; rfl
  · simp only [cast_mod, Nat.cast_mul, Nat.cast_one, mul_one]; rfl

/-- Coordinates from numbers. -/
theorem coord_of_rep {P : Point d} {q : NQ} (h : RepN P q) {x y : Nat} (hx : x * q.z % p = q.x % p) (hy : y * q.z % p = q.y % p) : P.x = (x : F) ∧ P.y = (y : F) := by
  constructor
  · refine mul_right_cancel₀ h.z0 (h.hx.symm.trans ?_)
    rw [← Nat.cast_mul]
    exact (natCast_eq hx).symm
  · refine mul_right_cancel₀ h.z0 (h.hy.symm.trans ?_)
    rw [← Nat.cast_mul]
    exact (natCast_eq hy).symm

/-- The coordinates of the multiples of the point of order 8 (no line of its own). -/
def torsion : List (Nat × Nat) := [(0, 1), (T8x, T8y), (p - sqrtm1, 0), (T8x, p - T8y), (0, p - 1), (p - T8x, p - T8y), (sqrtm1, 0), (p - T8x, T8y)]

theorem smul_T8 {j : Nat} (h : j < 8) : (j • T8).x = ((torsion.getD j (0, 0)).1 : F) ∧ (j • T8).y = ((torsion.getD j (0, 0)).2 : F) := by
  have r := goN_rep T8N_rep 3 j h
  refine coord_of_rep r ?_ ?_
  · clear r; revert h; revert j; decide +kernel
  · clear r; revert h; revert j; decide +kernel

theorem eight_T8 : 8 • T8 = 0 := by
  have h := coord_of_rep (goN_rep T8N_rep 4 8 (by decide)) (x := 0) (y := 1) (by decide +kernel) (by decide +kernel)
  exact Point.ext (by rw [h.1, Point.zero_x, Nat.cast_zero]) (by rw [h.2, Point.zero_y, Nat.cast_one])

theorem order_T8 : addOrderOf T8 = 8 := by
  refine addOrderOf_eq_prime_pow (p := 2) (n := 2) (fun h => ?_) eight_T8
  have := (smul_T8 (j := 4) (by decide)).2
  rw [show (2 ^ 2 : Nat) = 4 from rfl] at h
  rw [h, Point.zero_y] at this
  have h1 : ((1 : Nat) : F) = ((p - 1 : Nat) : F) := by rw [Nat.cast_one]; exact this
  rw [ZMod.natCast_eq_natCast_iff] at h1
  exact absurd h1 (by unfold Nat.ModEq; decide +kernel)

theorem order_sum : addOrderOf (T8 + B) = 8 * L := by
  rw [(AddCommute.all T8 B).addOrderOf_add_eq_mul_addOrderOf_of_coprime (by rw [order_T8, ed_order]; decide +kernel), order_T8, ed_order]

theorem card_points : Nat.card (Point d) = 8 * L := by
  have h1 : 8 * L ∣ Nat.card (Point d) := order_sum ▸ addOrderOf_dvd_natCard _
  have h2 := card_le
  have h3 : 0 < Nat.card (Point d) := Nat.card_pos
  obtain ⟨k, hk⟩ := h1
  have h4 : 2 * p < 8 * L * 2 := by decide +kernel
  rcases k with _ | _ | k
  · omega
  · omega
  · rw [hk] at h2
    have : 8 * L * 2 ≤ 8 * L * (k + 1 + 1) := Nat.mul_le_mul_left _ (by omega)
    omega

/-- The group is cyclic. -/
theorem mem_multiples (P : Point d) : P ∈ AddSubgroup.zmultiples (T8 + B) := by
  have : AddSubgroup.zmultiples (T8 + B) = ⊤ := by
    refine AddSubgroup.eq_top_of_card_eq _ ?_
    rw [Nat.card_zmultiples, order_sum, card_points]
  rw [this]
  exact AddSubgroup.mem_top P

/-- Every point is a multiple of the point of order 8 plus a multiple of the base point. -/
theorem exists_parts (P : Point d) : ∃ j a : Nat, j < 8 ∧ a < L ∧ P = j • T8 + a • B := by
  obtain ⟨k, rfl⟩ := AddSubgroup.mem_zmultiples_iff.1 (mem_multiples P)
  refine ⟨(k % 8).toNat, (k % L).toNat, ?_, ?_, ?_⟩
  · omega
  · have h1 := Int.emod_nonneg k (b := (L : Int)) (by decide +kernel)
    have h2 := Int.emod_lt_of_pos k (b := (L : Int)) (by decide +kernel)
    omega
  · rw [smul_add]
    congr 1
    · rw [← natCast_zsmul, Int.toNat_of_nonneg (Int.emod_nonneg _ (by decide))]
      have := mod_addOrderOf_zsmul T8 k
      rw [order_T8] at this
      exact this.symm
    · rw [← natCast_zsmul, Int.toNat_of_nonneg (Int.emod_nonneg _ (by decide +kernel))]
      have := mod_addOrderOf_zsmul B k
      rw [ed_order] at this
      exact this.symm

theorem parts_unique {j a j' a' : Nat} : j • T8 + a • B = j' • T8 + a' • B ↔ j % 8 = j' % 8 ∧ a % L = a' % L := by
  have hL : addOrderOf B = L := ed_order
  constructor
  · intro h
    have h8 : (8 * a) • B = (8 * a') • B := by
      have := congrArg (fun P => 8 • P) h
      simp only [smul_add] at this
      rw [smul_comm 8 j, smul_comm 8 j', eight_T8, smul_zero, smul_zero, zero_add, zero_add, ← mul_smul, ← mul_smul] at this
      exact this
    have e : a ≡ a' [MOD L] := by
      rw [nsmul_eq_nsmul_iff_modEq, ed_order] at h8
      exact Nat.ModEq.cancel_left_of_coprime (by decide +kernel) h8
    refine ⟨?_, e⟩
    have : a • B = a' • B := by rw [nsmul_eq_nsmul_iff_modEq, ed_order]; exact e
    rw [this] at h
    have h := add_right_cancel h
    rw [nsmul_eq_nsmul_iff_modEq, order_T8] at h
    exact h
  · rintro ⟨h1, h2⟩
    have e1 : j • T8 = j' • T8 := by rw [nsmul_eq_nsmul_iff_modEq, order_T8]; exact h1
    have e2 : a • B = a' • B := by rw [nsmul_eq_nsmul_iff_modEq, ed_order]; exact h2
    rw [e1, e2]

theorem parts_zero {j a : Nat} : j • T8 + a • B = 0 ↔ j % 8 = 0 ∧ a % L = 0 := by
  have := parts_unique (j := j) (a := a) (j' := 0) (a' := 0)
  rw [zero_smul, zero_smul, add_zero] at this
  rw [this, Nat.zero_mod, Nat.zero_mod]

/-- The points of order dividing 8. -/
theorem eight_iff (P : Point d) : 8 • P = 0 ↔ ∃ j < 8, P = j • T8 := by
  constructor
  · intro h
    obtain ⟨j, a, hj, ha, rfl⟩ := exists_parts P
    rw [smul_add, ← mul_smul, ← mul_smul, parts_zero] at h
    have : L ∣ a := (Nat.Coprime.dvd_mul_left (by decide +kernel : Nat.Coprime L 8)).1 (Nat.dvd_of_mod_eq_zero h.2)
    obtain rfl : a = 0 := Nat.eq_zero_of_dvd_of_lt this ha
    exact ⟨j, hj, by rw [zero_smul, add_zero]⟩
  · rintro ⟨j, -, rfl⟩
    rw [smul_comm, eight_T8, smul_zero]

/-- The multiples of the base point. -/
theorem L_smul_iff (P : Point d) : L • P = 0 ↔ ∃ a < L, P = a • B := by
  constructor
  · intro h
    obtain ⟨j, a, hj, ha, rfl⟩ := exists_parts P
    rw [smul_add, ← mul_smul, ← mul_smul, parts_zero] at h
    have : 8 ∣ j := (Nat.Coprime.dvd_mul_left (by decide +kernel : Nat.Coprime 8 L)).1 (Nat.dvd_of_mod_eq_zero h.1)
    obtain rfl : j = 0 := Nat.eq_zero_of_dvd_of_lt this hj
    exact ⟨a, ha, by rw [zero_smul, zero_add]⟩
  · rintro ⟨a, -, rfl⟩
    rw [smul_comm, L_smul_B, smul_zero]

end Verif.Ed25519
