import Verif.Nacl.X25519
import Verif.Nacl.Box
import Mathlib.FieldTheory.IsAlgClosed.AlgebraicClosure

/-! Supporting lemmas: points with a given x-coordinate, points of low order, and the agreement of Diffie and Hellman. -/

namespace Verif.Nacl
open Verif Verif.Ed25519 Verif.Nacl.Spec WeierstrassCurve
open Verif.Ed25519.Spec (leVal leBytes F p)

/-- An algebraic closure of the field. -/
abbrev Kbar := AlgebraicClosure F
/-- Needed by the group law of Mathlib. -/
noncomputable instance : DecidableEq Kbar := Classical.decEq _

theorem mont_nonsingular {K : Type} [Field K] [Algebra F K] {x y : K} (h : y ^ 2 = x ^ 3 + 486662 * x ^ 2 + x) : (mont K).Nonsingular x y := by
  apply (Affine.equation_iff_nonsingular_of_Δ_ne_zero _).mp
  · rw [Affine.equation_iff]
    simp only [mont]
    linear_combination h
  · have h1 : (mont K).Δ = ((16 * 486660 * 486664 : Nat) : K) := by
      simp only [WeierstrassCurve.Δ, WeierstrassCurve.b₂, WeierstrassCurve.b₄, WeierstrassCurve.b₆, WeierstrassCurve.b₈, mont]
      push_cast
      ring
    rw [h1]
    exact num_ne (by decide +kernel)

/-- Over the algebraic closure every u is the x-coordinate of a point. -/
theorem exists_point (u : F) : ∃ Q : (mont Kbar).Point, X0 Q = algebraMap F Kbar u := by
  obtain ⟨y, hy⟩ := IsAlgClosed.exists_pow_nat_eq (n := 2) ((algebraMap F Kbar u) ^ 3 + 486662 * (algebraMap F Kbar u) ^ 2 + algebraMap F Kbar u) (by norm_num)
  exact ⟨.some _ _ (mont_nonsingular hy), rfl⟩

theorem isX25519_unique {s : Nat} {u v v' : F} (h : IsX25519 s u v) (h' : IsX25519 s u v') : v = v' := by
  obtain ⟨Q, hQ⟩ := exists_point u
  apply (algebraMap F Kbar).injective
  rw [← h Kbar Q hQ, h' Kbar Q hQ]

theorem isX25519_comm {s t : Nat} {u v v' w w' : F} (h1 : IsX25519 s u v) (h2 : IsX25519 t v w) (h3 : IsX25519 t u v') (h4 : IsX25519 s v' w') : w = w' := by
  obtain ⟨Q, hQ⟩ := exists_point u
  apply (algebraMap F Kbar).injective
  rw [← h2 Kbar _ (h1 Kbar Q hQ), ← h4 Kbar _ (h3 Kbar Q hQ), smul_smul, smul_smul, Nat.mul_comm]

theorem coordinate_leBytes (v : F) : coordinate (leBytes 32 v.val) = v := by
  unfold coordinate
  have h := fval_lt v
  have h2 : (256 : Nat) ^ 32 = 2 ^ 256 := by norm_num
  rw [leVal_leBytes, Nat.mod_eq_of_lt (a := v.val) (by omega), Nat.mod_eq_of_lt (by omega), ZMod.natCast_zmod_val]

/-! ### Low order -/

/-- Doubling of the ladder, on numbers. -/
def nd (s : Nat × Nat) : Nat × Nat :=
  (((s.1 ^ 2 + (p - 1) * s.2 ^ 2) % p) ^ 2 % p, 4 * s.1 * s.2 * (s.1 ^ 2 + 486662 * s.1 * s.2 + s.2 ^ 2) % p)

theorem cast_pred : ((p - 1 : Nat) : F) = -1 := by
  have h : ((p - 1 + 1 : Nat) : F) = 0 := ZMod.natCast_self p
  push_cast at h
  linear_combination h

theorem nd_cast (s : Nat × Nat) : (((nd s).1 : Nat) : F) = dX s.1 s.2 ∧ (((nd s).2 : Nat) : F) = dZ s.1 s.2 := by
  unfold nd dX dZ
  constructor
  · rw [cast_mod, Nat.cast_pow, cast_mod, Nat.cast_add, Nat.cast_mul, cast_pred]
    push_cast
    ring
  · rw [cast_mod]
    push_cast
    ring

theorem xrep_zero {K : Type} [Field K] {X : K} {P : (mont K).Point} (h : XRep X 0 P) : P = 0 := by
  rcases P with _ | ⟨x, y, hn⟩
  · rfl
  · exact absurd rfl h.2

theorem nd_rep {K : Type} [Field K] [Algebra F K] [DecidableEq K] {s : Nat × Nat} {P : (mont K).Point} (h : XRep (algebraMap F K s.1) (algebraMap F K s.2) P) :
    XRep (algebraMap F K (nd s).1) (algebraMap F K (nd s).2) (P + P) := by
  have n2 : (2 : K) ≠ 0 := by have := num_ne (K := K) (n := 2) (by decide +kernel); exact_mod_cast this
  have n3 : (486664 : K) ≠ 0 := by have := num_ne (K := K) (n := 486664) (by decide +kernel); exact_mod_cast this
  have n4 : (486660 : K) ≠ 0 := by have := num_ne (K := K) (n := 486660) (by decide +kernel); exact_mod_cast this
  rw [(nd_cast s).1, (nd_cast s).2, map_dX, map_dZ]
  exact double_rep n2 n3 n4 h

theorem double_of_zero {K : Type} [Field K] [DecidableEq K] {Q : (mont K).Point} (h : X0 Q = 0) : Q + Q = 0 := by
  rcases Q with _ | ⟨x, y, hn⟩
  · exact add_zero _
  · have hx : x = 0 := h
    have := eqn hn
    rw [hx] at this
    have hy : y = 0 := by
      have : y ^ 2 = 0 := by rw [this]; ring
      exact pow_eq_zero_iff (by norm_num) |>.mp this
    exact Affine.Point.add_self_of_Y_eq (by rw [negY_eq, hy, neg_zero])

theorem low_order {u : Nat} (hu : (nd (nd (nd (u, 1)))).2 = 0) {K : Type} [Field K] [Algebra F K] [DecidableEq K] {Q : (mont K).Point} (hQ : X0 Q = algebraMap F K u) : 8 • Q = 0 := by
  have e8 : 8 • Q = Q + Q + (Q + Q) + (Q + Q + (Q + Q)) := by abel
  rw [e8]
  by_cases h0 : algebraMap F K u = 0
  · rw [h0] at hQ
    rw [double_of_zero hQ, add_zero, add_zero]
  · have h1 : XRep (algebraMap F K ((u, 1) : Nat × Nat).1) (algebraMap F K ((u, 1) : Nat × Nat).2) Q := by
      have := point_of_X0 h0 hQ
      simpa using this
    have h2 := nd_rep (nd_rep (nd_rep h1))
    rw [hu, Nat.cast_zero, map_zero] at h2
    exact xrep_zero h2

theorem scalar_eight (n : Bytes) : scalar n = (2 ^ 251 + leVal n % 2 ^ 254 / 8) * 8 := by
  unfold scalar
  omega

theorem low_result {u : Nat} (hu : (nd (nd (nd (u, 1)))).2 = 0) {n : Bytes} {v : F} (h : IsX25519 (scalar n) u v) : v = 0 := by
  obtain ⟨Q, hQ⟩ := exists_point u
  have := h Kbar Q hQ
  rw [scalar_eight, mul_smul, low_order hu hQ, smul_zero] at this
  exact (algebraMap F Kbar).injective (by rw [← this, map_zero]; rfl)

end Verif.Nacl
