import Verif.Nacl.Frob

/-!
The points of order at most 8, and when two multiples of a point have the same x-coordinate (lemmas for C78 and C112).
-/

namespace Verif.Nacl
open Verif Verif.Ed25519 Verif.Nacl.Spec WeierstrassCurve
open Verif.Ed25519.Spec (leVal leBytes F p L sqrtm1 natCast_eq natCast_ne_zero)

/-- The five coordinates of points of order 1, 2, 4 or 8 on the curve and on the twist (no line of its own). -/
def lowList : List F := [0, 1, -1, (325606250916557431795983626356110631294008115727848805560023387167927233504 : Nat),
  (39382357235489614581723060781553021112529911719440698176882885853963445705823 : Nat)]

theorem dZ_zero {X Z : F} (h : dZ X Z = 0) : X = 0 ∨ Z = 0 := by
  by_cases hz : Z = 0
  · exact Or.inr hz
  left
  unfold dZ at h
  have h4 : (4 : F) ≠ 0 := by
    have := natCast_ne_zero (n := 4) (by decide +kernel)
    exact_mod_cast this
  have hq : X ^ 2 + 486662 * X * Z + Z ^ 2 ≠ 0 := by
    intro hq
    apply quad_ne (X / Z)
    field_simp
    linear_combination hq
  rcases mul_eq_zero.1 h with h | h
  · rcases mul_eq_zero.1 h with h | h
    · exact (mul_eq_zero.1 h).resolve_left h4
    · exact absurd h hz
  · exact absurd h hq

theorem f_rep {X Z : F} {P : (mont Kbar).Point} (h : XRep (algebraMap F Kbar X) (algebraMap F Kbar Z) P) :
    XRep (algebraMap F Kbar (dX X Z)) (algebraMap F Kbar (dZ X Z)) (P + P) := by
  have n3 : (486664 : Kbar) ≠ 0 := by have := num_ne (K := Kbar) (n := 486664) (by decide +kernel); exact_mod_cast this
  have n4 : (486660 : Kbar) ≠ 0 := by have := num_ne (K := Kbar) (n := 486660) (by decide +kernel); exact_mod_cast this
  rw [map_dX, map_dZ]
  exact double_rep two_ne n3 n4 h

theorem dX_zero {X Z : F} (h : dX X Z = 0) : X = Z ∨ X = -Z := by
  unfold dX at h
  have h1 : (X - Z) * (X + Z) = 0 := by
    have := pow_eq_zero_iff (two_ne_zero) |>.1 h
    linear_combination this
  rcases mul_eq_zero.1 h1 with h | h
  · exact Or.inl (by linear_combination h)
  · exact Or.inr (by linear_combination h)

theorem eight_low {u : F} {Q : (mont Kbar).Point} (hQ : X0 Q = algebraMap F Kbar u) (h8 : 8 • Q = 0) : u ∈ lowList := by
  unfold lowList
  by_cases h0 : u = 0
  · simp [h0]
  have e8 : 8 • Q = Q + Q + (Q + Q) + (Q + Q + (Q + Q)) := by abel
  have r1 : XRep (algebraMap F Kbar u) (algebraMap F Kbar 1) Q := by
    rw [map_one]
    exact point_of_X0 (fun h => h0 ((algebraMap F Kbar).injective (by rw [h, map_zero]))) hQ
  have r8 := f_rep (f_rep (f_rep r1))
  rw [← e8, h8] at r8
  have z8 : dZ (dX (dX u 1) (dZ u 1)) (dZ (dX u 1) (dZ u 1)) = 0 := (algebraMap F Kbar).injective (by rw [r8.1, map_zero])
  have n1 : ¬ dZ u 1 = 0 := fun h => (dZ_zero h).elim h0 one_ne_zero
  have one : dX u 1 = 0 → u = 1 ∨ u = -1 := dX_zero
  rcases dZ_zero z8 with h | h
  · rcases dX_zero h with h | h
    · have h1 : ((u - 1) ^ 2 - 2 * c0 * u) * ((u - 1) ^ 2 + 2 * c0 * u) = 0 := by
        unfold dX dZ at h
        linear_combination h - 4 * u ^ 2 * c0_sq
      rcases mul_eq_zero.1 h1 with h2 | h2
      · have s1 : (((325606250916557431795983626356110631294008115727848805560023387167927233504 + 39382357235489614581723060781553021112529911719440698176882885853963445705823 : Nat)) : F) = ((2 + 2 * c0 : Nat) : F) := natCast_eq (by decide +kernel)
        have s2 : (((325606250916557431795983626356110631294008115727848805560023387167927233504 * 39382357235489614581723060781553021112529911719440698176882885853963445705823 : Nat)) : F) = ((1 : Nat) : F) := natCast_eq (by decide +kernel)
        rw [Nat.cast_add, Nat.cast_add, Nat.cast_mul 2, Nat.cast_ofNat (n := 2)] at s1
        rw [Nat.cast_mul, Nat.cast_one] at s2
        generalize ((325606250916557431795983626356110631294008115727848805560023387167927233504 : Nat) : F) = a at s1 s2 ⊢
        generalize ((39382357235489614581723060781553021112529911719440698176882885853963445705823 : Nat) : F) = b at s1 s2 ⊢
        have h3 : (u - a) * (u - b) = 0 := by linear_combination h2 - u * s1 + s2
        rcases mul_eq_zero.1 h3 with h | h
        · have : u = a := by linear_combination h
          simp [this]
        · have : u = b := by linear_combination h
          simp [this]
      · exfalso
        refine not_square (n := (486664 + (p - 2) * c0) % p) (by decide +kernel) (by decide +kernel) ⟨u - (1 - c0), ?_⟩
        have e : (((486664 + (p - 2) * c0) % p : Nat) : F) = 486664 - 2 * c0 := by
          have hp : ((p - 2 : Nat) : F) = -2 := by
            have h : ((p - 2 + 2 : Nat) : F) = 0 := ZMod.natCast_self p
            rw [Nat.cast_add, Nat.cast_ofNat] at h
            linear_combination h
          rw [cast_mod, Nat.cast_add, Nat.cast_mul, hp, Nat.cast_ofNat]
          ring
        rw [e]
        linear_combination -h2 - c0_sq
    · exfalso
      have h1 : (u + 1) ^ 4 = -(4 * 486660 * u ^ 2) := by
        unfold dX dZ at h
        linear_combination h
      have n2 : (2 : F) ≠ 0 := by
        have := natCast_ne_zero (n := 2) (by decide +kernel)
        exact_mod_cast this
      refine not_square (n := 486660) (by decide +kernel) (by decide +kernel) ⟨(u + 1) ^ 2 / (sqrtm1 * (2 * u)), ?_⟩
      rw [div_mul_div_comm, eq_div_iff (mul_ne_zero (mul_ne_zero i_ne (mul_ne_zero n2 h0)) (mul_ne_zero i_ne (mul_ne_zero n2 h0))), Nat.cast_ofNat]
      linear_combination -h1 + 4 * 486660 * u ^ 2 * i_sq
  · rcases dZ_zero h with h | h
    · rcases one h with h | h <;> simp [h]
    · exact absurd h n1

/-! ### Multiples -/

theorem gcd_kill {G : Type} [AddCommGroup G] {a b : Nat} {Q : G} (ha : a • Q = 0) (hb : b • Q = 0) : Nat.gcd a b • Q = 0 :=
  addOrderOf_dvd_iff_nsmul_eq_zero.1 (Nat.dvd_gcd (addOrderOf_dvd_iff_nsmul_eq_zero.2 ha) (addOrderOf_dvd_iff_nsmul_eq_zero.2 hb))

/-- A multiple of 8 that kills a point is a multiple of the prime, or 8 kills the point. -/
theorem prime_or_eight {G : Type} [AddCommGroup G] {r : Nat} (hr : Nat.Prime r) {Q : G} (h : (8 * r) • Q = 0) {k : Nat} (hk : (8 * k) • Q = 0) : r ∣ k ∨ 8 • Q = 0 := by
  by_cases hd : r ∣ k
  · exact Or.inl hd
  right
  have := gcd_kill hk h
  rwa [Nat.gcd_mul_left, Nat.Coprime.gcd_eq_one (Nat.Coprime.symm ((Nat.Prime.coprime_iff_not_dvd hr).2 hd)), Nat.mul_one] at this

/-- The prime of the curve or twist on which u lies (no line of its own). -/
noncomputable def primeOf (u : F) : Nat := if IsSquare (u ^ 3 + 486662 * u ^ 2 + u) then L else LT

theorem primeOf_prime (u : F) : (primeOf u).Prime := by
  unfold primeOf
  split
  · exact Ed25519.prime_L
  · exact prime_T

theorem primeOf_bounds (u : F) : 2 ^ 252 < primeOf u ∧ primeOf u < 2 ^ 253 ∧ 2 ^ 253 < 2 * primeOf u := by
  unfold primeOf
  split <;> decide +kernel

theorem primeOf_kill {u : F} {Q : (mont Kbar).Point} (hQ : X0 Q = algebraMap F Kbar u) : (8 * primeOf u) • Q = 0 := by
  unfold primeOf
  split
  · rename_i h
    exact kill_curve h hQ
  · rename_i h
    rw [show 8 * LT = 2 * (4 * LT) from rfl, mul_smul, kill_twist h hQ, nsmul_zero]

theorem same_X0 {P R : (mont Kbar).Point} (hP : X0 P ≠ 0) (h : X0 P = X0 R) : P = R ∨ P = -R := by
  rcases P with _ | ⟨x, y, hn⟩
  · exact absurd rfl hP
  rcases R with _ | ⟨x', y', hn'⟩
  · exact absurd h hP
  have hx : x = x' := h
  subst hx
  have h1 : (y - y') * (y + y') = 0 := by linear_combination eqn hn - eqn hn'
  rcases mul_eq_zero.1 h1 with h | h
  · left
    rw [Affine.Point.some.injEq]
    exact ⟨rfl, by linear_combination h⟩
  · right
    rw [Affine.Point.neg_some, Affine.Point.some.injEq, negY_eq]
    exact ⟨rfl, by linear_combination h⟩

theorem X0_neg (P : (mont Kbar).Point) : X0 (-P) = X0 P := by
  rcases P with _ | ⟨x, y, hn⟩ <;> rfl

theorem zero_result {k : Nat} (h0 : 0 < k) (h1 : k < 2 ^ 252) {u : F} {Q : (mont Kbar).Point} (hQ : X0 Q = algebraMap F Kbar u) (hz : X0 ((8 * k) • Q) = 0) : u ∈ lowList := by
  have h2 := double_of_zero hz
  rw [← two_smul Nat, smul_smul, show 2 * (8 * k) = 8 * (2 * k) by ring] at h2
  obtain ⟨b1, b2, b3⟩ := primeOf_bounds u
  rcases prime_or_eight (primeOf_prime u) (primeOf_kill hQ) h2 with h | h
  · rcases (Nat.Prime.dvd_mul (primeOf_prime u)).1 h with h | h
    · have := Nat.le_of_dvd (by norm_num) h
      omega
    · have := Nat.le_of_dvd h0 h
      omega
  · exact eight_low hQ h

theorem same_result {k j : Nat} (h0 : 2 ^ 251 ≤ k) (h1 : k < 2 ^ 252) (h0' : 2 ^ 251 ≤ j) (h1' : j < 2 ^ 252) {u : F} (hu : u ∉ lowList) {Q : (mont Kbar).Point}
    (hQ : X0 Q = algebraMap F Kbar u) : X0 ((8 * k) • Q) = X0 ((8 * j) • Q) ↔ k = j ∨ k + j = primeOf u := by
  obtain ⟨b1, b2, b3⟩ := primeOf_bounds u
  have hr := primeOf_prime u
  have hkill := primeOf_kill hQ
  generalize primeOf u = r at *
  constructor
  · intro h
    rcases same_X0 (fun hz => hu (zero_result (by omega) h1 hQ hz)) h with h | h
    · left
      wlog hle : j ≤ k generalizing k j
      · exact (this h0' h1' h0 h1 (by rw [h]) h.symm (by omega)).symm
      · have e : (8 * (k - j)) • Q = 0 := by
          have : (8 * k) • Q = (8 * (k - j)) • Q + (8 * j) • Q := by rw [← add_smul]; congr 1; omega
          rw [this] at h
          exact add_eq_right.1 h
        rcases prime_or_eight hr hkill e with h | h
        · by_contra hne
          have := Nat.le_of_dvd (by omega) h
          omega
        · exact absurd (eight_low hQ h) hu
    · right
      have e : (8 * (k + j)) • Q = 0 := by rw [Nat.mul_add, add_smul, h, neg_add_cancel]
      rcases prime_or_eight hr hkill e with h | h
      · obtain ⟨c, hc⟩ := h
        have : c = 1 := by
          rcases Nat.lt_or_ge c 2 with h2 | h2
          · rcases Nat.lt_or_ge c 1 with h3 | h3
            · have : c = 0 := by omega
              rw [this] at hc
              omega
            · omega
          · have : r * 2 ≤ r * c := Nat.mul_le_mul_left r h2
            omega
        rw [hc, this, Nat.mul_one]
      · exact absurd (eight_low hQ h) hu
  · rintro (rfl | h)
    · rfl
    · have e : (8 * k) • Q = -((8 * j) • Q) := by
        rw [eq_neg_iff_add_eq_zero, ← add_smul, ← Nat.mul_add, h, hkill]
      rw [e, X0_neg]

end Verif.Nacl
