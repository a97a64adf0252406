import Verif.Nacl.Order

/-!
The points of Curve25519 and of its twist as groups, by the Frobenius map over the algebraic closure (lemmas for C112).
-/

namespace Verif.Nacl
open Verif Verif.Ed25519 Verif.Nacl.Spec WeierstrassCurve
open Verif.Ed25519.Spec (leVal leBytes F p L natCast_eq natCast_ne_zero)

/-- The order of the large subgroup of the twist of Curve25519 (no line of its own). -/
abbrev LT : Nat := 2 ^ 253 - 55484635554744707071703875581767296995

theorem LT_eq : 2 * p + 2 = 8 * L + 4 * LT := by decide +kernel

instance : CharP Kbar p := charP_of_injective_algebraMap (algebraMap F Kbar).injective p

theorem fixed {x : Kbar} : x ^ p = x ↔ ∃ u : F, algebraMap F Kbar u = x := by
  rw [← Subfield.mem_bot_iff_pow_eq_self Kbar p, ← ZMod.fieldRange_castHom_eq_bot p, RingHom.mem_fieldRange]
  have : ZMod.castHom (dvd_refl p) Kbar = algebraMap F Kbar := Subsingleton.elim _ _
  rw [this]

theorem base_eq : (mont F).baseChange Kbar = mont Kbar := by
  apply WeierstrassCurve.ext <;> simp [mont]
  exact map_ofNat (algebraMap F Kbar) 486662

theorem exists_frob : ∃ φ : (mont Kbar).Point →+ (mont Kbar).Point, ∀ x y (h : (mont Kbar).Nonsingular x y), ∃ h', φ (.some x y h) = .some (x ^ p) (y ^ p) h' := by
  have key : ∀ W : Affine Kbar, (mont F).baseChange Kbar = W → ∃ φ : W.Point →+ W.Point, ∀ x y (h : W.Nonsingular x y), ∃ h', φ (.some x y h) = .some (x ^ p) (y ^ p) h' := by
    rintro _ rfl
    have gen : ∀ f : Kbar →ₐ[F] Kbar, (∀ z, f z = z ^ p) → ∀ x y (h : ((mont F).baseChange Kbar).Nonsingular x y), ∃ h', Affine.Point.map f (.some x y h) = .some (x ^ p) (y ^ p) h' := by
      intro f hf x y h
      rw [Affine.Point.map_some]
      generalize_proofs h1
      revert h1
      rw [hf x, hf y]
      exact fun h1 => ⟨h1, rfl⟩
    have hq : Fintype.card F = p := ZMod.card p
    exact ⟨Affine.Point.map (FiniteField.frobeniusAlgHom F Kbar), gen _ (fun z => by rw [FiniteField.coe_frobeniusAlgHom, hq])⟩
  exact key _ base_eq

/-- The Frobenius map on points (no line of its own). -/
noncomputable def frob : (mont Kbar).Point →+ (mont Kbar).Point := exists_frob.choose
theorem frob_some (x y) (h : (mont Kbar).Nonsingular x y) : ∃ h', frob (.some x y h) = .some (x ^ p) (y ^ p) h' := exists_frob.choose_spec x y h

/-- The points of the curve over the field (no line of its own). -/
noncomputable def E1 : AddSubgroup (mont Kbar).Point := (frob - AddMonoidHom.id _).ker
/-- The points of the twist (no line of its own). -/
noncomputable def E2 : AddSubgroup (mont Kbar).Point := (frob + AddMonoidHom.id _).ker

theorem mem_E1 {x y : Kbar} {h : (mont Kbar).Nonsingular x y} : Affine.Point.some x y h ∈ E1 ↔ x ^ p = x ∧ y ^ p = y := by
  obtain ⟨h', e⟩ := frob_some x y h
  unfold E1
  rw [AddMonoidHom.mem_ker, AddMonoidHom.sub_apply, AddMonoidHom.id_apply, sub_eq_zero, e, Affine.Point.some.injEq]

theorem mem_E2 {x y : Kbar} {h : (mont Kbar).Nonsingular x y} : Affine.Point.some x y h ∈ E2 ↔ x ^ p = x ∧ y ^ p = -y := by
  obtain ⟨h', e⟩ := frob_some x y h
  unfold E2
  rw [AddMonoidHom.mem_ker, AddMonoidHom.add_apply, AddMonoidHom.id_apply, add_eq_zero_iff_eq_neg, e, Affine.Point.neg_some, Affine.Point.some.injEq, negY_eq]

theorem two_ne : (2 : Kbar) ≠ 0 := by have := num_ne (K := Kbar) (n := 2) (by decide +kernel); exact_mod_cast this

theorem map_rhs (u : F) : algebraMap F Kbar (rhs u) = (algebraMap F Kbar u) ^ 3 + 486662 * (algebraMap F Kbar u) ^ 2 + algebraMap F Kbar u := by
  unfold rhs
  simp only [map_add, map_mul, map_pow, map_ofNat]

theorem y_square {u : F} {y : Kbar} (h : y ^ 2 = algebraMap F Kbar (rhs u)) : y ^ p = y ↔ IsSquare (rhs u) := by
  rw [fixed]
  constructor
  · rintro ⟨v, rfl⟩
    refine ⟨v, (algebraMap F Kbar).injective ?_⟩
    rw [← h, map_mul, pow_two]
  · rintro ⟨w, hw⟩
    have : (y - algebraMap F Kbar w) * (y + algebraMap F Kbar w) = 0 := by
      rw [hw, map_mul] at h
      linear_combination h
    rcases mul_eq_zero.1 this with h1 | h1
    · exact ⟨w, by linear_combination -h1⟩
    · exact ⟨-w, by rw [map_neg]; linear_combination -h1⟩

theorem y_nonsquare {u : F} {y : Kbar} (h : y ^ 2 = algebraMap F Kbar (rhs u)) : y ^ p = -y ↔ u = 0 ∨ ¬ IsSquare (rhs u) := by
  have h2 : (y ^ p - y) * (y ^ p + y) = 0 := by
    have : (y ^ p) ^ 2 = y ^ 2 := by
      rw [← pow_mul, Nat.mul_comm, pow_mul, h, fixed]
      exact ⟨_, rfl⟩
    linear_combination this
  constructor
  · intro hy
    by_cases hs : IsSquare (rhs u)
    · left
      have h3 := (y_square h).2 hs
      have h4 : y = 0 := by
        have : 2 * y = 0 := by linear_combination hy - h3
        exact (mul_eq_zero.1 this).resolve_left two_ne
      rw [← rhs_zero]
      apply (algebraMap F Kbar).injective
      rw [← h, h4, map_zero]
      ring
    · exact Or.inr hs
  · rintro (h0 | hs)
    · rw [h0, rhs_zero.2 rfl, map_zero] at h
      have : y = 0 := pow_eq_zero_iff (by norm_num) |>.1 h
      rw [this, zero_pow (by decide +kernel), neg_zero]
    · rcases mul_eq_zero.1 h2 with h3 | h3
      · exact absurd ((y_square h).1 (by linear_combination h3)) hs
      · linear_combination h3

/-! ### Counting -/

/-- The finite points whose x-coordinate is in a set of field elements (no line of its own). -/
def Over (U : Set F) : Set (mont Kbar).Point := {Q | ∃ u ∈ U, ∃ y h, Q = .some (algebraMap F Kbar u) y h}

theorem rhs_root (u : F) : ∃ y : Kbar, y ^ 2 = algebraMap F Kbar (rhs u) := IsAlgClosed.exists_pow_nat_eq _ (by norm_num)

theorem card_over {U : Set F} (hU : ∀ u ∈ U, u ≠ 0) : (Over U).ncard = 2 * U.ncard := by
  choose y hy using rhs_root
  have hn : ∀ (u : F) (b : Bool), (mont Kbar).Nonsingular (algebraMap F Kbar u) (if b then y u else -y u) := fun u b =>
    mont_nonsingular (by rw [← map_rhs, ← hy u]; split <;> ring)
  have h0 : ∀ u ∈ U, y u ≠ 0 := by
    intro u hu h
    apply hU u hu
    rw [← rhs_zero]
    apply (algebraMap F Kbar).injective
    rw [← hy u, h, map_zero]
    ring
  have hc : (U ×ˢ (Set.univ : Set Bool)).ncard = 2 * U.ncard := by
    rw [Set.ncard_prod, Set.ncard_univ, Nat.card_eq_fintype_card, Fintype.card_bool, Nat.mul_comm]
  rw [← hc]
  symm
  refine Set.ncard_congr (fun ub _ => Affine.Point.some _ _ (hn ub.1 ub.2)) ?_ ?_ ?_
  · rintro ⟨u, b⟩ ⟨hu, -⟩
    exact ⟨u, hu, _, _, rfl⟩
  · rintro ⟨u, b⟩ ⟨v, c⟩ ⟨hu, -⟩ ⟨hv, -⟩ h
    simp only [Affine.Point.some.injEq] at h
    obtain ⟨h1, h2⟩ := h
    have h1 := (algebraMap F Kbar).injective h1
    subst h1
    have h3 : y u ≠ -y u := fun h => h0 u hu ((mul_eq_zero.1 (show 2 * y u = 0 by linear_combination h)).resolve_left two_ne)
    have h4 : -y u ≠ y u := fun h => h3 h.symm
    cases b <;> cases c <;> simp_all
  · rintro Q ⟨u, hu, z, h, rfl⟩
    have hz : (z - y u) * (z + y u) = 0 := by
      have h1 := eqn h
      rw [← map_rhs, ← hy u] at h1
      linear_combination h1
    rcases mul_eq_zero.1 hz with h1 | h1
    · refine ⟨⟨u, true⟩, ⟨hu, trivial⟩, ?_⟩
      simp only [Affine.Point.some.injEq, if_true, true_and]
      linear_combination -h1
    · refine ⟨⟨u, false⟩, ⟨hu, trivial⟩, ?_⟩
      simp only [Affine.Point.some.injEq, true_and, Bool.false_eq_true, if_false]
      linear_combination -h1

theorem ns00 : (mont Kbar).Nonsingular 0 0 := mont_nonsingular (by ring)

theorem card_two {U : Set F} (hU : ∀ u ∈ U, u ≠ 0) : (({0, .some 0 0 ns00} : Set (mont Kbar).Point) ∪ Over U).ncard = 2 + 2 * U.ncard := by
  have hne : (0 : (mont Kbar).Point) ≠ .some 0 0 ns00 := by
    intro h
    cases h
  have hd : Disjoint ({0, .some 0 0 ns00} : Set (mont Kbar).Point) (Over U) := by
    rw [Set.disjoint_left]
    rintro Q hQ ⟨u, hu, y, h, rfl⟩
    rcases hQ with hQ | hQ
    · cases hQ
    · simp only [Set.mem_singleton_iff, Affine.Point.some.injEq] at hQ
      exact hU u hu ((algebraMap F Kbar).injective (by rw [hQ.1, map_zero]))
  have hf : (Over U).Finite := by
    by_cases he : U = ∅
    · have : Over U = ∅ := by
        rw [he]
        ext Q
        simp [Over]
      rw [this]
      exact Set.finite_empty
    · apply Set.finite_of_ncard_ne_zero
      rw [card_over hU]
      have : 0 < U.ncard := (Set.ncard_pos (Set.toFinite U)).2 (Set.nonempty_iff_ne_empty.2 he)
      omega
  rw [Set.ncard_union_eq hd (Set.toFinite _) hf, Set.ncard_pair hne, card_over hU]

theorem E1_eq : (E1 : Set (mont Kbar).Point) = {0, .some 0 0 ns00} ∪ Over {u : F | u ≠ 0 ∧ IsSquare (rhs u)} := by
  ext Q
  rcases Q with _ | ⟨x, y, h⟩
  · exact iff_of_true (zero_mem E1) (Or.inl (Or.inl rfl))
  · rw [SetLike.mem_coe, mem_E1]
    constructor
    · rintro ⟨hx, hy⟩
      obtain ⟨u, rfl⟩ := fixed.1 hx
      have he := eqn h
      rw [← map_rhs] at he
      by_cases h0 : u = 0
      · left; right
        rw [h0, rhs_zero.2 rfl, map_zero] at he
        have : y = 0 := pow_eq_zero_iff (by norm_num) |>.1 he
        simp [h0, this]
      · exact Or.inr ⟨u, ⟨h0, (y_square he).1 hy⟩, y, h, rfl⟩
    · rintro ((hQ | hQ) | ⟨u, ⟨h0, hs⟩, z, hz, hQ⟩)
      · cases hQ
      · simp only [Set.mem_singleton_iff, Affine.Point.some.injEq] at hQ
        rw [hQ.1, hQ.2, zero_pow (by decide +kernel)]
        exact ⟨rfl, rfl⟩
      · simp only [Affine.Point.some.injEq] at hQ
        obtain ⟨rfl, rfl⟩ := hQ
        have he := eqn h
        rw [← map_rhs] at he
        exact ⟨fixed.2 ⟨u, rfl⟩, (y_square he).2 hs⟩

theorem E2_eq : (E2 : Set (mont Kbar).Point) = {0, .some 0 0 ns00} ∪ Over {u : F | u ≠ 0 ∧ ¬ IsSquare (rhs u)} := by
  ext Q
  rcases Q with _ | ⟨x, y, h⟩
  · exact iff_of_true (zero_mem E2) (Or.inl (Or.inl rfl))
  · rw [SetLike.mem_coe, mem_E2]
    constructor
    · rintro ⟨hx, hy⟩
      obtain ⟨u, rfl⟩ := fixed.1 hx
      have he := eqn h
      rw [← map_rhs] at he
      by_cases h0 : u = 0
      · left; right
        rw [h0, rhs_zero.2 rfl, map_zero] at he
        have : y = 0 := pow_eq_zero_iff (by norm_num) |>.1 he
        simp [h0, this]
      · exact Or.inr ⟨u, ⟨h0, ((y_nonsquare he).1 hy).resolve_left h0⟩, y, h, rfl⟩
    · rintro ((hQ | hQ) | ⟨u, ⟨h0, hs⟩, z, hz, hQ⟩)
      · cases hQ
      · simp only [Set.mem_singleton_iff, Affine.Point.some.injEq] at hQ
        rw [hQ.1, hQ.2, zero_pow (by decide +kernel), neg_zero]
        exact ⟨rfl, rfl⟩
      · simp only [Affine.Point.some.injEq] at hQ
        obtain ⟨rfl, rfl⟩ := hQ
        have he := eqn h
        rw [← map_rhs] at he
        exact ⟨fixed.2 ⟨u, rfl⟩, (y_nonsquare he).2 (Or.inr hs)⟩

theorem card_E1 : Nat.card E1 = 8 * L := by
  have h : Nat.card E1 = (E1 : Set (mont Kbar).Point).ncard := rfl
  rw [h, E1_eq, card_two (fun u hu => hu.1), card_square]
  have : 0 < L := by decide +kernel
  omega

theorem card_E2 : Nat.card E2 = 4 * LT := by
  have h : Nat.card E2 = (E2 : Set (mont Kbar).Point).ncard := rfl
  rw [h, E2_eq, card_two (fun u hu => hu.1), card_nonsquare]
  have h1 := LT_eq
  have h2 : 4 * L ≤ p := by decide +kernel
  omega

theorem kill {G : Type} [AddCommGroup G] {E : AddSubgroup G} {m : Nat} (hc : Nat.card E = m) {Q : G} (h : Q ∈ E) : m • Q = 0 := by
  have := card_nsmul_eq_zero' (G := E) (x := ⟨Q, h⟩)
  rw [hc] at this
  exact congrArg Subtype.val this

/-- Eight times the prime on the curve, and eight times the other prime on the twist, give zero. -/
theorem kill_curve {u : F} (hs : IsSquare (rhs u)) {Q : (mont Kbar).Point} (hQ : X0 Q = algebraMap F Kbar u) : (8 * L) • Q = 0 := by
  rcases Q with _ | ⟨x, y, h⟩
  · exact kill card_E1 (zero_mem _)
  · have hx : x = algebraMap F Kbar u := hQ
    subst hx
    have he := eqn h
    rw [← map_rhs] at he
    have hm : Affine.Point.some _ y h ∈ E1 := mem_E1.2 ⟨fixed.2 ⟨u, rfl⟩, (y_square he).2 hs⟩
    exact kill card_E1 hm

theorem kill_twist {u : F} (hs : ¬ IsSquare (rhs u)) {Q : (mont Kbar).Point} (hQ : X0 Q = algebraMap F Kbar u) : (4 * LT) • Q = 0 := by
  rcases Q with _ | ⟨x, y, h⟩
  · exact kill card_E2 (zero_mem _)
  · have hx : x = algebraMap F Kbar u := hQ
    subst hx
    have he := eqn h
    rw [← map_rhs] at he
    have hm : Affine.Point.some _ y h ∈ E2 := mem_E2.2 ⟨fixed.2 ⟨u, rfl⟩, (y_nonsquare he).2 (Or.inr hs)⟩
    exact kill card_E2 hm

end Verif.Nacl
