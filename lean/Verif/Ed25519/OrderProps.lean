import Verif.Ed25519.Order
import Verif.Ed25519.BalanceProps

/-!
The property C111: the group of the curve has 8 L elements; which public keys exist and which of them have small order; acceptance under any public key.
-/

namespace Verif.Ed25519
open Verif Spec

/-- C111: the curve has exactly 8 L points, and every point is in exactly one way j T + a B with j < 8 and a < L, where T is the point of order 8 with the coordinates `T8x`
and `T8y` and B the base point of the code. -/
theorem ed_group : Nat.card (Point d) = 8 * L ∧ addOrderOf T8 = 8 ∧ ∀ P : Point d, ∃! q : Nat × Nat, q.1 < 8 ∧ q.2 < L ∧ P = q.1 • T8 + q.2 • B := by
  refine ⟨card_points, order_T8, fun P => ?_⟩
  obtain ⟨j, a, hj, ha, rfl⟩ := exists_parts P
  refine ⟨(j, a), ⟨hj, ha, rfl⟩, ?_⟩
  rintro ⟨j', a'⟩ ⟨hj', ha', h⟩
  dsimp only at hj' ha' h
  obtain ⟨h1, h2⟩ := parts_unique.1 h
  rw [Nat.mod_eq_of_lt hj, Nat.mod_eq_of_lt hj'] at h1
  rw [Nat.mod_eq_of_lt ha, Nat.mod_eq_of_lt ha'] at h2
  rw [h1, h2]

theorem decodes_of_y {pk : Bytes} (hl : pk.length = 32) {P : Point d} (h : P.y = ((leVal pk % 2 ^ 255 : Nat) : F)) : Decodes pk P ∨ Decodes pk (-P) := by
  have hlt : leVal pk / 2 ^ 255 < 2 := by
    have := leVal_lt pk
    rw [hl] at this
    norm_num at this ⊢
    omega
  by_cases h0 : P.x = 0
  · exact .inl ⟨h, .inr h0⟩
  · by_cases h1 : P.x.val % 2 = leVal pk / 2 ^ 255
    · exact .inl ⟨h, .inl h1⟩
    · refine .inr ⟨h, .inl ?_⟩
      rw [Point.neg_x, neg_val h0]
      have := fval_lt P.x
      have := p_odd
      have hp : p = 2 ^ 255 - 19 := rfl
      omega

theorem small_y (P : Point d) : 8 • P = 0 ↔ P.y = 0 ∨ P.y = 1 ∨ P.y = -1 ∨ P.y = (T8y : F) ∨ P.y = -(T8y : F) := by
  have key : ∀ j < 8, (j • T8).y = 0 ∨ (j • T8).y = 1 ∨ (j • T8).y = -1 ∨ (j • T8).y = (T8y : F) ∨ (j • T8).y = -(T8y : F) := by
    have c1 : ((p - 1 : Nat) : F) = -1 := by rw [Nat.cast_sub (by decide +kernel), ZMod.natCast_self, Nat.cast_one, zero_sub]
    have c2 : ((p - T8y : Nat) : F) = -(T8y : F) := by rw [Nat.cast_sub (by decide +kernel), ZMod.natCast_self, zero_sub]
    intro j hj
    have h := (smul_T8 hj).2
    interval_cases j
    · right; left; simpa [torsion] using h
    · right; right; right; left; exact h
    · left; simpa [torsion] using h
    · right; right; right; right; rw [← c2]; exact h
    · right; right; left; rw [← c1]; exact h
    · right; right; right; right; rw [← c2]; exact h
    · left; simpa [torsion] using h
    · right; right; right; left; exact h
  have same : ∀ {Q : Point d}, 8 • Q = 0 → P.y = Q.y → 8 • P = 0 := by
    intro Q hQ hy
    by_cases hx : P.x.val % 2 = Q.x.val % 2
    · rw [y_parity_inj hy hx]; exact hQ
    · by_cases h0 : Q.x = 0
      · have e := (on_iff _ _).1 P.on
        have e' := (on_iff _ _).1 Q.on
        rw [hy, ← e', h0] at e
        have : P.x * P.x = 0 * 0 := mul_right_cancel₀ (den_ne Q.y) e
        have hP : P.x = 0 := by simpa using this
        rw [y_parity_inj hy (by rw [hP, h0])]
        exact hQ
      · have : P = -Q := y_parity_inj hy (by
          rw [Point.neg_x, neg_val h0]
          have := fval_lt Q.x
          have := p_odd
          have hp : p = 2 ^ 255 - 19 := rfl
          omega)
        rw [this, smul_neg, hQ, neg_zero]
  constructor
  · intro h
    obtain ⟨j, hj, rfl⟩ := (eight_iff P).1 h
    exact key j hj
  · have t : ∀ j : Nat, 8 • (j • T8) = 0 := fun j => by rw [smul_comm, eight_T8, smul_zero]
    have c1 : ((p - 1 : Nat) : F) = -1 := by rw [Nat.cast_sub (by decide +kernel), ZMod.natCast_self, Nat.cast_one, zero_sub]
    have c2 : ((p - T8y : Nat) : F) = -(T8y : F) := by rw [Nat.cast_sub (by decide +kernel), ZMod.natCast_self, zero_sub]
    rintro (h | h | h | h | h)
    · exact same (t 2) (by rw [(smul_T8 (j := 2) (by decide)).2, h]; simp [torsion])
    · exact same (t 0) (by rw [(smul_T8 (j := 0) (by decide)).2, h]; simp [torsion])
    · exact same (t 4) (by rw [(smul_T8 (j := 4) (by decide)).2, h, ← c1]; rfl)
    · exact same (t 1) (by rw [(smul_T8 (j := 1) (by decide)).2, h]; rfl)
    · exact same (t 3) (by rw [(smul_T8 (j := 3) (by decide)).2, h, ← c2]; rfl)

/-- C111: the public keys of small order.  A string of 32 bytes stands for a point of order 1, 2, 4 or 8 exactly when its low 255 bits are one of seven numbers; so there are 14 such
strings, six of them not canonical. -/
theorem ed_small_order_keys {pk : Bytes} (hl : pk.length = 32) : (∃ A, Decodes pk A ∧ 8 • A = 0) ↔
    leVal pk % 2 ^ 255 ∈ [0, 1, p - 1, p, p + 1, 55188659117513257062467267217118295137698188065244968500265048394206261417927,
      2707385501144840649318225287225658788936804267575313519463743609750303402022] := by
  have step : (∃ A, Decodes pk A ∧ 8 • A = 0) ↔ ∃ j ∈ [0, 1, p - 1, T8y, p - T8y], leVal pk % 2 ^ 255 % p = j := by
    have c1 : ((p - 1 : Nat) : F) = -1 := by rw [Nat.cast_sub (by decide +kernel), ZMod.natCast_self, Nat.cast_one, zero_sub]
    have c2 : ((p - T8y : Nat) : F) = -(T8y : F) := by rw [Nat.cast_sub (by decide +kernel), ZMod.natCast_self, zero_sub]
    have lt : ∀ j ∈ [0, 1, p - 1, T8y, p - T8y], j % p = j := by decide +kernel
    have cast : ∀ j ∈ [0, 1, p - 1, T8y, p - T8y], (((leVal pk % 2 ^ 255 : Nat) : F) = (j : F) ↔ leVal pk % 2 ^ 255 % p = j) := fun j hj => by
      rw [ZMod.natCast_eq_natCast_iff, Nat.ModEq, lt j hj]
    have y_iff : ∀ y : F, (y = 0 ∨ y = 1 ∨ y = -1 ∨ y = (T8y : F) ∨ y = -(T8y : F)) ↔ ∃ j ∈ [0, 1, p - 1, T8y, p - T8y], y = (j : F) := fun y => by
      simp only [List.mem_cons, List.not_mem_nil, or_false, exists_eq_or_imp, exists_eq_left, c1, c2, Nat.cast_zero, Nat.cast_one]
    constructor
    · rintro ⟨A, hA, h8⟩
      obtain ⟨j, hj, e⟩ := (y_iff _).1 ((small_y A).1 h8)
      rw [hA.1] at e
      exact ⟨j, hj, (cast j hj).1 e⟩
    · rintro ⟨j, hj, e⟩
      have e' := (cast j hj).2 e
      have hP : ∃ P : Point d, 8 • P = 0 ∧ P.y = (j : F) := by
        have t : ∀ j : Nat, 8 • (j • T8) = 0 := fun j => by rw [smul_comm, eight_T8, smul_zero]
        simp only [List.mem_cons, List.not_mem_nil, or_false] at hj
        rcases hj with rfl | rfl | rfl | rfl | rfl
        · exact ⟨2 • T8, t 2, (smul_T8 (j := 2) (by decide)).2⟩
        · exact ⟨0 • T8, t 0, (smul_T8 (j := 0) (by decide)).2⟩
        · exact ⟨4 • T8, t 4, (smul_T8 (j := 4) (by decide)).2⟩
        · exact ⟨1 • T8, t 1, (smul_T8 (j := 1) (by decide)).2⟩
        · exact ⟨3 • T8, t 3, (smul_T8 (j := 3) (by decide)).2⟩
      obtain ⟨P, h8, hy⟩ := hP
      rcases decodes_of_y hl (hy.trans e'.symm) with h | h
      · exact ⟨P, h, h8⟩
      · exact ⟨-P, h, by rw [smul_neg, h8, neg_zero]⟩
  rw [step]
  have hv : leVal pk % 2 ^ 255 < 2 ^ 255 := Nat.mod_lt _ (by decide)
  generalize leVal pk % 2 ^ 255 = v at hv
  have hp : p = 2 ^ 255 - 19 := rfl
  simp only [List.mem_cons, List.not_mem_nil, or_false, exists_eq_or_imp, exists_eq_left, T8y, hp]
  norm_num at hv ⊢
  omega

/-- All seven numbers occur, as low bits of a string of 32 bytes: here the one of order 8 (tweetnacl/tweetnacl.c:760-791). -/
example : ∃ A, Decodes (leBytes 32 (2 ^ 255 + 55188659117513257062467267217118295137698188065244968500265048394206261417927)) A ∧ 8 • A = 0 :=
  (ed_small_order_keys (length_leBytes _ _)).2 (by rw [leVal_leBytes]; decide +kernel)

/-- C111: no generated key has small order: the point of a generated public key has the exact order L, and the low 255 bits of the key are none of the seven numbers. -/
theorem ed_generated_order (seed : Bytes) : (∃ A, Decodes (publicKey seed) A ∧ addOrderOf A = L) ∧ ¬ ∃ A, Decodes (publicKey seed) A ∧ 8 • A = 0 := by
  have hB := ed_order
  have hne : ¬ L ∣ scalar seed := by
    rintro ⟨k, hk⟩
    unfold scalar at hk
    have h2 : leVal ((sha512 seed).take 32) / 8 % 2 ^ 251 < 2 ^ 251 := Nat.mod_lt _ (by decide)
    generalize leVal ((sha512 seed).take 32) / 8 % 2 ^ 251 = v at hk h2
    have h8 : 8 ∣ L * k := by rw [← hk]; exact Dvd.intro (2 ^ 251 + v) (by omega)
    obtain ⟨c, rfl⟩ := (Nat.Coprime.dvd_mul_left (by decide +kernel : Nat.Coprime 8 L)).1 h8
    unfold L at hk
    norm_num at hk h2
    omega
  have hA : addOrderOf (scalar seed • B) = L := by
    refine addOrderOf_eq_prime (by rw [smul_comm, L_smul_B, smul_zero]) fun h => hne ?_
    rw [← hB]
    exact addOrderOf_dvd_iff_nsmul_eq_zero.2 h
  refine ⟨⟨_, decodes_encode _, hA⟩, ?_⟩
  rintro ⟨A, h1, h8⟩
  rw [decodes_unique h1 (decodes_encode _)] at h8
  have := addOrderOf_dvd_iff_nsmul_eq_zero.2 h8
  rw [hA] at this
  exact absurd (Nat.le_of_dvd (by decide) this) (by decide +kernel)

/-- C111: acceptance under any public key.  A signed message is accepted under 32 bytes `pk` exactly when `pk` stands for a point j T + a B and, with h the hash of R, `pk` and the message,
the first 32 bytes encode -h j T + r B for some r < L, and S = r + h a modulo L. -/
theorem ed_accepted_any_key {m sm pk : Bytes} {l n : Nat} (hp : pk.length = 32) (hn : n < 2 ^ 31) (hm : n ≤ m.length) (hs : n ≤ sm.length) :
    let h := hashL (sm.take 32 ++ pk ++ (sm.drop 64).take (n - 64))
    (∃ out len, signOpen m l sm n pk = .ok (0, out, len)) ↔ 64 ≤ n ∧ ∃ j a r, j < 8 ∧ a < L ∧ r < L ∧ Decodes pk (j • T8 + a • B) ∧
      sm.take 32 = encode ((7 * h * j) • T8 + r • B) ∧ leVal ((sm.drop 32).take 32) % L = (r + h * a) % L := by
  intro h
  obtain ⟨c, out, len, e, -, hc⟩ := ed_open_iff (m := m) (sm := sm) (l := l) (n := n) hp hn hm hs
  have h0 : (∃ out len, signOpen m l sm n pk = .ok (0, out, len)) ↔ c = 0 := by
    rw [e]
    constructor
    · rintro ⟨_, _, h⟩
      simp only [Except.ok.injEq, Prod.mk.injEq] at h
      exact h.1
    · rintro rfl
      exact ⟨_, _, rfl⟩
  rw [h0, hc]
  refine and_congr_right fun _ => ?_
  have hL : 0 < L := by decide +kernel
  have point : ∀ s j a r : Nat, s % L = (r + h * a) % L → s • B - h • (j • T8 + a • B) = (7 * h * j) • T8 + r • B := by
    intro s j a r hs
    have e1 : s • B = (r + h * a) • B := by rw [nsmul_eq_nsmul_iff_modEq, ed_order]; exact hs
    have e2 : (7 * h * j) • T8 + h • (j • T8) = 0 := by
      rw [← mul_smul, ← add_smul, show 7 * h * j + h * j = (h * j) * 8 by ring, mul_smul, eight_T8, smul_zero]
    rw [e1, sub_eq_iff_eq_add, add_smul, smul_add, mul_smul h a]
    rw [show (7 * h * j) • T8 + r • B + (h • j • T8 + h • a • B) = ((7 * h * j) • T8 + h • (j • T8)) + (r • B + h • a • B) by abel, e2, zero_add]
  constructor
  · rintro ⟨A, hA, hR⟩
    obtain ⟨j, a, hj, ha, rfl⟩ := exists_parts A
    change sm.take 32 = encode (leVal ((sm.drop 32).take 32) • B - h • (j • T8 + a • B)) at hR
    obtain ⟨r, hr⟩ : ∃ r : Nat, (r : ZMod L) = (leVal ((sm.drop 32).take 32) : ZMod L) - h * a := ⟨_, ZMod.natCast_zmod_val _⟩
    have hS : leVal ((sm.drop 32).take 32) % L = (r % L + h * a) % L := by
      rw [Nat.mod_add_mod]
      refine (ZMod.natCast_eq_natCast_iff _ _ _).1 ?_
      push_cast
      rw [hr]
      ring
    exact ⟨j, a, r % L, hj, ha, Nat.mod_lt _ hL, hA, hR.trans (congrArg encode (point _ _ _ _ hS)), hS⟩
  · rintro ⟨j, a, r, hj, ha, hr, hA, hR, hS⟩
    exact ⟨_, hA, hR.trans (congrArg encode (point _ _ _ _ hS).symm)⟩

/-- A case with j = 2, where acceptance cannot come from a generated key: under a key of order 4, R neutral and S = 0 are accepted whenever the hash is a multiple of 4 (tweetnacl/tweetnacl.c:796-825). -/
example {m sm : Bytes} {l n : Nat} (hn : n < 2 ^ 31) (hm : n ≤ m.length) (hs : n ≤ sm.length) (h64 : 64 ≤ n) (hR : sm.take 32 = encode 0) (hS : leVal ((sm.drop 32).take 32) = 0)
    (hh : hashL (sm.take 32 ++ encode (2 • T8) ++ (sm.drop 64).take (n - 64)) % 4 = 0) : ∃ out len, signOpen m l sm n (encode (2 • T8)) = .ok (0, out, len) := by
  refine (ed_accepted_any_key (length_encode _) hn hm hs).2 ⟨h64, 2, 0, 0, by decide, by decide +kernel, by decide +kernel, ?_, ?_, ?_⟩
  · rw [zero_smul, add_zero]; exact decodes_encode _
  · rw [hR, zero_smul, add_zero]
    refine congrArg encode (Eq.symm ?_)
    rw [← addOrderOf_dvd_iff_nsmul_eq_zero, order_T8]
    rw [hR] at hh
    generalize hashL (encode 0 ++ encode (2 • T8) ++ (sm.drop 64).take (n - 64)) = h at hh
    omega
  · rw [hS, Nat.mul_zero]

/-! ### How many strings stand for a point -/

theorem solvable_iff (y : F) : (∃ P : Point d, P.y = y) ↔ IsSquare ((y * y - 1) * (d * (y * y) + 1)) := by
  constructor
  · rintro ⟨P, rfl⟩
    refine ⟨P.x * (d * (P.y * P.y) + 1), ?_⟩
    rw [← (on_iff _ _).1 P.on]
    ring
  · rintro ⟨w, hw⟩
    have h0 := den_ne y
    refine ⟨⟨w / (d * (y * y) + 1), y, (on_iff _ _).2 ?_⟩, rfl⟩
    generalize d * (y * y) + 1 = D at *
    field_simp
    linear_combination -hw

/-- The 255-bit numbers below 19 that are the y coordinate of a point. -/
theorem solvable_small {v : Nat} (hv : v < 19) : (∃ P : Point d, P.y = (v : F)) ↔ v ∈ [0, 1, 3, 4, 5, 6, 9, 10, 14, 15, 16, 18] := by
  have e : ((v : F) * v - 1) * (d * (v * v) + 1) = (((v * v + (p - 1)) * (dNat * (v * v) + 1) % p : Nat) : F) := by
    rw [cast_mod, d_eq]
    push_cast [Nat.cast_sub (show 1 ≤ p by decide +kernel)]
    rw [ZMod.natCast_self]
    ring
  rw [solvable_iff, e]
  by_cases h0 : (v * v + (p - 1)) * (dNat * (v * v) + 1) % p = 0
  · rw [h0]
    have : v ∈ [0, 1, 3, 4, 5, 6, 9, 10, 14, 15, 16, 18] := by revert h0; revert v; decide +kernel
    simp only [this, iff_true]
    exact ⟨0, by simp⟩
  · have hne : (((v * v + (p - 1)) * (dNat * (v * v) + 1) % p : Nat) : F) ≠ 0 := natCast_ne_zero (by rw [Nat.mod_mod]; exact h0)
    rw [ZMod.euler_criterion p hne, zmod_pow_eq (c := powMod ((v * v + (p - 1)) * (dNat * (v * v) + 1) % p) (p / 2) p) (by decide +kernel) rfl]
    rw [show (1 : ZMod p) = ((1 : Nat) : ZMod p) by rw [Nat.cast_one], ZMod.natCast_eq_natCast_iff]
    unfold Nat.ModEq
    clear e hne
    revert h0
    revert v
    decide +kernel

theorem pair_image : (fun P : Point d => ((P.y, ⟨P.x.val % 2, Nat.mod_lt _ (by omega)⟩) : F × Fin 2)) '' Set.univ ∪ {((1 : F), (1 : Fin 2)), (-1, 1)} =
    {y : F | ∃ P : Point d, P.y = y} ×ˢ (Set.univ : Set (Fin 2)) := by
  have hx0 : ∀ P : Point d, P.y * P.y = 1 → P.x = 0 := fun P h => by
    have e := (on_iff _ _).1 P.on
    rw [h, sub_self] at e
    have := (mul_eq_zero.1 e).resolve_right (by have := den_ne P.y; rwa [h] at this)
    simpa using this
  ext ⟨y, b⟩
  simp only [Set.image_univ, Set.mem_union, Set.mem_range, Prod.mk.injEq, Set.mem_insert_iff, Set.mem_singleton_iff, Set.mem_prod, Set.mem_ofPred_eq, Set.mem_univ, and_true]
  constructor
  · rintro (⟨P, h, -⟩ | ⟨rfl, -⟩ | ⟨rfl, -⟩)
    · exact ⟨P, h⟩
    · exact ⟨0, Point.zero_y⟩
    · refine ⟨⟨0, -1, by ring⟩, rfl⟩
  · rintro ⟨P, rfl⟩
    by_cases hP : P.x = 0
    · have e := (on_iff _ _).1 P.on
      rw [hP, zero_mul, zero_mul] at e
      have h1 : P.y = 1 ∨ P.y = -1 := by
        have : (P.y - 1) * (P.y + 1) = 0 := by linear_combination -e
        rcases mul_eq_zero.1 this with h | h
        · exact .inl (sub_eq_zero.1 h)
        · exact .inr (eq_neg_of_add_eq_zero_left h)
      by_cases hb : b = 1
      · right
        rcases h1 with h | h
        · exact .inl ⟨h, hb⟩
        · exact .inr ⟨h, hb⟩
      · refine .inl ⟨P, rfl, ?_⟩
        apply Fin.ext
        show P.x.val % 2 = b.val
        rw [hP, ZMod.val_zero]
        omega
    · left
      by_cases hb : P.x.val % 2 = b.val
      · exact ⟨P, rfl, Fin.ext hb⟩
      · refine ⟨-P, rfl, Fin.ext ?_⟩
        show (-P).x.val % 2 = b.val
        rw [Point.neg_x, neg_val hP]
        have := fval_lt P.x
        have := p_odd
        have hp : p = 2 ^ 255 - 19 := rfl
        omega

/-- The number of y coordinates. -/
theorem card_y : {y : F | ∃ P : Point d, P.y = y}.ncard = 4 * L + 1 := by
  have h := congrArg Set.ncard pair_image
  rw [Set.ncard_prod, Set.ncard_univ, Nat.card_fin, Set.ncard_union_eq, Set.ncard_image_of_injective _ pair_injective, Set.ncard_univ, card_points, Set.ncard_pair] at h
  · omega
  · intro h
    have h1 : (1 : F) = -1 := congrArg Prod.fst h
    exact two_ne (by linear_combination h1)
  · rw [Set.disjoint_left]
    rintro ⟨y, b⟩ ⟨P, -, hP⟩ hb
    simp only [Prod.mk.injEq] at hP
    simp only [Set.mem_insert_iff, Set.mem_singleton_iff, Prod.mk.injEq] at hb
    obtain ⟨hy, hb'⟩ := hP
    have hyy : P.y * P.y = 1 := by
      rw [hy]
      rcases hb with ⟨rfl, -⟩ | ⟨rfl, -⟩ <;> ring
    have e := (on_iff _ _).1 P.on
    rw [hyy, sub_self] at e
    have h0 := (mul_eq_zero.1 e).resolve_right (by have := den_ne P.y; rwa [hyy] at this)
    have hx : P.x = 0 := by simpa using h0
    have hb1 : b = 1 := by rcases hb with ⟨-, h⟩ | ⟨-, h⟩ <;> exact h
    rw [hb1] at hb'
    have := congrArg Fin.val hb'
    simp only at this
    rw [hx, ZMod.val_zero] at this
    simp at this

/-- The 255-bit numbers that stand for a y coordinate. -/
theorem card_v : {v : Nat | v < 2 ^ 255 ∧ ∃ P : Point d, P.y = (v : F)}.ncard = 4 * L + 13 := by
  have hp : p = 2 ^ 255 - 19 := rfl
  have e : {v : Nat | v < 2 ^ 255 ∧ ∃ P : Point d, P.y = (v : F)} = {v : Nat | v < p ∧ ∃ P : Point d, P.y = (v : F)} ∪ (fun v => v + p) '' (([0, 1, 3, 4, 5, 6, 9, 10, 14, 15, 16, 18].toFinset : Finset Nat) : Set Nat) := by
    have sm : ∀ v < 19, ((∃ P : Point d, P.y = ((v + p : Nat) : F)) ↔ v ∈ [0, 1, 3, 4, 5, 6, 9, 10, 14, 15, 16, 18]) := fun v hv => by
      rw [← solvable_small hv, Nat.cast_add, ZMod.natCast_self, add_zero]
    ext v
    simp only [Set.mem_union, Set.mem_ofPred_eq, Set.mem_image, List.coe_toFinset]
    constructor
    · rintro ⟨h1, h2⟩
      by_cases h : v < p
      · exact .inl ⟨h, h2⟩
      · refine .inr ⟨v - p, (sm (v - p) (by rw [hp] at h ⊢; omega)).1 ?_, by omega⟩
        rw [show v - p + p = v by omega]
        exact h2
    · rintro (⟨h1, h2⟩ | ⟨w, hw, rfl⟩)
      · exact ⟨by rw [hp] at h1; omega, h2⟩
      · have hw' : w < 19 := by revert hw; simp only [List.mem_cons, List.not_mem_nil, or_false]; omega
        exact ⟨by rw [hp]; omega, (sm w hw').2 hw⟩
  have c1 : {v : Nat | v < p ∧ ∃ P : Point d, P.y = (v : F)}.ncard = 4 * L + 1 := by
    rw [← card_y]
    refine Set.ncard_congr (fun v _ => (v : F)) ?_ ?_ ?_
    · rintro v ⟨-, h⟩; exact h
    · rintro v w ⟨hv, -⟩ ⟨hw, -⟩ h
      have := (ZMod.natCast_eq_natCast_iff _ _ _).1 h
      rwa [Nat.ModEq, Nat.mod_eq_of_lt hv, Nat.mod_eq_of_lt hw] at this
    · rintro y ⟨P, rfl⟩
      exact ⟨P.y.val, ⟨ZMod.val_lt _, P, (ZMod.natCast_zmod_val _).symm⟩, ZMod.natCast_zmod_val _⟩
  have dj : Disjoint {v : Nat | v < p ∧ ∃ P : Point d, P.y = (v : F)} ((fun v => v + p) '' (([0, 1, 3, 4, 5, 6, 9, 10, 14, 15, 16, 18].toFinset : Finset Nat) : Set Nat)) := by
    rw [Set.disjoint_left]
    rintro v ⟨h, -⟩ ⟨w, -, hw⟩
    have : w + p = v := hw
    omega
  rw [e, Set.ncard_union_eq dj (Set.Finite.subset (Set.finite_lt_nat p) fun v h => h.1) (Set.toFinite _), c1, Set.ncard_image_of_injective _ (fun a b h => by simpa using h), Set.ncard_coe_finset]
  rfl

/-- C111: of the 2^256 strings of 32 bytes the code takes exactly 8 L + 26 as Ed25519 public key; 8 L of them are the encodings of the points. -/
theorem ed_key_count : {pk : Bytes | pk.length = 32 ∧ ∃ q, unpackneg pk = .ok (some q)}.ncard = 8 * L + 26 ∧ {pk : Bytes | ∃ P : Point d, pk = encode P}.ncard = 8 * L := by
  constructor
  swap
  · rw [show {pk : Bytes | ∃ P : Point d, pk = encode P} = encode '' Set.univ by ext pk; simp [eq_comm], Set.ncard_image_of_injective _ fun _ _ => encode_inj, Set.ncard_univ, card_points]
  have e0 : {pk : Bytes | pk.length = 32 ∧ ∃ q, unpackneg pk = .ok (some q)} = {pk : Bytes | pk.length = 32 ∧ ∃ A, Decodes pk A} := by
    ext pk
    refine and_congr_right fun hl => ?_
    rcases unpackneg_ok hl with ⟨h, hn⟩ | ⟨A, q, h, hA, -⟩
    · rw [h]
      exact ⟨fun ⟨q, h⟩ => by simp at h, fun ⟨A, hA⟩ => absurd hA (hn A)⟩
    · exact ⟨fun _ => ⟨A, hA⟩, fun _ => ⟨q, h⟩⟩
  rw [e0]
  have e : {pk : Bytes | pk.length = 32 ∧ ∃ A, Decodes pk A} = {pk : Bytes | pk.length = 32 ∧ ∃ P : Point d, P.y = ((leVal pk % 2 ^ 255 : Nat) : F)} := by
    ext pk
    refine and_congr_right fun hl => ⟨fun ⟨A, hA⟩ => ⟨A, hA.1⟩, fun ⟨P, hP⟩ => ?_⟩
    rcases decodes_of_y hl hP with h | h
    · exact ⟨_, h⟩
    · exact ⟨_, h⟩
  rw [e, ncard_bytes 32 (fun N => ∃ P : Point d, P.y = ((N % 2 ^ 255 : Nat) : F))]
  have e2 : {N : Nat | N < 256 ^ 32 ∧ ∃ P : Point d, P.y = ((N % 2 ^ 255 : Nat) : F)} =
      (fun q : Nat × Nat => q.1 + 2 ^ 255 * q.2) '' ({v : Nat | v < 2 ^ 255 ∧ ∃ P : Point d, P.y = (v : F)} ×ˢ ((Finset.range 2 : Finset Nat) : Set Nat)) := by
    ext N
    simp only [Set.mem_ofPred_eq, Set.mem_image, Set.mem_prod, Finset.coe_range, Set.mem_Iio, Prod.exists]
    constructor
    · rintro ⟨h1, h2⟩
      exact ⟨N % 2 ^ 255, N / 2 ^ 255, ⟨⟨Nat.mod_lt _ (by decide), h2⟩, by norm_num at h1 ⊢; omega⟩, Nat.mod_add_div _ _⟩
    · rintro ⟨v, b, ⟨⟨h1, h2⟩, h3⟩, rfl⟩
      rw [show (v + 2 ^ 255 * b) % 2 ^ 255 = v by rw [Nat.add_mul_mod_self_left, Nat.mod_eq_of_lt h1]]
      exact ⟨by norm_num at h1 ⊢; omega, h2⟩
  rw [e2, Set.InjOn.ncard_image, Set.ncard_prod, card_v, Set.ncard_coe_finset, Finset.card_range]
  · omega
  · rintro ⟨v, b⟩ ⟨⟨h1, -⟩, -⟩ ⟨v', b'⟩ ⟨⟨h1', -⟩, -⟩ h
    dsimp only at h h1 h1'
    rw [Prod.mk.injEq]
    norm_num at h h1 h1'
    omega

end Verif.Ed25519
