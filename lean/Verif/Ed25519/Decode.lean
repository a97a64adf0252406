import Verif.Ed25519.Group

/-!
Decoding of public keys, and the order of the base point.
-/

namespace Verif.Ed25519
open Verif Spec

/-! ### The order of the base point -/

/-- Extended coordinates as numbers, for computation. -/
structure NQ where
  (x y z t : Nat)

/-- The addition formulas on numbers. -/
def addN (p q : NQ) : NQ :=
  let P := Spec.p
  let a := (p.y + (P - p.x % P)) * (q.y + (P - q.x % P)) % P
  let b := (p.x + p.y) * (q.x + q.y) % P
  let c := (p.t * q.t) % P * (2 * dNat) % P
  let D := 2 * (p.z * q.z) % P
  let e := b + (P - a % P)
  let f := D + (P - c % P)
  let g := D + c
  let h := b + a
  ⟨e * f % P, h * g % P, g * f % P, e * h % P⟩

/-- `k` steps of double and add. -/
def goN (q : NQ) : Nat → Nat → NQ
  | 0, _ => ⟨0, 1, 1, 0⟩
  | k + 1, n =>
    let r := goN q k (n / 2)
    let r2 := addN r r
    if n % 2 = 1 then addN r2 q else r2

/-- The base point as numbers. -/
def BN : NQ := ⟨Bx, 46316835694926478169428394003475163141307993866256225615783033603165251855960, 1,
  Bx * 46316835694926478169428394003475163141307993866256225615783033603165251855960 % Spec.p⟩

/-- The numbers `q` stand for the point `P`. -/
structure RepN (P : Point d) (q : NQ) : Prop where
  z0 : (q.z : F) ≠ 0
  hx : (q.x : F) = P.x * q.z
  hy : (q.y : F) = P.y * q.z
  ht : (q.t : F) = P.x * P.y * q.z

theorem cast_mod (n : Nat) : ((n % p : Nat) : F) = n := natCast_eq (Nat.mod_mod _ _)

theorem cast_neg (n : Nat) : ((p - n % p : Nat) : F) = -(n : F) := by
  have h : n % p ≤ p := (Nat.mod_lt _ (Nat.Prime.pos prime_p)).le
  rw [Nat.cast_sub h, cast_mod, ZMod.natCast_self]
  ring

theorem addN_rep {P Q : Point d} {p q : NQ} (hp : RepN P p) (hq : RepN Q q) : RepN (P + Q) (addN p q) := by
  have key := add_formula P Q hp.z0 hq.z0 hp.hx hp.hy hp.ht hq.hx hq.hy hq.ht rfl rfl rfl rfl rfl rfl rfl rfl
  unfold addN
  refine ⟨?_, ?_, ?_, ?_⟩
  · simp only [cast_mod, Nat.cast_add, Nat.cast_mul, cast_neg, ← sub_eq_add_neg, ← d_eq, Nat.cast_ofNat]
    convert key.1 using 1; ring
  · simp only [cast_mod, Nat.cast_add, Nat.cast_mul, cast_neg, ← sub_eq_add_neg, ← d_eq, Nat.cast_ofNat]
    convert key.2.1 using 1 <;> ring
  · simp only [cast_mod, Nat.cast_add, Nat.cast_mul, cast_neg, ← sub_eq_add_neg, ← d_eq, Nat.cast_ofNat]
    convert key.2.2.1 using 1 <;> ring
  · simp only [cast_mod, Nat.cast_add, Nat.cast_mul, cast_neg, ← sub_eq_add_neg, ← d_eq, Nat.cast_ofNat]
    convert key.2.2.2 using 1 <;> ring

theorem zeroN_rep : RepN 0 ⟨0, 1, 1, 0⟩ := by
  refine ⟨?_, ?_, ?_, ?_⟩ <;> simp [Point.zero_x, Point.zero_y]

theorem goN_rep {P : Point d} {q : NQ} (hq : RepN P q) (k n : Nat) (h : n < 2 ^ k) : RepN (n • P) (goN q k n) := by
  induction k generalizing n with
  | zero =>
    obtain rfl : n = 0 := by simpa using h
    rw [zero_smul]
    exact zeroN_rep
  | succ k ih =>
    have := ih (n / 2) (by rw [pow_succ] at h; omega)
    have h2 := addN_rep this this
    unfold goN
    simp only []
    by_cases hn : n % 2 = 1
    · rw [if_pos hn]
      have h3 := addN_rep h2 hq
      rw [← add_smul] at h3
      have h4 : (n / 2 + n / 2) • P + P = n • P := by
        conv_rhs => rw [show n = (n / 2 + n / 2) + 1 by omega, add_smul, one_smul]
      rwa [h4] at h3
    · rw [if_neg hn]
      rw [← add_smul, show n / 2 + n / 2 = n by omega] at h2
      exact h2

theorem BN_rep : RepN B BN := by
  have hy : ((46316835694926478169428394003475163141307993866256225615783033603165251855960 : Nat) : F) = B.y := by
    rw [← fe_gfY, fe_nat (n := 46316835694926478169428394003475163141307993866256225615783033603165251855960) (by decide +kernel)]
  have hx : ((Bx : Nat) : F) = B.x := rfl
  refine ⟨?_, ?_, ?_, ?_⟩ <;> unfold BN
  · simp
  · simp only [hx]; simp
  · simp only [hy]; simp
  · simp only [cast_mod, Nat.cast_mul, hx, hy]; simp

/-- The base point has order dividing `L`. -/
theorem L_smul_B : L • B = 0 := by
  have h := goN_rep BN_rep 253 L (by decide +kernel)
  have e1 : (goN BN 253 L).x = 0 := by decide +kernel
  have e2 : (goN BN 253 L).y = (goN BN 253 L).z := by decide +kernel
  have hx := h.hx
  have hy := h.hy
  have z0 := h.z0
  rw [e1] at hx
  rw [e2] at hy
  apply Point.ext
  · rw [Point.zero_x]
    simp only [Nat.cast_zero] at hx
    rcases mul_eq_zero.1 hx.symm with h | h
    · exact h
    · exact absurd h z0
  · rw [Point.zero_y]
    exact (mul_right_cancel₀ z0 (by rw [one_mul]; exact hy)).symm

/-! ### Square roots -/

/-- On the curve, x² (d y² + 1) = y² - 1. -/
theorem on_iff (x y : F) : -x ^ 2 + y ^ 2 = 1 + d * x ^ 2 * y ^ 2 ↔ x * x * (d * (y * y) + 1) = y * y - 1 := by
  constructor
  · intro h; linear_combination -h
  · intro h; linear_combination -h

theorem den_ne (y : F) : d * (y * y) + 1 ≠ 0 := by
  intro h
  obtain ⟨i, hi⟩ := Complete.root (d := d)
  apply Complete.nonsquare (d := d)
  have hy : y ≠ 0 := by
    rintro rfl
    simp at h
  refine ⟨i / y, ?_⟩
  rw [div_mul_div_comm, hi, eq_div_iff (mul_ne_zero hy hy)]
  linear_combination h

/-- The candidate root squares to ± the right value if there is a root at all. -/
theorem root_candidate {u v x : F} (hx : x * x * v = u) :
    (u * v ^ 7) ^ ((p - 1) / 4) * u = u ∨ (u * v ^ 7) ^ ((p - 1) / 4) * u = -u := by
  by_cases h0 : x * v ^ 4 = 0
  · left
    have : u = 0 := by
      rcases mul_eq_zero.1 h0 with h | h
      · rw [← hx, h]; ring
      · rw [← hx, pow_eq_zero_iff (by norm_num) |>.1 h]; ring
    rw [this]; ring
  · have e : u * v ^ 7 = (x * v ^ 4) ^ 2 := by rw [← hx]; ring
    have h1 := ZMod.pow_card_sub_one_eq_one h0
    rw [e, ← pow_mul, show 2 * ((p - 1) / 4) = (p - 1) / 2 by decide +kernel]
    rw [show p - 1 = (p - 1) / 2 * 2 by decide +kernel, pow_mul] at h1
    rcases eq_or_eq_neg_of_sq_eq_sq ((x * v ^ 4) ^ ((p - 1) / 2)) (1 : F) (by rw [h1]; ring) with h | h
    · left; rw [h]; ring
    · right; rw [h]; ring

/-! ### Decoding -/

theorem neg_val {x : F} (h : x ≠ 0) : (-x).val = p - x.val := by
  rw [ZMod.neg_val, if_neg h]

theorem p_odd : p % 2 = 1 := by decide +kernel

/-- A public key decodes to at most one point. -/
theorem decodes_unique {pk : Bytes} {A A' : Point d} (h : Decodes pk A) (h' : Decodes pk A') : A = A' := by
  have e := (on_iff _ _).1 A.on
  have e' := (on_iff _ _).1 A'.on
  have hy : A.y = A'.y := by rw [h.1, h'.1]
  rw [← hy, ← e] at e'
  have hx2 : A.x * A.x = A'.x * A'.x := (mul_right_cancel₀ (den_ne A.y) e').symm
  apply Point.ext _ hy
  rcases eq_or_eq_neg_of_sq_eq_sq A.x A'.x (by rw [pow_two, pow_two]; exact hx2) with hx | hx
  · exact hx
  · by_cases h0 : A'.x = 0
    · rw [hx, h0, neg_zero]
    · have h0' : A.x ≠ 0 := by rw [hx]; exact neg_ne_zero.2 h0
      have p1 := h.2.resolve_right h0'
      have p2 := h'.2.resolve_right h0
      rw [hx, neg_val h0] at p1
      have := fval_lt A'.x
      have := p_odd
      have hp : p = 2 ^ 255 - 19 := rfl
      omega

theorem leVal_encode (A : Point d) : leVal (encode A) = A.y.val + 2 ^ 255 * (A.x.val % 2) := by
  unfold encode
  rw [leVal_leBytes, Nat.mod_eq_of_lt]
  have := fval_lt A.y
  have : A.x.val % 2 < 2 := Nat.mod_lt _ (by omega)
  norm_num at *
  omega

theorem decodes_encode (A : Point d) : Decodes (encode A) A := by
  have h1 := fval_lt A.y
  constructor
  · rw [leVal_encode, show (A.y.val + 2 ^ 255 * (A.x.val % 2)) % 2 ^ 255 = A.y.val by omega, ZMod.natCast_zmod_val]
  · left
    rw [leVal_encode]
    omega

theorem top_bit {b : Bytes} (h : b.length = 32) : b[31] >>> 7 = BitVec.ofNat 8 (leVal b / 2 ^ 255) := by
  apply BitVec.eq_of_toNat_eq
  have hlt := leVal_lt b
  rw [h] at hlt
  rw [BitVec.toNat_ushiftRight, BitVec.toNat_ofNat, leVal_getElem b 31 (by omega), Nat.shiftRight_eq_div_pow]
  norm_num at *
  omega

theorem decode_num (b c : Nat) (hb : b < 2) (hc : c < 2) : BitVec.ofNat 8 b = BitVec.ofNat 8 c ↔ b = c := by
  constructor
  · intro h
    have := congrArg BitVec.toNat h
    rw [BitVec.toNat_ofNat, BitVec.toNat_ofNat] at this
    omega
  · rintro rfl; rfl

theorem unpackneg_ok {pk : Bytes} (h : pk.length = 32) :
    (unpackneg pk = .ok none ∧ ∀ A, ¬ Decodes pk A) ∨ ∃ A q, unpackneg pk = .ok (some q) ∧ Decodes pk A ∧ Rep (-A) q := by
  unfold unpackneg
  obtain ⟨r1, e1, b1, v1⟩ := unpack25519_fe h
  obtain ⟨n1, e2, b2, v2⟩ := fS_fe (b1.small (by norm_num))
  obtain ⟨d1, e3, b3, v3⟩ := fM_fe b2.small (bd_gfD.small (by norm_num))
  obtain ⟨num, e4, b4, v4⟩ := fZ_fe b2.bd bd_gf1 (by norm_num)
  obtain ⟨den, e5, b5, v5⟩ := fA_fe bd_gf1 b3.bd (by norm_num)
  obtain ⟨den2, e6, b6, v6⟩ := fS_fe (b5.small (by norm_num))
  obtain ⟨den4, e7, b7, v7⟩ := fS_fe b6.small
  obtain ⟨den6, e8, b8, v8⟩ := fM_fe b7.small b6.small
  obtain ⟨t1, e9, b9, v9⟩ := fM_fe b8.small (b4.small (by norm_num))
  obtain ⟨t2, e10, b10, v10⟩ := fM_fe b9.small (b5.small (by norm_num))
  obtain ⟨t3, e11, b11, v11⟩ := pow2523_fe b10.small
  obtain ⟨t4, e12, b12, v12⟩ := fM_fe b11 (b4.small (by norm_num))
  obtain ⟨t5, e13, b13, v13⟩ := fM_fe b12.small (b5.small (by norm_num))
  obtain ⟨t6, e14, b14, v14⟩ := fM_fe b13.small (b5.small (by norm_num))
  obtain ⟨x0, e15, b15, v15⟩ := fM_fe b14.small (b5.small (by norm_num))
  obtain ⟨c1, e16, b16, v16⟩ := fS_fe b15.small
  obtain ⟨c2, e17, b17, v17⟩ := fM_fe b16.small (b5.small (by norm_num))
  obtain ⟨xi, e18, b18, v18⟩ := fM_fe b15.small (bd_gfI.small (by norm_num))
  rw [set25519_ok bd_gf1.len, ok_bind, e1, ok_bind, e2, ok_bind, e3, ok_bind, e4, ok_bind, e5, ok_bind, e6, ok_bind, e7, ok_bind, e8, ok_bind, e9, ok_bind, e10, ok_bind,
    e11, ok_bind, e12, ok_bind, e13, ok_bind, e14, ok_bind, e15, ok_bind, e16, ok_bind, e17, ok_bind, neq25519_fe b17.bd b4 (by norm_num) (by norm_num), ok_bind]
  -- the values
  have hu : fe num = fe r1 * fe r1 - 1 := by rw [v4, v2, fe_gf1]
  have hv : fe den = d * (fe r1 * fe r1) + 1 := by rw [v5, v3, v2, fe_gfD, fe_gf1]; ring
  have hv0 : fe den ≠ 0 := by rw [hv]; exact den_ne _
  have hc : fe c2 = (fe num * fe den ^ 7) ^ ((p - 1) / 4) * fe num := by
    rw [v17, v16, v15, v14, v13, v12, v11, v10, v9, v8, v7, v6]
    have e : (p - 1) / 4 = (p - 5) / 8 * 2 + 1 := by decide +kernel
    rw [e, pow_succ, pow_mul]
    have : fe den * fe den * (fe den * fe den) * (fe den * fe den) * fe num * fe den = fe num * fe den ^ 7 := by ring
    rw [this]
    ring
  -- the end of the function, for a root x
  have fin : ∀ x : Gf, Tight x → fe x * fe x * fe den = fe num →
      ∃ A q, (do
        let b ← par25519 x
        let p31 ← rd pk 31
        let r0 ← if b = p31 >>> 7 then fZ gf0 x else .ok x
        let r3 ← fM r0 r1
        Except.ok (some (Pt.mk r0 r1 gf1 r3))) = (Except.ok (some q) : C (Option Pt)) ∧ Decodes pk A ∧ Rep (-A) q := by
    intro x hx hroot
    have on : -(fe x) ^ 2 + (fe r1) ^ 2 = 1 + d * (fe x) ^ 2 * (fe r1) ^ 2 := by
      rw [on_iff, ← hv, ← hu]; exact hroot
    have htop : leVal pk / 2 ^ 255 < 2 := by
      have := leVal_lt pk
      rw [h] at this
      norm_num at *
      omega
    have hpar : (fe x).val % 2 < 2 := Nat.mod_lt _ (by omega)
    rw [par25519_fe hx.bd (by norm_num), ok_bind, rd_ok (by omega), ok_bind, top_bit h]
    by_cases hb : (fe x).val % 2 = leVal pk / 2 ^ 255
    · rw [if_pos ((decode_num _ _ hpar htop).2 hb)]
      obtain ⟨r0, f1, g1, w1⟩ := fZ_fe bd_gf0 hx.bd (by norm_num)
      obtain ⟨r3, f2, g2, w2⟩ := fM_fe (g1.small (by norm_num)) (b1.small (by norm_num))
      rw [f1, ok_bind]
      beta_reduce
      rw [f2, ok_bind]
      refine ⟨⟨fe x, fe r1, on⟩, _, rfl, ⟨v1, Or.inl hb⟩, g1.mono (by norm_num), b1.mono (by norm_num), bd_gf1.mono (by norm_num), g2.bd.mono (by norm_num), ?_, ?_, ?_, ?_⟩
      · simp only [fe_gf1]; exact one_ne_zero
      · simp only [fe_gf1, w1, fe_gf0, Point.neg_x]; ring
      · simp only [fe_gf1, Point.neg_y]; ring
      · simp only [fe_gf1, w2, w1, fe_gf0, Point.neg_x, Point.neg_y]; ring
    · rw [if_neg (fun h' => hb ((decode_num _ _ hpar htop).1 h')), ok_bind]
      obtain ⟨r3, f2, g2, w2⟩ := fM_fe hx.small (b1.small (by norm_num))
      beta_reduce
      rw [f2, ok_bind]
      refine ⟨⟨-fe x, fe r1, by rw [neg_sq]; exact on⟩, _, rfl, ⟨v1, ?_⟩, hx.bd.mono (by norm_num), b1.mono (by norm_num), bd_gf1.mono (by norm_num), g2.bd.mono (by norm_num), ?_, ?_, ?_, ?_⟩
      · by_cases h0 : fe x = 0
        · right; simp only [h0, neg_zero]
        · left
          simp only []
          rw [neg_val h0]
          have := fval_lt (fe x)
          have := p_odd
          have hp : p = 2 ^ 255 - 19 := rfl
          omega
      · simp only [fe_gf1]; exact one_ne_zero
      · simp only [fe_gf1, Point.neg_x]; ring
      · simp only [fe_gf1, Point.neg_y]; ring
      · simp only [fe_gf1, w2, Point.neg_x, Point.neg_y]; ring
  by_cases h1 : fe c2 = fe num
  · right
    rw [if_pos h1, if_neg (by decide), ok_bind]
    beta_reduce
    rw [e16, ok_bind, e17, ok_bind, neq25519_fe b17.bd b4 (by norm_num) (by norm_num), ok_bind, if_pos h1, if_neg (by decide)]
    exact fin x0 b15 (by rw [← h1, v17, v16])
  · obtain ⟨c3, e19, b19, v19⟩ := fS_fe b18.small
    obtain ⟨c4, e20, b20, v20⟩ := fM_fe b19.small (b5.small (by norm_num))
    rw [if_neg h1, if_pos (by decide), e18, ok_bind]
    beta_reduce
    rw [e19, ok_bind, e20, ok_bind, neq25519_fe b20.bd b4 (by norm_num) (by norm_num), ok_bind]
    have hc4 : fe c4 = -fe c2 := by
      rw [v20, v19, v18, v17, v16]
      linear_combination (fe x0 * fe x0 * fe den) * fe_gfI
    by_cases h2 : fe c4 = fe num
    · right
      rw [if_pos h2, if_neg (by decide)]
      exact fin xi b18 (by rw [← h2, v20, v19])
    · left
      rw [if_neg h2, if_pos (by decide)]
      refine ⟨rfl, ?_⟩
      intro A hA
      have e := (on_iff _ _).1 A.on
      rw [hA.1, ← v1, ← hv, ← hu] at e
      rcases root_candidate e with hr | hr
      · exact h1 (by rw [hc, hr])
      · exact h2 (by rw [hc4, hc, hr, neg_neg])

end Verif.Ed25519
