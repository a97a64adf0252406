import Verif.Ed25519.Elem

/-!
The point operations of tweetnacl.c in terms of the group of the curve.
-/

namespace Verif.Ed25519
open Verif Spec

/-- Extended coordinates `q` stand for the point `P`. -/
structure Rep (P : Point d) (q : Pt) : Prop where
  bx : Bd (2 ^ 18) q.x
  bY : Bd (2 ^ 18) q.y
  bz : Bd (2 ^ 18) q.z
  bt : Bd (2 ^ 18) q.t
  z0 : fe q.z ≠ 0
  hx : fe q.x = P.x * fe q.z
  hy : fe q.y = P.y * fe q.z
  ht : fe q.t = P.x * P.y * fe q.z

theorem two_ne : (2 : F) ≠ 0 := by
  have := natCast_ne_zero (n := 2) (by decide +kernel)
  simpa using this

/-- The formulas of `add`. -/
theorem add_formula (P Q : Point d) {X1 Y1 Z1 T1 X2 Y2 Z2 T2 : F} (z1 : Z1 ≠ 0) (z2 : Z2 ≠ 0) (x1 : X1 = P.x * Z1) (y1 : Y1 = P.y * Z1) (t1 : T1 = P.x * P.y * Z1)
    (x2 : X2 = Q.x * Z2) (y2 : Y2 = Q.y * Z2) (t2 : T2 = Q.x * Q.y * Z2) {a b c D e f g h : F} (ha : a = (Y1 - X1) * (Y2 - X2)) (hb : b = (X1 + Y1) * (X2 + Y2))
    (hc : c = T1 * T2 * (2 * d)) (hd : D = Z1 * Z2 + Z1 * Z2) (he : e = b - a) (hf : f = D - c) (hg : g = D + c) (hh : h = b + a) :
    g * f ≠ 0 ∧ e * f = (P + Q).x * (g * f) ∧ h * g = (P + Q).y * (g * f) ∧ e * h = (P + Q).x * (P + Q).y * (g * f) := by
  have k1 := Point.one_add_ne P Q
  have k2 := Point.one_sub_ne P Q
  have eg : g = 2 * (Z1 * Z2) * (1 + d * P.x * Q.x * P.y * Q.y) := by rw [hg, hd, hc, t1, t2]; ring
  have ef : f = 2 * (Z1 * Z2) * (1 - d * P.x * Q.x * P.y * Q.y) := by rw [hf, hd, hc, t1, t2]; ring
  have e1 : e = (P + Q).x * g := by
    rw [Point.add_x, eg, mul_comm, mul_assoc, mul_div_cancel₀ _ k1, he, hb, ha, x1, y1, x2, y2]; ring
  have e2 : h = (P + Q).y * f := by
    rw [Point.add_y, ef, mul_comm, mul_assoc, mul_div_cancel₀ _ k2, hh, hb, ha, x1, y1, x2, y2]; ring
  have g0 : g ≠ 0 := by rw [eg]; exact mul_ne_zero (mul_ne_zero two_ne (mul_ne_zero z1 z2)) k1
  have f0 : f ≠ 0 := by rw [ef]; exact mul_ne_zero (mul_ne_zero two_ne (mul_ne_zero z1 z2)) k2
  refine ⟨mul_ne_zero g0 f0, ?_, ?_, ?_⟩
  · rw [e1]; ring
  · rw [e2]; ring
  · rw [e1, e2]; ring

theorem add_rep {P Q : Point d} {p q : Pt} (hp : Rep P p) (hq : Rep Q q) : ∃ r, add p q = .ok r ∧ Rep (P + Q) r := by
  unfold add
  obtain ⟨a1, e1, b1, v1⟩ := fZ_fe hp.bY hp.bx (by norm_num)
  obtain ⟨t1, e2, b2, v2⟩ := fZ_fe hq.bY hq.bx (by norm_num)
  obtain ⟨a, e3, b3, v3⟩ := fM_fe (b1.small (by norm_num)) (b2.small (by norm_num))
  obtain ⟨b', e4, b4, v4⟩ := fA_fe hp.bx hp.bY (by norm_num)
  obtain ⟨t2, e5, b5, v5⟩ := fA_fe hq.bx hq.bY (by norm_num)
  obtain ⟨b, e6, b6, v6⟩ := fM_fe (b4.small (by norm_num)) (b5.small (by norm_num))
  obtain ⟨c1, e7, b7, v7⟩ := fM_fe (hp.bt.small (by norm_num)) (hq.bt.small (by norm_num))
  obtain ⟨c, e8, b8, v8⟩ := fM_fe b7.small (bd_gfD2.small (by norm_num))
  obtain ⟨d1, e9, b9, v9⟩ := fM_fe (hp.bz.small (by norm_num)) (hq.bz.small (by norm_num))
  obtain ⟨D, e10, b10, v10⟩ := fA_fe b9.bd b9.bd (by norm_num)
  obtain ⟨e, e11, b11, v11⟩ := fZ_fe b6.bd b3.bd (by norm_num)
  obtain ⟨f, e12, b12, v12⟩ := fZ_fe b10 b8.bd (by norm_num)
  obtain ⟨g, e13, b13, v13⟩ := fA_fe b10 b8.bd (by norm_num)
  obtain ⟨h, e14, b14, v14⟩ := fA_fe b6.bd b3.bd (by norm_num)
  obtain ⟨x, e15, b15, v15⟩ := fM_fe (b11.small (by norm_num)) (b12.small (by norm_num))
  obtain ⟨y, e16, b16, v16⟩ := fM_fe (b14.small (by norm_num)) (b13.small (by norm_num))
  obtain ⟨z, e17, b17, v17⟩ := fM_fe (b13.small (by norm_num)) (b12.small (by norm_num))
  obtain ⟨t, e18, b18, v18⟩ := fM_fe (b11.small (by norm_num)) (b14.small (by norm_num))
  rw [e1, ok_bind, e2, ok_bind, e3, ok_bind, e4, ok_bind, e5, ok_bind, e6, ok_bind, e7, ok_bind, e8, ok_bind, e9, ok_bind, e10, ok_bind, e11, ok_bind, e12, ok_bind,
    e13, ok_bind, e14, ok_bind, e15, ok_bind, e16, ok_bind, e17, ok_bind, e18, ok_bind]
  refine ⟨_, rfl, ?_⟩
  have key := add_formula P Q hp.z0 hq.z0 hp.hx hp.hy hp.ht hq.hx hq.hy hq.ht (a := fe a) (b := fe b) (c := fe c) (D := fe D) (e := fe e) (f := fe f) (g := fe g) (h := fe h)
    (by rw [v3, v1, v2]) (by rw [v6, v4, v5]) (by rw [v8, v7, fe_gfD2]) (by rw [v10, v9]) v11 v12 v13 v14
  exact ⟨b15.bd.mono (by norm_num), b16.bd.mono (by norm_num), b17.bd.mono (by norm_num), b18.bd.mono (by norm_num), by rw [v17]; exact key.1,
    by rw [v15, v17]; exact key.2.1, by rw [v16, v17]; exact key.2.2.1, by rw [v18, v17]; exact key.2.2.2⟩

theorem Bd.range {B : Int} {a : Gf} (h : Bd B a) (hB : B ≤ 2 ^ 62) : ∀ k < 16, -2 ^ 63 ≤ g a k ∧ g a k < 2 ^ 63 := fun k hk => by have := h.bound k hk; omega

theorem cswap_rep {P Q : Point d} {p q : Pt} (hp : Rep P p) (hq : Rep Q q) {b : Byte} (hb : b = 0 ∨ b = 1) :
    cswap p q b = .ok (if b = 1 then (q, p) else (p, q)) := by
  unfold cswap
  rcases hb with rfl | rfl
  · rw [if_neg (by decide), show ((BitVec.toNat (0 : Byte) : Nat) : Int) = 0 from rfl, sel25519_ok hp.bx.len hq.bx.len (hp.bx.range (by norm_num)) (hq.bx.range (by norm_num)) (Or.inl rfl), if_neg (by decide), ok_bind]
    simp only []
    rw [sel25519_ok hp.bY.len hq.bY.len (hp.bY.range (by norm_num)) (hq.bY.range (by norm_num)) (Or.inl rfl), if_neg (by decide), ok_bind]
    simp only []
    rw [sel25519_ok hp.bz.len hq.bz.len (hp.bz.range (by norm_num)) (hq.bz.range (by norm_num)) (Or.inl rfl), if_neg (by decide), ok_bind]
    simp only []
    rw [sel25519_ok hp.bt.len hq.bt.len (hp.bt.range (by norm_num)) (hq.bt.range (by norm_num)) (Or.inl rfl), if_neg (by decide), ok_bind]
  · rw [if_pos rfl, show ((BitVec.toNat (1 : Byte) : Nat) : Int) = 1 from rfl, sel25519_ok hp.bx.len hq.bx.len (hp.bx.range (by norm_num)) (hq.bx.range (by norm_num)) (Or.inr rfl), if_pos (by decide), ok_bind]
    simp only []
    rw [sel25519_ok hp.bY.len hq.bY.len (hp.bY.range (by norm_num)) (hq.bY.range (by norm_num)) (Or.inr rfl), if_pos (by decide), ok_bind]
    simp only []
    rw [sel25519_ok hp.bz.len hq.bz.len (hp.bz.range (by norm_num)) (hq.bz.range (by norm_num)) (Or.inr rfl), if_pos (by decide), ok_bind]
    simp only []
    rw [sel25519_ok hp.bt.len hq.bt.len (hp.bt.range (by norm_num)) (hq.bt.range (by norm_num)) (Or.inr rfl), if_pos (by decide), ok_bind]

theorem rep_zero : Rep 0 ⟨gf0, gf1, gf1, gf0⟩ := by
  refine ⟨bd_gf0.mono (by norm_num), bd_gf1.mono (by norm_num), bd_gf1.mono (by norm_num), bd_gf0.mono (by norm_num), ?_, ?_, ?_, ?_⟩
  · simp only [fe_gf1]; exact one_ne_zero
  · simp only [fe_gf0, fe_gf1, Point.zero_x]; ring
  · simp only [fe_gf1, Point.zero_y]; ring
  · simp only [fe_gf0, Point.zero_x]; ring

/-- Bit `i` of a little-endian number. -/
theorem leVal_bit (s : Bytes) (i : Nat) (h : i / 8 < s.length) :
    s[i / 8] >>> (i % 8) &&& 1 = BitVec.ofNat 8 (leVal s / 2 ^ i % 2) := by
  apply BitVec.eq_of_toNat_eq
  rw [BitVec.toNat_and, BitVec.toNat_ushiftRight, BitVec.toNat_ofNat, show BitVec.toNat (1 : BitVec 8) = 2 ^ 1 - 1 from rfl, Nat.and_two_pow_sub_one_eq_mod,
    Nat.shiftRight_eq_div_pow, leVal_getElem s (i / 8) h]
  have e : leVal s / 2 ^ i = leVal s / 256 ^ (i / 8) / 2 ^ (i % 8) := by
    rw [Nat.div_div_eq_div_mul, show (256 : Nat) = 2 ^ 8 from rfl, ← pow_mul, ← pow_add, show 8 * (i / 8) + i % 8 = i by omega]
  rw [e]
  generalize leVal s / 256 ^ (i / 8) = v
  have h8 : i % 8 < 8 := Nat.mod_lt _ (by omega)
  generalize i % 8 = r at h8
  have : r = 0 ∨ r = 1 ∨ r = 2 ∨ r = 3 ∨ r = 4 ∨ r = 5 ∨ r = 6 ∨ r = 7 := by omega
  rcases this with rfl | rfl | rfl | rfl | rfl | rfl | rfl | rfl <;> norm_num <;> omega

theorem scalarmult_rep {Q : Point d} {q : Pt} (hq : Rep Q q) {s : Bytes} (hs : 32 ≤ s.length) :
    ∃ r, scalarmult q s = .ok r ∧ Rep (leVal (s.take 32) • Q) r := by
  unfold scalarmult
  rw [set25519_ok bd_gf0.len, ok_bind, set25519_ok bd_gf1.len, ok_bind, ok_bind, ok_bind]
  have hlt : leVal (s.take 32) < 2 ^ 256 := by
    have := leVal_lt (s.take 32)
    rw [List.length_take, Nat.min_eq_left hs] at this
    exact this
  have hl : (s.take 32).length = 32 := by simp [hs]
  obtain ⟨st, e, h1, h2⟩ := loop_inv (fun k (st : Pt × Pt) => Rep ((leVal (s.take 32) / 2 ^ (256 - k)) • Q) st.1 ∧ Rep ((leVal (s.take 32) / 2 ^ (256 - k) + 1) • Q) st.2)
    (fun k (st : Pt × Pt) => do
      let i := 255 - k
      let si ← rd s (i / 8)
      let b := si >>> (i % 8) &&& 1
      let (p, q) ← cswap st.1 st.2 b
      let q ← add q p
      let p ← add p p
      cswap p q b) 0 256 (⟨gf0, gf1, gf1, gf0⟩, q)
    ⟨by
      rw [Nat.div_eq_of_lt (by simpa using hlt), zero_smul]
      exact rep_zero, by
      rw [Nat.div_eq_of_lt (by simpa using hlt), zero_add, one_smul]
      exact hq⟩
    (by
      rintro k st - hk ⟨h1, h2⟩
      simp only []
      have hd : (255 - k) / 8 < 32 := by omega
      rw [rd_ok (by omega), ok_bind]
      have hb := leVal_bit (s.take 32) (255 - k) (by omega)
      have he : (s.take 32)[(255 - k) / 8]'(by omega) = s[(255 - k) / 8]'(by omega) := by simp
      rw [he] at hb
      rw [hb]
      have hn : leVal (s.take 32) / 2 ^ (255 - k) = 2 * (leVal (s.take 32) / 2 ^ (256 - k)) + leVal (s.take 32) / 2 ^ (255 - k) % 2 := by
        rw [show 256 - k = (255 - k) + 1 by omega, pow_succ, ← Nat.div_div_eq_div_mul]
        omega
      rw [show 256 - (k + 1) = 255 - k by omega]
      generalize leVal (s.take 32) / 2 ^ (256 - k) = n at *
      rcases (by omega : leVal (s.take 32) / 2 ^ (255 - k) % 2 = 0 ∨ leVal (s.take 32) / 2 ^ (255 - k) % 2 = 1) with hz | hz
      · rw [hz] at hn ⊢
        rw [cswap_rep (b := BitVec.ofNat 8 0) h1 h2 (Or.inl rfl), if_neg (by decide), ok_bind]
        simp only []
        obtain ⟨q', eq, hq'⟩ := add_rep h2 h1
        obtain ⟨p', ep, hp'⟩ := add_rep h1 h1
        rw [eq, ok_bind, ep, ok_bind, cswap_rep (b := BitVec.ofNat 8 0) hp' hq' (Or.inl rfl), if_neg (by decide)]
        refine ⟨_, rfl, ?_, ?_⟩
        · rw [hn, Nat.add_zero, two_mul, add_smul]; exact hp'
        · rw [hn, Nat.add_zero, show 2 * n + 1 = (n + 1) + n by omega, add_smul]; exact hq'
      · rw [hz] at hn ⊢
        rw [cswap_rep (b := BitVec.ofNat 8 1) h1 h2 (Or.inr rfl), if_pos (by decide), ok_bind]
        simp only []
        obtain ⟨q', eq, hq'⟩ := add_rep h1 h2
        obtain ⟨p', ep, hp'⟩ := add_rep h2 h2
        rw [eq, ok_bind, ep, ok_bind, cswap_rep (b := BitVec.ofNat 8 1) hp' hq' (Or.inr rfl), if_pos (by decide)]
        refine ⟨_, rfl, ?_, ?_⟩
        · rw [hn, show 2 * n + 1 = n + (n + 1) by omega, add_smul]; exact hq'
        · rw [hn, show 2 * n + 1 + 1 = (n + 1) + (n + 1) by omega, add_smul]; exact hp')
  rw [e, ok_bind]
  refine ⟨_, rfl, ?_⟩
  simpa using h1

theorem scalarbase_rep {s : Bytes} (hs : 32 ≤ s.length) : ∃ r, scalarbase s = .ok r ∧ Rep (leVal (s.take 32) • B) r := by
  unfold scalarbase
  obtain ⟨t, e, ht, hv⟩ := fM_fe (bd_gfX.small (by norm_num)) (bd_gfY.small (by norm_num))
  rw [set25519_ok bd_gfX.len, ok_bind, set25519_ok bd_gfY.len, ok_bind, set25519_ok bd_gf1.len, ok_bind, e, ok_bind]
  apply scalarmult_rep _ hs
  refine ⟨bd_gfX.mono (by norm_num), bd_gfY.mono (by norm_num), bd_gf1.mono (by norm_num), ht.bd.mono (by norm_num), ?_, ?_, ?_, ?_⟩
  · simp only [fe_gf1]; exact one_ne_zero
  · simp only [fe_gfX, fe_gf1, mul_one]
  · simp only [fe_gfY, fe_gf1, mul_one]
  · simp only [hv, fe_gfX, fe_gfY, fe_gf1, mul_one]

theorem length_encode (P : Point d) : (encode P).length = 32 := length_leBytes _ _

theorem pack_rep {P : Point d} {q : Pt} (hq : Rep P q) : pack q = .ok (encode P) := by
  unfold pack
  obtain ⟨zi, e1, b1, v1⟩ := inv25519_fe (hq.bz.small (by norm_num))
  obtain ⟨tx, e2, b2, v2⟩ := fM_fe (hq.bx.small (by norm_num)) b1
  obtain ⟨ty, e3, b3, v3⟩ := fM_fe (hq.bY.small (by norm_num)) b1
  have hx : fe tx = P.x := by rw [v2, v1, hq.hx, mul_assoc, mul_inv_cancel₀ hq.z0, mul_one]
  have hy : fe ty = P.y := by rw [v3, v1, hq.hy, mul_assoc, mul_inv_cancel₀ hq.z0, mul_one]
  rw [e1, ok_bind, e2, ok_bind, e3, ok_bind, pack25519_fe b3.bd (by norm_num), ok_bind, par25519_fe b2.bd (by norm_num), ok_bind, hx, hy,
    rd_ok (by rw [length_leBytes]; omega), ok_bind, wr_ok (by rw [length_leBytes]; omega)]
  congr 1
  unfold encode
  have hlt := fval_lt P.y
  generalize P.y.val = y at *
  have hp2 : P.x.val % 2 < 2 := Nat.mod_lt _ (by omega)
  generalize P.x.val % 2 = b at *
  apply List.ext_getElem
  · simp [length_leBytes]
  · intro i h1 h2
    have hi : i < 32 := by simpa [length_leBytes] using h2
    rw [List.getElem_set]
    simp only [leBytes, List.getElem_map, List.getElem_range]
    by_cases h : 31 = i
    · subst h
      rw [if_pos rfl]
      apply BitVec.eq_of_toNat_eq
      rw [BitVec.toNat_xor, BitVec.toNat_shiftLeft, BitVec.toNat_ofNat, BitVec.toNat_ofNat, BitVec.toNat_ofNat]
      have e1 : (y + 2 ^ 255 * b) / 256 ^ 31 = y / 256 ^ 31 + 128 * b := by norm_num; omega
      have e2 : y / 256 ^ 31 < 128 := by norm_num at *; omega
      rw [e1]
      generalize y / 256 ^ 31 = w at *
      have hb : b = 0 ∨ b = 1 := by omega
      have tab : ∀ w : Fin 128, (w.val % 2 ^ 8 ^^^ (0 % 2 ^ 8) <<< 7 % 2 ^ 8) = (w.val + 128 * 0) % 2 ^ 8 ∧ (w.val % 2 ^ 8 ^^^ (1 % 2 ^ 8) <<< 7 % 2 ^ 8) = (w.val + 128 * 1) % 2 ^ 8 := by
        decide +kernel
      rcases hb with rfl | rfl
      · exact (tab ⟨w, e2⟩).1
      · exact (tab ⟨w, e2⟩).2
    · rw [if_neg h]
      apply BitVec.eq_of_toNat_eq
      rw [BitVec.toNat_ofNat, BitVec.toNat_ofNat]
      have : (y + 2 ^ 255 * b) / 256 ^ i % 256 = y / 256 ^ i % 256 := by
        rw [show (2 : Nat) ^ 255 * b = 256 ^ i * (256 * (2 ^ (255 - 8 * (i + 1)) * b)) by
          rw [show (256 : Nat) = 2 ^ 8 from rfl, ← pow_mul, ← mul_assoc, ← mul_assoc, ← pow_add, ← pow_add, show 8 * i + 8 + (255 - 8 * (i + 1)) = 255 by omega]]
        rw [Nat.add_mul_div_left _ _ (by positivity), Nat.add_mul_mod_self_left]
      exact this.symm

end Verif.Ed25519
