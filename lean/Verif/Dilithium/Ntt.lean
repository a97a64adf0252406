import Verif.Dilithium.Reduce
import Mathlib.Data.ZMod.Basic
import Mathlib.Tactic.Ring
import Mathlib.Tactic.LinearCombination
import Mathlib.Algebra.BigOperators.Intervals

/-! The number-theoretic transform of ntt.c: no overflow, and what it computes modulo q. -/

namespace Verif.Dilithium
open Verif Spec

theorem co_set (a : List Int) (i j : Nat) (v : Int) (h : i < a.length) : co (a.set i v) j = if j = i then v else co a j := by
  unfold co
  rw [List.getD_eq_getElem?_getD, List.getElem?_set]
  by_cases c : i = j
  · subst c; simp [h]
  · rw [if_neg c, if_neg (Ne.symm c), List.getD_eq_getElem?_getD]

theorem rd_co {a : List Int} {i : Nat} (h : i < a.length) : rd a i = .ok (co a i) := by
  rw [rd_ok h]; unfold co; simp [h]

theorem zetas_len : zetas.length = 256 := by decide +kernel
theorem zetas_bound : ∀ k, k < 256 → -4190208 ≤ co zetas k ∧ co zetas k ≤ 4190208 := by decide +kernel

/-! ### Integer level -/

/-- One forward layer on the coefficients. -/
def layerI (len : Nat) (f : Nat → Int) (i : Nat) : Int :=
  if i % (2 * len) < len then f i + mont (co zetas (128 / len + i / (2 * len)) * f (i + len))
  else f (i - len) - mont (co zetas (128 / len + i / (2 * len)) * f i)

/-- One inverse layer on the coefficients. -/
def ilayerI (len : Nat) (f : Nat → Int) (i : Nat) : Int :=
  if i % (2 * len) < len then f i + f (i + len)
  else mont (-co zetas (256 / len - 1 - i / (2 * len)) * (f (i - len) - f i))

theorem mont_bound {z y : Int} (hz : -4190208 ≤ z ∧ z ≤ 4190208) (hy : -2147483648 ≤ y ∧ y ≤ 2147483647) :
    i64 (z * y) = .ok (z * y) ∧ montgomeryReduce (z * y) = .ok (mont (z * y)) ∧ -8380417 < mont (z * y) ∧ mont (z * y) < 8380417 := by
  have h : |z * y| ≤ 4190208 * 2147483648 := by
    rw [abs_mul]
    exact mul_le_mul (abs_le.2 ⟨by omega, by omega⟩) (abs_le.2 ⟨by omega, by omega⟩) (abs_nonneg _) (by decide)
  have h := abs_le.1 h
  exact ⟨i64_ok (by omega) (by omega), montgomeryReduce_ok (by omega) (by omega)⟩

theorem nttBlock_ok {zeta B : Int} {len start : Nat} {a : Poly} (ha : a.length = 256) (hs : start + 2 * len ≤ 256)
    (hz : -4190208 ≤ zeta ∧ zeta ≤ 4190208) (hB : B + 8380417 ≤ 2147483648) (hb : ∀ i, start ≤ i → i < start + 2 * len → -B < co a i ∧ co a i < B) :
    ∃ a', nttBlock zeta len start a = .ok a' ∧ a'.length = 256 ∧
      ∀ i, co a' i = if start ≤ i ∧ i < start + len then co a i + mont (zeta * co a (i + len))
        else if start + len ≤ i ∧ i < start + 2 * len then co a (i - len) - mont (zeta * co a i) else co a i := by
  obtain ⟨a', e, h⟩ := loop_inv (fun j (s : Poly) => s.length = 256 ∧
      ∀ i, co s i = if start ≤ i ∧ i < j then co a i + mont (zeta * co a (i + len))
        else if start + len ≤ i ∧ i < j + len then co a (i - len) - mont (zeta * co a i) else co a i)
    (fun j a => do
      let y ← rd a (j + len)
      let p ← i64 (zeta * y)
      let t ← montgomeryReduce p
      let x ← rd a j
      let d ← i32 (x - t)
      let a ← wr a (j + len) d
      let x ← rd a j
      let s ← i32 (x + t)
      wr a j s) start len a ⟨ha, fun i => by rw [if_neg (by omega), if_neg (by omega)]⟩ (by
    intro k s hk1 hk2 ⟨hl, hv⟩
    have e1 : co s (k + len) = co a (k + len) := by rw [hv, if_neg (by omega), if_neg (by omega)]
    have e2 : co s k = co a k := by rw [hv, if_neg (by omega), if_neg (by omega)]
    have b1 := hb (k + len) (by omega) (by omega)
    have b2 := hb k (by omega) (by omega)
    obtain ⟨m1, m2, m3, m4⟩ := mont_bound hz (y := co a (k + len)) ⟨by omega, by omega⟩
    refine ⟨(s.set (k + len) (co a k - mont (zeta * co a (k + len)))).set k (co a k + mont (zeta * co a (k + len))), ?_, ?_, ?_⟩
    · rw [rd_co (by omega), ok_bind, e1, m1, ok_bind, m2, ok_bind, rd_co (by omega), ok_bind, e2, i32_ok (by omega) (by omega), ok_bind,
        wr_ok (by omega), ok_bind, rd_co (by simp; omega), ok_bind, co_set _ _ _ _ (by omega)]
      by_cases c : len = 0
      · omega
      · rw [if_neg (by omega), e2, i32_ok (by omega) (by omega), ok_bind, wr_ok (by simp; omega)]
    · simp [hl]
    · intro i
      rw [co_set _ _ _ _ (by simp; omega), co_set _ _ _ _ (by omega)]
      by_cases c1 : i = k
      · subst c1; rw [if_pos rfl, if_pos (by omega)]
      · rw [if_neg c1]
        by_cases c2 : i = k + len
        · subst c2
          rw [if_pos rfl, if_neg (by omega), if_pos (by omega)]
          simp
        · rw [if_neg c2, hv]
          by_cases c3 : start ≤ i ∧ i < k
          · rw [if_pos c3, if_pos (by omega)]
          · by_cases c4 : start + len ≤ i ∧ i < k + len
            · rw [if_neg c3, if_pos c4, if_neg (by omega), if_pos (by omega)]
            · rw [if_neg c3, if_neg c4, if_neg (by omega), if_neg (by omega)])
  refine ⟨a', e, h.1, fun i => ?_⟩
  rw [h.2, show start + 2 * len = start + len + len by omega]

theorem invnttBlock_ok {zeta B : Int} {len start : Nat} {a : Poly} (ha : a.length = 256) (hs : start + 2 * len ≤ 256)
    (hz : -4190208 ≤ zeta ∧ zeta ≤ 4190208) (hB : 2 * B ≤ 2147483648) (hb : ∀ i, start ≤ i → i < start + 2 * len → -B < co a i ∧ co a i < B) :
    ∃ a', invnttBlock zeta len start a = .ok a' ∧ a'.length = 256 ∧
      ∀ i, co a' i = if start ≤ i ∧ i < start + len then co a i + co a (i + len)
        else if start + len ≤ i ∧ i < start + 2 * len then mont (zeta * (co a (i - len) - co a i)) else co a i := by
  obtain ⟨a', e, h⟩ := loop_inv (fun j (s : Poly) => s.length = 256 ∧
      ∀ i, co s i = if start ≤ i ∧ i < j then co a i + co a (i + len)
        else if start + len ≤ i ∧ i < j + len then mont (zeta * (co a (i - len) - co a i)) else co a i)
    (fun j a => do
      let t ← rd a j
      let y ← rd a (j + len)
      let s ← i32 (t + y)
      let a ← wr a j s
      let y ← rd a (j + len)
      let d ← i32 (t - y)
      let a ← wr a (j + len) d
      let y ← rd a (j + len)
      let p ← i64 (zeta * y)
      let r ← montgomeryReduce p
      wr a (j + len) r) start len a ⟨ha, fun i => by rw [if_neg (by omega), if_neg (by omega)]⟩ (by
    intro k s hk1 hk2 ⟨hl, hv⟩
    have e1 : co s (k + len) = co a (k + len) := by rw [hv, if_neg (by omega), if_neg (by omega)]
    have e2 : co s k = co a k := by rw [hv, if_neg (by omega), if_neg (by omega)]
    have b1 := hb (k + len) (by omega) (by omega)
    have b2 := hb k (by omega) (by omega)
    obtain ⟨m1, m2, m3, m4⟩ := mont_bound hz (y := co a k - co a (k + len)) ⟨by omega, by omega⟩
    refine ⟨((s.set k (co a k + co a (k + len))).set (k + len) (co a k - co a (k + len))).set (k + len)
      (mont (zeta * (co a k - co a (k + len)))), ?_, ?_, ?_⟩
    · rw [rd_co (by omega), ok_bind, e2, rd_co (by omega), ok_bind, e1, i32_ok (by omega) (by omega), ok_bind,
        wr_ok (by omega), ok_bind, rd_co (by simp; omega), ok_bind, co_set _ _ _ _ (by omega), if_neg (by omega), e1,
        i32_ok (by omega) (by omega), ok_bind, wr_ok (by simp; omega), ok_bind, rd_co (by simp; omega), ok_bind,
        co_set _ _ _ _ (by simp; omega), if_pos rfl, m1, ok_bind, m2, ok_bind, wr_ok (by simp; omega)]
    · simp [hl]
    · intro i
      rw [co_set _ _ _ _ (by simp; omega), co_set _ _ _ _ (by simp; omega), co_set _ _ _ _ (by omega)]
      by_cases c2 : i = k + len
      · subst c2
        rw [if_pos rfl, if_neg (by omega), if_pos (by omega)]
        simp
      · rw [if_neg c2, if_neg c2]
        by_cases c1 : i = k
        · subst c1; rw [if_pos rfl, if_pos (by omega)]
        · rw [if_neg c1, hv]
          by_cases c3 : start ≤ i ∧ i < k
          · rw [if_pos c3, if_pos (by omega)]
          · by_cases c4 : start + len ≤ i ∧ i < k + len
            · rw [if_neg c3, if_pos c4, if_neg (by omega), if_pos (by omega)]
            · rw [if_neg c3, if_neg c4, if_neg (by omega), if_neg (by omega)])
  refine ⟨a', e, h.1, fun i => ?_⟩
  rw [h.2, show start + 2 * len = start + len + len by omega]

/-- Position of index `i` inside block number `b` of `2 * len` coefficients. -/
theorem block_pos {m b i : Nat} (h1 : m * b ≤ i) (h2 : i < m * b + m) : i / m = b ∧ i % m = i - m * b := by
  have hm : 0 < m := by omega
  have hd : i / m = b := by
    apply Nat.div_eq_of_lt_le
    · rw [Nat.mul_comm]; exact h1
    · rw [Nat.add_mul, Nat.mul_comm b m]; omega
  have := Nat.div_add_mod i m
  rw [hd] at this
  exact ⟨hd, by omega⟩

theorem layer_arith {len n i : Nat} (hn : 2 * len * n = 256) (hi : i < 256) :
    i / (2 * len) < n ∧ i % (2 * len) < 2 * len ∧ 2 * len * (i / (2 * len)) + i % (2 * len) = i ∧ 2 * len * (i / (2 * len)) + 2 * len ≤ 256 := by
  have hlen : 0 < len := by
    rcases Nat.eq_zero_or_pos len with h | h
    · simp [h] at hn
    · exact h
  have hlt : i / (2 * len) < n := Nat.div_lt_of_lt_mul (by rw [hn]; exact hi)
  refine ⟨hlt, Nat.mod_lt i (by omega), Nat.div_add_mod i (2 * len), ?_⟩
  rw [← hn, ← Nat.mul_succ]; exact Nat.mul_le_mul_left _ hlt

theorem layerI_bound {B : Int} {len n : Nat} {f : Nat → Int} (hn : 2 * len * n = 256) (hk : 128 / len = n)
    (hB : B + 8380417 ≤ 2147483648) (hb : ∀ i, i < 256 → -B < f i ∧ f i < B) {i : Nat} (hi : i < 256) :
    -(B + 8380417) < layerI len f i ∧ layerI len f i < B + 8380417 := by
  obtain ⟨h1, h2, h3, h4⟩ := layer_arith hn hi
  have hnle : n ≤ 128 := by rw [← hk]; exact Nat.div_le_self _ _
  have hzi := zetas_bound (128 / len + i / (2 * len)) (by omega)
  have b1 := hb i hi
  unfold layerI
  split
  · rename_i c
    have b2 := hb (i + len) (by omega)
    obtain ⟨_, _, m3, m4⟩ := mont_bound hzi (y := f (i + len)) ⟨by omega, by omega⟩
    omega
  · rename_i c
    have b2 := hb (i - len) (by omega)
    obtain ⟨_, _, m3, m4⟩ := mont_bound hzi (y := f i) ⟨by omega, by omega⟩
    omega

theorem nttLayer_ok {B : Int} {len n k0 : Nat} {a : Poly} (hn : 2 * len * n = 256) (hk : 128 / len = n) (hk0 : k0 + 1 = n) (ha : a.length = 256)
    (hB : B + 8380417 ≤ 2147483648) (hb : ∀ i, i < 256 → -B < co a i ∧ co a i < B) :
    ∃ a', nttLayer len (a, k0) = .ok (a', k0 + n) ∧ a'.length = 256 ∧ (∀ i, i < 256 → co a' i = layerI len (co a) i) ∧
      ∀ i, i < 256 → -(B + 8380417) < co a' i ∧ co a' i < B + 8380417 := by
  have hnle : n ≤ 128 := by rw [← hk]; exact Nat.div_le_self _ _
  have e0 : nttLayer len (a, k0) = loop (fun b (s : Poly × Nat) => do
      let k := s.2 + 1
      let zeta ← rd zetas k
      let a ← nttBlock zeta len (2 * len * b) s.1
      .ok (a, k)) 0 n (a, k0) := by
    unfold nttLayer; rw [hk]
  obtain ⟨⟨a', k'⟩, e, h1, h2, h3⟩ := loop_inv (fun b (s : Poly × Nat) => s.1.length = 256 ∧ s.2 = k0 + b ∧
      ∀ i, i < 256 → co s.1 i = if i < 2 * len * b then layerI len (co a) i else co a i)
    (fun b s => do
      let k := s.2 + 1
      let zeta ← rd zetas k
      let a ← nttBlock zeta len (2 * len * b) s.1
      .ok (a, k)) 0 n (a, k0) ⟨ha, rfl, fun i _ => by simp⟩ (by
    rintro b ⟨s, k⟩ _ hbn ⟨hl, hkk, hv⟩
    simp only at hl hkk hv
    subst hkk
    have hbb : 2 * len * b + 2 * len ≤ 256 := by
      rw [← hn, ← Nat.mul_succ]; exact Nat.mul_le_mul_left _ (by omega)
    have hz := zetas_bound (k0 + b + 1) (by omega)
    have hblk : ∀ i, 2 * len * b ≤ i → i < 2 * len * b + 2 * len → co s i = co a i := fun i h1 h2 => by
      rw [hv _ (by omega), if_neg (by omega)]
    obtain ⟨s', e1, e2, e3⟩ := nttBlock_ok (start := 2 * len * b) (len := len) hl hbb hz hB (fun i h1 h2 => by
      rw [hblk i h1 h2]; exact hb i (by omega))
    refine ⟨(s', k0 + b + 1), ?_, e2, rfl, ?_⟩
    · simp only
      rw [rd_co (by rw [zetas_len]; omega), ok_bind, e1, ok_bind]
    · intro i hi
      simp only
      rw [e3, Nat.mul_succ]
      by_cases c : i < 2 * len * b
      · rw [if_neg (by omega), if_neg (by omega), hv i hi, if_pos c, if_pos (by omega)]
      · by_cases c2 : i < 2 * len * b + 2 * len
        · obtain ⟨d1, d2⟩ := block_pos (m := 2 * len) (b := b) (i := i) (by omega) c2
          rw [if_pos c2]
          unfold layerI
          rw [d1, d2, hk, ← hk0, show k0 + 1 + b = k0 + b + 1 by omega]
          by_cases c3 : i < 2 * len * b + len
          · rw [if_pos (by omega), if_pos (by omega), hblk _ (by omega) (by omega), hblk _ (by omega) (by omega)]
          · rw [if_neg (by omega), if_pos (by omega), if_neg (by omega), hblk _ (by omega) (by omega), hblk _ (by omega) (by omega)]
        · rw [if_neg (by omega), if_neg (by omega), hv i hi, if_neg c, if_neg (by omega)])
  simp only [Nat.zero_add] at h1 h2 h3
  have hc : ∀ i, i < 256 → co a' i = layerI len (co a) i := fun i hi => by
    rw [h3 i hi, if_pos (by rw [hn]; exact hi)]
  refine ⟨a', by rw [e0, e, h2], h1, hc, fun i hi => ?_⟩
  rw [hc i hi]
  exact layerI_bound hn hk hB hb hi

theorem ilayerI_bound {B : Int} {len n : Nat} {f : Nat → Int} (hn : 2 * len * n = 256) (hk : 256 / len = 2 * n)
    (hB : 2 * B ≤ 2147483648) (hQ : 8380417 ≤ B) (hb : ∀ i, i < 256 → -B < f i ∧ f i < B) {i : Nat} (hi : i < 256) :
    -(2 * B) < ilayerI len f i ∧ ilayerI len f i < 2 * B := by
  obtain ⟨h1, h2, h3, h4⟩ := layer_arith hn hi
  have hnle : 2 * n ≤ 256 := by rw [← hk]; exact Nat.div_le_self _ _
  have hidx : ∀ x y : Nat, x < y → 2 * y ≤ 256 → 2 * y - 1 - x < 256 := by omega
  have hzi := zetas_bound (256 / len - 1 - i / (2 * len)) (by rw [hk]; exact hidx _ _ h1 hnle)
  have b1 := hb i hi
  unfold ilayerI
  split
  · rename_i c
    have b2 := hb (i + len) (by omega)
    omega
  · rename_i c
    have b2 := hb (i - len) (by omega)
    obtain ⟨_, _, m3, m4⟩ := mont_bound (z := -co zetas (256 / len - 1 - i / (2 * len))) ⟨by omega, by omega⟩
      (y := f (i - len) - f i) ⟨by omega, by omega⟩
    omega

theorem invnttLayer_ok {B : Int} {len n : Nat} {a : Poly} (hn : 2 * len * n = 256) (hk : 256 / len = 2 * n) (hk' : 128 / len = n) (ha : a.length = 256)
    (hB : 2 * B ≤ 2147483648) (hQ : 8380417 ≤ B) (hb : ∀ i, i < 256 → -B < co a i ∧ co a i < B) :
    ∃ a', invnttLayer len (a, 2 * n) = .ok (a', n) ∧ a'.length = 256 ∧ (∀ i, i < 256 → co a' i = ilayerI len (co a) i) ∧
      ∀ i, i < 256 → -(2 * B) < co a' i ∧ co a' i < 2 * B := by
  have hnle : 2 * n ≤ 256 := by rw [← hk]; exact Nat.div_le_self _ _
  have e0 : invnttLayer len (a, 2 * n) = loop (fun b (s : Poly × Nat) => do
      if s.2 = 0 then .error .ub else
      let k := s.2 - 1
      let z ← rd zetas k
      let zeta ← i32 (-z)
      let a ← invnttBlock zeta len (2 * len * b) s.1
      .ok (a, k)) 0 n (a, 2 * n) := by
    unfold invnttLayer; rw [hk']
  obtain ⟨⟨a', k'⟩, e, h1, h2, h3⟩ := loop_inv (fun b (s : Poly × Nat) => s.1.length = 256 ∧ s.2 = 2 * n - b ∧
      ∀ i, i < 256 → co s.1 i = if i < 2 * len * b then ilayerI len (co a) i else co a i)
    (fun b (s : Poly × Nat) => do
      if s.2 = 0 then .error .ub else
      let k := s.2 - 1
      let z ← rd zetas k
      let zeta ← i32 (-z)
      let a ← invnttBlock zeta len (2 * len * b) s.1
      .ok (a, k)) 0 n (a, 2 * n) ⟨ha, rfl, fun i _ => by simp⟩ (by
    rintro b ⟨s, k⟩ _ hbn ⟨hl, hkk, hv⟩
    simp only at hl hkk hv
    subst hkk
    have hbb : 2 * len * b + 2 * len ≤ 256 := by
      rw [← hn, ← Nat.mul_succ]; exact Nat.mul_le_mul_left _ (by omega)
    have hz := zetas_bound (2 * n - b - 1) (by omega)
    have hblk : ∀ i, 2 * len * b ≤ i → i < 2 * len * b + 2 * len → co s i = co a i := fun i h1 h2 => by
      rw [hv _ (by omega), if_neg (by omega)]
    obtain ⟨s', e1, e2, e3⟩ := invnttBlock_ok (zeta := -co zetas (2 * n - b - 1)) (start := 2 * len * b) (len := len) hl hbb
      ⟨by omega, by omega⟩ hB (fun i h1 h2 => by
      rw [hblk i h1 h2]; exact hb i (by omega))
    refine ⟨(s', 2 * n - (b + 1)), ?_, e2, rfl, ?_⟩
    · simp only
      rw [if_neg (by omega), rd_co (by rw [zetas_len]; omega), ok_bind, i32_ok (by omega) (by omega), ok_bind, e1, ok_bind,
        show 2 * n - b - 1 = 2 * n - (b + 1) by omega]
    · intro i hi
      simp only
      rw [e3, Nat.mul_succ]
      by_cases c : i < 2 * len * b
      · rw [if_neg (by omega), if_neg (by omega), hv i hi, if_pos c, if_pos (by omega)]
      · by_cases c2 : i < 2 * len * b + 2 * len
        · obtain ⟨d1, d2⟩ := block_pos (m := 2 * len) (b := b) (i := i) (by omega) c2
          rw [if_pos c2]
          unfold ilayerI
          rw [d1, d2, hk, show 2 * n - 1 - b = 2 * n - b - 1 by omega]
          by_cases c3 : i < 2 * len * b + len
          · rw [if_pos (by omega), if_pos (by omega), hblk _ (by omega) (by omega), hblk _ (by omega) (by omega)]
          · rw [if_neg (by omega), if_pos (by omega), if_neg (by omega), hblk _ (by omega) (by omega), hblk _ (by omega) (by omega)]
        · rw [if_neg (by omega), if_neg (by omega), hv i hi, if_neg c, if_neg (by omega)])
  simp only [Nat.zero_add] at h1 h2 h3
  have hc : ∀ i, i < 256 → co a' i = ilayerI len (co a) i := fun i hi => by
    rw [h3 i hi, if_pos (by rw [hn]; exact hi)]
  refine ⟨a', by rw [e0, e, h2, show 2 * n - n = n by omega], h1, hc, fun i hi => ?_⟩
  rw [hc i hi]
  exact ilayerI_bound hn hk hB hQ hb hi

/-- The eight forward layers. -/
def nttI (f : Nat → Int) : Nat → Int :=
  layerI 1 <| layerI 2 <| layerI 4 <| layerI 8 <| layerI 16 <| layerI 32 <| layerI 64 <| layerI 128 f

/-- The eight inverse layers. -/
def invnttI (f : Nat → Int) : Nat → Int :=
  ilayerI 128 <| ilayerI 64 <| ilayerI 32 <| ilayerI 16 <| ilayerI 8 <| ilayerI 4 <| ilayerI 2 <| ilayerI 1 f

theorem layerI_congr {len n : Nat} {f g : Nat → Int} (hn : 2 * len * n = 256) (h : ∀ i, i < 256 → f i = g i) :
    ∀ i, i < 256 → layerI len f i = layerI len g i := by
  intro i hi
  obtain ⟨h1, h2, h3, h4⟩ := layer_arith hn hi
  unfold layerI
  split
  · rw [h i hi, h (i + len) (by omega)]
  · rw [h i hi, h (i - len) (by omega)]

theorem ilayerI_congr {len n : Nat} {f g : Nat → Int} (hn : 2 * len * n = 256) (h : ∀ i, i < 256 → f i = g i) :
    ∀ i, i < 256 → ilayerI len f i = ilayerI len g i := by
  intro i hi
  obtain ⟨h1, h2, h3, h4⟩ := layer_arith hn hi
  unfold ilayerI
  split
  · rw [h i hi, h (i + len) (by omega)]
  · rw [h i hi, h (i - len) (by omega)]

theorem ntt_run {B : Int} {a : Poly} (ha : a.length = 256) (hB : B + 67043336 ≤ 2147483648)
    (hb : ∀ i, i < 256 → -B < co a i ∧ co a i < B) :
    ∃ a', ntt a = .ok a' ∧ a'.length = 256 ∧ (∀ i, i < 256 → co a' i = nttI (co a) i) ∧
      ∀ i, i < 256 → -(B + 67043336) < co a' i ∧ co a' i < B + 67043336 := by
  obtain ⟨a1, e1, l1, v1, b1⟩ := nttLayer_ok (len := 128) (n := 1) (k0 := 0) (a := a) (B := B) rfl rfl rfl ha (by omega) hb
  obtain ⟨a2, e2, l2, v2, b2⟩ := nttLayer_ok (len := 64) (n := 2) (k0 := 1) rfl rfl rfl l1 (by omega) b1
  obtain ⟨a3, e3, l3, v3, b3⟩ := nttLayer_ok (len := 32) (n := 4) (k0 := 3) rfl rfl rfl l2 (by omega) b2
  obtain ⟨a4, e4, l4, v4, b4⟩ := nttLayer_ok (len := 16) (n := 8) (k0 := 7) rfl rfl rfl l3 (by omega) b3
  obtain ⟨a5, e5, l5, v5, b5⟩ := nttLayer_ok (len := 8) (n := 16) (k0 := 15) rfl rfl rfl l4 (by omega) b4
  obtain ⟨a6, e6, l6, v6, b6⟩ := nttLayer_ok (len := 4) (n := 32) (k0 := 31) rfl rfl rfl l5 (by omega) b5
  obtain ⟨a7, e7, l7, v7, b7⟩ := nttLayer_ok (len := 2) (n := 64) (k0 := 63) rfl rfl rfl l6 (by omega) b6
  obtain ⟨a8, e8, l8, v8, b8⟩ := nttLayer_ok (len := 1) (n := 128) (k0 := 127) rfl rfl rfl l7 (by omega) b7
  refine ⟨a8, ?_, l8, ?_, fun i hi => ?_⟩
  · have step : ∀ (l n : Nat) (s s' : Poly × Nat), nttLayer (128 / 2 ^ l) s = .ok s' →
        loop (fun l s => nttLayer (128 / 2 ^ l) s) l (n + 1) s = loop (fun l s => nttLayer (128 / 2 ^ l) s) (l + 1) n s' := by
      intro l n s s' h
      rw [loop_succ, h, ok_bind]
    unfold ntt
    rw [step 0 7 _ _ e1, step 1 6 _ _ e2, step 2 5 _ _ e3, step 3 4 _ _ e4, step 4 3 _ _ e5, step 5 2 _ _ e6, step 6 1 _ _ e7, step 7 0 _ _ e8,
      loop_zero, ok_bind]
  · have w2 := fun i hi => (v2 i hi).trans (layerI_congr (len := 64) (n := 2) rfl v1 i hi)
    have w3 := fun i hi => (v3 i hi).trans (layerI_congr (len := 32) (n := 4) rfl w2 i hi)
    have w4 := fun i hi => (v4 i hi).trans (layerI_congr (len := 16) (n := 8) rfl w3 i hi)
    have w5 := fun i hi => (v5 i hi).trans (layerI_congr (len := 8) (n := 16) rfl w4 i hi)
    have w6 := fun i hi => (v6 i hi).trans (layerI_congr (len := 4) (n := 32) rfl w5 i hi)
    have w7 := fun i hi => (v7 i hi).trans (layerI_congr (len := 2) (n := 64) rfl w6 i hi)
    exact fun i hi => (v8 i hi).trans (layerI_congr (len := 1) (n := 128) rfl w7 i hi)
  · have := b8 i hi
    omega

theorem invntt_run {a : Poly} (ha : a.length = 256) (hb : ∀ i, i < 256 → -8380417 < co a i ∧ co a i < 8380417) :
    ∃ a', invntt a = .ok a' ∧ a'.length = 256 ∧ (∀ i, i < 256 → co a' i = mont (41978 * invnttI (co a) i)) ∧
      ∀ i, i < 256 → -4211178 < co a' i ∧ co a' i < 4211178 := by
  obtain ⟨a1, e1, l1, v1, b1⟩ := invnttLayer_ok (len := 1) (n := 128) (a := a) (B := 8380417) rfl rfl rfl ha (by omega) (by omega) hb
  obtain ⟨a2, e2, l2, v2, b2⟩ := invnttLayer_ok (len := 2) (n := 64) rfl rfl rfl l1 (by omega) (by omega) b1
  obtain ⟨a3, e3, l3, v3, b3⟩ := invnttLayer_ok (len := 4) (n := 32) rfl rfl rfl l2 (by omega) (by omega) b2
  obtain ⟨a4, e4, l4, v4, b4⟩ := invnttLayer_ok (len := 8) (n := 16) rfl rfl rfl l3 (by omega) (by omega) b3
  obtain ⟨a5, e5, l5, v5, b5⟩ := invnttLayer_ok (len := 16) (n := 8) rfl rfl rfl l4 (by omega) (by omega) b4
  obtain ⟨a6, e6, l6, v6, b6⟩ := invnttLayer_ok (len := 32) (n := 4) rfl rfl rfl l5 (by omega) (by omega) b5
  obtain ⟨a7, e7, l7, v7, b7⟩ := invnttLayer_ok (len := 64) (n := 2) rfl rfl rfl l6 (by omega) (by omega) b6
  obtain ⟨a8, e8, l8, v8, b8⟩ := invnttLayer_ok (len := 128) (n := 1) rfl rfl rfl l7 (by omega) (by omega) b7
  have w2 := fun i hi => (v2 i hi).trans (ilayerI_congr (len := 2) (n := 64) rfl v1 i hi)
  have w3 := fun i hi => (v3 i hi).trans (ilayerI_congr (len := 4) (n := 32) rfl w2 i hi)
  have w4 := fun i hi => (v4 i hi).trans (ilayerI_congr (len := 8) (n := 16) rfl w3 i hi)
  have w5 := fun i hi => (v5 i hi).trans (ilayerI_congr (len := 16) (n := 8) rfl w4 i hi)
  have w6 := fun i hi => (v6 i hi).trans (ilayerI_congr (len := 32) (n := 4) rfl w5 i hi)
  have w7 := fun i hi => (v7 i hi).trans (ilayerI_congr (len := 64) (n := 2) rfl w6 i hi)
  have w8 := fun i hi => (v8 i hi).trans (ilayerI_congr (len := 128) (n := 1) rfl w7 i hi)
  have hm : ∀ j, j < 256 → i64 (41978 * co a8 j) = .ok (41978 * co a8 j) ∧ montgomeryReduce (41978 * co a8 j) = .ok (mont (41978 * co a8 j)) ∧
      -4211178 < mont (41978 * co a8 j) ∧ mont (41978 * co a8 j) < 4211178 := fun j hj => by
    have := b8 j hj
    have hb1 : -2147483648 ≤ (41978 * co a8 j * 58728449).bmod 4294967296 := Int.le_bmod (by omega)
    have hb2 : (41978 * co a8 j * 58728449).bmod 4294967296 < 2147483648 := Int.bmod_lt (by omega)
    have he := mont_exact (41978 * co a8 j)
    have hm := mont_bound (z := 41978) (y := co a8 j) ⟨by omega, by omega⟩ ⟨by omega, by omega⟩
    generalize (41978 * co a8 j * 58728449).bmod 4294967296 = m at *
    generalize mont (41978 * co a8 j) = r at *
    exact ⟨hm.1, hm.2.1, by omega, by omega⟩
  have eb := build_ok (d := (0 : Int)) (f := fun j => do
      let x ← rd a8 j
      let p ← i64 (41978 * x)
      montgomeryReduce p) (g := fun j => mont (41978 * co a8 j)) (n := 256) (fun j hj => by
    obtain ⟨m1, m2, _, _⟩ := hm j hj
    rw [rd_co (by omega), ok_bind, m1, ok_bind, m2])
  have hco : ∀ i, i < 256 → co ((List.range 256).map fun j => mont (41978 * co a8 j)) i = mont (41978 * co a8 i) := fun i hi => by
    unfold co; rw [List.getD_eq_getElem?_getD, List.getElem?_map, List.getElem?_range hi]; rfl
  refine ⟨(List.range 256).map fun j => mont (41978 * co a8 j), ?_, by simp, fun i hi => ?_, fun i hi => ?_⟩
  · have step : ∀ (l n : Nat) (s s' : Poly × Nat), invnttLayer (2 ^ l) s = .ok s' →
        loop (fun l s => invnttLayer (2 ^ l) s) l (n + 1) s = loop (fun l s => invnttLayer (2 ^ l) s) (l + 1) n s' := by
      intro l n s s' h
      rw [loop_succ, h, ok_bind]
    unfold invntt
    rw [step 0 7 _ _ e1, step 1 6 _ _ e2, step 2 5 _ _ e3, step 3 4 _ _ e4, step 4 3 _ _ e5, step 5 2 _ _ e6, step 6 1 _ _ e7, step 7 0 _ _ e8,
      loop_zero, ok_bind]
    exact eb
  · rw [hco i hi, w8 i hi]; rfl
  · rw [hco i hi]; exact (hm i hi).2.2

end Verif.Dilithium
