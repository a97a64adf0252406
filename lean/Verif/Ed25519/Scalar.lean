import Verif.Ed25519.Decode
import Verif.Ed25519.Sha

/-!
Reduction of scalars modulo the group order: `modL` and `reduce`.
-/

namespace Verif.Ed25519
open Verif Spec

/-- Entry `k` of the table of the order. -/
abbrev tL (k : Nat) : Int := g tabL k

theorem tL_range (k : Nat) : 0 ≤ tL k ∧ tL k ≤ 255 := by
  by_cases h : k < 32
  · have : ∀ k : Fin 32, 0 ≤ tL k ∧ tL k ≤ 255 := by decide +kernel
    exact this ⟨k, h⟩
  · have : tL k = 0 := by
      unfold tL g
      rw [List.getD_eq_getElem?_getD, List.getElem?_eq_none (by rw [show tabL.length = 32 from rfl]; omega)]
      rfl
    omega

theorem tL_zero (k : Nat) (h1 : 16 ≤ k) (h2 : k < 20) : tL k = 0 := by
  have : ∀ k : Fin 4, tL (16 + k) = 0 := by decide +kernel
  have := this ⟨k - 16, by omega⟩
  simpa [show 16 + (k - 16) = k by omega] using this

theorem rd_tabL {k : Nat} (h : k < 32) : rd tabL k = .ok (tL k) := rd_g h

/-- The value of the low `k` entries of the table. -/
abbrev tV (k : Nat) : Int := bval 256 (tabL.take k)

theorem tV_succ (k : Nat) (h : k < 32) : tV (k + 1) = tV k + tL k * 256 ^ k := bval_take 256 tabL k h

theorem tV_20 : 16 * tV 20 + 2 ^ 256 = 16 * (L : Int) := by decide +kernel
theorem tV_32 : tV 32 = (L : Int) := by decide +kernel

/-! ### The first loop -/

/-- The carries of round `i`. -/
def cr (x : List Int) (i : Nat) : Nat → Int
  | 0 => 0
  | k + 1 => (g x (i - 32 + k) + (cr x i k - 16 * g x i * tL k) + 128) / 256

theorem mul_tL_bound {a : Int} {B : Int} (ha : -B ≤ a ∧ a ≤ B) (k : Nat) : -(255 * B) ≤ a * tL k ∧ a * tL k ≤ 255 * B := by
  have ht := tL_range k
  constructor <;> nlinarith

theorem cr_bound {x : List Int} {i : Nat} (hi : -2 ^ 23 ≤ g x i ∧ g x i ≤ 2 ^ 23)
    (hx : ∀ k < 20, -2 ^ 23 ≤ g x (i - 32 + k) ∧ g x (i - 32 + k) ≤ 2 ^ 23) (k : Nat) (hk : k ≤ 20) : -2 ^ 28 ≤ cr x i k ∧ cr x i k ≤ 2 ^ 28 := by
  induction k with
  | zero => simp [cr]
  | succ k ih =>
    have h1 := ih (by omega)
    have h2 := hx k (by omega)
    have h3 := mul_tL_bound (a := 16 * g x i) (B := 16 * 2 ^ 23) ⟨by omega, by omega⟩ k
    unfold cr
    generalize 16 * g x i * tL k = z at *
    omega

theorem cr_end {x : List Int} {i : Nat} (hi : -2 ^ 23 ≤ g x i ∧ g x i ≤ 2 ^ 23)
    (hx : ∀ k < 20, -2 ^ 23 ≤ g x (i - 32 + k) ∧ g x (i - 32 + k) ≤ 2 ^ 23) : -2 ^ 22 ≤ cr x i 20 ∧ cr x i 20 ≤ 2 ^ 22 := by
  have h := cr_bound hi hx 19 (by omega)
  have h2 := hx 19 (by omega)
  have e : cr x i 20 = (g x (i - 32 + 19) + (cr x i 19 - 16 * g x i * tL 19) + 128) / 256 := rfl
  rw [e, tL_zero 19 (by omega) (by omega), mul_zero]
  omega

theorem cr_end_tight {x : List Int} {i : Nat} (hi : -2 ^ 23 ≤ g x i ∧ g x i ≤ 2 ^ 23)
    (hx : ∀ k < 20, -2 ^ 23 ≤ g x (i - 32 + k) ∧ g x (i - 32 + k) ≤ 2 ^ 23)
    (ht : ∀ k, 16 ≤ k → k < 20 → -128 ≤ g x (i - 32 + k) ∧ g x (i - 32 + k) ≤ 127) : -1 ≤ cr x i 20 ∧ cr x i 20 ≤ 1 := by
  have h := cr_bound hi hx 16 (by omega)
  have e17 : cr x i 17 = (g x (i - 32 + 16) + (cr x i 16 - 16 * g x i * tL 16) + 128) / 256 := rfl
  have e18 : cr x i 18 = (g x (i - 32 + 17) + (cr x i 17 - 16 * g x i * tL 17) + 128) / 256 := rfl
  have e19 : cr x i 19 = (g x (i - 32 + 18) + (cr x i 18 - 16 * g x i * tL 18) + 128) / 256 := rfl
  have e20 : cr x i 20 = (g x (i - 32 + 19) + (cr x i 19 - 16 * g x i * tL 19) + 128) / 256 := rfl
  rw [tL_zero _ (by omega) (by omega), mul_zero] at e17 e18 e19 e20
  have t16 := ht 16 (by omega) (by omega)
  have t17 := ht 17 (by omega) (by omega)
  have t18 := ht 18 (by omega) (by omega)
  have t19 := ht 19 (by omega) (by omega)
  omega

theorem modLInner_ok {x : List Int} {i : Nat} (hl : x.length = 64) (hi1 : 32 ≤ i) (hi2 : i < 64) (hi : -2 ^ 23 ≤ g x i ∧ g x i ≤ 2 ^ 23)
    (hx : ∀ k < 20, -2 ^ 23 ≤ g x (i - 32 + k) ∧ g x (i - 32 + k) ≤ 2 ^ 23) :
    ∃ y, loop (modLInner i) (i - 32) 20 (x, 0) = .ok (y, cr x i 20) ∧ y.length = 64 ∧
      bval 256 y = bval 256 x - 16 * g x i * tV 20 * 256 ^ (i - 32) - cr x i 20 * 256 ^ (i - 12) ∧
      (∀ k, i - 32 ≤ k → k < i - 12 → -128 ≤ g y k ∧ g y k ≤ 127) ∧ (∀ k, k < i - 32 ∨ i - 12 ≤ k → g y k = g x k) := by
  obtain ⟨s, e, h1, h2, h3, h4, h5⟩ := loop_inv (fun j (s : List Int × Int) => s.1.length = 64 ∧ s.2 = cr x i (j - (i - 32)) ∧
      bval 256 s.1 = bval 256 x - 16 * g x i * tV (j - (i - 32)) * 256 ^ (i - 32) - cr x i (j - (i - 32)) * 256 ^ j ∧
      (∀ k, i - 32 ≤ k → k < j → -128 ≤ g s.1 k ∧ g s.1 k ≤ 127) ∧ (∀ k, k < i - 32 ∨ j ≤ k → g s.1 k = g x k))
    (modLInner i) (i - 32) 20 (x, 0)
    ⟨hl, by rw [Nat.sub_self]; rfl, by
      rw [Nat.sub_self]
      show bval 256 x = bval 256 x - 16 * g x i * 0 * _ - 0 * _
      ring, fun k h1 h2 => by omega, fun _ _ => rfl⟩
    (by
      rintro j ⟨y, c⟩ hj1 hj2 ⟨h1, h2, h3, h4, h5⟩
      simp only [] at h1 h2 h3 h4 h5
      obtain ⟨k, rfl⟩ : ∃ k, j = i - 32 + k := ⟨j - (i - 32), by omega⟩
      rw [Nat.add_sub_cancel_left] at h2 h3
      have hk : k < 20 := by omega
      have b1 := cr_bound hi hx k (by omega)
      have b2 := hx k hk
      have b3 := mul_tL_bound (a := 16 * g x i) (B := 16 * 2 ^ 23) ⟨by omega, by omega⟩ k
      subst h2
      obtain ⟨v, hv⟩ : ∃ v, v = g x (i - 32 + k) + (cr x i k - 16 * g x i * tL k) := ⟨_, rfl⟩
      have hcr : cr x i (k + 1) = (v + 128) / 256 := by rw [hv]; rfl
      have hvb : -2 ^ 40 ≤ v ∧ v ≤ 2 ^ 40 := by
        generalize 16 * g x i * tL k = z at *
        omega
      refine ⟨((y.set (i - 32 + k) v).set (i - 32 + k) (v - (v + 128) / 256 * 256), (v + 128) / 256), ?_, ?_⟩
      · unfold modLInner
        simp only []
        rw [rd_g (by omega), ok_bind, rd_g (by omega), ok_bind, h5 _ (Or.inr (Nat.le_refl _)), h5 i (Or.inr (by omega)), i64_ok (by omega) (by omega), ok_bind,
          Nat.add_sub_cancel_left, rd_tabL (by omega), ok_bind, ← hv, toI64_ok (by omega) (by omega), wr_ok (by omega), ok_bind,
          rd_g (by rw [List.length_set]; omega), ok_bind, g_set (by omega), if_pos rfl, i64_ok (by omega) (by omega), ok_bind]
        rw [i64_ok (by omega) (by omega), ok_bind, i64_ok (by omega) (by omega), ok_bind, wr_ok (by rw [List.length_set]; omega), ok_bind]
      · simp only []
        rw [List.set_set]
        refine ⟨by rw [List.length_set]; exact h1, ?_, ?_, ?_, ?_⟩
        · rw [show i - 32 + k + 1 - (i - 32) = k + 1 by omega, hcr]
        · rw [show i - 32 + k + 1 - (i - 32) = k + 1 by omega, bval_set 256 (by omega), h3, hcr, tV_succ k (by omega), h5 _ (Or.inr (Nat.le_refl _))]
          generalize (v + 128) / 256 = c
          rw [hv, pow_add _ _ 1, pow_add _ (i - 32) k]
          ring
        · intro m hm1 hm2
          rw [g_set (by omega)]
          by_cases h : m = i - 32 + k
          · rw [if_pos h]; omega
          · rw [if_neg h]; exact h4 m hm1 (by omega)
        · intro m hm
          rw [g_set (by omega), if_neg (by omega)]
          exact h5 m (by omega))
  obtain ⟨y, c⟩ := s
  simp only [] at h1 h2 h3 h4 h5
  rw [show i - 32 + 20 = i - 12 by omega] at *
  rw [show i - 12 - (i - 32) = 20 by omega] at *
  subst h2
  exact ⟨y, e, h1, h3, h4, h5⟩

/-- The state before round `r` of the first loop (after all rounds for r = 31). -/
structure ModInv (V : Int) (r : Nat) (x : List Int) : Prop where
  len : x.length = 64
  value : ∃ c, bval 256 x = V - c * (L : Int)
  low : ∀ k, k + 32 ≤ r → -2 ^ 22 ≤ g x k ∧ g x k ≤ 2 ^ 22
  all : ∀ k < 64, -2 ^ 23 ≤ g x k ∧ g x k ≤ 2 ^ 23
  start : r = 63 → ∀ k < 64, -2 ^ 22 ≤ g x k ∧ g x k ≤ 2 ^ 22
  mid : r < 63 → ∀ k, r ≤ k + 31 → k + 12 ≤ r → -128 ≤ g x k ∧ g x k ≤ 127
  high : r < 63 → ∀ k, r ≤ k + 11 → k ≤ 50 → -129 ≤ g x k ∧ g x k ≤ 128
  zero : ∀ k, r < k → g x k = 0

theorem modLOuter_ok {V : Int} {i : Nat} {x : List Int} (hi1 : 32 ≤ i) (hi2 : i < 64) (h : ModInv V i x) :
    ∃ y, modLOuter i x = .ok y ∧ ModInv V (i - 1) y := by
  have hi := h.all i hi2
  have hx : ∀ k < 20, -2 ^ 23 ≤ g x (i - 32 + k) ∧ g x (i - 32 + k) ≤ 2 ^ 23 := fun k hk => h.all _ (by omega)
  obtain ⟨y, e, h1, h2, h3, h4⟩ := modLInner_ok h.len hi1 hi2 hi hx
  have hc := cr_end hi hx
  have hct : i < 63 → -1 ≤ cr x i 20 ∧ cr x i 20 ≤ 1 := fun h63 =>
    cr_end_tight hi hx (fun k hk1 hk2 => h.mid h63 _ (by omega) (by omega))
  generalize cr x i 20 = c at *
  have g12 : g y (i - 12) = g x (i - 12) := h4 _ (Or.inr (Nat.le_refl _))
  have b12 := h.all (i - 12) (by omega)
  have gi : g y i = g x i := h4 _ (Or.inr (by omega))
  refine ⟨(y.set (i - 12) (g x (i - 12) + c)).set i 0, ?_, ?_⟩
  · unfold modLOuter
    rw [e, ok_bind]
    simp only []
    rw [rd_g (by omega), ok_bind, g12, i64_ok (by omega) (by omega), ok_bind, wr_ok (by omega), ok_bind, wr_ok (by rw [List.length_set]; omega)]
  · have hg : ∀ k, g ((y.set (i - 12) (g x (i - 12) + c)).set i 0) k = if k = i then 0 else if k = i - 12 then g x (i - 12) + c else g y k := by
      intro k
      rw [g_set (by rw [List.length_set]; omega)]
      by_cases hk : k = i
      · rw [if_pos hk, if_pos hk]
      · rw [if_neg hk, if_neg hk, g_set (by omega)]
    constructor
    · rw [List.length_set, List.length_set, h1]
    · obtain ⟨c0, hc0⟩ := h.value
      refine ⟨c0 + 16 * g x i * 256 ^ (i - 32), ?_⟩
      have hp : (256 : Int) ^ i = 256 ^ (i - 32) * 2 ^ 256 := by
        rw [show (2 : Int) ^ 256 = 256 ^ 32 by norm_num, ← pow_add]; congr 1; omega
      rw [bval_set 256 (by rw [List.length_set]; omega), bval_set 256 (by omega), h2, hc0, g_set (by omega), if_neg (by omega), gi, g12, hp]
      have := tV_20
      linear_combination (- g x i * 256 ^ (i - 32)) * this
    · intro k hk
      rw [hg, if_neg (by omega), if_neg (by omega), h4 k (Or.inl (by omega))]
      exact h.low k (by omega)
    · intro k hk
      rw [hg]
      by_cases hki : k = i
      · rw [if_pos hki]; omega
      · rw [if_neg hki]
        by_cases hk12 : k = i - 12
        · rw [if_pos hk12]
          by_cases h63 : i < 63
          · have := hct h63
            have := h.mid h63 (i - 12) (by omega) (by omega)
            omega
          · have := h.start (by omega) (i - 12) (by omega)
            omega
        · rw [if_neg hk12]
          by_cases hin : i - 32 ≤ k ∧ k < i - 12
          · have := h3 k hin.1 hin.2; omega
          · rw [h4 k (by omega)]; exact h.all k hk
    · intro h; omega
    · intro _ k hk1 hk2
      rw [hg, if_neg (by omega), if_neg (by omega)]
      exact h3 k (by omega) (by omega)
    · intro _ k hk1 hk2
      rw [hg]
      by_cases hki : k = i
      · rw [if_pos hki]; omega
      · rw [if_neg hki]
        by_cases hk12 : k = i - 12
        · rw [if_pos hk12]
          have h63 : i < 63 := by omega
          have := hct h63
          have := h.mid h63 (i - 12) (by omega) (by omega)
          omega
        · rw [if_neg hk12, h4 k (Or.inr (by omega))]
          exact h.high (by omega) k (by omega) hk2
    · intro k hk
      rw [hg]
      by_cases hki : k = i
      · rw [if_pos hki]
      · rw [if_neg hki, if_neg (by omega), h4 k (Or.inr (by omega))]
        exact h.zero k (by omega)

theorem modL_first {x : List Int} (hl : x.length = 64) (hx : ∀ k < 64, -2 ^ 22 ≤ g x k ∧ g x k ≤ 2 ^ 22) :
    ∃ y, loop (fun k x => modLOuter (63 - k) x) 0 32 x = .ok y ∧ ModInv (bval 256 x) 31 y := by
  obtain ⟨y, e, h⟩ := loop_inv (fun k y => ModInv (bval 256 x) (63 - k) y) (fun k x => modLOuter (63 - k) x) 0 32 x
    ⟨hl, ⟨0, by ring⟩, fun k hk => hx k (by omega), fun k hk => by have := hx k hk; omega, fun _ => hx, fun h => by omega, fun h => by omega, fun k hk => by
      unfold g
      rw [List.getD_eq_getElem?_getD, List.getElem?_eq_none (by omega)]
      rfl⟩
    (by
      rintro k y - hk h
      obtain ⟨y', e, h'⟩ := modLOuter_ok (by omega) (by omega) h
      exact ⟨y', e, by rw [show 63 - (k + 1) = 63 - k - 1 by omega]; exact h'⟩)
  exact ⟨y, e, h⟩

/-! ### The second loop -/

/-- The carries of the second loop, for the multiple `q` of the order. -/
def c2 (x : List Int) (q : Int) : Nat → Int
  | 0 => 0
  | k + 1 => (g x k + (c2 x q k - q * tL k)) / 256

theorem c2_bound {x : List Int} {q : Int} (hq : -9 ≤ q ∧ q ≤ 9) (hx : ∀ k < 32, -129 ≤ g x k ∧ g x k ≤ 128) (k : Nat) (hk : k ≤ 32) :
    -2 ^ 20 ≤ c2 x q k ∧ c2 x q k ≤ 2 ^ 20 := by
  induction k with
  | zero => simp [c2]
  | succ k ih =>
    have h1 := ih (by omega)
    have h2 := hx k (by omega)
    have h3 := mul_tL_bound (a := q) (B := 9) hq k
    unfold c2
    generalize q * tL k = z at *
    omega

theorem modL_second {x : List Int} {q : Int} (hl : x.length = 64) (hq : q = g x 31 / 16) (hx : ∀ k < 32, -129 ≤ g x k ∧ g x k ≤ 128) :
    ∃ y, loop (fun j (s : List Int × Int) => do
        let xj ← rd s.1 j
        let x31 ← rd s.1 31
        let l ← rd tabL j
        let x ← wr s.1 j (toI64 (xj + (s.2 - x31 / 16 * l)))
        let xj ← rd x j
        let x ← wr x j (and64 xj 255)
        .ok (x, xj / 256)) 0 32 (x, 0) = .ok (y, c2 x q 32) ∧ y.length = 64 ∧
      bval 256 y = bval 256 x - q * (L : Int) - c2 x q 32 * 2 ^ 256 ∧
      (∀ k < 32, 0 ≤ g y k ∧ g y k < 256) ∧ (∀ k, 32 ≤ k → g y k = g x k) := by
  have hq9 : -9 ≤ q ∧ q ≤ 9 := by have := hx 31 (by omega); omega
  obtain ⟨s, e, h1, h2, h3, h4, h5⟩ := loop_inv (fun j (s : List Int × Int) => s.1.length = 64 ∧ s.2 = c2 x q j ∧
      bval 256 s.1 = bval 256 x - q * tV j - c2 x q j * 256 ^ j ∧
      (∀ k, k < j → 0 ≤ g s.1 k ∧ g s.1 k < 256) ∧ (∀ k, j ≤ k → g s.1 k = g x k))
    (fun j (s : List Int × Int) => do
        let xj ← rd s.1 j
        let x31 ← rd s.1 31
        let l ← rd tabL j
        let x ← wr s.1 j (toI64 (xj + (s.2 - x31 / 16 * l)))
        let xj ← rd x j
        let x ← wr x j (and64 xj 255)
        .ok (x, xj / 256)) 0 32 (x, 0)
    ⟨hl, rfl, by
      show bval 256 x = bval 256 x - q * 0 - 0 * _
      ring, fun k h1 => by omega, fun _ _ => rfl⟩
    (by
      rintro k ⟨y, c⟩ - hk ⟨h1, h2, h3, h4, h5⟩
      simp only [] at h1 h2 h3 h4 h5
      have hk : k < 32 := by omega
      have b1 := c2_bound hq9 hx k (by omega)
      have b2 := hx k hk
      have b3 := mul_tL_bound (a := q) (B := 9) hq9 k
      subst h2
      obtain ⟨v, hv⟩ : ∃ v, v = g x k + (c2 x q k - q * tL k) := ⟨_, rfl⟩
      have hcr : c2 x q (k + 1) = v / 256 := by rw [hv]; rfl
      have hvb : -2 ^ 40 ≤ v ∧ v ≤ 2 ^ 40 := by
        generalize q * tL k = z at *
        omega
      refine ⟨((y.set k v).set k (v % 256), v / 256), ?_, ?_⟩
      · simp only []
        rw [rd_g (by omega), ok_bind, rd_g (by omega), ok_bind, h5 _ (Nat.le_refl _), h5 31 (by omega), ← hq, rd_tabL (by omega), ok_bind,
          ← hv, toI64_ok (by omega) (by omega), wr_ok (by omega), ok_bind,
          rd_g (by rw [List.length_set]; omega), ok_bind, g_set (by omega), if_pos rfl, and64_255, wr_ok (by rw [List.length_set]; omega), ok_bind]
      · simp only []
        rw [List.set_set]
        refine ⟨by rw [List.length_set]; exact h1, hcr.symm, ?_, ?_, ?_⟩
        · rw [bval_set 256 (by omega), h3, hcr, tV_succ k (by omega), h5 _ (Nat.le_refl _)]
          have hm : v % 256 = v - 256 * (v / 256) := by omega
          rw [hm]
          generalize v / 256 = c
          rw [hv, pow_succ]
          ring
        · intro m hm
          rw [g_set (by omega)]
          by_cases h : m = k
          · rw [if_pos h]; omega
          · rw [if_neg h]; exact h4 m (by omega)
        · intro m hm
          rw [g_set (by omega), if_neg (by omega)]
          exact h5 m (by omega))
  obtain ⟨y, c⟩ := s
  simp only [Nat.zero_add] at h1 h2 h3 h4 h5
  subst h2
  refine ⟨y, e, h1, ?_, h4, h5⟩
  rw [h3, tV_32]
  norm_num

/-! ### The last loop: little-endian digits -/

/-- The carries of the last loop. -/
def c4 (y : List Int) : Nat → Int
  | 0 => 0
  | k + 1 => (g y k + c4 y k) / 256

theorem c4_digits (y : List Int) (hl : 32 ≤ y.length) (n : Nat) (hn : n ≤ 32) :
    bval 256 ((List.range n).map fun k => (g y k + c4 y k) % 256) = bval 256 (y.take n) - c4 y n * 256 ^ n := by
  induction n with
  | zero => simp [bval, c4]
  | succ n ih =>
    rw [List.range_succ, List.map_append, bval_append, ih (by omega), bval_take 256 y n (by omega)]
    simp only [List.map_cons, List.map_nil, bval, mul_zero, add_zero, List.length_map, List.length_range]
    have e : c4 y (n + 1) = (g y n + c4 y n) / 256 := rfl
    have hm : (g y n + c4 y n) % 256 = g y n + c4 y n - 256 * ((g y n + c4 y n) / 256) := by omega
    rw [hm, e]
    generalize (g y n + c4 y n) / 256 = c
    rw [pow_succ]
    ring

theorem c4_bound (y : List Int) (h : ∀ k < 33, -2 ^ 20 ≤ g y k ∧ g y k ≤ 2 ^ 20) (k : Nat) (hk : k ≤ 32) : -2 ^ 20 ≤ c4 y k ∧ c4 y k ≤ 2 ^ 20 := by
  induction k with
  | zero => simp [c4]
  | succ k ih =>
    have h1 := ih (by omega)
    have h2 := h k (by omega)
    unfold c4
    omega

theorem leVal_bval (l : List Int) (h : ∀ k < l.length, 0 ≤ g l k ∧ g l k < 256) : (leVal (l.map (BitVec.ofInt 8)) : Int) = bval 256 l := by
  induction l with
  | nil => rfl
  | cons a l ih =>
    have h0 := h 0 (by simp)
    simp only [g, List.getD_cons_zero] at h0
    have hi := ih (fun k hk => by simpa [g] using h (k + 1) (by simpa using hk))
    simp only [List.map_cons, leVal, bval, Nat.cast_add, Nat.cast_mul, hi]
    congr 1
    rw [BitVec.toNat_ofInt]
    norm_num
    omega

theorem modL_last {y : List Int} (hl : y.length = 64) (hy : ∀ k < 33, -2 ^ 20 ≤ g y k ∧ g y k ≤ 2 ^ 20) :
    ∃ x, loop (fun i (s : List Int × Bytes) => do
        let xi ← rd s.1 i
        let xn ← rd s.1 (i + 1)
        let xn ← i64 (xn + xi / 256)
        let x ← wr s.1 (i + 1) xn
        let r ← wr s.2 i (BitVec.ofInt 8 (and64 xi 255))
        .ok (x, r)) 0 32 (y, List.replicate 32 0) = .ok (x, leBytes 32 (bval 256 (y.take 32) % 2 ^ 256).toNat) := by
  obtain ⟨s, e, h1, h2, h3, h4⟩ := loop_inv (fun i (s : List Int × Bytes) => s.1.length = 64 ∧ g s.1 i = g y i + c4 y i ∧ (∀ m, i < m → g s.1 m = g y m) ∧
      s.2 = ((List.range i).map fun k => (g y k + c4 y k) % 256).map (BitVec.ofInt 8) ++ List.replicate (32 - i) 0)
    (fun i (s : List Int × Bytes) => do
        let xi ← rd s.1 i
        let xn ← rd s.1 (i + 1)
        let xn ← i64 (xn + xi / 256)
        let x ← wr s.1 (i + 1) xn
        let r ← wr s.2 i (BitVec.ofInt 8 (and64 xi 255))
        .ok (x, r)) 0 32 (y, List.replicate 32 0)
    ⟨hl, by show g y 0 = g y 0 + 0; ring, fun _ _ => rfl, rfl⟩
    (by
      rintro i ⟨x, r⟩ - hi ⟨h1, h2, h3, h4⟩
      simp only [] at h1 h2 h3 h4
      have b1 := c4_bound y hy i (by omega)
      have b2 := hy i (by omega)
      have b3 := hy (i + 1) (by omega)
      have hrl : r.length = 32 := by rw [h4]; simp; omega
      refine ⟨(x.set (i + 1) (g y (i + 1) + (g y i + c4 y i) / 256), r.set i (BitVec.ofInt 8 ((g y i + c4 y i) % 256))), ?_, ?_⟩
      · simp only []
        rw [rd_g (by omega), ok_bind, rd_g (by omega), ok_bind, h2, h3 _ (by omega), i64_ok (by omega) (by omega), ok_bind, wr_ok (by omega), ok_bind, and64_255, wr_ok (by omega), ok_bind]
      · simp only []
        refine ⟨by rw [List.length_set]; exact h1, ?_, ?_, ?_⟩
        · rw [g_set (by omega), if_pos rfl]; rfl
        · intro m hm
          rw [g_set (by omega), if_neg (by omega)]
          exact h3 m (by omega)
        · rw [h4, List.set_append_right _ _ (by simp), show 32 - i = (32 - (i + 1)) + 1 by omega]
          simp [List.range_succ, List.replicate_succ])
  obtain ⟨x, r⟩ := s
  simp only [Nat.zero_add] at h1 h2 h3 h4
  refine ⟨x, ?_⟩
  rw [e, h4]
  congr 2
  rw [Nat.sub_self, List.replicate_zero, List.append_nil]
  obtain ⟨D, hD⟩ : ∃ D, D = (List.range 32).map fun k => (g y k + c4 y k) % 256 := ⟨_, rfl⟩
  have hDl : D.length = 32 := by rw [hD]; simp
  have hDr : ∀ k < D.length, 0 ≤ g D k ∧ g D k < 256 := by
    intro k hk
    rw [hD, g_map 32 _ k (by omega)]
    omega
  have hv := leVal_bval D hDr
  have hd := c4_digits y (by omega) 32 (Nat.le_refl _)
  rw [← hD] at hd ⊢
  have hlt := bval_lt 256 (by omega) D (fun k hk => (hDr k hk).2)
  have hge := bval_nonneg 256 (by omega) D (fun k hk => (hDr k hk).1)
  rw [hDl] at hlt
  have : bval 256 (y.take 32) % 2 ^ 256 = bval 256 D := by
    rw [show bval 256 (y.take 32) = bval 256 D + 2 ^ 256 * c4 y 32 by rw [hd]; norm_num; ring, Int.add_mul_emod_self_left, Int.emod_eq_of_lt hge (by norm_num at hlt ⊢; exact hlt)]
  rw [this, ← hv, Int.toNat_natCast]
  have := leBytes_leVal (D.map (BitVec.ofInt 8))
  rw [List.length_map, hDl] at this
  exact this.symm

theorem bval_zero_tail (l : List Int) (h : ∀ k, g l k = 0) : bval 256 l = 0 := by
  induction l with
  | nil => rfl
  | cons a l ih =>
    have h0 := h 0
    simp only [g, List.getD_cons_zero] at h0
    rw [bval, h0, ih (fun k => by simpa [g] using h (k + 1))]
    ring

theorem bval_take32 {l : List Int} (h : ∀ k, 32 ≤ k → g l k = 0) : bval 256 (l.take 32) = bval 256 l := by
  have e : bval 256 l = bval 256 (l.take 32 ++ l.drop 32) := by rw [List.take_append_drop]
  rw [e, bval_append, bval_zero_tail (l.drop 32) (by
    intro k
    have := h (32 + k) (by omega)
    unfold g at *
    rw [List.getD_eq_getElem?_getD] at *
    rw [List.getElem?_drop]
    exact this)]
  ring

/-- Bounds of a value from bounds of its limbs. -/
theorem bval_bounds (l : List Int) (lo hi : Int) (h : ∀ k < l.length, lo ≤ g l k ∧ g l k ≤ hi) :
    lo * (256 ^ l.length - 1) ≤ 255 * bval 256 l ∧ 255 * bval 256 l ≤ hi * (256 ^ l.length - 1) := by
  induction l with
  | nil => simp [bval]
  | cons a l ih =>
    have h0 := h 0 (by simp)
    simp only [g, List.getD_cons_zero] at h0
    have hi := ih (fun k hk => by simpa [g] using h (k + 1) (by simpa using hk))
    simp only [bval, List.length_cons, pow_succ]
    constructor <;> linarith [hi.1, hi.2, h0.1, h0.2]

theorem L_value : (L : Int) = 2 ^ 252 + 27742317777372353535851937790883648493 := by decide +kernel

/-- tweetnacl/tweetnacl.c:694-718: for limbs of at most 2^22, no operation overflows and the result is the canonical residue. -/
theorem modL_ok {x : List Int} (hl : x.length = 64) (hx : ∀ k < 64, -2 ^ 22 ≤ g x k ∧ g x k ≤ 2 ^ 22) :
    modL x = .ok (leBytes 32 (bval 256 x % (L : Int)).toNat) := by
  unfold modL
  obtain ⟨y, e1, h⟩ := modL_first hl hx
  rw [e1, ok_bind]
  have hy : ∀ k < 32, -129 ≤ g y k ∧ g y k ≤ 128 := by
    intro k hk
    by_cases hk19 : k ≤ 19
    · have := h.mid (by omega) k (by omega) (by omega); omega
    · exact h.high (by omega) k (by omega) (by omega)
  obtain ⟨q, hq⟩ : ∃ q, q = g y 31 / 16 := ⟨_, rfl⟩
  obtain ⟨z, e2, z1, z2, z3, z4⟩ := modL_second h.len hq hy
  rw [e2, ok_bind]
  simp only []
  -- the value before the second loop
  have hyz : bval 256 (y.take 32) = bval 256 y := bval_take32 (fun k hk => h.zero k (by omega))
  have hsplit : bval 256 (y.take 32) = bval 256 (y.take 31) + g y 31 * 256 ^ 31 := bval_take 256 y 31 (by rw [h.len]; omega)
  have hb := bval_bounds (y.take 31) (-129) 128 (by
    intro k hk
    rw [List.length_take, h.len] at hk
    have : g (y.take 31) k = g y k := by
      unfold g
      rw [List.getD_eq_getElem?_getD, List.getD_eq_getElem?_getD, List.getElem?_take_of_lt (by omega)]
    rw [this]
    exact hy k (by omega))
  rw [List.length_take, h.len, show min 31 64 = 31 from rfl] at hb
  have h31 := hy 31 (by omega)
  have hzr : bval 256 (z.take 32) = bval 256 z := bval_take32 (fun k hk => by rw [z4 k hk]; exact h.zero k (by omega))
  have hzb : 0 ≤ bval 256 (z.take 32) ∧ bval 256 (z.take 32) < 256 ^ 32 := by
    have hr : ∀ k < (z.take 32).length, 0 ≤ g (z.take 32) k ∧ g (z.take 32) k < 256 := by
      intro k hk
      rw [List.length_take, z1] at hk
      have : g (z.take 32) k = g z k := by
        unfold g
        rw [List.getD_eq_getElem?_getD, List.getD_eq_getElem?_getD, List.getElem?_take_of_lt (by omega)]
      rw [this]
      exact z3 k (by omega)
    have h1 := bval_lt 256 (by omega) (z.take 32) (fun k hk => (hr k hk).2)
    rw [List.length_take, z1] at h1
    exact ⟨bval_nonneg 256 (by omega) _ (fun k hk => (hr k hk).1), h1⟩
  obtain ⟨c0, hc0⟩ := h.value
  obtain ⟨c, hc⟩ : ∃ c, c = c2 y q 32 := ⟨_, rfl⟩
  rw [← hc] at z2 ⊢
  obtain ⟨T, hT⟩ : ∃ T, T = bval 256 y - q * (L : Int) := ⟨_, rfl⟩
  have hTb : -(L : Int) < T ∧ T < (L : Int) := by
    rw [hT, ← hyz, hsplit, L_value]
    generalize bval 256 (y.take 31) = W at hb
    generalize g y 31 = X at *
    norm_num at hb ⊢
    omega
  have hc01 : c = 0 ∨ c = -1 := by
    rw [← hT, ← hzr] at z2
    rw [L_value] at hTb
    generalize bval 256 (z.take 32) = Z at *
    norm_num at *
    omega
  -- the third loop
  have hc1 : -1 ≤ c ∧ c ≤ 1 := by omega
  obtain ⟨w, e3, w1, w2, w3, w4⟩ := loop_inv (fun j (w : List Int) => w.length = 64 ∧ (∀ k < j, g w k = g z k - c * tL k) ∧ (∀ k, j ≤ k → g w k = g z k) ∧
      bval 256 w = bval 256 z - c * tV j) (fun j x => do
      let xj ← rd x j
      let l ← rd tabL j
      wr x j (toI64 (xj - c * l))) 0 32 z ⟨z1, fun k hk => by omega, fun _ _ => rfl, by show _ = _ - c * 0; ring⟩
    (by
      rintro j w - hj ⟨w1, w2, w3, w4⟩
      have b1 := z3 j (by omega)
      have b2 := mul_tL_bound (a := c) (B := 1) hc1 j
      refine ⟨w.set j (g z j - c * tL j), ?_, by rw [List.length_set]; exact w1, ?_, ?_, ?_⟩
      · rw [rd_g (by omega), ok_bind, rd_tabL (by omega), ok_bind, w3 j (Nat.le_refl _), toI64_ok (by omega) (by omega), wr_ok (by omega)]
      · intro k hk
        rw [g_set (by omega)]
        by_cases h : k = j
        · rw [if_pos h, h]
        · rw [if_neg h]; exact w2 k (by omega)
      · intro k hk
        rw [g_set (by omega), if_neg (by omega)]
        exact w3 k (by omega)
      · rw [bval_set 256 (by omega), w4, tV_succ j (by omega), w3 j (Nat.le_refl _)]
        ring)
  rw [e3, ok_bind]
  rw [Nat.zero_add] at w2 w3 w4
  obtain ⟨u, e4⟩ := modL_last w1 (by
    intro k hk
    by_cases h32 : k < 32
    · rw [w2 k h32]
      have b1 := z3 k h32
      have b2 := mul_tL_bound (a := c) (B := 1) hc1 k
      omega
    · rw [w3 k (by omega), z4 k (by omega), h.zero k (by omega)]
      omega)
  rw [e4, ok_bind]
  simp only []
  have hwr : bval 256 (w.take 32) = bval 256 w := bval_take32 (fun k hk => by rw [w3 k hk, z4 k hk]; exact h.zero k (by omega))
  have key : bval 256 (w.take 32) % 2 ^ 256 = bval 256 x % (L : Int) := by
    have hV : bval 256 x = T + (c0 + q) * (L : Int) := by rw [hT]; linear_combination -hc0
    rw [hwr, w4, z2, ← hT, tV_32, hV, Int.add_mul_emod_self_right]
    rcases hc01 with h0 | h1
    · have hT0 : 0 ≤ T := by
        rw [h0, ← hT, ← hzr] at z2
        have := hzb.1
        omega
      rw [h0, show T - 0 * 2 ^ 256 - 0 * (L : Int) = T by ring, Int.emod_eq_of_lt hT0 hTb.2, Int.emod_eq_of_lt hT0 (by
        have := hTb.2
        rw [L_value] at this
        norm_num at this ⊢
        omega)]
    · have hT0 : T < 0 := by
        rw [h1, ← hT, ← hzr] at z2
        have := hzb.2
        norm_num at this z2
        omega
      rw [h1, show T - -1 * 2 ^ 256 - -1 * (L : Int) = (T + L) + 2 ^ 256 * 1 by ring, Int.add_mul_emod_self_left, Int.emod_eq_of_lt (by omega) (by
        have := hTb.2
        rw [L_value] at *
        norm_num at *
        omega), ← Int.add_emod_right, Int.emod_eq_of_lt (by omega) (by omega)]
  rw [key]

/-- The limbs of a list of bytes. -/
theorem bval_bytes (b : Bytes) : bval 256 (b.map fun v => (v.toNat : Int)) = (leVal b : Int) := by
  induction b with
  | nil => rfl
  | cons a b ih => simp only [List.map_cons, bval, leVal, ih, Nat.cast_add, Nat.cast_mul]; rfl

/-- tweetnacl/tweetnacl.c:720-726: the 64-byte value reduced modulo the order, followed by zeros. -/
theorem reduce_ok {r : Bytes} (h : r.length = 64) : reduce r = .ok (leBytes 32 (leVal r % L) ++ List.replicate 32 0) := by
  unfold reduce
  rw [fill_ok 64 0 _ (fun i => ((r.getD i 0).toNat : Int)) (by
    intro k s hk hs
    rw [rd_ok (by omega), ok_bind, wr_ok (by omega)]
    simp [h, hk]), ok_bind]
  have hx : ((List.range 64).map fun i => ((r.getD i 0).toNat : Int)) = r.map fun v => (v.toNat : Int) := by
    apply List.ext_getElem
    · simp [h]
    · intro k h1 h2
      rw [List.length_map, h] at h2
      simp [h, h2]
  obtain ⟨z, ez, hz⟩ := loop_inv (fun i (z : Bytes) => z = List.replicate i 0 ++ r.drop i) (fun i r => wr r i (0 : Byte)) 0 64 r (by simp)
    (by
      rintro i z - hi rfl
      refine ⟨_, wr_ok (by rw [List.length_append, List.length_replicate, List.length_drop]; omega), ?_⟩
      rw [List.set_append_right _ _ (by simp), List.length_replicate, Nat.sub_self, List.drop_eq_getElem_cons (by omega), List.set_cons_zero, List.replicate_succ', List.append_assoc]
      rfl)
  rw [hx, ez, ok_bind]
  rw [modL_ok (by rw [List.length_map, h]) (by
    intro k hk
    rw [g_eq (by rw [List.length_map, h]; exact hk), List.getElem_map]
    have := (r[k]'(by omega)).isLt
    omega), ok_bind, bval_bytes]
  rw [Nat.zero_add, List.drop_of_length_le (by omega), List.append_nil] at hz
  have hm : ((leVal r : Int) % (L : Int)).toNat = leVal r % L := by
    rw [← Int.natCast_mod, Int.toNat_natCast]
  rw [hm, copy_ok (by rw [length_leBytes]) (by rw [hz, List.length_replicate]; omega), hz]
  congr 1

end Verif.Ed25519
