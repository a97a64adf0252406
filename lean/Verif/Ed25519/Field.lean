import Verif.Ed25519.Limbs
import Verif.Ed25519.Spec

/-!
The field arithmetic of tweetnacl.c computes in `ZMod (2^255 - 19)`.
-/

namespace Verif.Ed25519
open Verif

local macro "ln" : tactic => `(tactic| first | omega | (simp only [List.length_set, List.length_drop]; omega))

/-- The integer that sixteen limbs stand for. -/
abbrev val (a : Gf) : Int := bval 65536 a

/-! ### Carrying -/

/-- The carry into limb `k`. -/
def cc (o : Gf) : Nat → Int
  | 0 => 0
  | k + 1 => (g o k + cc o k) / 65536

theorem cc_bound (o : Gf) (hb : ∀ k < 16, -2 ^ 62 ≤ g o k ∧ g o k ≤ 2 ^ 62) (k : Nat) (hk : k ≤ 16) : -2 ^ 47 ≤ cc o k ∧ cc o k ≤ 2 ^ 47 := by
  induction k with
  | zero => simp [cc]
  | succ k ih =>
    have := ih (by omega)
    have := hb k (by omega)
    simp only [cc]
    omega

theorem car25519_ok (o : Gf) (hl : o.length = 16) (hb : ∀ k < 16, -2 ^ 62 ≤ g o k ∧ g o k ≤ 2 ^ 62) :
    ∃ o', car25519 o = .ok o' ∧ o'.length = 16 ∧ val o' = val o - cc o 16 * (2 ^ 256 - 38) ∧
      (∀ k, 1 ≤ k → k < 16 → g o' k = (g o k + cc o k) % 65536) ∧ g o' 0 = g o 0 % 65536 + 38 * cc o 16 := by
  unfold car25519
  rw [show (16 : Nat) = 15 + 1 from rfl, loop_add]
  obtain ⟨s, e, hsl, hsv, hs⟩ := loop_inv (fun i s => s.length = 16 ∧ val s = val o ∧
      ∀ k < 16, g s k = if k < i then (g o k + cc o k) % 65536 else if k = i then g o k + cc o k else g o k)
    (fun i o => do
      let oi ← rd o i
      let oi ← i64 (oi + 65536)
      let o ← wr o i oi
      let c := oi / 65536
      let c1 ← i64 (c - 1)
      let t ← i64 (37 * c1)
      let t ← i64 (t * if i = 15 then 1 else 0)
      let t ← i64 (c1 + t)
      let k := (i + 1) * if i < 15 then 1 else 0
      let ok ← rd o k
      let ok ← i64 (ok + t)
      let o ← wr o k ok
      let oi ← rd o i
      let s ← i64 (c * 65536)
      let oi ← i64 (oi - s)
      wr o i oi) 0 15 o ⟨hl, rfl, by
        intro k _
        by_cases h : k = 0
        · subst h; simp [cc]
        · simp [h]⟩
    (by
      rintro i s - hi ⟨hsl, hsv, hs⟩
      have hi' : i < 15 := by omega
      have e1 := hs i (by omega)
      rw [if_neg (by omega), if_pos rfl] at e1
      have e2 := hs (i + 1) (by omega)
      rw [if_neg (by omega), if_neg (by omega)] at e2
      have b1 := hb i (by omega)
      have b2 := hb (i + 1) (by omega)
      have b3 := cc_bound o hb i (by omega)
      have b4 : cc o (i + 1) = (g o i + cc o i) / 65536 := rfl
      refine ⟨((s.set i (g s i + 65536)).set (i + 1) (g s (i + 1) + ((g s i + 65536) / 65536 - 1))).set i ((g s i + 65536) - (g s i + 65536) / 65536 * 65536), ?_, ?_⟩
      · simp only []
        rw [rd_g (by omega), ok_bind, i64_ok (by omega) (by omega), ok_bind, wr_ok (by omega), ok_bind, i64_ok (by omega) (by omega), ok_bind,
          i64_ok (by omega) (by omega), ok_bind, if_neg (by omega), mul_zero, i64_ok (by omega) (by omega), ok_bind, i64_ok (by omega) (by omega), ok_bind,
          if_pos hi', Nat.mul_one, rd_g (by ln), ok_bind, g_set (by ln), if_neg (by omega), add_zero, i64_ok (by omega) (by omega), ok_bind,
          wr_ok (by ln), ok_bind, rd_g (by ln), ok_bind, g_set (by ln), if_neg (by omega), g_set (by ln), if_pos rfl,
          i64_ok (by omega) (by omega), ok_bind, i64_ok (by omega) (by omega), ok_bind, wr_ok (by ln)]
      · refine ⟨by simp [hsl], ?_, ?_⟩
        · unfold val
          rw [bval_set _ (by ln), bval_set _ (by ln), bval_set _ (by omega), g_set (by ln), if_neg (by omega), g_set (by ln), if_neg (by omega),
            g_set (by ln), if_pos rfl, pow_succ]
          rw [show bval 65536 s = bval 65536 o from hsv]
          ring
        · intro k hk
          rw [g_set (by ln), g_set (by ln), g_set (by ln)]
          have := hs k hk
          by_cases h1 : k = i
          · subst h1
            rw [if_pos rfl, if_pos (by omega), e1]
            omega
          · rw [if_neg h1, if_neg h1]
            by_cases h2 : k = i + 1
            · subst h2
              rw [if_pos rfl, if_neg (by omega), if_pos rfl, e1, e2, b4]
              omega
            · rw [if_neg h2, if_neg h2, this]
              by_cases h3 : k < i
              · rw [if_pos h3, if_pos (by omega)]
              · rw [if_neg h3, if_neg h1, if_neg (by omega)])
  rw [e, ok_bind, loop_succ]
  have e1 := hs 15 (by omega)
  rw [if_neg (by omega), if_pos rfl] at e1
  have e2 := hs 0 (by omega)
  rw [if_pos (by omega)] at e2
  have b1 := hb 15 (by omega)
  have b3 := cc_bound o hb 15 (by omega)
  have b4 : cc o (15 + 1) = (g o 15 + cc o 15) / 65536 := rfl
  have b5 : cc o 0 = 0 := rfl
  rw [b5, add_zero] at e2
  have e3 : (g s 15 + 65536) / 65536 = cc o (15 + 1) + 1 := by omega
  refine ⟨((s.set 15 (g s 15 + 65536)).set 0 (g s 0 + (((g s 15 + 65536) / 65536 - 1) + 37 * ((g s 15 + 65536) / 65536 - 1)))).set 15 ((g s 15 + 65536) - (g s 15 + 65536) / 65536 * 65536), ?_, ?_, ?_, ?_, ?_⟩
  · simp only [Nat.zero_add]
    rw [rd_g (by omega), ok_bind, i64_ok (by omega) (by omega), ok_bind, wr_ok (by omega), ok_bind, i64_ok (by omega) (by omega), ok_bind,
      i64_ok (by omega) (by omega), ok_bind, if_pos trivial, mul_one, i64_ok (by omega) (by omega), ok_bind, i64_ok (by omega) (by omega), ok_bind,
      if_neg (by omega), Nat.mul_zero, rd_g (by ln), ok_bind, g_set (by ln), if_neg (by omega), i64_ok (by omega) (by omega), ok_bind,
      wr_ok (by ln), ok_bind, rd_g (by ln), ok_bind, g_set (by ln), if_neg (by omega), g_set (by ln), if_pos rfl,
      i64_ok (by omega) (by omega), ok_bind, i64_ok (by omega) (by omega), ok_bind, wr_ok (by ln)]
    rfl
  · simp [hsl]
  · unfold val
    rw [bval_set _ (by ln), bval_set _ (by ln), bval_set _ (by omega), g_set (by ln), if_neg (by omega), g_set (by ln), if_neg (by omega),
      g_set (by ln), if_pos rfl]
    rw [show bval 65536 s = bval 65536 o from hsv, e3]
    ring
  · intro k hk1 hk
    rw [g_set (by ln), g_set (by ln), g_set (by ln)]
    by_cases h1 : k = 15
    · subst h1
      rw [if_pos rfl, e1]
      omega
    · rw [if_neg h1, if_neg (by omega), if_neg h1, hs k hk, if_pos (by omega)]
  · rw [g_set (by ln), if_neg (by omega), g_set (by ln), if_pos rfl, e2]
    omega

/-- Limbs as `fM` leaves them. -/
structure Tight (a : Gf) : Prop where
  len : a.length = 16
  lo : -38 ≤ g a 0
  hi : g a 0 ≤ 65535 + 38
  rest : ∀ k, 1 ≤ k → k < 16 → 0 ≤ g a k ∧ g a k < 65536

/-- Limbs that `fM` accepts. -/
structure Small (a : Gf) : Prop where
  len : a.length = 16
  bound : ∀ k < 16, -2 ^ 20 ≤ g a k ∧ g a k ≤ 2 ^ 20

theorem Tight.bound {a : Gf} (h : Tight a) (k : Nat) (hk : k < 16) : -38 ≤ g a k ∧ g a k ≤ 65573 := by
  by_cases h0 : k = 0
  · subst h0; exact ⟨h.lo, h.hi⟩
  · have := h.rest k (by omega) hk
    omega

theorem Tight.small {a : Gf} (h : Tight a) : Small a := ⟨h.len, fun k hk => by have := h.bound k hk; omega⟩

/-- First carry: all limbs but the lowest end in range. -/
theorem car_first (o : Gf) (hl : o.length = 16) (hb : ∀ k < 16, -2 ^ 62 ≤ g o k ∧ g o k ≤ 2 ^ 62) :
    ∃ o', car25519 o = .ok o' ∧ o'.length = 16 ∧ (∃ c, val o' = val o - c * (2 ^ 256 - 38)) ∧
      (∀ k, 1 ≤ k → k < 16 → 0 ≤ g o' k ∧ g o' k < 65536) ∧ -2 ^ 53 ≤ g o' 0 ∧ g o' 0 ≤ 2 ^ 53 := by
  obtain ⟨o', e, h1, h2, h3, h4⟩ := car25519_ok o hl hb
  refine ⟨o', e, h1, ⟨_, h2⟩, ?_, ?_⟩
  · intro k hk1 hk
    rw [h3 k hk1 hk]
    omega
  · have := cc_bound o hb 16 (by omega)
    omega

/-- The carries when all limbs but the lowest are in range. -/
theorem cc_chain (o : Gf) (hr : ∀ k, 1 ≤ k → k < 16 → 0 ≤ g o k ∧ g o k < 65536) (h0 : -2 ^ 53 ≤ g o 0 ∧ g o 0 ≤ 2 ^ 53) :
    -1 ≤ cc o 16 ∧ cc o 16 ≤ 1 := by
  have c1 : cc o 1 = (g o 0 + cc o 0) / 65536 := rfl
  have c0 : cc o 0 = 0 := rfl
  have c2 : cc o 2 = (g o 1 + cc o 1) / 65536 := rfl
  have c3 : cc o 3 = (g o 2 + cc o 2) / 65536 := rfl
  have c4 : cc o 4 = (g o 3 + cc o 3) / 65536 := rfl
  have r1 := hr 1 (by omega) (by omega)
  have r2 := hr 2 (by omega) (by omega)
  have r3 := hr 3 (by omega) (by omega)
  have h : ∀ k, k ≤ 12 → -1 ≤ cc o (4 + k) ∧ cc o (4 + k) ≤ 1 := by
    intro k
    induction k with
    | zero => intro _; rw [Nat.add_zero]; omega
    | succ k ih =>
      intro hk
      have := ih (by omega)
      have r := hr (4 + k) (by omega) (by omega)
      have c : cc o (4 + (k + 1)) = (g o (4 + k) + cc o (4 + k)) / 65536 := rfl
      omega
  exact h 12 (by omega)

theorem car_second (o : Gf) (hl : o.length = 16) (hr : ∀ k, 1 ≤ k → k < 16 → 0 ≤ g o k ∧ g o k < 65536) (h0 : -2 ^ 53 ≤ g o 0 ∧ g o 0 ≤ 2 ^ 53) :
    ∃ o', car25519 o = .ok o' ∧ Tight o' ∧ (∃ c, val o' = val o - c * (2 ^ 256 - 38)) := by
  obtain ⟨o', e, h1, h2, h3, h4⟩ := car25519_ok o hl (fun k hk => by
    by_cases hz : k = 0
    · subst hz; omega
    · have := hr k (by omega) hk; omega)
  have := cc_chain o hr h0
  refine ⟨o', e, ⟨h1, by omega, by omega, ?_⟩, ⟨_, h2⟩⟩
  intro k hk1 hk
  rw [h3 k hk1 hk]
  omega

/-- The third carry of `pack25519` brings every limb into range. -/
theorem car_third (o : Gf) (ht : Tight o) :
    ∃ o', car25519 o = .ok o' ∧ o'.length = 16 ∧ (∀ k < 16, 0 ≤ g o' k ∧ g o' k < 65536) ∧ (∃ c, val o' = val o - c * (2 ^ 256 - 38)) := by
  obtain ⟨o', e, h1, h2, h3, h4⟩ := car25519_ok o ht.len (fun k hk => by have := ht.bound k hk; omega)
  refine ⟨o', e, h1, ?_, ⟨_, h2⟩⟩
  intro k hk
  by_cases hz : k = 0
  · subst hz
    have h0 := ht.lo
    have h0' := ht.hi
    -- a carry out of the top means that every limb carried
    have up : ∀ k, 1 ≤ k → k ≤ 16 → -1 ≤ cc o k ∧ cc o k ≤ 1 ∧ (cc o k = 1 → cc o 1 = 1) ∧ (cc o k = -1 → cc o 1 = -1) := by
      intro k
      induction k with
      | zero => intro h; omega
      | succ k ih =>
        intro _ hk
        by_cases hk0 : k = 0
        · subst hk0
          have c1 : cc o (0 + 1) = (g o 0 + cc o 0) / 65536 := rfl
          have c0 : cc o 0 = 0 := rfl
          rw [c0] at c1
          refine ⟨by omega, by omega, fun h => h, fun h => h⟩
        · have := ih (by omega) (by omega)
          have r := ht.rest k (by omega) (by omega)
          have c : cc o (k + 1) = (g o k + cc o k) / 65536 := rfl
          refine ⟨by omega, by omega, fun h => this.2.2.1 (by omega), fun h => this.2.2.2 (by omega)⟩
    have u := up 16 (by omega) (by omega)
    have c1 : cc o 1 = (g o 0 + cc o 0) / 65536 := rfl
    have c0 : cc o 0 = 0 := rfl
    rw [h4]
    rcases (by omega : cc o 16 = -1 ∨ cc o 16 = 0 ∨ cc o 16 = 1) with h | h | h
    · have := u.2.2.2 h; omega
    · omega
    · have := u.2.2.1 h; omega
  · rw [h3 k (by omega) hk]
    omega

/-! ### Copies, addition, subtraction -/

theorem set25519_ok {a : Gf} (h : a.length = 16) : set25519 a = .ok a := by
  unfold set25519
  rw [fill_ok 16 0 _ (g a) (by
    intro k s hk hs
    rw [rd_g (by omega), ok_bind, wr_ok (by omega)])]
  congr 1
  exact ext_g (by simp [h]) (fun k hk => g_map 16 _ k (by simpa using hk))

theorem bval_map_add (b : Int) (n : Nat) (u v : Nat → Int) :
    bval b ((List.range n).map fun k => u k + v k) = bval b ((List.range n).map u) + bval b ((List.range n).map v) := by
  induction n with
  | zero => simp [bval]
  | succ n ih => simp only [List.range_succ, List.map_append, bval_append, ih, List.map_cons, List.map_nil, bval, List.length_map, List.length_range]; ring

theorem bval_map_sub (b : Int) (n : Nat) (u v : Nat → Int) :
    bval b ((List.range n).map fun k => u k - v k) = bval b ((List.range n).map u) - bval b ((List.range n).map v) := by
  induction n with
  | zero => simp [bval]
  | succ n ih => simp only [List.range_succ, List.map_append, bval_append, ih, List.map_cons, List.map_nil, bval, List.length_map, List.length_range]; ring

theorem map_g {a : List Int} {n : Nat} (h : a.length = n) : (List.range n).map (g a) = a :=
  ext_g (by simp [h]) (fun k hk => g_map n _ k (by simpa using hk))

theorem fA_ok {a b : Gf} (ha : a.length = 16) (hb : b.length = 16) (hab : ∀ k < 16, -2 ^ 63 ≤ g a k + g b k ∧ g a k + g b k < 2 ^ 63) :
    ∃ o, fA a b = .ok o ∧ o.length = 16 ∧ val o = val a + val b ∧ ∀ k < 16, g o k = g a k + g b k := by
  refine ⟨(List.range 16).map fun k => g a k + g b k, ?_, by simp, ?_, fun k hk => g_map 16 _ k hk⟩
  · unfold fA
    rw [fill_ok 16 0 _ (fun k => g a k + g b k) (by
      intro k s hk hs
      have := hab k hk
      rw [rd_g (by omega), ok_bind, rd_g (by omega), ok_bind, i64_ok (by omega) (by omega), ok_bind, wr_ok (by omega)])]
  · unfold val
    rw [bval_map_add, map_g ha, map_g hb]

theorem fZ_ok {a b : Gf} (ha : a.length = 16) (hb : b.length = 16) (hab : ∀ k < 16, -2 ^ 63 ≤ g a k - g b k ∧ g a k - g b k < 2 ^ 63) :
    ∃ o, fZ a b = .ok o ∧ o.length = 16 ∧ val o = val a - val b ∧ ∀ k < 16, g o k = g a k - g b k := by
  refine ⟨(List.range 16).map fun k => g a k - g b k, ?_, by simp, ?_, fun k hk => g_map 16 _ k hk⟩
  · unfold fZ
    rw [fill_ok 16 0 _ (fun k => g a k - g b k) (by
      intro k s hk hs
      have := hab k hk
      rw [rd_g (by omega), ok_bind, rd_g (by omega), ok_bind, i64_ok (by omega) (by omega), ok_bind, wr_ok (by omega)])]
  · unfold val
    rw [bval_map_sub, map_g ha, map_g hb]

/-! ### Multiplication -/

theorem mul_bound {x y : Int} (hx : -2 ^ 20 ≤ x ∧ x ≤ 2 ^ 20) (hy : -2 ^ 20 ≤ y ∧ y ≤ 2 ^ 20) : -2 ^ 40 ≤ x * y ∧ x * y ≤ 2 ^ 40 := by
  have h := abs_mul x y
  have h1 : |x| ≤ 2 ^ 20 := abs_le.2 ⟨by omega, by omega⟩
  have h2 : |y| ≤ 2 ^ 20 := abs_le.2 ⟨by omega, by omega⟩
  have h3 : |x| * |y| ≤ 2 ^ 20 * 2 ^ 20 := mul_le_mul h1 h2 (abs_nonneg _) (by norm_num)
  have h4 : |x * y| ≤ 2 ^ 40 := by rw [h]; exact h3.trans (by norm_num)
  have := abs_le.1 h4
  omega

theorem fM_products {a b : Gf} (ha : Small a) (hb : Small b) :
    ∃ t, loop (fun i t =>
        loop (fun j t => do
          let x ← rd a i
          let y ← rd b j
          let z ← i64 (x * y)
          let u ← rd t (i + j)
          let u ← i64 (u + z)
          wr t (i + j) u) 0 16 t) 0 16 (List.replicate 31 0) = .ok t ∧
      t.length = 31 ∧ bval 65536 t = val a * val b ∧ ∀ k < 31, -2 ^ 48 ≤ g t k ∧ g t k ≤ 2 ^ 48 := by
  obtain ⟨t, e, h1, h2, h3⟩ := loop_inv (fun i t => t.length = 31 ∧ bval 65536 t = bval 65536 (a.take i) * val b ∧
      ∀ k < 31, -((16 * i : Nat) * 2 ^ 40) ≤ g t k ∧ g t k ≤ ((16 * i : Nat) * 2 ^ 40 : Int))
    (fun i t =>
        loop (fun j t => do
          let x ← rd a i
          let y ← rd b j
          let z ← i64 (x * y)
          let u ← rd t (i + j)
          let u ← i64 (u + z)
          wr t (i + j) u) 0 16 t) 0 16 (List.replicate 31 0)
    ⟨by simp, by simp [bval_replicate_zero, bval], by intro k _; rw [g_replicate_zero]; simp⟩
    (by
      rintro i t - hi ⟨h1, h2, h3⟩
      obtain ⟨t', e', h1', h2', h3'⟩ := loop_inv (fun j t => t.length = 31 ∧ bval 65536 t = bval 65536 (a.take i) * val b + g a i * 65536 ^ i * bval 65536 (b.take j) ∧
          ∀ k < 31, -((16 * i + j : Nat) * 2 ^ 40) ≤ g t k ∧ g t k ≤ ((16 * i + j : Nat) * 2 ^ 40 : Int))
        (fun j t => do
          let x ← rd a i
          let y ← rd b j
          let z ← i64 (x * y)
          let u ← rd t (i + j)
          let u ← i64 (u + z)
          wr t (i + j) u) 0 16 t
        ⟨h1, by simp [h2, bval], h3⟩
        (by
          rintro j t - hj ⟨h1, h2, h3⟩
          have la := ha.len
          have lb := hb.len
          have m := mul_bound (ha.bound i (by omega)) (hb.bound j (by omega))
          have tk := h3 (i + j) (by omega)
          refine ⟨t.set (i + j) (g t (i + j) + g a i * g b j), ?_, ?_⟩
          · rw [rd_g (by omega), ok_bind, rd_g (by omega), ok_bind, i64_ok (by omega) (by omega), ok_bind, rd_g (by omega), ok_bind,
              i64_ok (by push_cast at tk; omega) (by push_cast at tk; omega), ok_bind, wr_ok (by omega)]
          · refine ⟨by simp [h1], ?_, ?_⟩
            · rw [bval_set _ (by omega), h2, bval_take _ _ _ (by omega), pow_add]
              ring
            · intro k hk
              rw [g_set (by ln)]
              have := h3 k hk
              split
              · push_cast at *; omega
              · push_cast at *; omega)
      refine ⟨t', e', h1', ?_, ?_⟩
      · rw [h2', bval_take _ a i (by rw [ha.len]; omega), List.take_of_length_le (l := b) (by rw [hb.len])]
        ring
      · intro k hk
        have := h3' k hk
        push_cast at *
        omega)
  refine ⟨t, e, h1, ?_, ?_⟩
  · rw [h2, List.take_of_length_le (by rw [ha.len])]
  · intro k hk
    have := h3 k hk
    push_cast at this
    omega

theorem fM_fold {t : List Int} (hl : t.length = 31) (hb : ∀ k < 31, -2 ^ 48 ≤ g t k ∧ g t k ≤ 2 ^ 48) :
    ∃ t', loop (fun i t => do
        let x ← rd t (i + 16)
        let y ← i64 (38 * x)
        let u ← rd t i
        let u ← i64 (u + y)
        wr t i u) 0 15 t = .ok t' ∧ t'.length = 31 ∧ bval 65536 (t'.take 16) = bval 65536 t - bval 65536 (t.drop 16) * (2 ^ 256 - 38) ∧
      ∀ k < 31, -2 ^ 54 ≤ g t' k ∧ g t' k ≤ 2 ^ 54 := by
  obtain ⟨t', e, h1, h2, h3⟩ := loop_inv (fun i s => s.length = 31 ∧ bval 65536 s = bval 65536 t + 38 * bval 65536 ((t.drop 16).take i) ∧
      ∀ k < 31, g s k = if k < i then g t k + 38 * g t (k + 16) else g t k)
    (fun i t => do
        let x ← rd t (i + 16)
        let y ← i64 (38 * x)
        let u ← rd t i
        let u ← i64 (u + y)
        wr t i u) 0 15 t ⟨hl, by simp [bval], by simp⟩
    (by
      rintro i s - hi ⟨h1, h2, h3⟩
      have e1 := h3 i (by omega)
      have e2 := h3 (i + 16) (by omega)
      rw [if_neg (by omega)] at e1 e2
      have b1 := hb i (by omega)
      have b2 := hb (i + 16) (by omega)
      refine ⟨s.set i (g s i + 38 * g s (i + 16)), ?_, ?_⟩
      · rw [rd_g (by omega), ok_bind, i64_ok (by omega) (by omega), ok_bind, rd_g (by omega), ok_bind, i64_ok (by omega) (by omega), ok_bind, wr_ok (by omega)]
      · refine ⟨by simp [h1], ?_, ?_⟩
        · rw [bval_set _ (by omega), h2, bval_take _ _ _ (by ln), e2]
          have : g (t.drop 16) i = g t (i + 16) := by unfold g; simp [List.getD_eq_getElem?_getD, Nat.add_comm]
          rw [this]
          ring
        · intro k hk
          rw [g_set (by ln), h3 k hk]
          by_cases h : k = i
          · subst h; rw [if_pos rfl, if_pos (by omega), e1, e2]
          · rw [if_neg h]
            by_cases h' : k < i
            · rw [if_pos h', if_pos (by omega)]
            · rw [if_neg h', if_neg (by omega)])
  refine ⟨t', e, h1, ?_, ?_⟩
  · have s1 := bval_append 65536 (t'.take 16) (t'.drop 16)
    rw [List.take_append_drop] at s1
    have s2 : t'.drop 16 = t.drop 16 := by
      apply ext_g
      · simp [h1, hl]
      · intro k hk
        have hk' : k < 15 := by simpa [h1] using hk
        have : ∀ l : List Int, g (l.drop 16) k = g l (k + 16) := by intro l; unfold g; simp [List.getD_eq_getElem?_getD, Nat.add_comm]
        rw [this, this, h3 _ (by omega), if_neg (by omega)]
    have s3 : (t'.take 16).length = 16 := by simp [h1]
    rw [s3, h2, s2, List.take_of_length_le (by simp [hl])] at s1
    linarith
  · intro k hk
    rw [h3 k hk]
    have b1 := hb k hk
    split
    · have b2 := hb (k + 16) (by omega); omega
    · omega

theorem fM_ok {a b : Gf} (ha : Small a) (hb : Small b) :
    ∃ o, fM a b = .ok o ∧ Tight o ∧ ∃ c, val o = val a * val b - c * (2 ^ 256 - 38) := by
  unfold fM
  obtain ⟨t, e, h1, h2, h3⟩ := fM_products ha hb
  obtain ⟨t', e', h1', h2', h3'⟩ := fM_fold h1 h3
  rw [e, ok_bind, e', ok_bind, fill_ok 16 0 _ (g t') (by
    intro k s hk hs
    rw [rd_g (by omega), ok_bind, wr_ok (by omega)]), ok_bind]
  have hm : (List.range 16).map (g t') = t'.take 16 := by
    apply ext_g (by simp [h1'])
    intro k hk
    have hk' : k < 16 := by simpa using hk
    rw [g_map 16 _ k hk']
    unfold g
    simp [List.getD_eq_getElem?_getD, List.getElem?_take, hk']
  rw [hm]
  obtain ⟨o1, e1, l1, ⟨c1, v1⟩, r1, z1⟩ := car_first (t'.take 16) (by simp [h1']) (by
    intro k hk
    rw [← hm, g_map 16 _ k hk]
    have := h3' k (by omega)
    omega)
  obtain ⟨o2, e2, ht, ⟨c2, v2⟩⟩ := car_second o1 l1 r1 z1
  refine ⟨o2, ?_, ht, bval 65536 (t.drop 16) + c1 + c2, ?_⟩
  · rw [e1, ok_bind, e2]
  · rw [v2, v1]
    unfold val
    rw [h2', h2]
    ring

end Verif.Ed25519
