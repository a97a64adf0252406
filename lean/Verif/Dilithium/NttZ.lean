import Verif.Dilithium.Ntt
import Mathlib.Algebra.BigOperators.Ring.Finset
import Mathlib.Algebra.Field.ZMod
import Mathlib.Tactic.NormNum.Prime
import Mathlib.GroupTheory.OrderOfElement
import Mathlib.Algebra.Ring.GeomSum

/-! What the transform of ntt.c computes, modulo q. -/

namespace Verif.Dilithium
open Verif Spec

/-- The integers modulo q. -/
abbrev Zq := ZMod 8380417

/-- Inverse of 2^32 modulo q. -/
def Rinv : Zq := ((8265825 : Int) : Zq)
/-- 2^32 modulo q. -/
def Rm : Zq := ((4294967296 : Int) : Zq)

theorem cast_eq {a b : Int} : ((a : Int) : Zq) = b ↔ a % 8380417 = b % 8380417 := by
  rw [ZMod.intCast_eq_intCast_iff]; rfl

theorem Rm_Rinv : Rm * Rinv = 1 := by
  unfold Rm Rinv
  rw [← Int.cast_mul, ← Int.cast_one, cast_eq]; rfl

theorem cast_mont (a : Int) : ((mont a : Int) : Zq) = a * Rinv := by
  have h : ((mont a * 4294967296 : Int) : Zq) = a := by
    rw [ZMod.intCast_eq_intCast_iff_dvd_sub]
    have h := mont_dvd a
    rw [← Int.dvd_neg, Int.neg_sub] at h
    exact h
  rw [Int.cast_mul] at h
  rw [← h, mul_assoc]
  change _ = _ * (Rm * Rinv)
  rw [Rm_Rinv, mul_one]

/-- Table entry out of Montgomery form. -/
def z (k : Nat) : Zq := ((co zetas k : Int) : Zq) * Rinv

/-- One forward layer modulo q. -/
def layer (len : Nat) (f : Nat → Zq) (i : Nat) : Zq :=
  if i % (2 * len) < len then f i + z (128 / len + i / (2 * len)) * f (i + len)
  else f (i - len) - z (128 / len + i / (2 * len)) * f i

/-- One inverse layer modulo q. -/
def ilayer (len : Nat) (f : Nat → Zq) (i : Nat) : Zq :=
  if i % (2 * len) < len then f i + f (i + len)
  else -z (256 / len - 1 - i / (2 * len)) * (f (i - len) - f i)

theorem cast_layerI (len : Nat) (f : Nat → Int) (i : Nat) :
    ((layerI len f i : Int) : Zq) = layer len (fun i => ((f i : Int) : Zq)) i := by
  unfold layerI layer
  split <;> (simp only [Int.cast_add, Int.cast_sub, cast_mont, Int.cast_mul, z]; ring1)

theorem cast_ilayerI (len : Nat) (f : Nat → Int) (i : Nat) :
    ((ilayerI len f i : Int) : Zq) = ilayer len (fun i => ((f i : Int) : Zq)) i := by
  unfold ilayerI ilayer
  split <;> simp only [Int.cast_add, Int.cast_sub, Int.cast_neg, cast_mont, Int.cast_mul, z] <;> ring

/-- The eight forward layers modulo q. -/
def nttZ (f : Nat → Zq) : Nat → Zq :=
  layer 1 <| layer 2 <| layer 4 <| layer 8 <| layer 16 <| layer 32 <| layer 64 <| layer 128 f

/-- The eight inverse layers modulo q. -/
def invnttZ (f : Nat → Zq) : Nat → Zq :=
  ilayer 128 <| ilayer 64 <| ilayer 32 <| ilayer 16 <| ilayer 8 <| ilayer 4 <| ilayer 2 <| ilayer 1 f

theorem cast_nttI (f : Nat → Int) (i : Nat) : ((nttI f i : Int) : Zq) = nttZ (fun i => ((f i : Int) : Zq)) i := by
  unfold nttI nttZ
  simp only [cast_layerI]

theorem cast_invnttI (f : Nat → Int) (i : Nat) : ((invnttI f i : Int) : Zq) = invnttZ (fun i => ((f i : Int) : Zq)) i := by
  unfold invnttI invnttZ
  simp only [cast_ilayerI]

theorem layer_congr {len n : Nat} {f g : Nat → Zq} (hn : 2 * len * n = 256) (h : ∀ i, i < 256 → f i = g i) :
    ∀ i, i < 256 → layer len f i = layer len g i := by
  intro i hi
  obtain ⟨h1, h2, h3, h4⟩ := layer_arith hn hi
  unfold layer
  split
  · rw [h i hi, h (i + len) (by omega)]
  · rw [h i hi, h (i - len) (by omega)]

theorem ilayer_congr {len n : Nat} {f g : Nat → Zq} (hn : 2 * len * n = 256) (h : ∀ i, i < 256 → f i = g i) :
    ∀ i, i < 256 → ilayer len f i = ilayer len g i := by
  intro i hi
  obtain ⟨h1, h2, h3, h4⟩ := layer_arith hn hi
  unfold ilayer
  split
  · rw [h i hi, h (i + len) (by omega)]
  · rw [h i hi, h (i - len) (by omega)]

/-! ### Evaluation -/

/-- The value at which block `m - 2^l` of level `l` (with `2^l ≤ m < 2^(l+1)`) is evaluated. -/
def g (m : Nat) : Zq := if m % 2 = 0 then z (m / 2) else -z (m / 2)

theorem z_table : ∀ m, m < 256 → 2 ≤ m →
    (co zetas m * co zetas m - (if m % 2 = 0 then co zetas (m / 2) else -co zetas (m / 2)) * 4294967296) % 8380417 = 0 := by decide +kernel

theorem z_sq {m : Nat} (h2 : 2 ≤ m) (h : m < 256) : z m ^ 2 = g m := by
  have ht := z_table m h h2
  have hc : ((co zetas m * co zetas m - (if m % 2 = 0 then co zetas (m / 2) else -co zetas (m / 2)) * 4294967296 : Int) : Zq) = ((0 : Int) : Zq) := by
    rw [cast_eq, ht]; rfl
  have hR : ((4294967296 : Int) : Zq) * Rinv = 1 := Rm_Rinv
  unfold g
  split at hc
  · rename_i c
    rw [if_pos c]
    push_cast at hc hR ⊢
    unfold z
    linear_combination Rinv ^ 2 * hc + Rinv * (((co zetas (m / 2) : Int) : Zq)) * hR
  · rename_i c
    rw [if_neg c]
    push_cast at hc hR ⊢
    unfold z
    linear_combination Rinv ^ 2 * hc - Rinv * (((co zetas (m / 2) : Int) : Zq)) * hR

theorem sum_even_odd (u : Nat → Zq) (n : Nat) : ∑ i ∈ Finset.range (2 * n), u i = ∑ i ∈ Finset.range n, (u (2 * i) + u (2 * i + 1)) := by
  induction n with
  | zero => rfl
  | succ n ih => rw [Finset.sum_range_succ, ← ih, show 2 * (n + 1) = 2 * n + 1 + 1 by omega, Finset.sum_range_succ, Finset.sum_range_succ, add_assoc]

theorem layer_step {len n : Nat} {f F : Nat → Zq} (hk : 128 / len = n) (hlen : 0 < len)
    (hF : ∀ b, b < n → ∀ j, j < 2 * len → F (2 * len * b + j) = ∑ i ∈ Finset.range n, f (2 * len * i + j) * (z (n + b) ^ 2) ^ i) :
    ∀ b, b < 2 * n → ∀ j, j < len → layer len F (len * b + j) = ∑ i ∈ Finset.range (2 * n), f (len * i + j) * (g (2 * n + b)) ^ i := by
  intro b hb j hj
  rw [sum_even_odd]
  have hbb : b = 2 * (b / 2) + b % 2 := by omega
  have hix : len * b + j = 2 * len * (b / 2) + (len * (b % 2) + j) := by
    conv_lhs => rw [hbb]
    ring
  rcases Nat.mod_two_eq_zero_or_one b with h | h
  · rw [h] at hix
    simp only [Nat.mul_zero, Nat.zero_add] at hix
    obtain ⟨d1, d2⟩ := block_pos (m := 2 * len) (b := b / 2) (i := len * b + j) (by omega) (by omega)
    unfold layer
    rw [d1, d2, if_pos (by omega), hk, hix, hF _ (by omega) _ (by omega), Nat.add_assoc, hF _ (by omega) _ (by omega), Finset.mul_sum,
      ← Finset.sum_add_distrib]
    unfold g
    rw [if_pos (by omega), show (2 * n + b) / 2 = n + b / 2 by omega]
    refine Finset.sum_congr rfl fun i _ => ?_
    rw [show len * (2 * i) + j = 2 * len * i + j by ring, show len * (2 * i + 1) + j = 2 * len * i + (j + len) by ring]
    ring
  · rw [h] at hix
    simp only [Nat.mul_one] at hix
    obtain ⟨d1, d2⟩ := block_pos (m := 2 * len) (b := b / 2) (i := len * b + j) (by omega) (by omega)
    unfold layer
    rw [d1, d2, if_neg (by omega), hk, hix, show 2 * len * (b / 2) + (len + j) - len = 2 * len * (b / 2) + j by omega,
      hF _ (by omega) _ (by omega), hF _ (by omega) _ (by omega), Finset.mul_sum, ← Finset.sum_sub_distrib]
    unfold g
    rw [if_neg (by omega), show (2 * n + b) / 2 = n + b / 2 by omega]
    refine Finset.sum_congr rfl fun i _ => ?_
    rw [show len * (2 * i) + j = 2 * len * i + j by ring, show len * (2 * i + 1) + j = 2 * len * i + (len + j) by ring,
      pow_succ (-z (n + b / 2)) (2 * i), pow_mul (-z (n + b / 2)) 2 i, neg_sq]
    ring

/-- Value of the polynomial with coefficients `f` at `x`. -/
def evalAt (f : Nat → Zq) (x : Zq) : Zq := ∑ i ∈ Finset.range 256, f i * x ^ i

theorem nttZ_eval (f : Nat → Zq) (j : Nat) (hj : j < 256) : nttZ f j = evalAt f (g (256 + j)) := by
  have next : ∀ {len n : Nat} {F : Nat → Zq}, 2 * n ≤ 128 →
      (∀ b, b < 2 * n → ∀ j, j < len → F (len * b + j) = ∑ i ∈ Finset.range (2 * n), f (len * i + j) * (g (2 * n + b)) ^ i) →
      (n ≠ 0) →
      ∀ b, b < 2 * n → ∀ j, j < len → F (len * b + j) = ∑ i ∈ Finset.range (2 * n), f (len * i + j) * (z (2 * n + b) ^ 2) ^ i := by
    intro len n F hn h h0 b hb j hj
    rw [z_sq (by omega) (by omega)]; exact h b hb j hj
  have h1 := layer_step (len := 128) (n := 1) (f := f) (F := f) rfl (by omega) (by
    intro b hb j hj
    have : b = 0 := by omega
    subst this
    simp)
  have h2 := layer_step (len := 64) (n := 2) (f := f) rfl (by omega) (next (n := 1) (by omega) h1 (by omega))
  have h3 := layer_step (len := 32) (n := 4) (f := f) rfl (by omega) (next (n := 2) (by omega) h2 (by omega))
  have h4 := layer_step (len := 16) (n := 8) (f := f) rfl (by omega) (next (n := 4) (by omega) h3 (by omega))
  have h5 := layer_step (len := 8) (n := 16) (f := f) rfl (by omega) (next (n := 8) (by omega) h4 (by omega))
  have h6 := layer_step (len := 4) (n := 32) (f := f) rfl (by omega) (next (n := 16) (by omega) h5 (by omega))
  have h7 := layer_step (len := 2) (n := 64) (f := f) rfl (by omega) (next (n := 32) (by omega) h6 (by omega))
  have h8 := layer_step (len := 1) (n := 128) (f := f) rfl (by omega) (next (n := 64) (by omega) h7 (by omega)) j (by omega) 0 (by omega)
  unfold nttZ evalAt
  simp only [Nat.one_mul, Nat.add_zero] at h8
  exact h8

theorem root_table : ∀ j, j < 256 →
    ((if j % 2 = 0 then co zetas (128 + j / 2) else -co zetas (128 + j / 2)) - 1753 ^ (2 * brv j + 1) * 4294967296) % 8380417 = 0 := by decide +kernel

/-- The evaluation points are the odd powers of 1753 in bit-reversed order. -/
theorem root_eq {j : Nat} (hj : j < 256) : g (256 + j) = 1753 ^ (2 * brv j + 1) := by
  have ht := root_table j hj
  have hc : (((if j % 2 = 0 then co zetas (128 + j / 2) else -co zetas (128 + j / 2)) - 1753 ^ (2 * brv j + 1) * 4294967296 : Int) : Zq) = ((0 : Int) : Zq) := by
    rw [cast_eq, ht]; rfl
  have hR : ((4294967296 : Int) : Zq) * Rinv = 1 := Rm_Rinv
  unfold g
  generalize brv j = e at *
  rw [show (256 + j) / 2 = 128 + j / 2 by omega]
  split at hc
  · rename_i c
    rw [if_pos (by omega)]
    push_cast at hc hR ⊢
    unfold z
    linear_combination Rinv * hc + 1753 ^ (2 * e + 1) * hR
  · rename_i c
    rw [if_neg (by omega)]
    push_cast at hc hR ⊢
    unfold z
    linear_combination Rinv * hc + 1753 ^ (2 * e + 1) * hR

/-! ### Inversion -/

theorem inv_table : ∀ n, n < 8 → ∀ b, b < 2 ^ n →
    (co zetas (2 ^ n + b) * co zetas (2 * 2 ^ n - 1 - b) + 18446744073709551616) % 8380417 = 0 := by decide +kernel

theorem z_inv {n b : Nat} (hn : n < 8) (hb : b < 2 ^ n) : z (2 ^ n + b) * z (2 * 2 ^ n - 1 - b) = -1 := by
  have ht := inv_table n hn b hb
  have hc : ((co zetas (2 ^ n + b) * co zetas (2 * 2 ^ n - 1 - b) + 18446744073709551616 : Int) : Zq) = ((0 : Int) : Zq) := by
    rw [cast_eq, ht]; rfl
  have hR : ((4294967296 : Int) : Zq) * Rinv = 1 := Rm_Rinv
  have hR2 : ((18446744073709551616 : Int) : Zq) * Rinv ^ 2 = 1 := by
    rw [show (18446744073709551616 : Int) = 4294967296 * 4294967296 by norm_num]
    push_cast at hR ⊢
    linear_combination (4294967296 * Rinv + 1) * hR
  unfold z
  rw [Int.cast_add, Int.cast_mul] at hc
  push_cast at hc hR2 ⊢
  linear_combination Rinv ^ 2 * hc - hR2

theorem ilayer_layer {len l : Nat} {f : Nat → Zq} (hl : l < 8) (hn : 2 * len * 2 ^ l = 256) (hk : 256 / len = 2 * 2 ^ l) (hk' : 128 / len = 2 ^ l)
    {i : Nat} (hi : i < 256) : ilayer len (layer len f) i = 2 * f i := by
  obtain ⟨h1, h2, h3, h4⟩ := layer_arith hn hi
  have hz := z_inv hl h1
  unfold ilayer
  by_cases c : i % (2 * len) < len
  · obtain ⟨d1, d2⟩ := block_pos (m := 2 * len) (b := i / (2 * len)) (i := i + len) (by omega) (by omega)
    rw [if_pos c]
    unfold layer
    rw [d1, d2, if_pos c, if_neg (by omega), hk']
    simp only [Nat.add_sub_cancel]
    ring
  · obtain ⟨d1, d2⟩ := block_pos (m := 2 * len) (b := i / (2 * len)) (i := i - len) (by omega) (by omega)
    rw [if_neg c]
    unfold layer
    rw [d1, d2, if_neg c, if_pos (by omega), hk', hk, show i - len + len = i by omega]
    linear_combination -2 * f i * hz

theorem layer_ilayer {len l : Nat} {f : Nat → Zq} (hl : l < 8) (hn : 2 * len * 2 ^ l = 256) (hk : 256 / len = 2 * 2 ^ l) (hk' : 128 / len = 2 ^ l)
    {i : Nat} (hi : i < 256) : layer len (ilayer len f) i = 2 * f i := by
  obtain ⟨h1, h2, h3, h4⟩ := layer_arith hn hi
  have hz := z_inv hl h1
  unfold layer
  by_cases c : i % (2 * len) < len
  · obtain ⟨d1, d2⟩ := block_pos (m := 2 * len) (b := i / (2 * len)) (i := i + len) (by omega) (by omega)
    rw [if_pos c]
    unfold ilayer
    rw [d1, d2, if_pos c, if_neg (by omega), hk', hk]
    simp only [Nat.add_sub_cancel]
    linear_combination -(f i - f (i + len)) * hz
  · obtain ⟨d1, d2⟩ := block_pos (m := 2 * len) (b := i / (2 * len)) (i := i - len) (by omega) (by omega)
    rw [if_neg c]
    unfold ilayer
    rw [d1, d2, if_neg c, if_pos (by omega), hk', hk, show i - len + len = i by omega]
    linear_combination (f (i - len) - f i) * hz

theorem layer_smul (len : Nat) (c : Zq) (f : Nat → Zq) : layer len (fun i => c * f i) = fun i => c * layer len f i := by
  funext i; unfold layer; split <;> ring

theorem ilayer_smul (len : Nat) (c : Zq) (f : Nat → Zq) : ilayer len (fun i => c * f i) = fun i => c * ilayer len f i := by
  funext i; unfold ilayer; split <;> ring

theorem ilayer_cancel {len l : Nat} {G X : Nat → Zq} {c : Zq} (hl : l < 8) (hn : 2 * len * 2 ^ l = 256) (hk : 256 / len = 2 * 2 ^ l) (hk' : 128 / len = 2 ^ l)
    (h : ∀ i, i < 256 → G i = c * layer len X i) : ∀ i, i < 256 → ilayer len G i = 2 * c * X i := by
  intro i hi
  rw [ilayer_congr hn h i hi, ilayer_smul]
  simp only
  rw [ilayer_layer hl hn hk hk' hi]; ring

theorem layer_cancel {len l : Nat} {G X : Nat → Zq} {c : Zq} (hl : l < 8) (hn : 2 * len * 2 ^ l = 256) (hk : 256 / len = 2 * 2 ^ l) (hk' : 128 / len = 2 ^ l)
    (h : ∀ i, i < 256 → G i = c * ilayer len X i) : ∀ i, i < 256 → layer len G i = 2 * c * X i := by
  intro i hi
  rw [layer_congr hn h i hi, layer_smul]
  simp only
  rw [layer_ilayer hl hn hk hk' hi]; ring

theorem invnttZ_nttZ (f : Nat → Zq) : ∀ i, i < 256 → invnttZ (nttZ f) i = 256 * f i := by
  have h1 := ilayer_cancel (len := 1) (l := 7) (G := nttZ f) (c := 1) (by omega) rfl rfl rfl (fun i _ => by unfold nttZ; rw [one_mul])
  have h2 := ilayer_cancel (len := 2) (l := 6) (by omega) rfl rfl rfl h1
  have h3 := ilayer_cancel (len := 4) (l := 5) (by omega) rfl rfl rfl h2
  have h4 := ilayer_cancel (len := 8) (l := 4) (by omega) rfl rfl rfl h3
  have h5 := ilayer_cancel (len := 16) (l := 3) (by omega) rfl rfl rfl h4
  have h6 := ilayer_cancel (len := 32) (l := 2) (by omega) rfl rfl rfl h5
  have h7 := ilayer_cancel (len := 64) (l := 1) (by omega) rfl rfl rfl h6
  have h8 := ilayer_cancel (len := 128) (l := 0) (by omega) rfl rfl rfl h7
  intro i hi
  have := h8 i hi
  unfold invnttZ
  rw [this]; ring

theorem nttZ_invnttZ (f : Nat → Zq) : ∀ i, i < 256 → nttZ (invnttZ f) i = 256 * f i := by
  have h1 := layer_cancel (len := 128) (l := 0) (G := invnttZ f) (c := 1) (by omega) rfl rfl rfl (fun i _ => by unfold invnttZ; rw [one_mul])
  have h2 := layer_cancel (len := 64) (l := 1) (by omega) rfl rfl rfl h1
  have h3 := layer_cancel (len := 32) (l := 2) (by omega) rfl rfl rfl h2
  have h4 := layer_cancel (len := 16) (l := 3) (by omega) rfl rfl rfl h3
  have h5 := layer_cancel (len := 8) (l := 4) (by omega) rfl rfl rfl h4
  have h6 := layer_cancel (len := 4) (l := 5) (by omega) rfl rfl rfl h5
  have h7 := layer_cancel (len := 2) (l := 6) (by omega) rfl rfl rfl h6
  have h8 := layer_cancel (len := 1) (l := 7) (by omega) rfl rfl rfl h7
  intro i hi
  have := h8 i hi
  unfold nttZ
  rw [this]; ring

/-- q is prime (dilithium2/params.h:9). -/
instance prime_q : Fact (Nat.Prime 8380417) := ⟨by norm_num⟩

/-- The evaluation points. -/
def root (j : Nat) : Zq := g (256 + j)

theorem w_pow : (1753 : Zq) ^ 256 = -1 := by
  have h2 : ((1753 : Int) : Zq) ^ 16 = ((7778734 : Int) : Zq) := by rw [← Int.cast_pow, cast_eq]; rfl
  have h3 : ((7778734 : Int) : Zq) ^ 16 = ((-1 : Int) : Zq) := by rw [← Int.cast_pow, cast_eq]; rfl
  rw [← h2, ← pow_mul] at h3
  push_cast at h3; exact h3

theorem one_ne : (-1 : Zq) ≠ 1 := by
  have h : ((-1 : Int) : Zq) ≠ ((1 : Int) : Zq) := by rw [Ne, cast_eq]; decide
  push_cast at h; exact h

theorem w_order : orderOf (1753 : Zq) = 512 := by
  have := orderOf_eq_prime_pow (x := (1753 : Zq)) (p := 2) (n := 8) (by rw [show 2 ^ 8 = 256 by norm_num, w_pow]; exact one_ne) (by
    rw [show 2 ^ (8 + 1) = 256 * 2 by norm_num, pow_mul, w_pow]; norm_num)
  rw [this]; norm_num

theorem root_pow {j : Nat} (hj : j < 256) : root j ^ 256 = -1 := by
  unfold root
  rw [root_eq hj, ← pow_mul, Nat.mul_comm, pow_mul, w_pow, pow_succ, pow_mul]; norm_num

theorem brv_table : ∀ j, j < 256 → brv j < 256 ∧ brv (brv j) = j := by decide +kernel

theorem root_inj {i j : Nat} (hi : i < 256) (hj : j < 256) (h : root i = root j) : i = j := by
  unfold root at h
  rw [root_eq hi, root_eq hj] at h
  have hi' := brv_table i hi
  have hj' := brv_table j hj
  have := pow_injOn_Iio_orderOf (x := (1753 : Zq)) (x₁ := 2 * brv i + 1) (x₂ := 2 * brv j + 1) (by rw [w_order]; simp; omega) (by rw [w_order]; simp; omega) h
  have hb : brv i = brv j := by omega
  rw [← hi'.2, hb, hj'.2]

theorem two56 : (256 : Zq) ≠ 0 := by
  have h : ((256 : Int) : Zq) ≠ ((0 : Int) : Zq) := by rw [Ne, cast_eq]; decide
  push_cast at h; exact h

theorem evalAt_congr {f g : Nat → Zq} (h : ∀ i, i < 256 → f i = g i) (x : Zq) : evalAt f x = evalAt g x :=
  Finset.sum_congr rfl fun i hi => by rw [h i (by simpa using hi)]

/-- A polynomial is determined by its values at the 256 points. -/
theorem evalAt_inj {f h : Nat → Zq} (he : ∀ j, j < 256 → evalAt f (root j) = evalAt h (root j)) : ∀ i, i < 256 → f i = h i := by
  intro i hi
  have hn : ∀ j, j < 256 → nttZ f j = nttZ h j := fun j hj => by rw [nttZ_eval f j hj, nttZ_eval h j hj]; exact he j hj
  have e1 := invnttZ_nttZ f i hi
  have e2 := invnttZ_nttZ h i hi
  have : ∀ i, i < 256 → invnttZ (nttZ f) i = invnttZ (nttZ h) i := by
    unfold invnttZ
    exact ilayer_congr (len := 128) (n := 1) rfl <| ilayer_congr (len := 64) (n := 2) rfl <| ilayer_congr (len := 32) (n := 4) rfl <|
      ilayer_congr (len := 16) (n := 8) rfl <| ilayer_congr (len := 8) (n := 16) rfl <| ilayer_congr (len := 4) (n := 32) rfl <|
      ilayer_congr (len := 2) (n := 64) rfl <| ilayer_congr (len := 1) (n := 128) rfl hn
  rw [this i hi, e2] at e1
  exact (mul_left_cancel₀ two56 e1).symm

/-- Negacyclic product of coefficient functions. -/
def mulZ (a b : Nat → Zq) (k : Nat) : Zq := ∑ i ∈ Finset.range 256, a i * (if i ≤ k then b (k - i) else -b (256 + k - i))

theorem shift_eval {b : Nat → Zq} {x : Zq} (hx : x ^ 256 = -1) {i : Nat} (hi : i < 256) :
    ∑ k ∈ Finset.range 256, (if i ≤ k then b (k - i) else -b (256 + k - i)) * x ^ k = x ^ i * evalAt b x := by
  have e1 : ∑ k ∈ Finset.range 256, (if i ≤ k then b (k - i) else -b (256 + k - i)) * x ^ k
      = ∑ k ∈ Finset.range (i + (256 - i)), (if i ≤ k then b (k - i) else -b (256 + k - i)) * x ^ k := by
    rw [show i + (256 - i) = 256 by omega]
  have e2 : evalAt b x = ∑ k ∈ Finset.range ((256 - i) + i), b k * x ^ k := by
    rw [show (256 - i) + i = 256 by omega]; rfl
  rw [e1, e2, Finset.sum_range_add, Finset.sum_range_add, mul_add, Finset.mul_sum, Finset.mul_sum, add_comm]
  refine congrArg₂ (· + ·) ?_ ?_
  · refine Finset.sum_congr rfl fun k _ => ?_
    rw [if_pos (by omega), Nat.add_sub_cancel_left, pow_add]; ring
  · refine Finset.sum_congr rfl fun k hk => ?_
    have hk : k < i := by simpa using hk
    rw [if_neg (by omega), show 256 + k - i = 256 - i + k by omega]
    have : x ^ i * x ^ (256 - i + k) = -x ^ k := by
      rw [← pow_add, show i + (256 - i + k) = 256 + k by omega, pow_add, hx]; ring
    linear_combination b (256 - i + k) * -this

theorem evalAt_mulZ (a b : Nat → Zq) {x : Zq} (hx : x ^ 256 = -1) : evalAt (mulZ a b) x = evalAt a x * evalAt b x := by
  unfold evalAt mulZ
  simp only [Finset.sum_mul]
  rw [Finset.sum_comm]
  refine Finset.sum_congr rfl fun i hi => ?_
  have := shift_eval (b := b) hx (i := i) (by simpa using hi)
  unfold evalAt at this
  rw [mul_assoc, ← this, Finset.mul_sum]
  exact Finset.sum_congr rfl fun k _ => by ring

/-! ### The specification, modulo q -/

/-- Coefficients modulo q. -/
def cf (a : List Int) (i : Nat) : Zq := ((co a i : Int) : Zq)

theorem co_mk (f : Nat → Int) {i : Nat} (hi : i < 256) : co (mk f) i = f i := by
  unfold co mk; rw [List.getD_eq_getElem?_getD, List.getElem?_map, List.getElem?_range hi]; rfl

theorem co_mk_ge (f : Nat → Int) {i : Nat} (hi : 256 ≤ i) : co (mk f) i = 0 := by
  unfold co mk; rw [List.getD_eq_getElem?_getD, List.getElem?_eq_none (by simp; omega)]; rfl

theorem length_mk (f : Nat → Int) : (mk f).length = 256 := by simp [mk]

theorem cast_emod (x : Int) : ((x % q : Int) : Zq) = x := by
  rw [cast_eq]; unfold q; omega

theorem cast_sum (f : Nat → Int) (n : Nat) : ((((List.range n).map f).sum : Int) : Zq) = ∑ i ∈ Finset.range n, ((f i : Int) : Zq) := by
  induction n with
  | zero => simp
  | succ n ih => rw [List.range_succ, List.map_append, List.sum_append, Int.cast_add, ih, Finset.sum_range_succ]; simp

theorem cf_add (a b : List Int) {i : Nat} (hi : i < 256) : cf (Spec.add a b) i = cf a i + cf b i := by
  unfold cf Spec.add; rw [co_mk _ hi, cast_emod, Int.cast_add]
theorem cf_sub (a b : List Int) {i : Nat} (hi : i < 256) : cf (Spec.sub a b) i = cf a i - cf b i := by
  unfold cf Spec.sub; rw [co_mk _ hi, cast_emod, Int.cast_sub]
theorem cf_scale (k : Int) (a : List Int) {i : Nat} (hi : i < 256) : cf (Spec.scale k a) i = k * cf a i := by
  unfold cf Spec.scale; rw [co_mk _ hi, cast_emod, Int.cast_mul]
theorem cf_mul (a b : List Int) {i : Nat} (hi : i < 256) : cf (Spec.mul a b) i = mulZ (cf a) (cf b) i := by
  unfold cf Spec.mul mulZ; rw [co_mk _ hi, cast_emod, cast_sum]
  refine Finset.sum_congr rfl fun k _ => ?_
  rw [Int.cast_mul]
  split <;> simp

theorem cf_ntt (a : List Int) {j : Nat} (hj : j < 256) : cf (Spec.ntt a) j = evalAt (cf a) (root j) := by
  unfold cf Spec.ntt; rw [co_mk _ hj, cast_emod, cast_sum]
  refine Finset.sum_congr rfl fun k _ => ?_
  unfold root
  rw [root_eq hj, Int.cast_mul, Int.cast_pow, ← pow_mul]
  norm_num

theorem w_inv : (1753 : Zq) * 731434 = 1 := by
  have : ((1753 * 731434 : Int) : Zq) = ((1 : Int) : Zq) := by rw [cast_eq]; rfl
  push_cast at this; exact this

theorem inv256 : (8347681 : Zq) * 256 = 1 := by
  have : ((8347681 * 256 : Int) : Zq) = ((1 : Int) : Zq) := by rw [cast_eq]; rfl
  push_cast at this; exact this

theorem root_ratio {i j : Nat} (hi : i < 256) (hj : j < 256) :
    ∑ k ∈ Finset.range 256, (root j * 731434 ^ (2 * brv i + 1)) ^ k = if i = j then 256 else 0 := by
  have hinv : root i * 731434 ^ (2 * brv i + 1) = 1 := by
    unfold root; rw [root_eq hi, ← mul_pow, w_inv, one_pow]
  split
  · rename_i h
    subst h
    rw [hinv]; simp
  · rename_i h
    have hne : root j * 731434 ^ (2 * brv i + 1) ≠ 1 := by
      intro e
      rw [← hinv] at e
      have hnz : (731434 : Zq) ^ (2 * brv i + 1) ≠ 0 := by
        intro h0; rw [h0, mul_zero] at hinv; exact one_ne (by rw [← hinv]; norm_num)
      exact h (root_inj hi hj (mul_right_cancel₀ hnz e).symm)
    have hp : (root j * 731434 ^ (2 * brv i + 1)) ^ 256 = 1 := by
      have h1 : (root i * 731434 ^ (2 * brv i + 1)) ^ 256 = 1 := by rw [hinv, one_pow]
      rw [mul_pow, root_pow hi] at h1
      rw [mul_pow, root_pow hj, h1]
    have := geom_sum_mul (root j * 731434 ^ (2 * brv i + 1)) 256
    rw [hp, sub_self] at this
    rcases mul_eq_zero.1 this with h | h
    · exact h
    · exact absurd (sub_eq_zero.1 h) hne

/-- The specification's inverse transform gives the polynomial with the given values. -/
theorem eval_invNtt (c : List Int) {j : Nat} (hj : j < 256) : evalAt (cf (Spec.invNtt c)) (root j) = cf c j := by
  have h : ∀ i, i < 256 → cf (Spec.invNtt c) i = 8347681 * ∑ k ∈ Finset.range 256, cf c k * (731434 ^ (2 * brv k + 1)) ^ i := by
    intro i hi
    unfold cf Spec.invNtt
    rw [co_mk _ hi, cast_emod, Int.cast_mul, cast_sum]
    rw [show ((8347681 : Int) : Zq) = 8347681 by norm_num]
    refine congrArg (8347681 * ·) ?_
    refine Finset.sum_congr rfl fun k _ => ?_
    rw [Int.cast_mul, Int.cast_pow, pow_mul]
    norm_num
  rw [evalAt_congr h]
  unfold evalAt
  have e : ∀ i ∈ Finset.range 256, 8347681 * (∑ k ∈ Finset.range 256, cf c k * ((731434 : Zq) ^ (2 * brv k + 1)) ^ i) * root j ^ i
      = ∑ k ∈ Finset.range 256, 8347681 * cf c k * (root j * 731434 ^ (2 * brv k + 1)) ^ i := by
    intro i _
    rw [Finset.mul_sum, Finset.sum_mul]
    exact Finset.sum_congr rfl fun k _ => by rw [mul_pow]; ring
  rw [Finset.sum_congr rfl e, Finset.sum_comm]
  have e2 : ∀ k ∈ Finset.range 256, ∑ i ∈ Finset.range 256, 8347681 * cf c k * (root j * 731434 ^ (2 * brv k + 1)) ^ i
      = if k = j then cf c j else 0 := by
    intro k hk
    rw [← Finset.mul_sum, root_ratio (by simpa using hk) hj]
    split
    · rename_i h; subst h
      linear_combination cf c k * inv256
    · rw [mul_zero]
  rw [Finset.sum_congr rfl e2, Finset.sum_ite_eq']
  rw [if_pos (by simpa using hj)]

theorem evalAt_smul (c : Zq) (f : Nat → Zq) (x : Zq) : evalAt (fun i => c * f i) x = c * evalAt f x := by
  unfold evalAt; rw [Finset.mul_sum]; exact Finset.sum_congr rfl fun k _ => by ring

theorem evalAt_add (f h : Nat → Zq) (x : Zq) : evalAt (fun i => f i + h i) x = evalAt f x + evalAt h x := by
  unfold evalAt; rw [← Finset.sum_add_distrib]; exact Finset.sum_congr rfl fun k _ => by ring

theorem evalAt_sub (f h : Nat → Zq) (x : Zq) : evalAt (fun i => f i - h i) x = evalAt f x - evalAt h x := by
  unfold evalAt; rw [← Finset.sum_sub_distrib]; exact Finset.sum_congr rfl fun k _ => by ring

/-! ### The transform of the code -/

/-- `ntt` does not overflow on inputs below `B` in absolute value and computes the values at the 256 points. -/
theorem ntt_ok {B : Int} {a : Poly} (ha : a.length = 256) (hB : B + 67043336 ≤ 2147483648)
    (hb : ∀ i, i < 256 → -B < co a i ∧ co a i < B) :
    ∃ a', ntt a = .ok a' ∧ a'.length = 256 ∧ (∀ j, j < 256 → cf a' j = evalAt (cf a) (root j)) ∧
      ∀ i, i < 256 → -(B + 67043336) < co a' i ∧ co a' i < B + 67043336 := by
  obtain ⟨a', e, l, v, b⟩ := ntt_run ha hB hb
  refine ⟨a', e, l, fun j hj => ?_, b⟩
  unfold cf
  rw [v j hj, cast_nttI, nttZ_eval _ _ hj]; rfl

/-- `invntt` does not overflow on inputs below q in absolute value; its result has 2^32 times the given values at the 256 points. -/
theorem invntt_ok {a : Poly} (ha : a.length = 256) (hb : ∀ i, i < 256 → -8380417 < co a i ∧ co a i < 8380417) :
    ∃ a', invntt a = .ok a' ∧ a'.length = 256 ∧ (∀ j, j < 256 → evalAt (cf a') (root j) = Rm * cf a j) ∧
      ∀ i, i < 256 → -4211178 < co a' i ∧ co a' i < 4211178 := by
  obtain ⟨a', e, l, v, b⟩ := invntt_run ha hb
  refine ⟨a', e, l, fun j hj => ?_, b⟩
  have hc : ∀ i, i < 256 → cf a' i = (41978 * Rinv) * invnttZ (cf a) i := fun i hi => by
    unfold cf
    rw [v i hi, cast_mont, Int.cast_mul, cast_invnttI]
    push_cast
    ring
  have hk : (41978 : Zq) * Rinv * 256 = Rm := by
    have h : ((41978 * 8265825 * 256 : Int) : Zq) = ((4294967296 : Int) : Zq) := by rw [cast_eq]; rfl
    rw [Int.cast_mul, Int.cast_mul] at h
    unfold Rinv Rm
    push_cast at h ⊢
    exact h
  rw [evalAt_congr hc, evalAt_smul]
  unfold root
  rw [← nttZ_eval _ j hj, nttZ_invnttZ _ j hj, ← mul_assoc, hk]

end Verif.Dilithium
