import Verif.Ed25519.Pack
import Mathlib.FieldTheory.Finite.Basic

/-!
The field operations of tweetnacl.c in terms of elements of `ZMod (2^255 - 19)`.
-/

namespace Verif.Ed25519
open Verif Spec

/-- The field element that sixteen limbs stand for. -/
def fe (a : Gf) : F := ((val a : Int) : F)

/-- Sixteen limbs of absolute value at most `B`. -/
structure Bd (B : Int) (a : Gf) : Prop where
  len : a.length = 16
  bound : ∀ k < 16, -B ≤ g a k ∧ g a k ≤ B

theorem Bd.mono {B B' : Int} {a : Gf} (h : Bd B a) (hB : B ≤ B') : Bd B' a := ⟨h.len, fun k hk => by have := h.bound k hk; omega⟩
theorem Tight.bd {a : Gf} (h : Tight a) : Bd 65573 a := ⟨h.len, fun k hk => by have := h.bound k hk; omega⟩
theorem Bd.small {B : Int} {a : Gf} (h : Bd B a) (hB : B ≤ 2 ^ 20) : Small a := ⟨h.len, fun k hk => by have := h.bound k hk; omega⟩

theorem p_zero : ((2 : F) ^ 255 - 19) = 0 := by
  have h : ((p : Nat) : F) = 0 := ZMod.natCast_self p
  have e : ((p + 19 : Nat) : F) = ((2 ^ 255 : Nat) : F) := natCast_eq (by decide +kernel)
  rw [Nat.cast_add, h, Nat.cast_pow] at e
  have e' : (0 : F) + 19 = 2 ^ 255 := e
  rw [← e']; ring

theorem pp_zero : ((2 : F) ^ 256 - 38) = 0 := by
  have := p_zero
  linear_combination 2 * this

theorem fe_red {a : Gf} {v c : Int} (h : val a = v - c * (2 ^ 256 - 38)) : fe a = (v : F) := by
  unfold fe
  have hz : (((2 ^ 256 - 38 : Int)) : F) = 0 := by
    rw [Int.cast_sub, Int.cast_pow]
    exact pp_zero
  rw [h, Int.cast_sub, Int.cast_mul, hz]; ring

theorem fM_fe {a b : Gf} (ha : Small a) (hb : Small b) : ∃ o, fM a b = .ok o ∧ Tight o ∧ fe o = fe a * fe b := by
  obtain ⟨o, e, ht, c, hc⟩ := fM_ok ha hb
  refine ⟨o, e, ht, ?_⟩
  rw [fe_red hc]
  unfold fe
  push_cast
  rfl

theorem fS_fe {a : Gf} (ha : Small a) : ∃ o, fS a = .ok o ∧ Tight o ∧ fe o = fe a * fe a := fM_fe ha ha

theorem fA_fe {a b : Gf} {m n : Int} (ha : Bd m a) (hb : Bd n b) (hmn : m + n ≤ 2 ^ 62) : ∃ o, fA a b = .ok o ∧ Bd (m + n) o ∧ fe o = fe a + fe b := by
  obtain ⟨o, e, hl, hv, hg⟩ := fA_ok ha.len hb.len (fun k hk => by have := ha.bound k hk; have := hb.bound k hk; omega)
  refine ⟨o, e, ⟨hl, fun k hk => by rw [hg k hk]; have := ha.bound k hk; have := hb.bound k hk; omega⟩, ?_⟩
  unfold fe
  rw [hv]
  push_cast
  rfl

theorem fZ_fe {a b : Gf} {m n : Int} (ha : Bd m a) (hb : Bd n b) (hmn : m + n ≤ 2 ^ 62) : ∃ o, fZ a b = .ok o ∧ Bd (m + n) o ∧ fe o = fe a - fe b := by
  obtain ⟨o, e, hl, hv, hg⟩ := fZ_ok ha.len hb.len (fun k hk => by have := ha.bound k hk; have := hb.bound k hk; omega)
  refine ⟨o, e, ⟨hl, fun k hk => by rw [hg k hk]; have := ha.bound k hk; have := hb.bound k hk; omega⟩, ?_⟩
  unfold fe
  rw [hv]
  push_cast
  rfl

theorem fe_val (a : Gf) : (fe a).val = (val a % (2 ^ 255 - 19)).toNat := by
  have h := ZMod.val_intCast (n := p) (val a)
  have : ((fe a).val : Int) = val a % (2 ^ 255 - 19) := h
  omega

theorem pack25519_fe {n : Gf} {B : Int} (h : Bd B n) (hB : B ≤ 2 ^ 62) : pack25519 n = .ok (leBytes 32 (fe n).val) := by
  rw [pack25519_ok h.len (fun k hk => by have := h.bound k hk; omega), fe_val]

theorem fval_lt (x : F) : x.val < 2 ^ 255 - 19 := ZMod.val_lt x

theorem neq25519_fe {a b : Gf} {m n : Int} (ha : Bd m a) (hb : Bd n b) (hm : m ≤ 2 ^ 62) (hn : n ≤ 2 ^ 62) :
    neq25519 a b = .ok (if fe a = fe b then 0 else -1) := by
  unfold neq25519 cryptoVerify32
  rw [pack25519_fe ha hm, ok_bind, pack25519_fe hb hn, ok_bind, vn_ok (by rw [length_leBytes]) (by rw [length_leBytes]), List.take_of_length_le (by rw [length_leBytes]),
    List.take_of_length_le (by rw [length_leBytes])]
  have : leBytes 32 (fe a).val = leBytes 32 (fe b).val ↔ fe a = fe b := by
    constructor
    · intro h
      have h1 := fval_lt (fe a)
      have h2 := fval_lt (fe b)
      exact ZMod.val_injective p (leBytes_inj (by norm_num at *; omega) (by norm_num at *; omega) h)
    · intro h; rw [h]
  by_cases h : fe a = fe b
  · rw [if_pos h, if_pos (this.2 h)]
  · rw [if_neg h, if_neg (fun h' => h (this.1 h'))]

theorem par25519_fe {a : Gf} {m : Int} (ha : Bd m a) (hm : m ≤ 2 ^ 62) : par25519 a = .ok (BitVec.ofNat 8 ((fe a).val % 2)) := by
  unfold par25519
  rw [pack25519_fe ha hm, ok_bind, rd_ok (by rw [length_leBytes]; omega), ok_bind]
  congr 1
  simp only [leBytes, List.getElem_map, List.getElem_range, pow_zero, Nat.div_one]
  apply BitVec.eq_of_toNat_eq
  rw [BitVec.toNat_and, BitVec.toNat_ofNat, BitVec.toNat_ofNat, show BitVec.toNat (1 : BitVec 8) = 2 ^ 1 - 1 from rfl, Nat.and_two_pow_sub_one_eq_mod]
  omega

theorem unpack25519_fe {n : Bytes} (h : n.length = 32) : ∃ o, unpack25519 n = .ok o ∧ Bd 65535 o ∧ fe o = ((leVal n % 2 ^ 255 : Nat) : F) := by
  obtain ⟨o, e, hl, hb, hv⟩ := unpack25519_ok h
  refine ⟨o, e, ⟨hl, fun k hk => by have := hb k hk; omega⟩, ?_⟩
  unfold fe
  rw [hv]
  push_cast
  rfl

/-! ### Powers -/

/-- The exponent after `k` rounds of squaring, multiplying when `c`. -/
def ex (c : Nat → Bool) : Nat → Nat
  | 0 => 1
  | k + 1 => if c k then 2 * ex c k + 1 else 2 * ex c k

theorem inv25519_pow {i : Gf} (hi : Small i) : ∃ o, inv25519 i = .ok o ∧ Small o ∧ fe o = fe i ^ (p - 2) := by
  unfold inv25519
  rw [set25519_ok hi.len, ok_bind]
  obtain ⟨c, e, hs, hv⟩ := loop_inv (fun k c => Small c ∧ fe c = fe i ^ ex (fun k => decide (253 - k ≠ 2 ∧ 253 - k ≠ 4)) k)
    (fun k c => do
      let a := 253 - k
      let c ← fS c
      if a ≠ 2 ∧ a ≠ 4 then fM c i else .ok c) 0 254 i ⟨hi, by simp [ex]⟩
    (by
      rintro k c - hk ⟨hs, hv⟩
      obtain ⟨c1, e1, t1, v1⟩ := fS_fe hs
      simp only []
      rw [e1, ok_bind]
      by_cases hc : 253 - k ≠ 2 ∧ 253 - k ≠ 4
      · rw [if_pos hc]
        obtain ⟨c2, e2, t2, v2⟩ := fM_fe t1.small hi
        refine ⟨c2, e2, t2.small, ?_⟩
        rw [v2, v1, hv, ex, if_pos (by exact decide_eq_true hc)]
        ring
      · rw [if_neg hc]
        refine ⟨c1, rfl, t1.small, ?_⟩
        rw [v1, hv, ex, if_neg (by simpa using hc)]
        ring)
  rw [e, ok_bind, set25519_ok hs.len]
  refine ⟨c, rfl, hs, ?_⟩
  rw [hv, show ex (fun k => decide (253 - k ≠ 2 ∧ 253 - k ≠ 4)) (0 + 254) = p - 2 by decide +kernel]

theorem inv25519_fe {i : Gf} (hi : Small i) : ∃ o, inv25519 i = .ok o ∧ Small o ∧ fe o = (fe i)⁻¹ := by
  obtain ⟨o, e, hs, hv⟩ := inv25519_pow hi
  refine ⟨o, e, hs, ?_⟩
  rw [hv]
  by_cases h : fe i = 0
  · rw [h, inv_zero, zero_pow (by decide +kernel)]
  · have := ZMod.pow_card_sub_one_eq_one h
    rw [show p - 1 = (p - 2) + 1 by decide +kernel, pow_succ] at this
    exact eq_inv_of_mul_eq_one_left this

theorem pow2523_fe {i : Gf} (hi : Small i) : ∃ o, pow2523 i = .ok o ∧ Small o ∧ fe o = fe i ^ ((p - 5) / 8) := by
  unfold pow2523
  rw [set25519_ok hi.len, ok_bind]
  obtain ⟨c, e, hs, hv⟩ := loop_inv (fun k c => Small c ∧ fe c = fe i ^ ex (fun k => decide (250 - k ≠ 1)) k)
    (fun k c => do
      let a := 250 - k
      let c ← fS c
      if a ≠ 1 then fM c i else .ok c) 0 251 i ⟨hi, by simp [ex]⟩
    (by
      rintro k c - hk ⟨hs, hv⟩
      obtain ⟨c1, e1, t1, v1⟩ := fS_fe hs
      simp only []
      rw [e1, ok_bind]
      by_cases hc : 250 - k ≠ 1
      · rw [if_pos hc]
        obtain ⟨c2, e2, t2, v2⟩ := fM_fe t1.small hi
        refine ⟨c2, e2, t2.small, ?_⟩
        rw [v2, v1, hv, ex, if_pos (by exact decide_eq_true hc)]
        ring
      · rw [if_neg hc]
        refine ⟨c1, rfl, t1.small, ?_⟩
        rw [v1, hv, ex, if_neg (by simpa using hc)]
        ring)
  rw [e, ok_bind, set25519_ok hs.len]
  refine ⟨c, rfl, hs, ?_⟩
  rw [hv, show ex (fun k => decide (250 - k ≠ 1)) (0 + 251) = (p - 5) / 8 by decide +kernel]

/-! ### Constants -/

theorem bd_of (a : Gf) (hl : a.length = 16) (h : ∀ k : Fin 16, -65535 ≤ g a k.val ∧ g a k.val ≤ 65535) : Bd 65535 a := ⟨hl, fun k hk => h ⟨k, hk⟩⟩

theorem bd_gf0 : Bd 65535 gf0 := bd_of _ (by decide) (by decide)
theorem bd_gf1 : Bd 65535 gf1 := bd_of _ (by decide) (by decide)
theorem bd_gfD : Bd 65535 gfD := bd_of _ (by decide) (by decide)
theorem bd_gfD2 : Bd 65535 gfD2 := bd_of _ (by decide) (by decide)
theorem bd_gfX : Bd 65535 gfX := bd_of _ (by decide) (by decide)
theorem bd_gfY : Bd 65535 gfY := bd_of _ (by decide) (by decide)
theorem bd_gfI : Bd 65535 gfI := bd_of _ (by decide) (by decide)

theorem fe_nat {a : Gf} {n : Nat} (h : val a = (n : Int)) : fe a = (n : F) := by
  unfold fe; rw [h]; push_cast; rfl

theorem fe_gf0 : fe gf0 = 0 := by rw [fe_nat (n := 0) (by decide)]; simp
theorem fe_gf1 : fe gf1 = 1 := by rw [fe_nat (n := 1) (by decide)]; simp
theorem fe_gfD : fe gfD = d := by rw [fe_nat (n := dNat) (by decide +kernel), d_eq]
theorem fe_gfD2 : fe gfD2 = 2 * d := by
  rw [fe_nat (n := 2 * dNat % p) (by decide +kernel), d_eq]
  have : ((2 * dNat % p : Nat) : F) = ((2 * dNat : Nat) : F) := natCast_eq (Nat.mod_mod _ _)
  rw [this]; push_cast; rfl
theorem fe_gfX : fe gfX = B.x := by rw [fe_nat (n := Bx) (by decide +kernel)]; rfl
theorem fe_gfY : fe gfY = B.y := by
  have h : (5 : F) ≠ 0 := by
    have := natCast_ne_zero (n := 5) (by decide +kernel)
    simpa using this
  show _ = (4 : F) / 5
  rw [fe_nat (n := 46316835694926478169428394003475163141307993866256225615783033603165251855960) (by decide +kernel), eq_div_iff h]
  have : ((46316835694926478169428394003475163141307993866256225615783033603165251855960 * 5 : Nat) : F) = ((4 : Nat) : F) := natCast_eq (by decide +kernel)
  push_cast at this ⊢
  exact this
theorem fe_gfI : fe gfI * fe gfI = -1 := by
  rw [fe_nat (n := sqrtm1) (by decide +kernel)]
  have : ((sqrtm1 * sqrtm1 + 1 : Nat) : F) = (0 : Nat) := natCast_eq (by decide +kernel)
  push_cast at this
  linear_combination this

end Verif.Ed25519
