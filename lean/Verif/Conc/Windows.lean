import Verif.Conc.Attack
import Verif.Dilithium.Hint
import Verif.Witness.Sound

/-!
The decoding of t1 and of z in single reads of the caller's memory: the bytes at which two coefficients meet are read once for each of them.
-/

namespace Verif.Conc
open Verif
open Verif.Dilithium (Poly Vec w32 csub w32_ofNat shl_ofNat shr_ofNat or_add_bv mask_lit csub_mask)
open Verif.Dilithium.Spec (vec unpackAt unpackPos unpackBits)

variable {α β ι : Type}

/-- dilithium2/poly.c:622-626: coefficient j of t1 from the two bytes that its line names. -/
def t1Coef (j : Nat) : Bytes → C Int
  | [a0, a1] => .ok ((w32 a0 >>> (2 * (j % 4)) ||| w32 a1 <<< (8 - 2 * (j % 4))) &&& 0x3FF).toInt
  | _ => .error .ub

/-- dilithium2/poly.c:795-818: coefficient j of z from the three bytes that its lines name. -/
def zCoef (j : Nat) : Bytes → C Int
  | [a0, a1, a2] => csub 131072 ((w32 a0 >>> (2 * (j % 4)) ||| w32 a1 <<< (8 - 2 * (j % 4)) ||| w32 a2 <<< (16 - 2 * (j % 4))) &&& 0x3FFFF)
  | _ => .error .ub

/-- dilithium2/poly.c:618-630 `polyt1_unpack` and dilithium2/poly.c:790-822 `polyz_unpack` on memory at offset `o`: for every coefficient of `w` bits the `b` bytes with its bits are read.  Simplified: the coefficients of a group of z
are subtracted from 2^17 one by one, not at the end of the group. -/
def readPoly (p : Ptr) (o w b : Nat) (coef : Nat → Bytes → C Int) : (n j : Nat) → Prog Poly
  | 0, _ => pure []
  | n + 1, j => do
    let x ← copyIn (List.replicate b 0) 0 p (o + w * j / 8) b
    let c ← liftC (coef j x)
    let r ← readPoly p o w b coef n (j + 1)
    pure (c :: r)

/-- dilithium2/packing.c:49-51 and dilithium2/packing.c:226-228: the polynomials of a vector, one after the other. -/
def readVec (p : Ptr) (o size w b : Nat) (coef : Nat → Bytes → C Int) : (n i : Nat) → Prog Vec
  | 0, _ => pure []
  | n + 1, i => do
    let x ← readPoly p (o + i * size) w b coef 256 0
    let r ← readVec p o size w b coef n (i + 1)
    pure (x :: r)

/-- The value of `t1Coef` (no line of its own; compare dilithium2/poly.c:622-626). -/
def t1Val (j : Nat) (y : Bytes) : Int := ((ofLe y / 2 ^ (2 * (j % 4)) % 2 ^ 10 : Nat) : Int)
/-- The value of `zCoef` (no line of its own; compare dilithium2/poly.c:795-818). -/
def zVal (j : Nat) (y : Bytes) : Int := 131072 - ((ofLe y / 2 ^ (2 * (j % 4)) % 2 ^ 18 : Nat) : Int)

theorem t1Coef_ok (j : Nat) (y : Bytes) (hl : y.length = 2) : t1Coef j y = .ok (t1Val j y) := by
  match y, hl with
  | [a, b], _ =>
    have ha : a.toNat < 256 := a.isLt
    have hb : b.toNat < 256 := b.isLt
    unfold t1Coef t1Val
    simp only [ofLe]
    have hj : j % 4 = 0 ∨ j % 4 = 1 ∨ j % 4 = 2 ∨ j % 4 = 3 := by omega
    rcases hj with h | h | h | h <;> rw [h] <;> simp only [w32_ofNat, shl_ofNat, Nat.reduceMul, Nat.reduceSub]
    · rw [shr_ofNat (x := a.toNat) 0 (by omega)]
      simp only [Nat.reducePow]
      rw [or_add_bv (x := a.toNat / 1) (y := b.toNat) (p := 256) 8 rfl (by omega), mask_lit (M := 1023) (p := 1024) 10 rfl rfl (by omega) (a.toNat / 1 + b.toNat * 256) (by omega)]
      congr 2; omega
    · rw [shr_ofNat (x := a.toNat) 2 (by omega)]
      simp only [Nat.reducePow]
      rw [or_add_bv (x := a.toNat / 4) (y := b.toNat) (p := 64) 6 rfl (by omega), mask_lit (M := 1023) (p := 1024) 10 rfl rfl (by omega) (a.toNat / 4 + b.toNat * 64) (by omega)]
      congr 2; omega
    · rw [shr_ofNat (x := a.toNat) 4 (by omega)]
      simp only [Nat.reducePow]
      rw [or_add_bv (x := a.toNat / 16) (y := b.toNat) (p := 16) 4 rfl (by omega), mask_lit (M := 1023) (p := 1024) 10 rfl rfl (by omega) (a.toNat / 16 + b.toNat * 16) (by omega)]
      congr 2; omega
    · rw [shr_ofNat (x := a.toNat) 6 (by omega)]
      simp only [Nat.reducePow]
      rw [or_add_bv (x := a.toNat / 64) (y := b.toNat) (p := 4) 2 rfl (by omega), mask_lit (M := 1023) (p := 1024) 10 rfl rfl (by omega) (a.toNat / 64 + b.toNat * 4) (by omega)]
      congr 2; omega

theorem zCoef_ok (j : Nat) (y : Bytes) (hl : y.length = 3) : zCoef j y = .ok (zVal j y) := by
  match y, hl with
  | [a, b, c], _ =>
    have ha : a.toNat < 256 := a.isLt
    have hb : b.toNat < 256 := b.isLt
    have hc : c.toNat < 256 := c.isLt
    unfold zCoef zVal
    simp only [ofLe]
    have hj : j % 4 = 0 ∨ j % 4 = 1 ∨ j % 4 = 2 ∨ j % 4 = 3 := by omega
    rcases hj with h | h | h | h <;> rw [h] <;> simp only [w32_ofNat, shl_ofNat, Nat.reduceMul, Nat.reduceSub]
    · rw [shr_ofNat (x := a.toNat) 0 (by omega)]
      simp only [Nat.reducePow]
      rw [or_add_bv (x := a.toNat / 1) (y := b.toNat) (p := 256) 8 rfl (by omega), or_add_bv (x := a.toNat / 1 + b.toNat * 256) (y := c.toNat) (p := 65536) 16 rfl (by omega),
        csub_mask (c := 131072) (M := 262143) (p := 262144) 18 rfl rfl (by omega) (a.toNat / 1 + b.toNat * 256 + c.toNat * 65536) (by omega) (by omega)]
      congr 3; omega
    · rw [shr_ofNat (x := a.toNat) 2 (by omega)]
      simp only [Nat.reducePow]
      rw [or_add_bv (x := a.toNat / 4) (y := b.toNat) (p := 64) 6 rfl (by omega), or_add_bv (x := a.toNat / 4 + b.toNat * 64) (y := c.toNat) (p := 16384) 14 rfl (by omega),
        csub_mask (c := 131072) (M := 262143) (p := 262144) 18 rfl rfl (by omega) (a.toNat / 4 + b.toNat * 64 + c.toNat * 16384) (by omega) (by omega)]
      congr 3; omega
    · rw [shr_ofNat (x := a.toNat) 4 (by omega)]
      simp only [Nat.reducePow]
      rw [or_add_bv (x := a.toNat / 16) (y := b.toNat) (p := 16) 4 rfl (by omega), or_add_bv (x := a.toNat / 16 + b.toNat * 16) (y := c.toNat) (p := 4096) 12 rfl (by omega),
        csub_mask (c := 131072) (M := 262143) (p := 262144) 18 rfl rfl (by omega) (a.toNat / 16 + b.toNat * 16 + c.toNat * 4096) (by omega) (by omega)]
      congr 3; omega
    · rw [shr_ofNat (x := a.toNat) 6 (by omega)]
      simp only [Nat.reducePow]
      rw [or_add_bv (x := a.toNat / 64) (y := b.toNat) (p := 4) 2 rfl (by omega), or_add_bv (x := a.toNat / 64 + b.toNat * 4) (y := c.toNat) (p := 1024) 10 rfl (by omega),
        csub_mask (c := 131072) (M := 262143) (p := 262144) 18 rfl rfl (by omega) (a.toNat / 64 + b.toNat * 4 + c.toNat * 1024) (by omega) (by omega)]
      congr 3; omega

/-! ### Without interruption -/

section
variable {coef : Nat → Bytes → C Int} {f : Nat → Bytes → Int} {w b : Nat}

theorem exec_bind_done {x : Prog α} {g : α → Prog β} {W W' : World} {a : α} (h : exec x W = .ok (a, W')) : exec (x >>= g) W = exec (g a) W' := by
  rw [exec_bind, M_bind_apply, h]; rfl

theorem exec_readPoly (hf : ∀ j y, y.length = b → coef j y = .ok (f j y)) (hw : ∀ j, j < 256 → w * j / 8 + b ≤ 32 * w) {W : World} {p : Ptr} {N o : Nat} {x : Bytes} (hv : W.view p N = some x) (ho : o + 32 * w ≤ N) (n j : Nat)
    (hj : j + n ≤ 256) : exec (readPoly p o w b coef n j) W = .ok ((List.range n).map fun k => f (j + k) (slice x (o + w * (j + k) / 8) b), W) := by
  have lx := length_of_view hv
  induction n generalizing j with
  | zero => rfl
  | succ n ih =>
    have := hw j (by omega)
    unfold readPoly
    rw [exec_bind_done (a := slice x (o + w * j / 8) b) (W' := W) (by rw [exec_copyIn]; exact Hybrid.copyIn_zeros hv (by omega)), exec_bind_done (a := f j (slice x (o + w * j / 8) b)) (W' := W) (by
      rw [hf _ _ (length_slice (by omega))]; rfl), exec_bind_done (ih (j + 1) (by omega)), List.range_succ_eq_map, List.map_cons, List.map_map]
    refine congrArg (fun l => Except.ok (l, W)) (congrArg₂ List.cons rfl (List.map_congr_left fun k _ => ?_))
    show f (j + 1 + k) _ = f (j + (k + 1)) (slice x (o + w * (j + (k + 1)) / 8) b)
    rw [show j + 1 + k = j + (k + 1) by omega]

theorem exec_readVec (hf : ∀ j y, y.length = b → coef j y = .ok (f j y)) (hw : ∀ j, j < 256 → w * j / 8 + b ≤ 32 * w) {W : World} {p : Ptr} {N o : Nat} {x : Bytes} (hv : W.view p N = some x) (n i : Nat)
    (ho : o + (i + n) * (32 * w) ≤ N) : exec (readVec p o (32 * w) w b coef n i) W = .ok ((List.range n).map fun k => (List.range 256).map fun j => f j (slice x (o + (i + k) * (32 * w) + w * j / 8) b), W) := by
  induction n generalizing i with
  | zero => rfl
  | succ n ih =>
    have e : (i + (n + 1)) * (32 * w) = i * (32 * w) + 32 * w + n * (32 * w) := by ring
    unfold readVec
    rw [exec_bind_done (exec_readPoly hf hw hv (by omega) 256 0 (by omega)), exec_bind_done (ih (i + 1) (by rw [show i + 1 + n = i + (n + 1) by omega]; exact ho)), List.range_succ_eq_map (n := n), List.map_cons, List.map_map]
    refine congrArg (fun l => Except.ok (l, W)) (congrArg₂ List.cons (List.map_congr_left fun k _ => ?_) (List.map_congr_left fun k _ => ?_))
    · rw [Nat.zero_add, Nat.add_zero]
    · show _ = (List.range 256).map fun j => f j (slice x (o + (i + (k + 1)) * (32 * w) + w * j / 8) b)
      rw [show i + 1 + k = i + (k + 1) by omega]

end

theorem ofLe_part (b : Bytes) (o n : Nat) : ofLe (slice b o n) = ofLe b / 2 ^ (8 * o) % 2 ^ (8 * n) := Witness.ofLe_slice rfl rfl

/-- The bits of a field are in the bytes that are read for it. -/
theorem field_part {x : Bytes} {w b j : Nat} (h : w * j % 8 + w ≤ 8 * b) : ofLe (slice x (w * j / 8) b) / 2 ^ (w * j % 8) % 2 ^ w = ofLe x / 2 ^ (w * j) % 2 ^ w := by
  obtain ⟨t, ht⟩ := Nat.exists_eq_add_of_le (show w * j % 8 ≤ 8 * b by omega)
  rw [ofLe_part, ht, pow_add, Nat.mod_mul_right_div_self, Nat.mod_mod_of_dvd _ (Nat.pow_dvd_pow 2 (by omega)), Nat.div_div_eq_div_mul, ← pow_add, Nat.div_add_mod]

theorem exec_readZ {W : World} {p : Ptr} {N : Nat} {x : Bytes} (hv : W.view p N = some x) (hN : 2336 ≤ N) : exec (readVec p 32 576 18 3 zCoef 4 0) W = .ok (vec fun i => unpackAt 18 131072 (slice x (32 + i * 576) 576), W) := by
  rw [exec_readVec (w := 18) zCoef_ok (fun j hj => by omega) hv 4 0 (by omega)]
  refine congrArg (fun l => Except.ok (l, W)) (List.map_congr_left fun i _ => ?_)
  unfold unpackAt unpackBits
  rw [List.map_map]
  refine List.map_congr_left fun j hj => ?_
  have hj := List.mem_range.1 hj
  simp only [Function.comp, Nat.zero_add, zVal]
  rw [← field_part (w := 18) (b := 3) (j := j) (by omega), Dilithium.slice_slice' (by omega), show 2 * (j % 4) = 18 * j % 8 by omega]

theorem exec_readT1 {W : World} {p : Ptr} {x : Bytes} (hv : W.view p 1312 = some x) : exec (readVec p 32 320 10 2 t1Coef 4 0) W = .ok (vec fun i => unpackPos 10 (slice x (32 + i * 320) 320), W) := by
  rw [exec_readVec (w := 10) t1Coef_ok (fun j hj => by omega) hv 4 0 (by omega)]
  refine congrArg (fun l => Except.ok (l, W)) (List.map_congr_left fun i _ => ?_)
  unfold unpackPos unpackBits
  rw [List.map_map]
  refine List.map_congr_left fun j hj => ?_
  have hj := List.mem_range.1 hj
  simp only [Function.comp, Nat.zero_add, t1Val]
  rw [← field_part (w := 10) (b := 2) (j := j) (by omega), Dilithium.slice_slice' (by omega), show 2 * (j % 4) = 10 * j % 8 by omega]

theorem t1Val_bound (j : Nat) (y : Bytes) : 0 ≤ t1Val j y ∧ t1Val j y < 1024 := by
  unfold t1Val
  have := Nat.mod_lt (ofLe y / 2 ^ (2 * (j % 4))) (show 0 < 2 ^ 10 by decide)
  omega

theorem zVal_bound (j : Nat) (y : Bytes) : -131072 < zVal j y ∧ zVal j y ≤ 131072 := by
  unfold zVal
  have := Nat.mod_lt (ofLe y / 2 ^ (2 * (j % 4))) (show 0 < 2 ^ 18 by decide)
  omega

end Verif.Conc
