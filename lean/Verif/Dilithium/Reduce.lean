import Verif.Dilithium.Model
import Verif.Dilithium.Spec

/-! Lemmas about the scalar functions of reduce.c and rounding.c, and about array-filling loops. -/

namespace Verif.Dilithium
open Verif

theorem i32_ok {x : Int} (h1 : -2147483648 ≤ x) (h2 : x ≤ 2147483647) : i32 x = .ok x := if_pos ⟨h1, h2⟩
theorem i64_ok {x : Int} (h1 : -9223372036854775808 ≤ x) (h2 : x ≤ 9223372036854775807) : i64 x = .ok x := if_pos ⟨h1, h2⟩

theorem i32_eq_ok {x y : Int} (h : i32 x = .ok y) : y = x := by
  unfold i32 at h; split at h
  · exact (Except.ok.inj h).symm
  · cases h

/-! ### arrays -/

theorem build_ok {α : Type} {n : Nat} {d : α} {f : Nat → C α} (g : Nat → α) (h : ∀ i, i < n → f i = .ok (g i)) :
    build n d f = .ok ((List.range n).map g) := by
  obtain ⟨s, e, hs⟩ := loop_inv (fun k (s : List α) => s = (List.range k).map g ++ List.replicate (n - k) d)
    (fun i out => do let v ← f i; wr out i v) 0 n (List.replicate n d) (by simp)
    (by
      intro k s _ hk hs
      subst hs
      refine ⟨_, ?_, rfl⟩
      rw [h k (by omega), ok_bind, wr_ok (by simp; omega)]
      congr 1
      obtain ⟨m, hm⟩ : ∃ m, n - k = m + 1 := ⟨n - k - 1, by omega⟩
      rw [hm, show n - (k + 1) = m by omega, List.replicate_succ, List.range_succ, List.map_append]
      simp)
  rw [build, e, hs]; simp

/-- What a filling loop did if it succeeded. -/
theorem build_eq_ok {α : Type} {n : Nat} {d : α} {f : Nat → C α} {l : List α} (h : build n d f = .ok l) :
    l.length = n ∧ ∀ i, i < n → ∃ x, l[i]? = some x ∧ f i = .ok x := by
  have := loop_inv_partial (fun k (s : List α) => s.length = n ∧ ∀ i, i < k → ∃ x, s[i]? = some x ∧ f i = .ok x)
    (fun i out => do let v ← f i; wr out i v) 0 n (List.replicate n d) l (by simp)
    (by
      intro k s s' _ hk ⟨hl, hs⟩ he
      rw [bind_eq_ok] at he
      obtain ⟨v, ev, ew⟩ := he
      rw [wr_ok (by omega)] at ew
      have ew := (Except.ok.inj ew).symm
      subst ew
      refine ⟨by simpa using hl, ?_⟩
      intro i hi
      by_cases c : i = k
      · subst c; exact ⟨v, by rw [List.getElem?_set_self (by omega)], ev⟩
      · obtain ⟨x, e1, e2⟩ := hs i (by omega)
        exact ⟨x, by rw [List.getElem?_set_ne (by omega)]; exact e1, e2⟩)
    h
  simpa using this

/-- A filling loop faults only if one of its steps does. -/
theorem build_ne_ub {α : Type} {n : Nat} {d : α} {f : Nat → C α} (h : ∀ i, i < n → f i ≠ .error .ub) : build n d f ≠ .error .ub := by
  have key : ∀ m k (s : List α), k + m ≤ n → s.length = n →
      loop (fun i out => do let v ← f i; wr out i v) k m s ≠ .error .ub := by
    intro m
    induction m with
    | zero => intro k s _ _ h; cases h
    | succ m ih =>
      intro k s hk hs
      rw [loop_succ]
      have := h k (by omega)
      cases e : f k with
      | error e' => intro h'; rw [e] at this; simp at h'; exact this (by rw [h'])
      | ok v =>
        simp only [ok_bind]
        rw [wr_ok (by omega), ok_bind]
        exact ih (k + 1) _ (by omega) (by simpa using hs)
  exact key n 0 _ (by omega) (by simp)

theorem anyBad_ok {f : Nat → C Bool} {g : Nat → Bool} (i n : Nat) (h : ∀ k, i ≤ k → k < i + n → f k = .ok (g k)) :
    ∃ b, anyBad f i n = .ok b ∧ (b = true ↔ ∃ k, i ≤ k ∧ k < i + n ∧ g k = true) := by
  induction n generalizing i with
  | zero => exact ⟨false, rfl, by simp; omega⟩
  | succ n ih =>
    rw [anyBad, h i (by omega) (by omega), ok_bind]
    by_cases c : g i = true
    · rw [if_pos c]
      exact ⟨true, rfl, by simp; exact ⟨i, by omega, by omega, c⟩⟩
    · rw [if_neg c]
      obtain ⟨b, e, hb⟩ := ih (i + 1) (fun k h1 h2 => h k (by omega) (by omega))
      refine ⟨b, e, hb.trans ?_⟩
      constructor
      · rintro ⟨k, h1, h2, h3⟩; exact ⟨k, by omega, by omega, h3⟩
      · rintro ⟨k, h1, h2, h3⟩
        refine ⟨k, ?_, by omega, h3⟩
        rcases Nat.lt_or_ge i k with hh | hh
        · omega
        · exact absurd h3 (by rw [show k = i by omega]; exact c)

/-! ### masks -/

theorem and32_zero (b : Int) : and32 0 b = 0 := by simp [and32]
theorem and32_neg_one {b : Int} (h1 : -2147483648 ≤ b) (h2 : b ≤ 2147483647) : and32 (-1) b = b := by
  have : BitVec.ofInt 32 (-1) = BitVec.allOnes 32 := by decide
  rw [and32, this, BitVec.allOnes_and, BitVec.toInt_ofInt]
  exact Int.bmod_eq_of_le (by omega) (by omega)
theorem xor32_zero {a : Int} (h1 : -2147483648 ≤ a) (h2 : a ≤ 2147483647) : xor32 a 0 = a := by
  rw [xor32]
  rw [show BitVec.ofInt 32 0 = 0#32 by decide, BitVec.xor_zero, BitVec.toInt_ofInt]
  exact Int.bmod_eq_of_le (by omega) (by omega)
theorem xor32_self (a : Int) : xor32 a a = 0 := by simp [xor32]

theorem shr_eq (x : Int) (k : Nat) : x >>> k = x / 2 ^ k := Int.shiftRight_eq_div_pow x k

theorem sign_mask {x : Int} (h1 : -2147483648 ≤ x) (h2 : x ≤ 2147483647) : x >>> 31 = if x < 0 then -1 else 0 := by
  rw [shr_eq]; split <;> omega

/-- `(x >> 31) & y` -/
theorem mask_val {x y : Int} (h1 : -2147483648 ≤ x) (h2 : x ≤ 2147483647) (h3 : -2147483648 ≤ y) (h4 : y ≤ 2147483647) :
    and32 (x >>> 31) y = if x < 0 then y else 0 := by
  rw [sign_mask h1 h2]
  split
  · exact and32_neg_one h3 h4
  · exact and32_zero y

/-! ### reduce.c -/

/-- The value of `montgomery_reduce`. -/
def mont (a : Int) : Int := (a - (a * 58728449).bmod 4294967296 * 8380417) / 4294967296

theorem mont_exact (a : Int) : mont a * 4294967296 = a - (a * 58728449).bmod 4294967296 * 8380417 := by
  rw [mont]
  apply Int.ediv_mul_cancel
  obtain ⟨k, hk⟩ : ((4294967296 : Nat) : Int) ∣ a * 58728449 - (a * 58728449).bmod 4294967296 := Int.dvd_self_sub_bmod
  generalize (a * 58728449).bmod 4294967296 = m at hk
  exact ⟨-114592 * a + 8380417 * k, by omega⟩

theorem montgomeryReduce_ok {a : Int} (h1 : -17996808470921216 ≤ a) (h2 : a < 17996808470921216) :
    montgomeryReduce a = .ok (mont a) ∧ -8380417 < mont a ∧ mont a < 8380417 := by
  have hb1 : -2147483648 ≤ (a * 58728449).bmod 4294967296 := Int.le_bmod (by omega)
  have hb2 : (a * 58728449).bmod 4294967296 < 2147483648 := Int.bmod_lt (by omega)
  have he := mont_exact a
  have ht : toI32 (a * 58728449 % 18446744073709551616) = (a * 58728449).bmod 4294967296 := by
    rw [toI32, ← Int.emod_bmod, Int.emod_emod_of_dvd _ (by decide), Int.emod_bmod]
  unfold montgomeryReduce
  rw [ht]
  have hm : (a - (a * 58728449).bmod 4294967296 * 8380417) / 4294967296 = mont a := rfl
  generalize (a * 58728449).bmod 4294967296 = m at *
  generalize mont a = r at *
  refine ⟨?_, by omega, by omega⟩
  show (i64 (m * 8380417) >>= fun p => i64 (a - p) >>= fun d => .ok (toI32 (d >>> 32))) = _
  rw [i64_ok (by omega) (by omega), ok_bind, i64_ok (by omega) (by omega), ok_bind, shr_eq]
  rw [show (2 : Int) ^ 32 = 4294967296 by decide, hm, toI32]
  rw [Int.bmod_eq_of_le (by omega) (by omega)]

/-- 2^32 * mont a = a modulo q -/
theorem mont_dvd (a : Int) : (8380417 : Int) ∣ mont a * 4294967296 - a := by
  rw [mont_exact]; exact ⟨-(a * 58728449).bmod 4294967296, by omega⟩

theorem reduce32_ok {a : Int} (h1 : -2147483648 ≤ a) (h2 : a ≤ 2143289343) :
    ∃ r, reduce32 a = .ok r ∧ -6283009 ≤ r ∧ r ≤ 6283008 ∧ r % 8380417 = a % 8380417 := by
  refine ⟨a - (a + 4194304) / 8388608 * 8380417, ?_, by omega, by omega, by omega⟩
  unfold reduce32 Q
  rw [i32_ok (by omega) (by omega), ok_bind]
  simp only
  rw [shr_eq, show (2 : Int) ^ 23 = 8388608 by decide, i32_ok (by omega) (by omega), ok_bind, i32_ok (by omega) (by omega)]

theorem caddq_ok {a : Int} (h1 : -2147483648 ≤ a) (h2 : a ≤ 2147483647) :
    caddq a = .ok (if a < 0 then a + 8380417 else a) := by
  unfold caddq Q
  rw [mask_val h1 h2 (by decide) (by decide)]
  split
  · rw [i32_ok (by omega) (by omega)]
  · rw [Int.add_zero, i32_ok (by omega) (by omega)]

/-! ### rounding.c -/

theorem power2round_ok {a : Int} (h1 : 0 ≤ a) (h2 : a < 8380417) : power2round a = .ok (Spec.power2Round a) := by
  have hr : a % 8380417 = a := Int.emod_eq_of_lt h1 h2
  rw [power2round, i32_ok (by omega) (by omega), ok_bind, i32_ok (by omega) (by omega), ok_bind]
  simp only
  rw [shr_eq, show (2 : Int) ^ 13 = 8192 by decide, i32_ok (by omega) (by omega), ok_bind, i32_ok (by omega) (by omega), ok_bind]
  congr 1
  unfold Spec.power2Round Spec.cmod Spec.q
  rw [hr]
  refine Prod.ext ?_ ?_
  · show (a + 4096 - 1) / 8192 = _ 
    split <;> omega
  · show a - (a + 4096 - 1) / 8192 * 8192 = _
    split <;> omega

theorem decompose_ok {a : Int} (h1 : 0 ≤ a) (h2 : a < 8380417) : decompose a = .ok (Spec.decompose a) := by
  have hr : a % 8380417 = a := Int.emod_eq_of_lt h1 h2
  obtain ⟨b, hb⟩ : ∃ b, b = (a + 127) / 128 := ⟨_, rfl⟩
  obtain ⟨c, hc⟩ : ∃ c, c = (b * 11275 + 8388608) / 16777216 := ⟨_, rfl⟩
  have hb1 : 0 ≤ b ∧ b ≤ 65473 := by omega
  have hc1 : 0 ≤ c ∧ c ≤ 44 := by omega
  have hc2 : 1488 * c - 744 < b ∧ b ≤ 1488 * c + 744 := by omega
  have hc3 : 190464 * c - 95232 < a ∧ a ≤ 190464 * c + 95232 := by omega
  unfold decompose GAMMA2 Q
  rw [i32_ok (by omega) (by omega), ok_bind]
  simp only
  rw [shr_eq, show (2 : Int) ^ 7 = 128 by decide, ← hb, i32_ok (by omega) (by omega), ok_bind, i32_ok (by omega) (by omega), ok_bind]
  rw [shr_eq (b * 11275 + 8388608), show (2 : Int) ^ 24 = 16777216 by decide, ← hc, i32_ok (by omega) (by omega), ok_bind]
  rw [mask_val (by omega) (by omega) (by omega) (by omega)]
  have hx : xor32 c (if 43 - c < 0 then c else 0) = if c = 44 then 0 else c := by
    by_cases hh : c = 44
    · rw [if_pos (by omega), if_pos hh, xor32_self]
    · rw [if_neg (by omega), if_neg hh, xor32_zero (by omega) (by omega)]
  rw [hx]
  obtain ⟨e, he⟩ : ∃ e, e = if c = 44 then 0 else c := ⟨_, rfl⟩
  rw [← he]
  have he1 : (c = 44 ∧ e = 0) ∨ (c < 44 ∧ e = c) := by
    by_cases hh : c = 44
    · left; exact ⟨hh, by rw [he, if_pos hh]⟩
    · right; exact ⟨by omega, by rw [he, if_neg hh]⟩
  rw [i32_ok (by omega) (by omega), ok_bind, i32_ok (by omega) (by omega), ok_bind, i32_ok (by omega) (by omega), ok_bind,
    i32_ok (by omega) (by omega), ok_bind, mask_val (by omega) (by omega) (by decide) (by decide)]
  rw [i32_ok (by split <;> omega) (by split <;> omega), ok_bind]
  congr 1
  unfold Spec.decompose Spec.cmod Spec.q
  rw [hr]
  simp only
  generalize hr0 : (if a % 190464 > 190464 / 2 then a % 190464 - 190464 else a % 190464) = r0
  have hr1 : (a % 190464 > 95232 ∧ r0 = a % 190464 - 190464) ∨ (a % 190464 ≤ 95232 ∧ r0 = a % 190464) := by
    subst hr0; split <;> omega
  have hr2 : a - r0 = c * 190464 := by omega
  rcases he1 with ⟨h3, h4⟩ | ⟨h3, h4⟩
  · rw [if_pos (by omega), if_pos (by omega)]
    exact Prod.ext h4 (by simp only; omega)
  · rw [if_neg (by omega), if_neg (by omega)]
    exact Prod.ext (by simp only; omega) (by simp only; omega)

/-- Shape of the decomposition, in one statement that integer arithmetic can use. -/
theorem decompose_spec (r : Int) (h1 : 0 ≤ r) (h2 : r < 8380417) :
    (0 ≤ Spec.highBits r ∧ Spec.highBits r ≤ 43) ∧ -95232 ≤ Spec.lowBits r ∧ Spec.lowBits r ≤ 95232 ∧
    ((r = Spec.highBits r * 190464 + Spec.lowBits r ∧ -95232 < Spec.lowBits r) ∨
      (r = 8380417 + Spec.lowBits r ∧ Spec.highBits r = 0 ∧ Spec.lowBits r < 0)) := by
  have hr : r % 8380417 = r := Int.emod_eq_of_lt h1 h2
  unfold Spec.highBits Spec.lowBits Spec.decompose Spec.cmod Spec.q
  rw [hr]
  simp only
  generalize hr0 : (if r % 190464 > 190464 / 2 then r % 190464 - 190464 else r % 190464) = r0
  have hr1 : (r % 190464 > 95232 ∧ r0 = r % 190464 - 190464) ∨ (r % 190464 ≤ 95232 ∧ r0 = r % 190464) := by
    subst hr0; split <;> omega
  split
  · simp only
    exact ⟨by omega, by omega, by omega, Or.inr ⟨by omega, trivial, by omega⟩⟩
  · simp only; omega

/-- The decomposition is determined by its shape. -/
theorem decompose_unique {r x y : Int} (h1 : 0 ≤ r) (h2 : r < 8380417) (hx : 0 ≤ x ∧ x ≤ 43) (hy : -95232 ≤ y ∧ y ≤ 95232)
    (h : (r = x * 190464 + y ∧ -95232 < y) ∨ (r = 8380417 + y ∧ x = 0 ∧ y < 0)) :
    Spec.highBits r = x ∧ Spec.lowBits r = y := by
  have := decompose_spec r h1 h2
  generalize Spec.highBits r = a at *
  generalize Spec.lowBits r = b at *
  omega

theorem useHint_ok {a h : Int} (h1 : 0 ≤ a) (h2 : a < 8380417) (hh : h = 0 ∨ h = 1) : useHint a h = .ok (Spec.useHint h a) := by
  have hd := decompose_spec a h1 h2
  rw [useHint, decompose_ok h1 h2, ok_bind]
  show (if h = 0 then (.ok (Spec.highBits a) : C Int) else if Spec.lowBits a > 0 then
    if Spec.highBits a = 43 then .ok 0 else i32 (Spec.highBits a + 1)
    else if Spec.highBits a = 0 then .ok 43 else i32 (Spec.highBits a - 1)) = _
  unfold Spec.useHint
  generalize Spec.highBits a = x at *
  generalize Spec.lowBits a = y at *
  rcases hh with rfl | rfl
  · simp
  · rw [if_neg (by decide), if_pos rfl]
    split
    · split
      · rename_i h; subst h; rfl
      · rw [i32_ok (by omega) (by omega)]; congr 1; omega
    · split
      · rename_i h; subst h; rfl
      · rw [i32_ok (by omega) (by omega)]; congr 1; omega

/-- Heart of the hint mechanism.  `w` has high part w1 and low part w0; `e` is the error with w0 + e small; the hint computed from
w0 + e and w1 lets the verifier recover w1 from w + e. -/
theorem hint_recovers {w e v : Int} (h1 : 0 ≤ w) (h2 : w < 8380417) (he : -190464 < Spec.lowBits w + e ∧ Spec.lowBits w + e ≤ 190464)
    (hv1 : 0 ≤ v) (hv2 : v < 8380417) (hv : (v - (w + e)) % 8380417 = 0) :
    Spec.useHint (Spec.hintBit (Spec.lowBits w + e) (Spec.highBits w)) v = Spec.highBits w := by
  have hw := decompose_spec w h1 h2
  have hd := decompose_spec v hv1 hv2
  unfold Spec.useHint Spec.hintBit
  generalize Spec.highBits w = w1 at *
  generalize Spec.lowBits w = w0 at *
  generalize Spec.highBits v = v1 at *
  generalize Spec.lowBits v = v0 at *
  obtain ⟨k, hk⟩ : ∃ k, v = w + e + 8380417 * k := ⟨(v - (w + e)) / 8380417, by omega⟩
  have hkb : k = -1 ∨ k = 0 ∨ k = 1 := by omega
  split
  · rw [if_pos rfl]
    split <;> omega
  · rw [if_neg (by decide)]
    omega

end Verif.Dilithium
