import Mathlib.NumberTheory.LucasPrimality
import Mathlib.Tactic.NormNum.Prime

/-!
2^255 - 19 is prime: a Pratt certificate, checked with modular powers computed by the kernel.
-/

namespace Verif.Ed25519

/-- `acc * a ^ e % m` for `e < 2 ^ fuel`, by repeated squaring. -/
def powModGo : (fuel a e m acc : Nat) → Nat
  | 0, _, _, m, acc => acc % m
  | f + 1, a, e, m, acc => powModGo f (a * a % m) (e / 2) m (if e % 2 = 1 then acc * a % m else acc)

/-- `a ^ e % m` for `e < 2 ^ 256`. -/
def powMod (a e m : Nat) : Nat := powModGo 256 a e m 1

theorem powModGo_eq (f a e m acc : Nat) (h : e < 2 ^ f) : powModGo f a e m acc = acc * a ^ e % m := by
  induction f generalizing a e acc with
  | zero =>
    have : e = 0 := by simpa using h
    subst this
    simp [powModGo]
  | succ f ih =>
    have hd : e / 2 < 2 ^ f := by rw [Nat.pow_succ] at h; omega
    rw [powModGo, ih _ _ _ hd]
    have e1 : (a * a % m) ^ (e / 2) ≡ a ^ (2 * (e / 2)) [MOD m] := by
      rw [pow_mul, pow_two]
      exact (Nat.mod_modEq _ _).pow _
    split
    · rename_i ho
      have : a ^ e = a * a ^ (2 * (e / 2)) := by
        rw [← pow_succ']; congr 1; omega
      rw [this, ← Nat.mul_assoc]
      exact ((Nat.mod_modEq (acc * a) m).mul e1)
    · rename_i ho
      have : a ^ e = a ^ (2 * (e / 2)) := by congr 1; omega
      rw [this]
      exact (Nat.ModEq.refl acc).mul e1

theorem powMod_eq {a e m : Nat} (h : e < 2 ^ 256) : powMod a e m = a ^ e % m := by
  unfold powMod
  rw [powModGo_eq _ _ _ _ _ h, Nat.one_mul]

theorem zmod_pow_eq {a e m c : Nat} (h : e < 2 ^ 256) (hc : powMod a e m = c) : (a : ZMod m) ^ e = c := by
  rw [powMod_eq h] at hc
  rw [← Nat.cast_pow, ← hc, ZMod.natCast_mod]

theorem pratt (p a : Nat) (fs : List Nat) (hp : 1 < p) (hb : p < 2 ^ 256) (hprod : fs.prod = p - 1) (hf : ∀ q ∈ fs, q.Prime)
    (h1 : powMod a (p - 1) p = 1) (h2 : ∀ q ∈ fs, powMod a ((p - 1) / q) p ≠ 1) : p.Prime := by
  apply lucas_primality p a
  · simpa using zmod_pow_eq (by omega) h1
  · intro q hq hd h
    rw [← hprod] at hd
    obtain ⟨r, hr, hd⟩ := (Nat.Prime.prime hq).dvd_prod_iff.1 hd
    have : q = r := (Nat.prime_dvd_prime_iff_eq hq (hf r hr)).1 hd
    subst this
    have hl : (p - 1) / q < 2 ^ 256 := Nat.lt_of_le_of_lt (Nat.div_le_self _ _) (by omega)
    apply h2 q hr
    rw [powMod_eq hl]
    have h' : ((a ^ ((p - 1) / q) : Nat) : ZMod p) = ((1 : Nat) : ZMod p) := by simpa using h
    rw [ZMod.natCast_eq_natCast_iff] at h'
    unfold Nat.ModEq at h'
    rw [h', Nat.mod_eq_of_lt hp]

theorem prime_569003 : Nat.Prime 569003 := by
  refine pratt _ 2 [2, 7, 97, 419] (by decide +kernel) (by decide +kernel) (by decide +kernel) ?_ (by decide +kernel) (by decide +kernel)
  intro q hq
  simp only [List.mem_cons, List.not_mem_nil, or_false] at hq
  rcases hq with rfl | rfl | rfl | rfl
  · norm_num
  · norm_num
  · norm_num
  · norm_num

theorem prime_2773320623 : Nat.Prime 2773320623 := by
  refine pratt _ 5 [2, 2437, 569003] (by decide +kernel) (by decide +kernel) (by decide +kernel) ?_ (by decide +kernel) (by decide +kernel)
  intro q hq
  simp only [List.mem_cons, List.not_mem_nil, or_false] at hq
  rcases hq with rfl | rfl | rfl
  · norm_num
  · norm_num
  · exact prime_569003

theorem prime_72106336199 : Nat.Prime 72106336199 := by
  refine pratt _ 7 [2, 13, 2773320623] (by decide +kernel) (by decide +kernel) (by decide +kernel) ?_ (by decide +kernel) (by decide +kernel)
  intro q hq
  simp only [List.mem_cons, List.not_mem_nil, or_false] at hq
  rcases hq with rfl | rfl | rfl
  · norm_num
  · norm_num
  · exact prime_2773320623

theorem prime_8574133 : Nat.Prime 8574133 := by
  refine pratt _ 2 [2, 2, 3, 7, 103, 991] (by decide +kernel) (by decide +kernel) (by decide +kernel) ?_ (by decide +kernel) (by decide +kernel)
  intro q hq
  simp only [List.mem_cons, List.not_mem_nil, or_false] at hq
  rcases hq with rfl | rfl | rfl | rfl | rfl | rfl
  · norm_num
  · norm_num
  · norm_num
  · norm_num
  · norm_num
  · norm_num

theorem prime_big1 : Nat.Prime 1919519569386763 := by
  refine pratt _ 2 [2, 3, 7, 19, 47, 47, 127, 8574133] (by decide +kernel) (by decide +kernel) (by decide +kernel) ?_ (by decide +kernel) (by decide +kernel)
  intro q hq
  simp only [List.mem_cons, List.not_mem_nil, or_false] at hq
  rcases hq with rfl | rfl | rfl | rfl | rfl | rfl | rfl | rfl
  · norm_num
  · norm_num
  · norm_num
  · norm_num
  · norm_num
  · norm_num
  · norm_num
  · exact prime_8574133

theorem prime_big2 : Nat.Prime 75445702479781427272750846543864801 := by
  refine pratt _ 7 [2, 2, 2, 2, 2, 3, 3, 5, 5, 75707, 72106336199, 1919519569386763] (by decide +kernel) (by decide +kernel) (by decide +kernel) ?_ (by decide +kernel) (by decide +kernel)
  intro q hq
  simp only [List.mem_cons, List.not_mem_nil, or_false] at hq
  rcases hq with rfl | rfl | rfl | rfl | rfl | rfl | rfl | rfl | rfl | rfl | rfl | rfl
  · norm_num
  · norm_num
  · norm_num
  · norm_num
  · norm_num
  · norm_num
  · norm_num
  · norm_num
  · norm_num
  · norm_num
  · exact prime_72106336199
  · exact prime_big1

theorem prime_132049 : Nat.Prime 132049 := by
  refine pratt _ 26 [2, 2, 2, 2, 3, 3, 7, 131] (by decide +kernel) (by decide +kernel) (by decide +kernel) ?_ (by decide +kernel) (by decide +kernel)
  intro q hq
  simp only [List.mem_cons, List.not_mem_nil, or_false] at hq
  rcases hq with rfl | rfl | rfl | rfl | rfl | rfl | rfl | rfl
  · norm_num
  · norm_num
  · norm_num
  · norm_num
  · norm_num
  · norm_num
  · norm_num
  · norm_num

theorem prime_430751 : Nat.Prime 430751 := by
  refine pratt _ 17 [2, 5, 5, 5, 1723] (by decide +kernel) (by decide +kernel) (by decide +kernel) ?_ (by decide +kernel) (by decide +kernel)
  intro q hq
  simp only [List.mem_cons, List.not_mem_nil, or_false] at hq
  rcases hq with rfl | rfl | rfl | rfl | rfl
  · norm_num
  · norm_num
  · norm_num
  · norm_num
  · norm_num

theorem prime_big3 : Nat.Prime 31757755568855353 := by
  refine pratt _ 10 [2, 2, 2, 3, 31, 107, 223, 4153, 430751] (by decide +kernel) (by decide +kernel) (by decide +kernel) ?_ (by decide +kernel) (by decide +kernel)
  intro q hq
  simp only [List.mem_cons, List.not_mem_nil, or_false] at hq
  rcases hq with rfl | rfl | rfl | rfl | rfl | rfl | rfl | rfl | rfl
  · norm_num
  · norm_num
  · norm_num
  · norm_num
  · norm_num
  · norm_num
  · norm_num
  · norm_num
  · exact prime_430751

theorem prime_1923133 : Nat.Prime 1923133 := by
  refine pratt _ 2 [2, 2, 3, 43, 3727] (by decide +kernel) (by decide +kernel) (by decide +kernel) ?_ (by decide +kernel) (by decide +kernel)
  intro q hq
  simp only [List.mem_cons, List.not_mem_nil, or_false] at hq
  rcases hq with rfl | rfl | rfl | rfl | rfl
  · norm_num
  · norm_num
  · norm_num
  · norm_num
  · norm_num

theorem prime_big4 : Nat.Prime 74058212732561358302231226437062788676166966415465897661863160754340907 := by
  refine pratt _ 2 [2, 3, 353, 57467, 132049, 1923133, 31757755568855353, 75445702479781427272750846543864801] (by decide +kernel) (by decide +kernel) (by decide +kernel) ?_ (by decide +kernel) (by decide +kernel)
  intro q hq
  simp only [List.mem_cons, List.not_mem_nil, or_false] at hq
  rcases hq with rfl | rfl | rfl | rfl | rfl | rfl | rfl | rfl
  · norm_num
  · norm_num
  · norm_num
  · norm_num
  · exact prime_132049
  · exact prime_1923133
  · exact prime_big3
  · exact prime_big2

theorem prime_p : Nat.Prime (2 ^ 255 - 19) := by
  refine pratt _ 2 [2, 2, 3, 65147, 74058212732561358302231226437062788676166966415465897661863160754340907] (by decide +kernel) (by decide +kernel) (by decide +kernel) ?_ (by decide +kernel) (by decide +kernel)
  intro q hq
  simp only [List.mem_cons, List.not_mem_nil, or_false] at hq
  rcases hq with rfl | rfl | rfl | rfl | rfl
  · norm_num
  · norm_num
  · norm_num
  · norm_num
  · exact prime_big4

end Verif.Ed25519
