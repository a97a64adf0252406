import Verif.Ed25519.Model
import Mathlib.Tactic.Ring
import Mathlib.Tactic.Linarith
import Mathlib.Tactic.LinearCombination
import Mathlib.Algebra.Order.Ring.Int

/-!
Lists of limbs: the value of a list in base `b`, and the effect of the checked operations.
-/

namespace Verif.Ed25519
open Verif

/-- The value of a list of limbs. -/
def bval (b : Int) : List Int → Int
  | [] => 0
  | a :: l => a + b * bval b l

/-- Limb `k`, zero outside the list. -/
def g (l : List Int) (k : Nat) : Int := l.getD k 0

theorem g_eq {l : List Int} {k : Nat} (h : k < l.length) : g l k = l[k] := by simp [g, h]

theorem rd_g {l : List Int} {k : Nat} (h : k < l.length) : rd l k = .ok (g l k) := by rw [rd_ok h, g_eq h]

theorem g_set {l : List Int} {i : Nat} (h : i < l.length) (x : Int) (k : Nat) : g (l.set i x) k = if k = i then x else g l k := by
  unfold g
  rw [List.getD_eq_getElem?_getD, List.getD_eq_getElem?_getD, List.getElem?_set]
  by_cases e : i = k
  · subst e; simp [h]
  · rw [if_neg e, if_neg (fun h => e h.symm)]

theorem bval_set (b : Int) {l : List Int} {i : Nat} (h : i < l.length) (x : Int) :
    bval b (l.set i x) = bval b l + (x - g l i) * b ^ i := by
  induction l generalizing i with
  | nil => simp at h
  | cons a l ih =>
    cases i with
    | zero => simp [bval, g]; ring
    | succ i =>
      have := ih (i := i) (by simpa using h)
      simp only [List.set_cons_succ, bval, this]
      simp only [g, List.getD_cons_succ]
      ring

theorem bval_append (b : Int) (l m : List Int) : bval b (l ++ m) = bval b l + b ^ l.length * bval b m := by
  induction l with
  | nil => simp [bval]
  | cons a l ih => simp only [List.cons_append, bval, ih, List.length_cons]; ring

theorem bval_replicate_zero (b : Int) (n : Nat) : bval b (List.replicate n 0) = 0 := by
  induction n with
  | zero => rfl
  | succ n ih => simp [List.replicate_succ, bval, ih]

theorem g_replicate_zero (n k : Nat) : g (List.replicate n 0) k = 0 := by
  unfold g
  rw [List.getD_eq_getElem?_getD, List.getElem?_replicate]
  split <;> rfl

theorem bval_take (b : Int) (l : List Int) (n : Nat) (h : n < l.length) : bval b (l.take (n + 1)) = bval b (l.take n) + g l n * b ^ n := by
  rw [List.take_succ_eq_append_getElem h, bval_append, g_eq h]
  simp only [bval, mul_zero, add_zero, List.length_take]
  rw [Nat.min_eq_left (by omega), mul_comm]

theorem bval_nonneg (b : Int) (hb : 0 ≤ b) (l : List Int) (h : ∀ k < l.length, 0 ≤ g l k) : 0 ≤ bval b l := by
  induction l with
  | nil => simp [bval]
  | cons a l ih =>
    have h0 := h 0 (by simp)
    have := ih (fun k hk => by simpa [g] using h (k + 1) (by simpa using hk))
    simp [g] at h0
    simp only [bval]
    exact add_nonneg h0 (mul_nonneg hb this)

theorem bval_lt (b : Int) (hb : 0 ≤ b) (l : List Int) (h : ∀ k < l.length, g l k < b) : bval b l < b ^ l.length := by
  induction l with
  | nil => simp [bval]
  | cons a l ih =>
    have h0 := h 0 (by simp)
    have := ih (fun k hk => by simpa [g] using h (k + 1) (by simpa using hk))
    simp [g] at h0
    simp only [bval, List.length_cons, pow_succ]
    nlinarith

theorem ext_g {l m : List Int} (hl : l.length = m.length) (h : ∀ k < l.length, g l k = g m k) : l = m := by
  apply List.ext_getElem hl
  intro k h1 h2
  have := h k h1
  rwa [g_eq h1, g_eq h2] at this

theorem i64_ok {v : Int} (h1 : -2 ^ 63 ≤ v) (h2 : v < 2 ^ 63) : i64 v = .ok v := by
  unfold i64
  rw [if_pos ⟨h1, h2⟩]

theorem toI64_ok {v : Int} (h1 : -2 ^ 63 ≤ v) (h2 : v < 2 ^ 63) : toI64 v = v := by
  unfold toI64
  rw [BitVec.toInt_ofInt]
  norm_num at h1 h2
  rw [Int.bmod_def]
  norm_num
  omega

/-- A loop that fills sixteen limbs one by one. -/
theorem fill_ok {α : Type} (n : Nat) (z : α) (f : Nat → List α → C (List α)) (v : Nat → α)
    (hf : ∀ k s, k < n → s.length = n → f k s = .ok (s.set k (v k))) :
    loop f 0 n (List.replicate n z) = .ok ((List.range n).map v) := by
  obtain ⟨s, e, h⟩ := loop_inv (fun k s => s = (List.range k).map v ++ List.replicate (n - k) z) f 0 n (List.replicate n z) (by simp)
    (by
      intro k s _ hk hs
      have hl : s.length = n := by rw [hs]; simp; omega
      refine ⟨_, hf k s (by omega) hl, ?_⟩
      rw [hs]
      rw [List.set_append_right _ _ (by simp), show n - k = (n - (k + 1)) + 1 by omega]
      simp [List.range_succ, List.replicate_succ])
  rw [e, h]
  simp

theorem g_map (n : Nat) (v : Nat → Int) (k : Nat) (h : k < n) : g ((List.range n).map v) k = v k := by
  simp [g, h]

end Verif.Ed25519
