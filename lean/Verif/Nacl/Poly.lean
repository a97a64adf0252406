import Verif.Nacl.Stream
import Mathlib.Data.ZMod.Basic
import Mathlib.Algebra.BigOperators.Intervals

/-! Supporting lemmas: Poly1305. -/

namespace Verif.Nacl
open Verif Verif.Ed25519 Verif.Nacl.Spec
open Verif.Ed25519.Spec (leVal leBytes)
open Finset (sum_range_succ)

variable {w : Nat}

/-- Element k of an array of words, as a number. -/
def dg (l : List (BitVec w)) (k : Nat) : Nat := (l.getD k 0).toNat

/-- The first k bytes of f as a number. -/
def sm (f : Nat → Nat) (k : Nat) : Nat := ∑ i ∈ Finset.range k, f i * 256 ^ i

theorem sm_zero (f : Nat → Nat) : sm f 0 = 0 := rfl
theorem sm_succ (f : Nat → Nat) (k : Nat) : sm f (k + 1) = sm f k + f k * 256 ^ k := sum_range_succ _ _

theorem sm_congr {f g : Nat → Nat} {k : Nat} (h : ∀ i < k, f i = g i) : sm f k = sm g k :=
  Finset.sum_congr rfl fun i hi => by rw [h i (Finset.mem_range.mp hi)]

theorem sm_lt {f : Nat → Nat} {k : Nat} (h : ∀ i < k, f i < 256) : sm f k < 256 ^ k := by
  induction k with
  | zero => simp [sm_zero]
  | succ k ih =>
    rw [sm_succ, pow_succ]
    have h1 := ih (fun i hi => h i (by omega))
    have h2 := h k (by omega)
    have : f k * 256 ^ k ≤ 255 * 256 ^ k := Nat.mul_le_mul_right _ (by omega)
    omega

theorem rd_get {l : List (BitVec w)} {k : Nat} (h : k < l.length) : rd l k = .ok (l.getD k 0) := by
  rw [rd_ok h]; simp [h]

theorem dg_set {l : List (BitVec w)} {i : Nat} (h : i < l.length) (x : BitVec w) (k : Nat) : dg (l.set i x) k = if k = i then x.toNat else dg l k := by
  unfold dg
  rw [List.getD_eq_getElem?_getD, List.getElem?_set, List.getD_eq_getElem?_getD]
  by_cases h1 : i = k
  · subst h1; simp [h]
  · rw [if_neg h1, if_neg (by omega)]

theorem getD_el {α : Type} {l : List α} {i : Nat} {d : α} (h : i < l.length) : l.getD i d = l[i] := by simp [h]

theorem toNat_lit (hw : 32 ≤ w) (n : Nat) (hn : n < 2 ^ 32) : (BitVec.ofNat w n).toNat = n := by
  have h1 : (2 : Nat) ^ 32 ≤ 2 ^ w := Nat.pow_le_pow_right (by omega) hw
  rw [BitVec.toNat_ofNat]
  exact Nat.mod_eq_of_lt (by omega)

theorem toNat_and255 (hw : 32 ≤ w) (u : BitVec w) : (u &&& 255).toNat = u.toNat % 256 := by
  have h1 : (255 : BitVec w).toNat = 2 ^ 8 - 1 := toNat_lit hw 255 (by omega)
  rw [BitVec.toNat_and, h1, Nat.and_two_pow_sub_one_eq_mod]

theorem toNat_and3 (hw : 32 ≤ w) (u : BitVec w) : (u &&& 3).toNat = u.toNat % 4 := by
  have h1 : (3 : BitVec w).toNat = 2 ^ 2 - 1 := toNat_lit hw 3 (by omega)
  rw [BitVec.toNat_and, h1, Nat.and_two_pow_sub_one_eq_mod]

theorem toNat_shr (u : BitVec w) (k : Nat) : (u >>> k).toNat = u.toNat / 2 ^ k := by
  rw [BitVec.toNat_ushiftRight, Nat.shiftRight_eq_div_pow]

/-- Addition with carries. -/
theorem add1305_ok (hw : 32 ≤ w) {h c : List (BitVec w)} (lh : h.length = 17) (lc : c.length = 17) (bh : ∀ k < 17, dg h k < 2 ^ 20) (bc : ∀ k < 17, dg c k < 2 ^ 20) :
    ∃ o, add1305 w h c = .ok o ∧ o.length = 17 ∧ (∀ k < 17, dg o k < 256) ∧ sm (dg o) 17 = (sm (dg h) 17 + sm (dg c) 17) % 256 ^ 17 := by
  have h1 : (2 : Nat) ^ 32 ≤ 2 ^ w := Nat.pow_le_pow_right (by omega) hw
  unfold add1305
  obtain ⟨⟨o, u⟩, e, lo, bo, -, ho, hu⟩ := loop_inv (fun k (s : List (BitVec w) × BitVec w) => s.1.length = 17 ∧ (∀ i < k, dg s.1 i < 256) ∧ (∀ i, k ≤ i → dg s.1 i = dg h i) ∧
      sm (dg s.1) k + s.2.toNat * 256 ^ k = sm (dg h) k + sm (dg c) k ∧ s.2.toNat < 2 ^ 20)
    (fun j (s : List (BitVec w) × BitVec w) => do
      let a ← rd s.1 j
      let b ← rd c j
      let u := s.2 + (a + b)
      let h ← wr s.1 j (u &&& 255)
      .ok (h, u >>> 8)) 0 17 (h, 0) ⟨lh, by omega, fun _ _ => rfl, by simp [sm_zero], by simp⟩
    (by
      rintro k ⟨s, u⟩ - hk ⟨ls, bs, es, hs, hu⟩
      simp only [] at ls bs es hs hu ⊢
      have hk : k < 17 := by omega
      have b1 := bh k hk
      have b2 := bc k hk
      have e1 := es k (Nat.le_refl k)
      have ht : (u + (s.getD k 0 + c.getD k 0)).toNat = u.toNat + (dg h k + dg c k) := by
        rw [BitVec.toNat_add, BitVec.toNat_add]
        show (u.toNat + (dg s k + dg c k) % 2 ^ w) % 2 ^ w = _
        rw [e1, Nat.mod_eq_of_lt (a := dg h k + dg c k) (by omega), Nat.mod_eq_of_lt (by omega)]
      refine ⟨_, by rw [rd_get (by omega), ok_bind, rd_get (by omega), ok_bind, wr_ok (by omega), ok_bind], ?_, ?_, ?_, ?_, ?_⟩
      · simpa using ls
      · intro i hi
        simp only [dg_set (show k < s.length by omega), toNat_and255 hw]
        split
        · omega
        · exact bs i (by omega)
      · intro i hi
        simp only [dg_set (show k < s.length by omega)]
        rw [if_neg (by omega)]
        exact es i (by omega)
      · simp only []
        rw [sm_succ, sm_succ, sm_succ, sm_congr (g := dg s) (fun i hi => by rw [dg_set (by omega), if_neg (by omega)]), dg_set (by omega), if_pos rfl,
          toNat_and255 hw, toNat_shr, ht, pow_succ 256 k]
        have := Nat.div_add_mod (u.toNat + (dg h k + dg c k)) 256
        generalize 256 ^ k = B at hs ⊢
        have e2 : (u.toNat + (dg h k + dg c k)) % 256 * B + (u.toNat + (dg h k + dg c k)) / 2 ^ 8 * (B * 256) = (u.toNat + (dg h k + dg c k)) * B := by
          conv_rhs => rw [← this]
          rw [show (2 : Nat) ^ 8 = 256 from rfl]
          ring
        have e3 : (u.toNat + (dg h k + dg c k)) * B = u.toNat * B + dg h k * B + dg c k * B := by ring
        omega
      · simp only []
        rw [toNat_shr, ht]
        omega)
  refine ⟨o, by rw [e, ok_bind], lo, bo, ?_⟩
  simp only [] at ho
  rw [← ho, Nat.add_mul_mod_self_right, Nat.mod_eq_of_lt (sm_lt bo)]

/-- One pass of carries. -/
theorem polyCarry_ok (hw : 32 ≤ w) {h : List (BitVec w)} {u : BitVec w} (lh : h.length = 17) (bh : ∀ k < 16, dg h k < 2 ^ 30) (bu : u.toNat < 2 ^ 30) :
    ∃ o v, polyCarry w h u = .ok (o, v) ∧ o.length = 17 ∧ (∀ k < 16, dg o k < 256) ∧ dg o 16 = dg h 16 ∧
      sm (dg o) 16 + v.toNat * 256 ^ 16 = sm (dg h) 16 + u.toNat ∧ v.toNat < 2 ^ 30 := by
  have h1 : (2 : Nat) ^ 32 ≤ 2 ^ w := Nat.pow_le_pow_right (by omega) hw
  unfold polyCarry
  obtain ⟨⟨o, v⟩, e, lo, bo, eo, ho, hv⟩ := loop_inv (fun k (s : List (BitVec w) × BitVec w) => s.1.length = 17 ∧ (∀ i < k, dg s.1 i < 256) ∧ (∀ i, k ≤ i → dg s.1 i = dg h i) ∧
      sm (dg s.1) k + s.2.toNat * 256 ^ k = sm (dg h) k + u.toNat ∧ s.2.toNat < 2 ^ 30)
    (fun j (s : List (BitVec w) × BitVec w) => do
      let a ← rd s.1 j
      let u := s.2 + a
      let h ← wr s.1 j (u &&& 255)
      .ok (h, u >>> 8)) 0 16 (h, u) ⟨lh, by omega, fun _ _ => rfl, by simp [sm_zero], bu⟩
    (by
      rintro k ⟨s, v⟩ - hk ⟨ls, bs, es, hs, hv⟩
      simp only [] at ls bs es hs hv ⊢
      have hk : k < 16 := by omega
      have b1 := bh k hk
      have e1 := es k (Nat.le_refl k)
      have ht : (v + s.getD k 0).toNat = v.toNat + dg h k := by
        rw [BitVec.toNat_add]
        show (v.toNat + dg s k) % 2 ^ w = _
        rw [e1, Nat.mod_eq_of_lt (by omega)]
      refine ⟨_, by rw [rd_get (by omega), ok_bind, wr_ok (by omega), ok_bind], ?_, ?_, ?_, ?_, ?_⟩
      · simpa using ls
      · intro i hi
        simp only [dg_set (show k < s.length by omega), toNat_and255 hw]
        split
        · omega
        · exact bs i (by omega)
      · intro i hi
        simp only [dg_set (show k < s.length by omega)]
        rw [if_neg (by omega)]
        exact es i (by omega)
      · simp only []
        rw [sm_succ, sm_succ, sm_congr (g := dg s) (fun i hi => by rw [dg_set (by omega), if_neg (by omega)]), dg_set (by omega), if_pos rfl,
          toNat_and255 hw, toNat_shr, ht, pow_succ 256 k]
        have := Nat.div_add_mod (v.toNat + dg h k) 256
        generalize 256 ^ k = B at hs ⊢
        have e2 : (v.toNat + dg h k) % 256 * B + (v.toNat + dg h k) / 2 ^ 8 * (B * 256) = (v.toNat + dg h k) * B := by
          conv_rhs => rw [← this]
          rw [show (2 : Nat) ^ 8 = 256 from rfl]
          ring
        have e3 : (v.toNat + dg h k) * B = v.toNat * B + dg h k * B := by ring
        omega
      · simp only []
        rw [toNat_shr, ht]
        omega)
  exact ⟨o, v, e, lo, bo, eo 16 (by omega), ho, hv⟩

/-- The prime 2^130 - 5 is subtracted often enough. -/
theorem polySqueeze_ok (hw : 32 ≤ w) {h : List (BitVec w)} (lh : h.length = 17) (bh : ∀ k < 17, dg h k < 2 ^ 29) :
    ∃ o, polySqueeze w h = .ok o ∧ o.length = 17 ∧ (∀ k < 16, dg o k < 256) ∧ dg o 16 ≤ 4 ∧ sm (dg o) 17 % P1305 = sm (dg h) 17 % P1305 := by
  have h1 : (2 : Nat) ^ 32 ≤ 2 ^ w := Nat.pow_le_pow_right (by omega) hw
  unfold polySqueeze
  have b16 := bh 16 (by omega)
  obtain ⟨o, v, e, lo, bo, eo, ho, -⟩ := polyCarry_ok hw (u := 0) lh (fun k hk => by have := bh k (by omega); omega) (by simp)
  have s1 : sm (dg h) 16 < 2 ^ 150 := by
    have : sm (dg h) 16 ≤ sm (fun _ => 2 ^ 29) 16 := Finset.sum_le_sum fun i hi => Nat.mul_le_mul_right _ (by
      have := bh i (by have := Finset.mem_range.mp hi; omega); exact Nat.le_of_lt this)
    refine lt_of_le_of_lt this ?_
    decide +kernel
  have z0 : (0 : BitVec w).toNat = 0 := by simp
  rw [z0] at ho
  have hv : v.toNat < 2 ^ 22 := by
    by_contra hc
    have : 2 ^ 22 * 256 ^ 16 ≤ v.toNat * 256 ^ 16 := Nat.mul_le_mul_right _ (by omega)
    have : (2 : Nat) ^ 22 * 256 ^ 16 = 2 ^ 150 := by norm_num
    omega
  have hu : (v + o.getD 16 0).toNat = v.toNat + dg h 16 := by
    rw [BitVec.toNat_add]
    show (v.toNat + dg o 16) % 2 ^ w = _
    rw [eo, Nat.mod_eq_of_lt (by omega)]
  have hu5 : (BitVec.ofNat w 5 * ((v + o.getD 16 0) >>> 2)).toNat = 5 * ((v.toNat + dg h 16) / 4) := by
    rw [BitVec.toNat_mul, toNat_shr, hu, toNat_lit hw 5 (by omega), show (2 : Nat) ^ 2 = 4 from rfl, Nat.mod_eq_of_lt (by omega)]
  obtain ⟨q, v2, e2, lq, bq, eq, hq, -⟩ := polyCarry_ok hw (h := o.set 16 ((v + o.getD 16 0) &&& 3)) (u := BitVec.ofNat w 5 * ((v + o.getD 16 0) >>> 2)) (by simpa using lo)
    (fun k hk => by rw [dg_set (by omega), if_neg (by omega)]; have := bo k hk; omega) (by rw [hu5]; omega)
  rw [dg_set (by omega), if_pos rfl, toNat_and3 hw, hu] at eq
  rw [hu5, sm_congr (f := dg (o.set 16 ((v + o.getD 16 0) &&& 3))) (g := dg o) (fun i hi => by rw [dg_set (by omega), if_neg (by omega)])] at hq
  have s2 := sm_lt bo
  have s3 := sm_lt bq
  have hv2 : v2.toNat ≤ 1 := by
    by_contra hc
    have : 2 * 256 ^ 16 ≤ v2.toNat * 256 ^ 16 := Nat.mul_le_mul_right _ (by omega)
    have : 5 * ((v.toNat + dg h 16) / 4) < 256 ^ 16 := by
      have : (2 : Nat) ^ 40 ≤ 256 ^ 16 := by norm_num
      omega
    omega
  have hq16 : (v2 + q.getD 16 0).toNat = v2.toNat + (v.toNat + dg h 16) % 4 := by
    rw [BitVec.toNat_add]
    show (v2.toNat + dg q 16) % 2 ^ w = _
    rw [eq, Nat.mod_eq_of_lt (by omega)]
  refine ⟨q.set 16 (v2 + q.getD 16 0), ?_, by simpa using lq, ?_, ?_, ?_⟩
  · rw [e, ok_bind]
    dsimp only
    rw [rd_get (by omega), ok_bind, wr_ok (by omega), ok_bind]
    have e2' : polyCarry w (o.set 16 (v + o.getD 16 0 &&& 3)) ((5 : BitVec w) * (v + o.getD 16 0) >>> 2) = .ok (q, v2) := e2
    rw [e2', ok_bind]
    dsimp only
    rw [rd_get (by omega), ok_bind, wr_ok (by omega)]
  · intro k hk
    rw [dg_set (by omega), if_neg (by omega)]
    exact bq k hk
  · rw [dg_set (by omega), if_pos rfl, hq16]
    omega
  · rw [sm_succ _ 16, sm_succ _ 16, sm_congr (g := dg q) (fun i hi => by rw [dg_set (by omega), if_neg (by omega)]), dg_set (by omega), if_pos rfl, hq16]
    have hP : (256 : Nat) ^ 16 * 4 = P1305 + 5 := by norm_num [P1305]
    have hm := Nat.div_add_mod (v.toNat + dg h 16) 4
    generalize (v.toNat + dg h 16) / 4 = t at *
    generalize (v.toNat + dg h 16) % 4 = r at *
    have e3 : sm (dg h) 16 + dg h 16 * 256 ^ 16 = (sm (dg q) 16 + (v2.toNat + r) * 256 ^ 16) + P1305 * t := by
      have : (v.toNat + dg h 16) * 256 ^ 16 = (4 * t + r) * 256 ^ 16 := by rw [hm]
      have : (4 * t + r) * 256 ^ 16 = (256 ^ 16 * 4) * t + r * 256 ^ 16 := by ring
      rw [hP] at this
      have : (P1305 + 5) * t = P1305 * t + 5 * t := by ring
      have : (v.toNat + dg h 16) * 256 ^ 16 = v.toNat * 256 ^ 16 + dg h 16 * 256 ^ 16 := by ring
      have : (v2.toNat + r) * 256 ^ 16 = v2.toNat * 256 ^ 16 + r * 256 ^ 16 := by ring
      omega
    rw [e3, Nat.add_mul_mod_self_left]

/-! ### The product -/

theorem cyc_sum {R : Type} [CommSemiring R] (b c : R) (n j : Nat) (hj : j ≤ n) (hb : b ^ n = c) (r : Nat → R) :
    ∑ i ∈ Finset.range n, (if j ≤ i then r (i - j) else c * r (i + n - j)) * b ^ i = b ^ j * ∑ k ∈ Finset.range n, r k * b ^ k := by
  obtain ⟨d, rfl⟩ := Nat.exists_eq_add_of_le hj
  rw [Finset.sum_range_add, Nat.add_comm j d, Finset.sum_range_add, mul_add, Finset.mul_sum, Finset.mul_sum, add_comm]
  congr 1
  · apply Finset.sum_congr rfl
    intro i _
    rw [if_pos (by omega), Nat.add_sub_cancel_left, pow_add]
    ring
  · apply Finset.sum_congr rfl
    intro i hi
    have := Finset.mem_range.mp hi
    rw [if_neg (by omega), show i + (d + j) - j = d + i by omega, ← hb, pow_add, pow_add]
    ring

/-- The entry i of the product, cyclically reduced. -/
def ent (h r : Nat → Nat) (i k : Nat) : Nat := ∑ j ∈ Finset.range k, h j * (if j ≤ i then r (i - j) else 320 * r (i + 17 - j))

theorem ent_succ (h r : Nat → Nat) (i k : Nat) : ent h r i (k + 1) = ent h r i k + h k * (if k ≤ i then r (i - k) else 320 * r (i + 17 - k)) := sum_range_succ _ _

theorem ent_le {h r : Nat → Nat} {i : Nat} (hi : i < 17) (bh : ∀ k < 17, h k < 256) (br : ∀ k < 17, r k < 256) {k : Nat} (hk : k ≤ 17) : ent h r i k ≤ k * 20808000 := by
  induction k with
  | zero => simp [ent]
  | succ k ih =>
    rw [ent_succ]
    have h1 := ih (by omega)
    have h2 := bh k (by omega)
    have h3 : (if k ≤ i then r (i - k) else 320 * r (i + 17 - k)) ≤ 81600 := by
      split
      · have := br (i - k) (by omega); omega
      · have := br (i + 17 - k) (by omega); omega
    have := Nat.mul_le_mul (show h k ≤ 255 by omega) h3
    omega

theorem pow17 : ((256 : ZMod P1305)) ^ 17 = 320 := by
  have h : ((256 ^ 17 : Nat) : ZMod P1305) = ((320 : Nat) : ZMod P1305) := by
    rw [ZMod.natCast_eq_natCast_iff]
    decide +kernel
  push_cast at h
  exact h

theorem sm_ent (h r : Nat → Nat) : sm (fun i => ent h r i 17) 17 % P1305 = (sm h 17 * sm r 17) % P1305 := by
  rw [← Nat.ModEq, ← ZMod.natCast_eq_natCast_iff]
  unfold sm ent
  push_cast
  simp only [Finset.sum_mul]
  rw [Finset.sum_comm]
  apply Finset.sum_congr rfl
  intro j hj
  have hj := Finset.mem_range.mp hj
  rw [mul_assoc, ← cyc_sum (256 : ZMod P1305) 320 17 j (by omega) pow17 (fun k => (r k : ZMod P1305)), Finset.mul_sum]
  apply Finset.sum_congr rfl
  intro i _
  split <;> ring

theorem polyMul_ok (hw : 32 ≤ w) {h r : List (BitVec w)} (lh : h.length = 17) (lr : r.length = 17) (bh : ∀ k < 17, dg h k < 256) (br : ∀ k < 17, dg r k < 256) :
    ∃ x, polyMul w h r = .ok x ∧ x.length = 17 ∧ (∀ k < 17, dg x k < 2 ^ 29) ∧ sm (dg x) 17 % P1305 = (sm (dg h) 17 * sm (dg r) 17) % P1305 := by
  have h1 : (2 : Nat) ^ 32 ≤ 2 ^ w := Nat.pow_le_pow_right (by omega) hw
  have hE : ∀ i < 17, ∀ k ≤ 17, ent (dg h) (dg r) i k ≤ 353736000 := fun i hi k hk => by
    have := ent_le hi bh br hk
    omega
  unfold polyMul
  obtain ⟨x, e, lx, ex⟩ := loop_inv (fun k (x : List (BitVec w)) => x.length = 17 ∧ ∀ i < k, dg x i = ent (dg h) (dg r) i 17)
    (fun i (x : List (BitVec w)) => do
      let x ← wr x i 0
      loop (fun j x => do
        let a ← rd x i
        let hj ← rd h j
        let f ← (if j ≤ i then rd r (i - j) else do
          let b ← rd r (i + 17 - j)
          .ok (320 * b) : C (BitVec w))
        wr x i (a + hj * f)) 0 17 x) 0 17 (List.replicate 17 0) ⟨by simp, by omega⟩
    (by
      rintro i s - hi ⟨ls, es⟩
      have hi : i < 17 := by omega
      obtain ⟨x, e, lx, ex, gx⟩ := loop_inv (fun k (x : List (BitVec w)) => x.length = 17 ∧ dg x i = ent (dg h) (dg r) i k ∧ ∀ t < i, dg x t = dg s t)
        (fun j (x : List (BitVec w)) => do
          let a ← rd x i
          let hj ← rd h j
          let f ← (if j ≤ i then rd r (i - j) else do
            let b ← rd r (i + 17 - j)
            .ok (320 * b) : C (BitVec w))
          wr x i (a + hj * f)) 0 17 (s.set i 0) ⟨by simpa using ls, by rw [dg_set (by omega), if_pos rfl]; simp [ent], fun t ht => by rw [dg_set (by omega), if_neg (by omega)]⟩
        (by
          rintro j x - hj ⟨lx, ex, gx⟩
          have hj : j < 17 := by omega
          have hb := hE i hi (j + 1) (by omega)
          rw [ent_succ] at hb
          obtain ⟨f, ef, hf⟩ : ∃ f : BitVec w, (if j ≤ i then rd r (i - j) else do
            let b ← rd r (i + 17 - j)
            .ok (320 * b) : C (BitVec w)) = .ok f ∧ f.toNat = if j ≤ i then dg r (i - j) else 320 * dg r (i + 17 - j) := by
            split
            · exact ⟨_, rd_get (by omega), rfl⟩
            · refine ⟨_, by rw [rd_get (by omega), ok_bind], ?_⟩
              have := br (i + 17 - j) (by omega)
              rw [BitVec.toNat_mul, show (320 : BitVec w).toNat = 320 from toNat_lit hw 320 (by omega)]
              exact Nat.mod_eq_of_lt (by show 320 * dg r (i + 17 - j) < _; omega)
          rw [rd_get (by omega), ok_bind, rd_get (by omega), ok_bind, ef, ok_bind, wr_ok (by omega)]
          refine ⟨_, rfl, by simpa using lx, ?_, ?_⟩
          · rw [dg_set (by omega), if_pos rfl, ent_succ, BitVec.toNat_add, BitVec.toNat_mul, ← hf]
            rw [← hf] at hb
            show (dg x i + dg h j * f.toNat % 2 ^ w) % 2 ^ w = _
            rw [ex, Nat.mod_eq_of_lt (a := dg h j * f.toNat) (by omega), Nat.mod_eq_of_lt (by omega)]
          · intro t ht
            rw [dg_set (by omega), if_neg (by omega)]
            exact gx t ht)
      refine ⟨x, by rw [wr_ok (by omega), ok_bind, e], lx, ?_⟩
      intro t ht
      by_cases h2 : t = i
      · rw [h2]; exact ex
      · rw [gx t (by omega)]; exact es t (by omega))
  refine ⟨x, e, lx, ?_, ?_⟩
  · intro k hk
    rw [ex k (by omega)]
    have := hE k hk 17 (by omega)
    omega
  · rw [sm_congr (fun i hi => ex i (by omega)), sm_ent]

/-! ### The final subtraction -/

theorem sm_minusp (hw : 32 ≤ w) : sm (dg (minusp w)) 17 = 256 ^ 17 - P1305 ∧ ∀ k < 17, dg (minusp w) k < 256 := by
  have h1 : ∀ k < 17, dg (minusp w) k = [5, 0, 0, 0, 0, 0, 0, 0, 0, 0, 0, 0, 0, 0, 0, 0, 252].getD k 0 := by
    intro k hk
    have a5 : (5 : BitVec w).toNat = 5 := toNat_lit hw 5 (by omega)
    have a252 : (252 : BitVec w).toNat = 252 := toNat_lit hw 252 (by omega)
    have a0 : (0 : BitVec w).toNat = 0 := by simp
    unfold dg minusp
    interval_cases k <;> first | exact a5 | exact a252 | exact a0
  constructor
  · rw [sm_congr h1]
    decide +kernel
  · intro k hk
    rw [h1 k hk]
    revert k
    decide

theorem dg_ext {a b : List (BitVec w)} (la : a.length = 17) (lb : b.length = 17) (h : ∀ k < 17, dg a k = dg b k) : a = b := by
  apply List.ext_getElem (by omega)
  intro i h1 h2
  have := h i (by omega)
  unfold dg at this
  rw [getD_el h1, getD_el h2] at this
  exact BitVec.eq_of_toNat_eq this

theorem sel_word (hw : 32 ≤ w) (t a b : BitVec w) (ht : t.toNat = 0 ∨ t.toNat = 1) : a ^^^ (-t &&& (b ^^^ a)) = if t.toNat = 0 then a else b := by
  rcases ht with ht | ht
  · have : t = 0 := BitVec.eq_of_toNat_eq (by simpa using ht)
    subst this
    simp
  · have : t = 1 := BitVec.eq_of_toNat_eq (by rw [ht]; exact (toNat_lit hw 1 (by omega)).symm)
    subst this
    rw [if_neg (by omega), show -(1 : BitVec w) = BitVec.allOnes w from BitVec.neg_one_eq_allOnes, BitVec.allOnes_and, ← BitVec.xor_assoc, BitVec.xor_comm a b, BitVec.xor_assoc, BitVec.xor_self, BitVec.xor_zero]

theorem polyFreeze_ok (hw : 32 ≤ w) {h : List (BitVec w)} (lh : h.length = 17) (bh : ∀ k < 16, dg h k < 256) (b16 : dg h 16 ≤ 4) :
    ∃ o, polyFreeze w h = .ok o ∧ o.length = 17 ∧ (∀ k < 17, dg o k < 256) ∧ sm (dg o) 17 = sm (dg h) 17 % P1305 := by
  have bh' : ∀ k < 17, dg h k < 256 := fun k hk => by
    by_cases h2 : k = 16
    · rw [h2]; omega
    · exact bh k (by omega)
  obtain ⟨m1, m2⟩ := sm_minusp hw
  obtain ⟨q, e, lq, bq, hq⟩ := add1305_ok hw lh (c := minusp w) (by simp [minusp]) (fun k hk => by have := bh' k hk; omega) (fun k hk => by have := m2 k hk; omega)
  rw [m1] at hq
  have hs : sm (dg h) 17 = sm (dg h) 16 + dg h 16 * 256 ^ 16 := sm_succ _ 16
  have hs' : sm (dg q) 17 = sm (dg q) 16 + dg q 16 * 256 ^ 16 := sm_succ _ 16
  have sl := sm_lt bh
  have sl' := sm_lt (k := 16) (fun i hi => bq i (by omega))
  have b16q := bq 16 (by omega)
  have hP : P1305 = 4 * 256 ^ 16 - 5 := by norm_num [P1305]
  have hB : (256 : Nat) ^ 17 = 256 * 256 ^ 16 := by norm_num
  have hB6 : (256 : Nat) ^ 16 > 5 := by norm_num
  have hm : dg h 16 * 256 ^ 16 ≤ 4 * 256 ^ 16 := Nat.mul_le_mul_right _ b16
  rw [hB] at hq
  have key : (dg q 16 / 128 = 0 ∧ sm (dg h) 17 % P1305 = sm (dg q) 17) ∨ (dg q 16 / 128 = 1 ∧ sm (dg h) 17 % P1305 = sm (dg h) 17) := by
    generalize sm (dg h) 17 = H at *
    generalize sm (dg q) 17 = Q at *
    generalize (256 : Nat) ^ 16 = B at *
    by_cases hc : P1305 ≤ H
    · left
      have e1 : Q = H - P1305 := by
        rw [hq, show H + (256 * B - P1305) = (H - P1305) + 256 * B by omega, Nat.add_mod_right, Nat.mod_eq_of_lt (by omega)]
      constructor
      · have : dg q 16 < 2 := by
          by_contra hd
          have := Nat.mul_le_mul_right B (show 2 ≤ dg q 16 by omega)
          omega
        omega
      · rw [e1, Nat.mod_eq_sub_mod hc, Nat.mod_eq_of_lt (by omega)]
    · right
      have e1 : Q = H + (256 * B - P1305) := by
        rw [hq, Nat.mod_eq_of_lt (by omega)]
      constructor
      · have : 252 ≤ dg q 16 := by
          by_contra hd
          have := Nat.mul_le_mul_right B (show dg q 16 ≤ 251 by omega)
          omega
        omega
      · exact Nat.mod_eq_of_lt (by omega)
  unfold polyFreeze
  have ht : (q.getD 16 0 >>> 7).toNat = dg q 16 / 128 := toNat_shr _ _
  have ht2 : (q.getD 16 0 >>> 7).toNat = 0 ∨ (q.getD 16 0 >>> 7).toNat = 1 := by omega
  obtain ⟨pick, hp⟩ : ∃ f : Nat → Nat, ∀ i, f i = if dg q 16 / 128 = 0 then dg q i else dg h i := ⟨_, fun _ => rfl⟩
  obtain ⟨o, eo, lo, ho⟩ := loop_inv (fun k (s : List (BitVec w)) => s.length = 17 ∧ ∀ i, dg s i = if i < k then pick i else dg q i)
    (fun j s => do
      let a ← rd s j
      let b ← rd h j
      wr s j (a ^^^ (-(q.getD 16 0 >>> 7) &&& (b ^^^ a)))) 0 17 q ⟨lq, fun i => by simp⟩
    (by
      rintro k s - hk ⟨ls, es⟩
      refine ⟨_, by rw [rd_get (by omega), ok_bind, rd_get (by omega), ok_bind, sel_word hw _ _ _ ht2, wr_ok (by omega)], by simpa using ls, ?_⟩
      intro i
      rw [dg_set (by omega)]
      have e1 := es i
      by_cases h2 : i = k
      · subst h2
        rw [if_neg (by omega)] at e1
        rw [if_pos rfl, if_pos (Nat.lt_succ_self i), hp, ht]
        split
        · exact e1
        · rfl
      · rw [if_neg h2, e1]
        by_cases h3 : i < k
        · rw [if_pos h3, if_pos (by omega)]
        · rw [if_neg h3, if_neg (by omega)])
  refine ⟨o, by rw [e, ok_bind, rd_get (by omega), ok_bind]; exact eo, lo, ?_, ?_⟩
  · intro k hk
    rw [ho k, if_pos (by omega), hp]
    split
    · exact bq k hk
    · exact bh' k hk
  · rcases key with ⟨k1, k2⟩ | ⟨k1, k2⟩
    · rw [k2]
      exact sm_congr fun i hi => by rw [ho i, if_pos (by omega), hp, if_pos k1]
    · rw [k2]
      exact sm_congr fun i hi => by rw [ho i, if_pos (by omega), hp, if_neg (by omega)]

/-! ### Loading bytes -/

theorem load_ok (hw : 32 ≤ w) {m : Bytes} {o n : Nat} (hn : n ≤ 16) (hm : o + n ≤ m.length) :
    ∃ c : List (BitVec w), loop (fun j c => do
        let a ← rd m (o + j)
        wr c j (a.setWidth w)) 0 n (List.replicate 17 0) = .ok c ∧ c.length = 17 ∧ ∀ i, dg c i = if i < n then (m.getD (o + i) 0).toNat else 0 := by
  obtain ⟨c, e, lc, hc⟩ := loop_inv (fun k (c : List (BitVec w)) => c.length = 17 ∧ ∀ i, dg c i = if i < k then (m.getD (o + i) 0).toNat else 0)
    (fun j c => do
        let a ← rd m (o + j)
        wr c j (a.setWidth w)) 0 n (List.replicate 17 0) ⟨by simp, fun i => by
          rw [if_neg (by omega)]
          unfold dg
          rw [List.getD_eq_getElem?_getD, List.getElem?_replicate]
          split <;> simp⟩
    (by
      rintro k c - hk ⟨lc, hc⟩
      have hk' : o + k < m.length := by omega
      refine ⟨_, by rw [rd_ok hk', ok_bind, wr_ok (by omega)], by simpa using lc, ?_⟩
      intro i
      rw [dg_set (by omega), hc i]
      by_cases h2 : i = k
      · subst h2
        rw [if_pos rfl, if_pos (by omega), BitVec.toNat_setWidth, getD_el hk']
        have h1 : (2 : Nat) ^ 32 ≤ 2 ^ w := Nat.pow_le_pow_right (by omega) hw
        have := (m[o + i]).isLt
        exact Nat.mod_eq_of_lt (by omega)
      · rw [if_neg h2]
        by_cases h3 : i < k
        · rw [if_pos h3, if_pos (by omega)]
        · rw [if_neg h3, if_neg (by omega)])
  exact ⟨c, e, lc, by simpa using hc⟩

theorem leVal_sm (l : Bytes) : leVal l = sm (fun i => (l.getD i 0).toNat) l.length := by
  induction l with
  | nil => rfl
  | cons a l ih =>
    unfold sm
    rw [List.length_cons, Finset.sum_range_succ']
    show a.toNat + 256 * leVal l = _
    rw [ih]
    unfold sm
    rw [Finset.mul_sum, Nat.add_comm]
    congr 1
    · apply Finset.sum_congr rfl
      intro i _
      rw [pow_succ]
      simp only [List.getD_cons_succ]
      ring
    · simp

theorem sm_cut {f : Nat → Nat} {n k : Nat} (hk : n ≤ k) (h : ∀ i, n ≤ i → i < k → f i = 0) : sm f k = sm f n := by
  induction k with
  | zero => rw [show n = 0 by omega]
  | succ k ih =>
    by_cases h2 : n = k + 1
    · rw [h2]
    · rw [sm_succ, h k (by omega) (by omega), Nat.zero_mul, Nat.add_zero, ih (by omega) (fun i h3 h4 => h i h3 (by omega))]

theorem sm_slice {m : Bytes} {o n : Nat} (hm : o + n ≤ m.length) : sm (fun i => (m.getD (o + i) 0).toNat) n = leVal (slice m o n) := by
  rw [leVal_sm, length_slice hm]
  apply sm_congr
  intro i hi
  unfold slice
  rw [List.getD_eq_getElem?_getD, List.getD_eq_getElem?_getD, List.getElem?_take, if_pos hi, List.getElem?_drop]

theorem polyBlock_ok (hw : 32 ≤ w) {m : Bytes} {o n : Nat} (hm : o + min 16 n ≤ m.length) :
    ∃ c, polyBlock w m o n = .ok c ∧ c.length = 17 ∧ (∀ k < 17, dg c k < 256) ∧ sm (dg c) 17 = leVal (slice m o (min 16 n)) + 256 ^ (min 16 n) := by
  unfold polyBlock
  dsimp only
  obtain ⟨c, e, lc, hc⟩ := load_ok (w := w) hw (Nat.min_le_left 16 n) hm
  have hle := Nat.min_le_left 16 n
  generalize min 16 n = q at *
  have one : (1 : BitVec w).toNat = 1 := toNat_lit hw 1 (by omega)
  have hd : ∀ i, dg (c.set q 1) i = if i = q then 1 else if i < q then (m.getD (o + i) 0).toNat else 0 := by
    intro i
    rw [dg_set (by omega), hc i, one]
  refine ⟨c.set q 1, by rw [e, ok_bind, wr_ok (by omega)], by simpa using lc, ?_, ?_⟩
  · intro k hk
    rw [hd]
    have := (m.getD (o + k) 0).isLt
    split
    · omega
    · split <;> omega
  · rw [sm_cut (n := q + 1) (by omega) (fun i h2 h3 => by rw [hd, if_neg (by omega), if_neg (by omega)]), sm_succ, hd q, if_pos rfl, Nat.one_mul, ← sm_slice hm]
    congr 1
    exact sm_congr fun i hi => by rw [hd, if_neg (by omega), if_pos hi]

end Verif.Nacl
