import Verif.Nacl.Poly

/-! Supporting lemmas: the whole of Poly1305, and secretbox. -/

namespace Verif.Nacl
open Verif Verif.Ed25519 Verif.Nacl.Spec
open Verif.Ed25519.Spec (leVal leBytes)
open Finset (sum_range_succ)

variable {w : Nat}

/-! ### The multiplier -/

theorem and_step (a b x y : Nat) (ha : a < 256) (hb : b < 256) : (a + 256 * x) &&& (b + 256 * y) = (a &&& b) + 256 * (x &&& y) := by
  have h1 : ((a + 256 * x) &&& (b + 256 * y)) / 2 ^ 8 = x &&& y := by
    rw [Nat.and_div_two_pow]
    congr 1 <;> omega
  have h2 : ((a + 256 * x) &&& (b + 256 * y)) % 2 ^ 8 = a &&& b := by
    rw [Nat.and_mod_two_pow]
    congr 1 <;> omega
  omega

theorem leVal_and {a b : Bytes} (h : a.length = b.length) : leVal (List.zipWith (· &&& ·) a b) = leVal a &&& leVal b := by
  induction a generalizing b with
  | nil => cases b <;> simp [leVal]
  | cons x a ih =>
    cases b with
    | nil => simp at h
    | cons y b =>
      show (x &&& y).toNat + 256 * leVal (List.zipWith (· &&& ·) a b) = (x.toNat + 256 * leVal a) &&& (y.toNat + 256 * leVal b)
      rw [ih (by simpa using h), and_step _ _ _ _ x.isLt y.isLt, BitVec.toNat_and]

/-- The bits of r that are kept. -/
def clampMask : Bytes := [255, 255, 255, 15, 252, 255, 255, 15, 252, 255, 255, 15, 252, 255, 255, 15]

theorem sub_load {k : Bytes} (hk : 16 ≤ k.length) : ∀ i < 16, ((List.zipWith (· &&& ·) (k.take 16) clampMask).getD i 0).toNat = (k.getD i 0).toNat &&& (clampMask.getD i 0).toNat := by
  intro i hi
  have l1 : i < (List.zipWith (· &&& ·) (k.take 16) clampMask).length := by simp [clampMask]; omega
  rw [getD_el l1, List.getElem_zipWith, BitVec.toNat_and, List.getElem_take, getD_el (by omega), getD_el (by simp [clampMask]; omega)]

theorem polyR_ok (hw : 32 ≤ w) {k : Bytes} (hk : 16 ≤ k.length) :
    ∃ r, polyR w k = .ok r ∧ r.length = 17 ∧ (∀ i < 17, dg r i < 256) ∧ sm (dg r) 17 = clampR k := by
  obtain ⟨c, e, lc, hc⟩ := load_ok (w := w) (m := k) (o := 0) (n := 16) hw (by omega) (by omega)
  simp only [Nat.zero_add] at e hc
  have a15 : (15 : BitVec w).toNat = 15 := toNat_lit hw 15 (by omega)
  have a252 : (252 : BitVec w).toNat = 252 := toNat_lit hw 252 (by omega)
  have hb : ∀ i, (k.getD i 0).toNat < 256 := fun i => (k.getD i 0).isLt
  unfold polyR
  rw [e, ok_bind]
  dsimp only
  obtain ⟨r, er⟩ : ∃ r, r = (((((((c.set 3 (c.getD 3 0 &&& 15)).set 4 (c.getD 4 0 &&& 252)).set 7 (c.getD 7 0 &&& 15)).set 8 (c.getD 8 0 &&& 252)).set 11 (c.getD 11 0 &&& 15)).set 12 (c.getD 12 0 &&& 252)).set 15 (c.getD 15 0 &&& 15)) := ⟨_, rfl⟩
  have lr : r.length = 17 := by rw [er]; simpa using lc
  have hr : ∀ i < 17, dg r i = if i < 16 then (k.getD i 0).toNat &&& (clampMask.getD i 0).toNat else 0 := by
    intro i hi
    rw [er]
    have h255 : ∀ x < 256, x &&& 255 = x := fun x hx => by rw [show 255 = 2 ^ 8 - 1 from rfl, Nat.and_two_pow_sub_one_eq_mod]; omega
    have hd : ∀ j, (c.getD j 0).toNat = if j < 16 then (k.getD j 0).toNat else 0 := hc
    have hx := h255 _ (hb i)
    interval_cases i <;> simp only [dg_set, List.length_set, lc, BitVec.toNat_and, a15, a252, hd, hc, Nat.reduceLT, if_true, if_false, Nat.reduceEqDiff, clampMask] <;>
      first | rfl | exact hx.symm
  refine ⟨r, ?_, lr, ?_, ?_⟩
  · have hg : ∀ {l : List (BitVec w)} {i j : Nat} {x : BitVec w}, i ≠ j → (l.set i x).getD j 0 = l.getD j 0 := by
      intro l i j x h
      rw [List.getD_eq_getElem?_getD, List.getElem?_set_ne h, List.getD_eq_getElem?_getD]
    have st : ∀ {l : List (BitVec w)} {i : Nat} (m : BitVec w), i < l.length → (do let a ← rd l i; wr l i (a &&& m) : C (List (BitVec w))) = .ok (l.set i (l.getD i 0 &&& m)) := by
      intro l i m h
      rw [rd_get h, ok_bind, wr_ok h]
    rw [st _ (by omega), ok_bind, st _ (by simp; omega), ok_bind, st _ (by simp; omega), ok_bind, st _ (by simp; omega), ok_bind, st _ (by simp; omega), ok_bind, st _ (by simp; omega), ok_bind, st _ (by simp; omega), er]
    simp only [hg, ne_eq, Nat.reduceEqDiff, not_false_eq_true]
  · intro i hi
    rw [hr i hi]
    split
    · exact lt_of_le_of_lt Nat.and_le_left (hb i)
    · omega
  · unfold clampR
    rw [show (0x0ffffffc0ffffffc0ffffffc0fffffff : Nat) = leVal clampMask by decide +kernel, ← leVal_and (by simp [clampMask]; omega), leVal_sm]
    rw [show (List.zipWith (· &&& ·) (k.take 16) clampMask).length = 16 by simp [clampMask]; omega]
    rw [sm_succ, hr 16 (by omega), if_neg (by omega), Nat.zero_mul, Nat.add_zero]
    apply sm_congr
    intro i hi
    rw [hr i (by omega), if_pos hi, sub_load hk i hi]

/-! ### The loop over the blocks -/

/-- The sum over the first i chunks. -/
def part (m : Bytes) (r i : Nat) : Nat := ((List.range i).map fun t => chunk m t * r ^ (i - t)).sum

theorem part_succ (m : Bytes) (r i : Nat) : part m r (i + 1) = (part m r i + chunk m i) * r := by
  unfold part
  rw [List.range_succ, List.map_append, List.sum_append]
  simp only [List.map_cons, List.map_nil, List.sum_cons, List.sum_nil, Nat.add_zero]
  rw [Nat.add_sub_cancel_left, pow_one, Nat.add_mul]
  congr 1
  rw [← List.sum_map_mul_right]
  congr 1
  apply List.map_congr_left
  intro t ht
  have := List.mem_range.mp ht
  rw [show i + 1 - t = (i - t) + 1 by omega, pow_succ, Nat.mul_assoc]

theorem chunk_slice {m : Bytes} {mo n i : Nat} (hm : mo + n ≤ m.length) (hi : 16 * i < n) :
    chunk (slice m mo n) i = leVal (slice m (mo + 16 * i) (min 16 (n - 16 * i))) + 256 ^ (min 16 (n - 16 * i)) := by
  have e : ((slice m mo n).drop (16 * i)).take 16 = slice m (mo + 16 * i) (min 16 (n - 16 * i)) := by
    unfold slice
    rw [List.drop_take, List.take_take, List.drop_drop]
  unfold chunk
  dsimp only
  rw [e, length_slice (by omega)]

theorem polyLoop_ok (hw : 32 ≤ w) {m : Bytes} {mo n : Nat} (hm : mo + n ≤ m.length) {r : List (BitVec w)} (lr : r.length = 17) (br : ∀ k < 17, dg r k < 256) :
    ∃ o, polyLoop w m mo n r (List.replicate 17 0) = .ok o ∧ o.length = 17 ∧ (∀ k < 16, dg o k < 256) ∧ dg o 16 ≤ 4 ∧
      sm (dg o) 17 % P1305 = polySum (slice m mo n) (sm (dg r) 17) % P1305 := by
  unfold polyLoop
  have z : ∀ i, dg (List.replicate 17 (0 : BitVec w)) i = 0 := by
    intro i
    unfold dg
    rw [List.getD_eq_getElem?_getD, List.getElem?_replicate]
    split <;> simp
  obtain ⟨o, e, lo, bo, b16, ho⟩ := loop_inv (fun k (h : List (BitVec w)) => h.length = 17 ∧ (∀ k < 16, dg h k < 256) ∧ dg h 16 ≤ 4 ∧
      sm (dg h) 17 % P1305 = part (slice m mo n) (sm (dg r) 17) k % P1305)
    (fun i h => do
      let c ← polyBlock w m (mo + 16 * i) (n - 16 * i)
      let h ← add1305 w h c
      let x ← polyMul w h r
      polySqueeze w x) 0 ((n + 15) / 16) (List.replicate 17 0)
    ⟨by simp, fun k _ => by rw [z]; omega, by rw [z]; omega, by rw [sm_congr (g := fun _ => 0) (fun i _ => z i)]; simp [sm, part]⟩
    (by
      rintro k h - hk ⟨lh, bh, b16, hh⟩
      have hk' : 16 * k < n := by omega
      obtain ⟨c, ec, lc, bc, hc⟩ := polyBlock_ok (w := w) (m := m) (o := mo + 16 * k) (n := n - 16 * k) hw (by omega)
      rw [← chunk_slice hm hk'] at hc
      have bh' : ∀ k < 17, dg h k < 256 := fun k hk => by
        by_cases h2 : k = 16
        · rw [h2]; omega
        · exact bh k (by omega)
      obtain ⟨a, ea, la, ba, ha⟩ := add1305_ok hw lh lc (fun k hk => by have := bh' k hk; omega) (fun k hk => by have := bc k hk; omega)
      obtain ⟨x, ex, lx, bx, hx⟩ := polyMul_ok hw la lr ba br
      obtain ⟨s, es, ls, bs, bs16, hs⟩ := polySqueeze_ok hw lx bx
      refine ⟨s, by rw [ec, ok_bind, ea, ok_bind, ex, ok_bind, es], ls, bs, bs16, ?_⟩
      have hlt : sm (dg h) 17 + sm (dg c) 17 < 256 ^ 17 := by
        have e1 : sm (dg h) 17 = sm (dg h) 16 + dg h 16 * 256 ^ 16 := sm_succ _ 16
        have e2 := sm_lt bh
        have e3 : sm (dg c) 17 < 2 * 256 ^ 16 := by
          rw [hc, chunk_slice hm hk']
          have hle := Nat.min_le_left 16 (n - 16 * k)
          have h1 := leVal_lt (slice m (mo + 16 * k) (min 16 (n - 16 * k)))
          rw [length_slice (by omega)] at h1
          have h2 : 256 ^ (min 16 (n - 16 * k)) ≤ 256 ^ 16 := Nat.pow_le_pow_right (by omega) hle
          omega
        have e4 : dg h 16 * 256 ^ 16 ≤ 4 * 256 ^ 16 := Nat.mul_le_mul_right _ b16
        have e5 : (256 : Nat) ^ 17 = 256 * 256 ^ 16 := by norm_num
        omega
      have hA : sm (dg a) 17 % P1305 = (part (slice m mo n) (sm (dg r) 17) k + chunk (slice m mo n) k) % P1305 := by
        rw [ha, Nat.mod_eq_of_lt hlt, hc, Nat.add_mod, hh, ← Nat.add_mod]
      rw [hs, hx, part_succ, Nat.mul_mod, hA, ← Nat.mul_mod])
  refine ⟨o, e, lo, bo, b16, ?_⟩
  rw [ho]
  unfold polySum part
  dsimp only
  rw [length_slice hm, Nat.zero_add]

theorem leBytes_sm {f : Nat → Nat} {n : Nat} (h : ∀ i < n, f i < 256) : leBytes n (sm f n) = (List.range n).map fun i => BitVec.ofNat 8 (f i) := by
  have : sm f n = leVal ((List.range n).map fun i => BitVec.ofNat 8 (f i)) := by
    rw [leVal_sm, List.length_map, List.length_range]
    apply sm_congr
    intro i hi
    rw [getD_el (by simpa using hi), List.getElem_map, List.getElem_range, BitVec.toNat_ofNat, Nat.mod_eq_of_lt (h i hi)]
  rw [this]
  have h2 := leBytes_leVal ((List.range n).map fun i => BitVec.ofNat 8 (f i))
  rw [List.length_map, List.length_range] at h2
  exact h2

theorem pow17' : (256 : Nat) ^ 17 = 256 ^ 16 * 256 := by norm_num
theorem pow16' : (256 : Nat) ^ 16 = 2 ^ 128 := by norm_num

/-- `crypto_onetimeauth` is Poly1305. -/
theorem onetimeauth_ok (hw : 32 ≤ w) {out : Bytes} {oo : Nat} {m : Bytes} {mo n : Nat} {k : Bytes} (hk : 32 ≤ k.length) (hm : mo + n ≤ m.length) (ho : oo + 16 ≤ out.length) :
    onetimeauth w out oo m mo n k = .ok (splice out oo (poly1305 (k.take 32) (slice m mo n))) := by
  obtain ⟨r, er, lr, br, hr⟩ := polyR_ok (w := w) (k := k) hw (by omega)
  obtain ⟨h, eh, lh, bh, b16, hh⟩ := polyLoop_ok hw hm lr br
  obtain ⟨f, ef, lf, bf, hf⟩ := polyFreeze_ok hw lh bh b16
  obtain ⟨c, ec, lc, hc⟩ := load_ok (w := w) (m := k) (o := 16) (n := 16) hw (by omega) (by omega)
  have hd : ∀ i, dg (c.set 16 0) i = if i < 16 then (k.getD (16 + i) 0).toNat else 0 := by
    intro i
    rw [dg_set (by omega), hc i]
    by_cases h2 : i = 16
    · rw [if_pos h2, if_neg (by omega)]; simp
    · rw [if_neg h2]
  have sc : sm (dg (c.set 16 0)) 17 = leVal ((k.take 32).drop 16) := by
    rw [sm_succ, hd 16, if_neg (by omega), Nat.zero_mul, Nat.add_zero, sm_congr (g := fun i => (k.getD (16 + i) 0).toNat) (fun i hi => by rw [hd, if_pos hi]), sm_slice (by omega)]
    unfold slice
    rw [List.drop_take]
  obtain ⟨o, eo, lo, bo, hs⟩ := add1305_ok hw lf (c := c.set 16 0) (by simpa using lc) (fun i hi => by have := bf i hi; omega) (fun i hi => by
    rw [hd]
    have := (k.getD (16 + i) 0).isLt
    split <;> omega)
  unfold onetimeauth
  rw [er, ok_bind, eh, ok_bind, ef, ok_bind]
  have ec' : loop (fun j c => do
    let a ← rd k (j + 16)
    wr c j (a.setWidth w)) 0 16 (List.replicate 17 0) = .ok c := by
    rw [← ec]
    exact loop_congr _ _ _ fun j c _ _ => by rw [Nat.add_comm]
  rw [ec', ok_bind, wr_ok (by omega), ok_bind, eo, ok_bind]
  have hv : sm (dg o) 16 = (polySum (slice m mo n) (clampR (k.take 32)) % P1305 + leVal ((k.take 32).drop 16)) % 2 ^ 128 := by
    have e1 : sm (dg o) 17 = sm (dg o) 16 + dg o 16 * 256 ^ 16 := sm_succ _ 16
    have e2 := sm_lt (k := 16) (fun i hi => bo i (by omega))
    have e4 : clampR (k.take 32) = clampR k := by unfold clampR; rw [List.take_take, Nat.min_eq_left (by omega)]
    rw [hf, hh, hr, sc] at hs
    have e3 : sm (dg o) 16 = sm (dg o) 17 % 256 ^ 16 := by
      rw [e1, Nat.add_mul_mod_self_right, Nat.mod_eq_of_lt e2]
    rw [e4, e3, hs, pow17', Nat.mod_mul_right_mod, pow16']
  have hl := write_loop (out := out) (o := oo) (n := 16) (fun j => BitVec.ofNat 8 (dg o j)) (fun j out => do
    let a ← rd o j
    wr out (oo + j) (a.setWidth 8)) (by
    intro j s hj ls
    have hx : BitVec.setWidth 8 (o.getD j 0) = BitVec.ofNat 8 (dg o j) := by
      apply BitVec.eq_of_toNat_eq
      rw [BitVec.toNat_setWidth, BitVec.toNat_ofNat]
      rfl
    rw [rd_get (by omega), ok_bind, wr_ok (by omega), hx]) ho
  rw [hl]
  unfold poly1305
  rw [← hv, leBytes_sm (fun i hi => bo i (by omega))]

end Verif.Nacl
