import Verif.Keccak.Sponge

/-! The byte-wise sponge is the sponge of FIPS 202. -/

namespace Verif.Keccak
open Verif

/-- The output stream of the sponge with rate r (bytes) and suffix byte p on message m. -/
def stream (r : Nat) (p : Byte) (m : Bytes) (n : Nat) : Bytes := (nextN r ⟨padded r p m, 0⟩ n).1

@[simp] theorem length_stream (r : Nat) (p : Byte) (m : Bytes) (n : Nat) : (stream r p m n).length = n := length_nextN _ _ _

theorem stream_prefix (r : Nat) (p : Byte) (m : Bytes) (n k : Nat) : (stream r p m (n + k)).take n = stream r p m n := by
  rw [stream, nextN_add]
  simp only
  rw [List.take_left' (length_nextN _ _ _)]; rfl

@[simp] theorem length_bits (m : Bytes) : (Spec.bits m).length = 8 * m.length := by
  induction m with
  | nil => rfl
  | cons b m ih => simp only [Spec.bits, List.flatMap_cons, List.length_append] at *; simp [ih]; omega

theorem bits_append (m n : Bytes) : Spec.bits (m ++ n) = Spec.bits m ++ Spec.bits n := by simp [Spec.bits]

theorem getElem?_bits (m : Bytes) (k : Nat) :
    (Spec.bits m)[k]? = if k < 8 * m.length then some ((m.getD (k / 8) 0).getLsbD (k % 8)) else none := by
  induction m generalizing k with
  | nil => simp [Spec.bits]
  | cons b m ih =>
    have e : Spec.bits (b :: m) = (List.range 8).map b.getLsbD ++ Spec.bits m := rfl
    rw [e]
    by_cases h : k < 8
    · rw [List.getElem?_append_left (by simpa using h), if_pos (by simp; omega)]
      rw [List.getElem?_map, List.getElem?_range h]
      simp [show k / 8 = 0 by omega, Nat.mod_eq_of_lt h]
    · rw [List.getElem?_append_right (by simp; omega), ih]
      simp only [List.length_map, List.length_range, List.length_cons]
      by_cases h2 : k < 8 * (m.length + 1)
      · rw [if_pos (by omega), if_pos h2, show k / 8 = (k - 8) / 8 + 1 by omega, List.getD_cons_succ, show (k - 8) % 8 = k % 8 by omega]
      · rw [if_neg (by omega), if_neg h2]

theorem bits_injective {m n : Bytes} (h : Spec.bits m = Spec.bits n) : m = n := by
  have hl : m.length = n.length := by have := congrArg List.length h; simp at this; exact this
  apply List.ext_getElem hl
  intro i h1 h2
  apply BitVec.eq_of_getLsbD_eq
  intro j hj
  have := congrArg (fun l => l[8 * i + j]?) h
  simp only [getElem?_bits] at this
  rw [if_pos (by omega), if_pos (by omega)] at this
  simp only [show (8 * i + j) / 8 = i by omega, show (8 * i + j) % 8 = j by omega] at this
  simpa [List.getD_eq_getElem?_getD, h1, h2] using this

theorem bitOf_stateOf (s : List W64) (k : Fin 1600) : Spec.bitOf (stateOf s) k = sbit s k.val := by
  obtain ⟨k, hk⟩ := k
  unfold Spec.bitOf stateOf sbit
  simp only [Fin.ofNat]
  congr 2; omega

theorem stateOf_apply (s : List W64) (x y : Fin 5) (z : Fin 64) : stateOf s x y z = sbit s (64 * (5 * y.val + x.val) + z.val) := by
  unfold stateOf sbit
  congr 2 <;> omega

/-- Absorbing n whole blocks. -/
theorem absorb_spec {r : Nat} (h0 : 0 < r) (hr : r ≤ 200) (M : Bytes) (n : Nat) (hn : r * n ≤ M.length) :
    ∃ s, feedAll r incInit (M.take (r * n)) = ⟨s, 0⟩ ∧ s.length = 25 ∧ stateOf s = Spec.absorb (8 * r) (Spec.bits M) n := by
  induction n with
  | zero =>
    refine ⟨List.replicate 25 0, by simp [feedAll, incInit], by simp, ?_⟩
    funext x y z
    rw [stateOf_apply, Spec.absorb]
    unfold sbit
    rw [List.getD_eq_getElem?_getD, List.getElem?_replicate]
    split <;> simp
  | succ n ih =>
    rw [Nat.mul_add, Nat.mul_one] at hn
    obtain ⟨s, e, hl, hs⟩ := ih (by omega)
    refine ⟨perm (xorBytes s 0 (slice M (r * n) r)), ?_, length_perm (by rw [length_xorBytes, hl]), ?_⟩
    · have : M.take (r * (n + 1)) = M.take (r * n) ++ slice M (r * n) r := by
        rw [Nat.mul_add, Nat.mul_one, List.take_add]; rfl
      rw [this, feedAll_append, e, feedAll_eq _ _ (by simp only [Nat.zero_add]; exact length_slice hn) h0]
    · rw [stateOf_perm (by rw [length_xorBytes, hl]), Spec.absorb]
      congr 1
      funext x y z
      rw [stateOf_apply, sbit_xorBytes _ _ _ hl (by rw [length_slice hn]; omega), length_slice hn, Spec.ofBits, ← hs, bitOf_stateOf]
      simp only
      congr 1
      have key : ∀ k, (decide (0 ≤ k / 8 ∧ k / 8 < 0 + r) && ((slice M (r * n) r).getD (k / 8 - 0) 0).getLsbD (k % 8)) =
          (decide (k < 8 * r) && (Spec.bits M).getD (8 * r * n + k) false) := by
        intro k
        by_cases c : k < 8 * r
        · rw [decide_eq_true c, decide_eq_true (by omega), Bool.true_and, Bool.true_and, List.getD_eq_getElem?_getD (l := Spec.bits M),
            getElem?_bits, if_pos (by rw [Nat.mul_assoc]; omega), Option.getD_some, List.getD_eq_getElem?_getD, getElem?_slice,
            if_pos (by omega), ← List.getD_eq_getElem?_getD]
          rw [Nat.mul_assoc, show (8 * (r * n) + k) / 8 = r * n + (k / 8 - 0) by omega, show (8 * (r * n) + k) % 8 = k % 8 by omega]
        · rw [decide_eq_false c, decide_eq_false (by omega), Bool.false_and, Bool.false_and]
      exact key _

theorem padded_spec {r : Nat} {p : Byte} (h0 : 0 < r) (hr : r ≤ 200) (m : Bytes) :
    stateOf (perm (padded r p m)) =
      Spec.absorb (8 * r) (Spec.bits (m ++ padBytes r p m.length)) ((m ++ padBytes r p m.length).length / r) := by
  have hlt := Nat.mod_lt m.length h0
  have hda := Nat.div_add_mod m.length r
  have hlen : (m ++ padBytes r p m.length).length = r * (m.length / r + 1) := by
    rw [List.length_append, length_padBytes h0, Nat.mul_add, Nat.mul_one]; omega
  have hdiv : (m ++ padBytes r p m.length).length / r = m.length / r + 1 := by
    rw [hlen, Nat.mul_div_cancel_left _ h0]
  obtain ⟨s, e, hl, hs⟩ := absorb_spec h0 hr (m ++ padBytes r p m.length) (m.length / r + 1) (by rw [hlen])
  rw [hdiv, ← hs]
  rw [← hlen, List.take_length, feedAll_append] at e
  have hok := feedAll_ok (incInit_ok h0) hr m
  have hc := feedAll_cnt (r := r) (st := incInit) h0 m
  simp only [incInit, Nat.zero_add] at hc
  change (feedAll r incInit m).cnt = _ at hc
  rw [feedAll_eq _ _ (by rw [length_padBytes h0, hc]; omega) hok.cnt] at e
  simp only [Inc.mk.injEq, and_true] at e
  rw [← e]; rfl

theorem nextN_getElem? {r : Nat} (h0 : 0 < r) (s : List W64) (n j : Nat) (hj : j < n) :
    (nextN r ⟨s, 0⟩ n).1[j]? = some (byteAt (Nat.repeat perm (j / r) (perm s)) (j % r)) := by
  induction j using Nat.strong_induction_on generalizing s n with
  | _ j ih =>
    by_cases c : j < r
    · by_cases hq : n ≤ r
      · rw [nextN_new s (by omega) hq]
        simp only [bytesAt, List.getElem?_map]
        rw [List.getElem?_range hj, Nat.div_eq_of_lt c, Nat.mod_eq_of_lt c]
        simp [Nat.repeat]
      · have : n = r + (n - r) := by omega
        rw [this, nextN_add, nextN_new s h0 (Nat.le_refl _)]
        simp only
        rw [List.getElem?_append_left (by simpa using c)]
        simp only [bytesAt, List.getElem?_map]
        rw [List.getElem?_range c, Nat.div_eq_of_lt c, Nat.mod_eq_of_lt c]
        simp [Nat.repeat]
    · have : n = r + (n - r) := by omega
      rw [this, nextN_add, nextN_new s h0 (Nat.le_refl _), Nat.sub_self]
      simp only
      rw [List.getElem?_append_right (by simp; omega), length_bytesAt, ih (j - r) (by omega) (perm s) (n - r) (by omega),
        ← Nat.mod_eq_sub_mod (by omega), Nat.div_eq_sub_div (a := j) h0 (by omega)]
      have : ∀ k s, Nat.repeat perm k (perm s) = Nat.repeat perm (k + 1) s := by
        intro k s
        induction k with
        | zero => rfl
        | succ k ih => rw [Nat.repeat, ih]; rfl
      rw [this]

theorem stateOf_repeat {s : List W64} (hs : s.length = 25) (k : Nat) :
    stateOf (Nat.repeat perm k s) = Nat.repeat Spec.keccakF k (stateOf s) ∧ (Nat.repeat perm k s).length = 25 := by
  induction k with
  | zero => exact ⟨rfl, hs⟩
  | succ k ih => exact ⟨by rw [Nat.repeat, stateOf_perm ih.2, ih.1]; rfl, by rw [Nat.repeat]; exact length_perm ih.2⟩

/-- What a suffix byte p must look like for the bit suffix suf: the suffix, then the first 1 of pad10*1. -/
structure Suffix (p : Byte) (suf : List Bool) : Prop where
  len : suf.length ≤ 6
  one : Spec.bits [p] = suf ++ true :: List.replicate (7 - suf.length) false
  both : Spec.bits [p ||| 128] = suf ++ true :: (List.replicate (6 - suf.length) false ++ [true])

theorem suffix_sha3 : Suffix 0x06 [false, true] := ⟨by decide, by decide, by decide⟩
theorem suffix_shake : Suffix 0x1F [true, true, true, true] := ⟨by decide, by decide, by decide⟩

theorem bits_zeros (n : Nat) : Spec.bits (List.replicate n 0) = List.replicate (8 * n) false := by
  induction n with
  | zero => rfl
  | succ n ih =>
    have e : Spec.bits (0 :: List.replicate n 0) = (List.range 8).map (0 : Byte).getLsbD ++ Spec.bits (List.replicate n 0) := rfl
    rw [List.replicate_succ, e, ih, show 8 * (n + 1) = 8 + 8 * n by omega, List.replicate_add]
    rfl

theorem pad_spec {r : Nat} {p : Byte} {suf : List Bool} (h0 : 0 < r) (hs : Suffix p suf) (m : Bytes) :
    Spec.bits (m ++ padBytes r p m.length) =
      (Spec.bits m ++ suf) ++ Spec.pad101 (8 * r) (Spec.bits m ++ suf).length := by
  have hlt := Nat.mod_lt m.length h0
  have hda := Nat.div_add_mod m.length r
  rw [bits_append, List.append_assoc]
  congr 1
  have hj : ((-((Spec.bits m ++ suf).length : Int) - 2) % ((8 * r : Nat) : Int)).toNat = 8 * (r - m.length % r) - 2 - suf.length := by
    have hsl := hs.len
    have e : (-((Spec.bits m ++ suf).length : Int) - 2) =
        ((8 * (r - m.length % r) - 2 - suf.length : Nat) : Int) + ((8 * r : Nat) : Int) * (-(m.length / r : Nat) - 1 : Int) := by
      rw [List.length_append, length_bits]
      have h1 : ((8 * r : Nat) : Int) * (-(m.length / r : Nat) - 1 : Int) = - (8 * ((r * (m.length / r) : Nat) : Int)) - 8 * r := by
        push_cast; ring
      rw [h1]
      omega
    rw [e, Int.add_mul_emod_self_left, Int.emod_eq_of_lt (by omega) (by omega)]
    rfl
  rw [Spec.pad101, hj, padBytes]
  have hsl := hs.len
  by_cases c : r - m.length % r = 1
  · rw [if_pos c, c, hs.both, show 8 * 1 - 2 - suf.length = 6 - suf.length by omega]
  · rw [if_neg c]
    have e1 : Spec.bits (p :: (List.replicate (r - m.length % r - 2) 0 ++ [128])) =
        Spec.bits [p] ++ (Spec.bits (List.replicate (r - m.length % r - 2) 0) ++ Spec.bits [128]) := by
      rw [← bits_append, ← bits_append]; rfl
    have e2 : Spec.bits [128] = List.replicate 7 false ++ [true] := by decide
    rw [e1, hs.one, bits_zeros, e2, List.append_assoc]
    congr 1
    rw [List.cons_append]
    congr 1
    rw [← List.append_assoc, ← List.append_assoc, ← List.replicate_add, ← List.replicate_add]
    congr 2
    omega

theorem stream_spec {r : Nat} {p : Byte} {suf : List Bool} (h0 : 0 < r) (hr : r ≤ 200) (hs : Suffix p suf) (m : Bytes) (n : Nat) :
    Spec.bits (stream r p m n) = Spec.sponge (8 * r) (Spec.bits m ++ suf) (8 * n) := by
  apply List.ext_getElem?
  intro k
  rw [getElem?_bits, length_stream, Spec.sponge]
  simp only [List.getElem?_map]
  by_cases c : k < 8 * n
  swap
  · rw [if_neg c, List.getElem?_eq_none (by simpa using c)]; rfl
  rw [if_pos c, List.getElem?_range c, Option.map_some]
  congr 1
  have hg : (stream r p m n).getD (k / 8) 0 = byteAt (Nat.repeat perm (k / 8 / r) (perm (padded r p m))) (k / 8 % r) := by
    rw [List.getD_eq_getElem?_getD, stream, nextN_getElem? h0 _ _ _ (by omega)]; rfl
  rw [hg, getLsbD_byteAt _ _ _ (by omega), ← pad_spec h0 hs]
  have hps := padded_spec (p := p) h0 hr m
  have hlen : (Spec.bits (m ++ padBytes r p m.length)).length / (8 * r) = (m ++ padBytes r p m.length).length / r := by
    rw [length_bits, Nat.mul_div_mul_left _ _ (by omega)]
  rw [hlen, ← hps, Spec.squeezeBit, ← (stateOf_repeat (length_perm (length_padded h0 hr)) _).1, stateOf_apply]
  have hq : k / (8 * r) = k / 8 / r := by rw [Nat.div_div_eq_div_mul]
  have hm : 8 * (k / 8 % r) + k % 8 = k % (8 * r) := by rw [Nat.mod_mul]; omega
  rw [hq, hm]
  have : k % (8 * r) < 1600 := by have := Nat.mod_lt k (show 0 < 8 * r by omega); omega
  congr 1
  simp only [Fin.ofNat]
  omega

end Verif.Keccak
