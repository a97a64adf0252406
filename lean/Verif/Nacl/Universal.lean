import Verif.Ed25519.BalanceProps
import Verif.Nacl.Props
import Mathlib.Algebra.Polynomial.Roots
import Mathlib.Data.Set.Card
import Mathlib.Data.Set.Finite.List

/-!
Counting Poly1305 keys: 2^130 - 5 is prime (Pratt certificate), the chunks determine the message, two different messages give different polynomials, and a polynomial of degree q has at most q roots.
-/

namespace Verif.Nacl
open Verif Verif.Nacl.Spec Verif.Ed25519 Verif.Ed25519.Spec

theorem prime1305_32985101 : Nat.Prime 32985101 := by
  refine pratt _ 2 [2, 2, 5, 5, 17, 19403] (by decide +kernel) (by decide +kernel) (by decide +kernel) ?_ (by decide +kernel) (by decide +kernel)
  intro q hq
  simp only [List.mem_cons, List.not_mem_nil, or_false] at hq
  rcases hq with rfl | rfl | rfl | rfl | rfl | rfl
  · norm_num
  · norm_num
  · norm_num
  · norm_num
  · norm_num
  · norm_num

theorem prime1305_3134801 : Nat.Prime 3134801 := by
  refine pratt _ 3 [2, 2, 2, 2, 5, 5, 17, 461] (by decide +kernel) (by decide +kernel) (by decide +kernel) ?_ (by decide +kernel) (by decide +kernel)
  intro q hq
  simp only [List.mem_cons, List.not_mem_nil, or_false] at hq
  rcases hq with rfl | rfl | rfl | rfl | rfl | rfl | rfl | rfl
  · norm_num
  · norm_num
  · norm_num
  · norm_num
  · norm_num
  · norm_num
  · norm_num
  · norm_num

theorem prime1305_221101 : Nat.Prime 221101 := by
  refine pratt _ 22 [2, 2, 3, 5, 5, 11, 67] (by decide +kernel) (by decide +kernel) (by decide +kernel) ?_ (by decide +kernel) (by decide +kernel)
  intro q hq
  simp only [List.mem_cons, List.not_mem_nil, or_false] at hq
  rcases hq with rfl | rfl | rfl | rfl | rfl | rfl | rfl
  · norm_num
  · norm_num
  · norm_num
  · norm_num
  · norm_num
  · norm_num
  · norm_num

theorem prime1305_4024685905107147541 : Nat.Prime 4024685905107147541 := by
  refine pratt _ 2 [2, 2, 3, 3, 5, 13, 43, 4889, 37003, 221101] (by decide +kernel) (by decide +kernel) (by decide +kernel) ?_ (by decide +kernel) (by decide +kernel)
  intro q hq
  simp only [List.mem_cons, List.not_mem_nil, or_false] at hq
  rcases hq with rfl | rfl | rfl | rfl | rfl | rfl | rfl | rfl | rfl | rfl
  · norm_num
  · norm_num
  · norm_num
  · norm_num
  · norm_num
  · norm_num
  · norm_num
  · norm_num
  · norm_num
  · exact prime1305_221101

theorem prime1305_897064739519922787230182993783 : Nat.Prime 897064739519922787230182993783 := by
  refine pratt _ 5 [2, 73, 487, 3134801, 4024685905107147541] (by decide +kernel) (by decide +kernel) (by decide +kernel) ?_ (by decide +kernel) (by decide +kernel)
  intro q hq
  simp only [List.mem_cons, List.not_mem_nil, or_false] at hq
  rcases hq with rfl | rfl | rfl | rfl | rfl
  · norm_num
  · norm_num
  · norm_num
  · exact prime1305_3134801
  · exact prime1305_4024685905107147541

theorem prime1305 : Nat.Prime 1361129467683753853853498429727072845819 := by
  refine pratt _ 2 [2, 23, 32985101, 897064739519922787230182993783] (by decide +kernel) (by decide +kernel) (by decide +kernel) ?_ (by decide +kernel) (by decide +kernel)
  intro q hq
  simp only [List.mem_cons, List.not_mem_nil, or_false] at hq
  rcases hq with rfl | rfl | rfl | rfl
  · norm_num
  · norm_num
  · exact prime1305_32985101
  · exact prime1305_897064739519922787230182993783

theorem prime_P1305 : Nat.Prime P1305 := prime1305

/-! ### Chunks determine the message -/

theorem chunk_lt (m : Bytes) (i : Nat) : chunk m i < P1305 := by
  unfold chunk P1305
  have h1 := leVal_lt ((m.drop (16 * i)).take 16)
  have h2 : ((m.drop (16 * i)).take 16).length ≤ 16 := by rw [List.length_take]; omega
  have h3 : 256 ^ ((m.drop (16 * i)).take 16).length ≤ 256 ^ 16 := Nat.pow_le_pow_right (by omega) h2
  dsimp only
  omega

theorem chunk_pos (m : Bytes) (i : Nat) : 0 < chunk m i := by
  unfold chunk
  have : 0 < 256 ^ ((m.drop (16 * i)).take 16).length := Nat.pow_pos (by omega)
  dsimp only
  omega

theorem chunk_inj {m m' : Bytes} {i : Nat} (h : chunk m i = chunk m' i) : (m.drop (16 * i)).take 16 = (m'.drop (16 * i)).take 16 := by
  unfold chunk at h
  dsimp only at h
  generalize (m.drop (16 * i)).take 16 = b at h ⊢
  generalize (m'.drop (16 * i)).take 16 = b' at h ⊢
  have h1 := leVal_lt b
  have h2 := leVal_lt b'
  have hl : b.length = b'.length := by
    rcases Nat.lt_trichotomy b.length b'.length with hlt | heq | hgt
    · have : 256 ^ (b.length + 1) ≤ 256 ^ b'.length := Nat.pow_le_pow_right (by omega) hlt
      rw [Nat.pow_succ] at this
      omega
    · exact heq
    · have : 256 ^ (b'.length + 1) ≤ 256 ^ b.length := Nat.pow_le_pow_right (by omega) hgt
      rw [Nat.pow_succ] at this
      omega
  rw [hl] at h
  rw [← leBytes_leVal b, ← leBytes_leVal b', hl, show leVal b = leVal b' by omega]

theorem chunks_inj {m m' : Bytes} (hq : (m.length + 15) / 16 = (m'.length + 15) / 16) (h : ∀ i < (m.length + 15) / 16, chunk m i = chunk m' i) : m = m' := by
  apply List.ext_getElem?
  intro j
  by_cases hj : j / 16 < (m.length + 15) / 16
  · have e := congrArg (fun l : Bytes => l[j % 16]?) (chunk_inj (h _ hj))
    simp only [List.getElem?_take, List.getElem?_drop, Nat.mod_lt j (show 0 < 16 by omega), if_true] at e
    rwa [show 16 * (j / 16) + j % 16 = j by omega] at e
  · rw [List.getElem?_eq_none (by omega), List.getElem?_eq_none (by omega)]

/-! ### The polynomial of a message -/

/-- The field with 2^130 - 5 elements (no line of its own; mathematics of tweetnacl/tweetnacl.c:185-236). -/
abbrev F1305 := ZMod P1305

instance : Fact (Nat.Prime P1305) := ⟨prime_P1305⟩

/-- c_1 X^q + ... + c_q X over the field (no line of its own; mathematics of tweetnacl/tweetnacl.c:185-236). -/
noncomputable def pol (m : Bytes) : Polynomial F1305 := ∑ i ∈ Finset.range ((m.length + 15) / 16), Polynomial.C (chunk m i : F1305) * Polynomial.X ^ ((m.length + 15) / 16 - i)

theorem eval_pol (m : Bytes) (r : Nat) : (pol m).eval (r : F1305) = ((polySum m r : Nat) : F1305) := by
  unfold pol polySum
  rw [Polynomial.eval_finsetSum]
  dsimp only
  rw [show ((List.range ((m.length + 15) / 16)).map fun i => chunk m i * r ^ ((m.length + 15) / 16 - i)).sum = ∑ i ∈ Finset.range ((m.length + 15) / 16), chunk m i * r ^ ((m.length + 15) / 16 - i) from rfl]
  push_cast
  refine Finset.sum_congr rfl fun i _ => ?_
  simp

theorem coeff_pol (m : Bytes) (e : Nat) : (pol m).coeff e = if 1 ≤ e ∧ e ≤ (m.length + 15) / 16 then ((chunk m ((m.length + 15) / 16 - e) : Nat) : F1305) else 0 := by
  unfold pol
  generalize (m.length + 15) / 16 = q
  rw [Polynomial.finsetSum_coeff]
  simp only [Polynomial.coeff_C_mul, Polynomial.coeff_X_pow, mul_ite, mul_one, mul_zero]
  split
  · rename_i h
    rw [Finset.sum_eq_single (q - e)]
    · rw [if_pos (by omega)]
    · intro b hb hne
      rw [Finset.mem_range] at hb
      rw [if_neg (by omega)]
    · intro hn
      rw [Finset.mem_range] at hn
      omega
  · rename_i h
    refine Finset.sum_eq_zero fun b hb => ?_
    rw [Finset.mem_range] at hb
    rw [if_neg (by omega)]

theorem natDegree_pol (m : Bytes) : (pol m).natDegree ≤ (m.length + 15) / 16 := by
  rw [Polynomial.natDegree_le_iff_coeff_eq_zero]
  intro n hn
  rw [coeff_pol, if_neg (by omega)]

theorem cast_chunk_ne {a b : Nat} (ha : a < P1305) (hb : b < P1305) (h : (a : F1305) = (b : F1305)) : a = b := by
  rw [ZMod.natCast_eq_natCast_iff] at h
  exact Nat.ModEq.eq_of_lt_of_lt h ha hb

theorem pol_ne {m m' : Bytes} (h : m ≠ m') (v : F1305) : pol m - pol m' - Polynomial.C v ≠ 0 := by
  intro h0
  have hc : ∀ e, 1 ≤ e → (pol m).coeff e = (pol m').coeff e := by
    intro e he
    have := congrArg (fun p => Polynomial.coeff p e) h0
    simp only [Polynomial.coeff_sub, Polynomial.coeff_C, Polynomial.coeff_zero] at this
    rw [if_neg (by omega), sub_zero] at this
    exact sub_eq_zero.1 this
  have P0 : 0 < P1305 := by decide +kernel
  rcases Nat.lt_trichotomy ((m.length + 15) / 16) ((m'.length + 15) / 16) with hlt | heq | hgt
  · have := hc _ (show 1 ≤ (m'.length + 15) / 16 by omega)
    rw [coeff_pol, coeff_pol, if_neg (by omega), if_pos (by omega)] at this
    have := cast_chunk_ne P0 (chunk_lt m' _) (by rw [← this]; norm_num)
    have := chunk_pos m' ((m'.length + 15) / 16 - (m'.length + 15) / 16)
    omega
  · refine h (chunks_inj heq fun i hi => ?_)
    have := hc ((m.length + 15) / 16 - i) (by omega)
    rw [coeff_pol, coeff_pol, if_pos (by omega), if_pos (by omega), ← heq, show (m.length + 15) / 16 - ((m.length + 15) / 16 - i) = i by omega] at this
    exact cast_chunk_ne (chunk_lt _ _) (chunk_lt _ _) this
  · have := hc _ (show 1 ≤ (m.length + 15) / 16 by omega)
    rw [coeff_pol, coeff_pol, if_pos (by omega), if_neg (by omega)] at this
    have := cast_chunk_ne P0 (chunk_lt m _) (by rw [this]; norm_num)
    have := chunk_pos m ((m.length + 15) / 16 - (m.length + 15) / 16)
    omega

/-- The r below the prime at which the polynomials of two messages differ by `v` (no line of its own). -/
noncomputable def rootsAt (m m' : Bytes) (v : Int) : Finset Nat := (pol m - pol m' - Polynomial.C (v : F1305)).roots.toFinset.image ZMod.val

theorem card_rootsAt (m m' : Bytes) (v : Int) : (rootsAt m m' v).card ≤ max ((m.length + 15) / 16) ((m'.length + 15) / 16) := by
  refine Nat.le_trans Finset.card_image_le (Nat.le_trans (Multiset.toFinset_card_le _) (Nat.le_trans (Polynomial.card_roots' _) ?_))
  refine Nat.le_trans (Polynomial.natDegree_sub_le _ _) ?_
  rw [Polynomial.natDegree_C]
  have := Polynomial.natDegree_sub_le (pol m) (pol m')
  have h1 := natDegree_pol m
  have h2 := natDegree_pol m'
  omega

theorem mem_rootsAt {m m' : Bytes} (h : m ≠ m') {r : Nat} (hr : r < P1305) {v : Int} (hv : ((polySum m r % P1305 : Nat) : Int) - ((polySum m' r % P1305 : Nat) : Int) = v) : r ∈ rootsAt m m' v := by
  unfold rootsAt
  rw [Finset.mem_image]
  refine ⟨(r : F1305), ?_, ZMod.val_cast_of_lt hr⟩
  rw [Multiset.mem_toFinset, Polynomial.mem_roots (pol_ne h _), Polynomial.IsRoot, Polynomial.eval_sub, Polynomial.eval_sub, Polynomial.eval_C, eval_pol, eval_pol, ← hv]
  push_cast
  simp

/-- The r below the prime for which the two sums, reduced, differ by `g` modulo 2^128 (no line of its own). -/
noncomputable def badR (m m' : Bytes) (g : Nat) : Finset Nat := (Finset.range 8).biUnion fun j => rootsAt m m' ((g % 2 ^ 128 : Nat) - 2 ^ 130 + j * 2 ^ 128)

theorem card_badR (m m' : Bytes) (g : Nat) : (badR m m' g).card ≤ 8 * max ((m.length + 15) / 16) ((m'.length + 15) / 16) := by
  have := Finset.card_biUnion_le_card_mul (Finset.range 8) (fun j => rootsAt m m' ((g % 2 ^ 128 : Nat) - 2 ^ 130 + j * 2 ^ 128)) _ fun j _ => card_rootsAt m m' _
  rwa [Finset.card_range] at this

theorem mem_badR {m m' : Bytes} (h : m ≠ m') {r g : Nat} (hr : r < P1305) (hg : (polySum m r % P1305) % 2 ^ 128 = (polySum m' r % P1305 + g) % 2 ^ 128) : r ∈ badR m m' g := by
  unfold badR
  rw [Finset.mem_biUnion]
  have P0 : 0 < P1305 := by decide +kernel
  have h1 := Nat.mod_lt (polySum m r) P0
  have h2 := Nat.mod_lt (polySum m' r) P0
  have P1 : P1305 < 2 ^ 130 := by decide +kernel
  obtain ⟨a, ha⟩ : ∃ x, x = polySum m r % P1305 := ⟨_, rfl⟩
  obtain ⟨b, hb⟩ : ∃ x, x = polySum m' r % P1305 := ⟨_, rfl⟩
  rw [← ha, ← hb] at hg
  rw [← ha] at h1
  rw [← hb] at h2
  have : ∃ j : Nat, j < 8 ∧ (a : Int) - b = (g % 2 ^ 128 : Nat) - 2 ^ 130 + j * 2 ^ 128 := by
    refine ⟨((a : Int) - b - (g % 2 ^ 128 : Nat) + 2 ^ 130).toNat / 2 ^ 128, ?_, ?_⟩ <;> omega
  obtain ⟨j, hj, e⟩ := this
  refine ⟨j, Finset.mem_range.2 hj, mem_rootsAt h hr ?_⟩
  rw [← ha, ← hb]
  exact e

/-! ### Clamping -/

/-- The 22 bits that clamping clears (no line of its own; compare the masks of tweetnacl/tweetnacl.c:190-197). -/
def freeBits (N : Nat) : Nat × Nat × Nat × Nat := (N / 2 ^ 28 % 64, N / 2 ^ 60 % 64, N / 2 ^ 92 % 64, N / 2 ^ 124 % 16)

theorem mask_bits : ∀ i < 128, Nat.testBit 0x0ffffffc0ffffffc0ffffffc0fffffff i = true ∨ (28 ≤ i ∧ i < 34) ∨ (60 ≤ i ∧ i < 66) ∨ (92 ≤ i ∧ i < 98) ∨ (124 ≤ i ∧ i < 128) := by decide +kernel

theorem free_bit {N k w i : Nat} (h1 : k ≤ i) (h2 : i < k + w) : N.testBit i = (N / 2 ^ k % 2 ^ w).testBit (i - k) := by
  rw [Nat.testBit_mod_two_pow, Nat.testBit_div_two_pow, decide_eq_true (by omega), Bool.true_and]
  congr 1
  omega

theorem clamp_inj {N M : Nat} (hN : N < 2 ^ 128) (hM : M < 2 ^ 128) (hc : N &&& 0x0ffffffc0ffffffc0ffffffc0fffffff = M &&& 0x0ffffffc0ffffffc0ffffffc0fffffff) (hf : freeBits N = freeBits M) : N = M := by
  unfold freeBits at hf
  simp only [Prod.mk.injEq] at hf
  obtain ⟨f1, f2, f3, f4⟩ := hf
  apply Nat.eq_of_testBit_eq
  intro i
  by_cases hi : i < 128
  · rcases mask_bits i hi with h | h | h | h | h
    · have := congrArg (fun n => Nat.testBit n i) hc
      simpa only [Nat.testBit_and, h, Bool.and_true] using this
    · rw [free_bit (k := 28) (w := 6) h.1 (by omega), free_bit (N := M) (k := 28) (w := 6) h.1 (by omega), show (2 : Nat) ^ 6 = 64 by rfl, f1]
    · rw [free_bit (k := 60) (w := 6) h.1 (by omega), free_bit (N := M) (k := 60) (w := 6) h.1 (by omega), show (2 : Nat) ^ 6 = 64 by rfl, f2]
    · rw [free_bit (k := 92) (w := 6) h.1 (by omega), free_bit (N := M) (k := 92) (w := 6) h.1 (by omega), show (2 : Nat) ^ 6 = 64 by rfl, f3]
    · rw [free_bit (k := 124) (w := 4) h.1 (by omega), free_bit (N := M) (k := 124) (w := 4) h.1 (by omega), show (2 : Nat) ^ 4 = 16 by rfl, f4]
  · have p : 2 ^ 128 ≤ 2 ^ i := Nat.pow_le_pow_right (by omega) (by omega)
    rw [Nat.testBit_lt_two_pow (Nat.lt_of_lt_of_le hN p), Nat.testBit_lt_two_pow (Nat.lt_of_lt_of_le hM p)]

theorem ncard_clamp (T : Finset Nat) : {N : Nat | N < 2 ^ 128 ∧ N &&& 0x0ffffffc0ffffffc0ffffffc0fffffff ∈ T}.ncard ≤ 2 ^ 22 * T.card := by
  let B : Finset (Nat × Nat × Nat × Nat × Nat) := T ×ˢ Finset.range 64 ×ˢ Finset.range 64 ×ˢ Finset.range 64 ×ˢ Finset.range 16
  have hB : B.card = 2 ^ 22 * T.card := by
    simp only [B, Finset.card_product, Finset.card_range]
    omega
  rw [← hB, ← Set.ncard_coe_finset]
  refine Set.ncard_le_ncard_of_injOn (fun N => (N &&& 0x0ffffffc0ffffffc0ffffffc0fffffff, freeBits N)) ?_ ?_ B.finite_toSet
  · intro N hN
    simp only [B, Finset.coe_product, Set.mem_prod, Finset.mem_coe, Finset.mem_range, freeBits]
    exact ⟨hN.2, Nat.mod_lt _ (by omega), Nat.mod_lt _ (by omega), Nat.mod_lt _ (by omega), Nat.mod_lt _ (by omega)⟩
  · intro N hN M hM h
    simp only [Prod.mk.injEq] at h
    exact clamp_inj hN.1 hM.1 h.1 (Prod.ext_iff.2 (by simpa only [Prod.mk.injEq, Prod.ext_iff] using h.2))

/-! ### Keys of a tag -/

theorem clampR_lt (k : Bytes) : clampR k < P1305 := by
  unfold clampR
  have : leVal (k.take 16) &&& 0x0ffffffc0ffffffc0ffffffc0fffffff ≤ 0x0ffffffc0ffffffc0ffffffc0fffffff := Nat.and_le_right
  have P1 : 0x0ffffffc0ffffffc0ffffffc0fffffff < P1305 := by decide +kernel
  omega

/-- The second half of the key that gives the tag `t` for the first half `b` (no line of its own). -/
def secondHalf (m t b : Bytes) : Bytes := leBytes 16 (leVal t + 2 ^ 128 - polySum m (clampR b) % P1305 % 2 ^ 128)

theorem length_leBytes' (n v : Nat) : (leBytes n v).length = n := by simp [leBytes]

theorem tag_iff {m t k : Bytes} (ht : t.length = 16) (hk : k.length = 32) : poly1305 k m = t ↔ k.drop 16 = secondHalf m t (k.take 16) := by
  have hl : (k.drop 16).length = 16 := by rw [List.length_drop]; omega
  have l1 := leVal_lt (k.drop 16)
  have l2 := leVal_lt t
  rw [hl] at l1
  rw [ht] at l2
  have ec : clampR (k.take 16) = clampR k := by unfold clampR; rw [List.take_take]; rfl
  unfold poly1305 secondHalf
  rw [ec]
  generalize polySum m (clampR k) % P1305 = h
  constructor
  · intro e
    have e' := congrArg leVal e
    rw [leVal_leBytes] at e'
    rw [← leBytes_leVal (k.drop 16), hl]
    apply congrArg leVal at e
    have : leVal (leBytes 16 (leVal (k.drop 16))) = leVal (leBytes 16 (leVal t + 2 ^ 128 - h % 2 ^ 128)) := by
      rw [leVal_leBytes, leVal_leBytes]
      omega
    rw [← leBytes_leVal (leBytes 16 (leVal (k.drop 16))), ← leBytes_leVal (leBytes 16 (leVal t + 2 ^ 128 - h % 2 ^ 128)), this, length_leBytes', length_leBytes']
  · intro e
    have e' := congrArg leVal e
    rw [leVal_leBytes] at e'
    have : leVal (leBytes 16 ((h + leVal (k.drop 16)) % 2 ^ 128)) = leVal t := by
      rw [leVal_leBytes]
      omega
    rw [← leBytes_leVal (leBytes 16 _), this, length_leBytes', ← ht, leBytes_leVal]

theorem ncard_keys {m t : Bytes} (ht : t.length = 16) (Q : Bytes → Prop) :
    {k : Bytes | k.length = 32 ∧ poly1305 k m = t ∧ Q k}.ncard = {b : Bytes | b.length = 16 ∧ Q (b ++ secondHalf m t b)}.ncard := by
  symm
  have hinj : Set.InjOn (fun b => b ++ secondHalf m t b) {b : Bytes | b.length = 16 ∧ Q (b ++ secondHalf m t b)} := by
    intro a ha b hb h
    exact (List.append_inj h (by rw [ha.1, hb.1])).1
  rw [← hinj.ncard_image]
  congr 1
  ext k
  simp only [Set.mem_image, Set.mem_ofPred_eq]
  constructor
  · rintro ⟨b, ⟨hb, hq⟩, rfl⟩
    have hl : (b ++ secondHalf m t b).length = 32 := by rw [List.length_append, hb, secondHalf, length_leBytes']
    refine ⟨hl, (tag_iff ht hl).2 ?_, hq⟩
    rw [List.drop_left' hb, List.take_left' hb]
  · rintro ⟨hl, hk, hq⟩
    rw [tag_iff ht hl] at hk
    have e : k.take 16 ++ secondHalf m t (k.take 16) = k := by rw [← hk, List.take_append_drop]
    exact ⟨k.take 16, ⟨by rw [List.length_take]; omega, by rw [e]; exact hq⟩, e⟩

theorem ncard_all16 : {b : Bytes | b.length = 16}.ncard = 2 ^ 128 := by
  have := ncard_bytes 16 fun _ => True
  simp only [and_true] at this
  rw [this, show {N : Nat | N < 256 ^ 16} = ((Finset.range (256 ^ 16) : Finset Nat) : Set Nat) by ext; simp, Set.ncard_coe_finset, Finset.card_range]
  decide +kernel

theorem finite_bytes (n : Nat) : {b : Bytes | b.length = n}.Finite :=
  haveI : Finite Byte := Finite.of_injective (fun b : Byte => b.toFin) fun _ _ h => BitVec.eq_of_toFin_eq h
  List.finite_length_eq Byte n

theorem two_tags {m m' t t' : Bytes} (hne : m ≠ m') (ht : t.length = 16) (ht' : t'.length = 16) :
    {k : Bytes | k.length = 32 ∧ poly1305 k m = t ∧ poly1305 k m' = t'}.ncard ≤ 2 ^ 22 * (8 * max ((m.length + 15) / 16) ((m'.length + 15) / 16)) := by
  rw [ncard_keys ht]
  obtain ⟨g, hg⟩ : ∃ g, g = leVal t + 2 ^ 128 - leVal t' := ⟨_, rfl⟩
  have l1 := leVal_lt t
  have l2 := leVal_lt t'
  rw [ht] at l1
  rw [ht'] at l2
  have hsub : {b : Bytes | b.length = 16 ∧ poly1305 (b ++ secondHalf m t b) m' = t'} ⊆ {b : Bytes | b.length = 16 ∧ (leVal b &&& 0x0ffffffc0ffffffc0ffffffc0fffffff) ∈ badR m m' g} := by
    rintro b ⟨hb, hk⟩
    refine ⟨hb, ?_⟩
    have hl : (b ++ secondHalf m t b).length = 32 := by rw [List.length_append, hb, secondHalf, length_leBytes']
    have hk1 : poly1305 (b ++ secondHalf m t b) m = t := (tag_iff ht hl).2 (by rw [List.drop_left' hb, List.take_left' hb])
    have hr := clampR_lt (b ++ secondHalf m t b)
    have er : leVal b &&& 0x0ffffffc0ffffffc0ffffffc0fffffff = clampR (b ++ secondHalf m t b) := by
      unfold clampR
      rw [List.take_left' hb]
    rw [er]
    refine mem_badR hne hr ?_
    have e1 := congrArg leVal hk1
    have e2 := congrArg leVal hk
    unfold poly1305 at e1 e2
    rw [leVal_leBytes] at e1 e2
    generalize leVal ((b ++ secondHalf m t b).drop 16) = s at e1 e2
    generalize polySum m (clampR (b ++ secondHalf m t b)) % P1305 = h1 at e1 ⊢
    generalize polySum m' (clampR (b ++ secondHalf m t b)) % P1305 = h2 at e2 ⊢
    omega
  refine Nat.le_trans (Set.ncard_le_ncard hsub ?_) ?_
  · exact (finite_bytes 16).subset fun b hb => hb.1
  · rw [ncard_bytes 16 fun N => (N &&& 0x0ffffffc0ffffffc0ffffffc0fffffff) ∈ badR m m' g, show (256 : Nat) ^ 16 = 2 ^ 128 by decide +kernel]
    exact Nat.le_trans (ncard_clamp _) (Nat.mul_le_mul_left _ (card_badR _ _ _))

end Verif.Nacl
