import Verif.Witness.Keccak
import Verif.Keccak.Fips
import Verif.Dilithium.Encode

/-!
SHAKE on natural numbers, for evaluation by the kernel: the 200 bytes of the state are one number, and so are input and output.
-/

namespace Verif.Witness
open Verif Verif.Keccak Verif.Dilithium

/-- The lanes of a state given as one number of 1600 bits (common/fips202.c:89-114). -/
def unpackSt (n : Nat) : St where
  a0 := Nat.mod (Nat.shiftRight n 0) 18446744073709551616
  a1 := Nat.mod (Nat.shiftRight n 64) 18446744073709551616
  a2 := Nat.mod (Nat.shiftRight n 128) 18446744073709551616
  a3 := Nat.mod (Nat.shiftRight n 192) 18446744073709551616
  a4 := Nat.mod (Nat.shiftRight n 256) 18446744073709551616
  a5 := Nat.mod (Nat.shiftRight n 320) 18446744073709551616
  a6 := Nat.mod (Nat.shiftRight n 384) 18446744073709551616
  a7 := Nat.mod (Nat.shiftRight n 448) 18446744073709551616
  a8 := Nat.mod (Nat.shiftRight n 512) 18446744073709551616
  a9 := Nat.mod (Nat.shiftRight n 576) 18446744073709551616
  a10 := Nat.mod (Nat.shiftRight n 640) 18446744073709551616
  a11 := Nat.mod (Nat.shiftRight n 704) 18446744073709551616
  a12 := Nat.mod (Nat.shiftRight n 768) 18446744073709551616
  a13 := Nat.mod (Nat.shiftRight n 832) 18446744073709551616
  a14 := Nat.mod (Nat.shiftRight n 896) 18446744073709551616
  a15 := Nat.mod (Nat.shiftRight n 960) 18446744073709551616
  a16 := Nat.mod (Nat.shiftRight n 1024) 18446744073709551616
  a17 := Nat.mod (Nat.shiftRight n 1088) 18446744073709551616
  a18 := Nat.mod (Nat.shiftRight n 1152) 18446744073709551616
  a19 := Nat.mod (Nat.shiftRight n 1216) 18446744073709551616
  a20 := Nat.mod (Nat.shiftRight n 1280) 18446744073709551616
  a21 := Nat.mod (Nat.shiftRight n 1344) 18446744073709551616
  a22 := Nat.mod (Nat.shiftRight n 1408) 18446744073709551616
  a23 := Nat.mod (Nat.shiftRight n 1472) 18446744073709551616
  a24 := Nat.mod (Nat.shiftRight n 1536) 18446744073709551616

/-- Two neighbouring pieces of a number (no line of its own). -/
def join (a w b : Nat) : Nat := Nat.add a (Nat.shiftLeft b w)

/-- The state as one number (common/fips202.c:308-333). -/
def packSt (s : St) : Nat :=
  St.casesOn s fun a0 a1 a2 a3 a4 a5 a6 a7 a8 a9 a10 a11 a12 a13 a14 a15 a16 a17 a18 a19 a20 a21 a22 a23 a24 =>
  join a0 64 (join a1 64 (join a2 64 (join a3 64 (join a4 64 (join a5 64 (join a6 64 (join a7 64 (join a8 64 (join a9 64 (join a10 64 (join a11 64 (join a12 64 (join a13 64 (join a14 64 (join a15 64 (join a16 64 (join a17 64 (join a18 64 (join a19 64 (join a20 64 (join a21 64 (join a22 64 (join a23 64 a24)))))))))))))))))))))))

/-- The permutation (common/fips202.c:73-334). -/
def permN (n : Nat) : Nat := packSt (permSt (unpackSt n))

/-- Absorbing the padded message `M` of `k + 1` blocks of `w` bits, without the permutation after the last block (common/fips202.c:336-377). -/
def absorbN (w : Nat) : (k M S : Nat) → Nat
  | 0, M, S => Nat.xor S M
  | k + 1, M, S => force (permN (Nat.xor S (Nat.mod M (Nat.pow 2 w)))) fun S' => force (Nat.shiftRight M w) fun M' => absorbN w k M' S'

/-- The next `k` blocks of output (common/fips202.c:379-402). -/
def squeezeN (w : Nat) : (k S : Nat) → Nat
  | 0, _ => 0
  | k + 1, S => force (permN S) fun S' => join (Nat.mod S' (Nat.pow 2 w)) w (squeezeN w k S')

/-- `k` blocks of SHAKE with rate `r` of the message of `len` bytes that is the little-endian number `M` (common/fips202.c:577-620). -/
def shakeN (r len M k : Nat) : Nat :=
  squeezeN (8 * r) k (absorbN (8 * r) (len / r)
    (Nat.add M (Nat.shiftLeft (Nat.add 31 (Nat.shiftLeft 128 (8 * (r - len % r - 1)))) (8 * len))) 0)

/-- The first block of SHA-3 with rate `r` (common/fips202.c:915-928). -/
def sha3N (r len M : Nat) : Nat :=
  squeezeN (8 * r) 1 (absorbN (8 * r) (len / r)
    (Nat.add M (Nat.shiftLeft (Nat.add 6 (Nat.shiftLeft 128 (8 * (r - len % r - 1)))) (8 * len))) 0)

/-! ### Proofs -/

/-- The state of the model as one number (common/fips202.c:76-87). -/
def num : List W64 → Nat
  | [] => 0
  | a :: l => a.toNat + 2 ^ 64 * num l

theorem join_eq (a w b : Nat) : join a w b = a + 2 ^ w * b := by
  show a + b <<< w = _
  rw [Nat.shiftLeft_eq, Nat.mul_comm]

theorem num_lane (s : List W64) (i : Nat) : num s / 2 ^ (64 * i) % 2 ^ 64 = (s.getD i 0).toNat := by
  induction s generalizing i with
  | nil => simp [num]
  | cons a s ih =>
    cases i with
    | zero =>
      rw [num, Nat.mul_zero, Nat.pow_zero, Nat.div_one, Nat.add_mul_mod_self_left, Nat.mod_eq_of_lt a.isLt]; rfl
    | succ i =>
      rw [num, show 64 * (i + 1) = 64 + 64 * i by ring, Nat.pow_add, ← Nat.div_div_eq_div_mul, Nat.add_mul_div_left _ _ (Nat.two_pow_pos _),
        Nat.div_eq_of_lt a.isLt, Nat.zero_add, ih]
      rfl

theorem testBit_num (s : List W64) (k : Nat) : (num s).testBit k = sbit s k := by
  unfold sbit
  rw [← BitVec.testBit_toNat, ← num_lane, Nat.testBit_mod_two_pow, Nat.testBit_div_two_pow]
  have : k % 64 < 64 := Nat.mod_lt _ (by decide)
  simp only [this, decide_true, Bool.true_and]
  congr 1
  omega

theorem num_lt (s : List W64) : num s < 2 ^ (64 * s.length) := by
  induction s with
  | nil => simp [num]
  | cons a s ih =>
    rw [num, List.length_cons, show 64 * (s.length + 1) = 64 + 64 * s.length by ring, Nat.pow_add]
    have := a.isLt
    have : 2 ^ 64 * (num s + 1) ≤ 2 ^ 64 * 2 ^ (64 * s.length) := Nat.mul_le_mul_left _ ih
    omega

theorem permN_num {s : List W64} (h : s.length = 25) : permN (num s) = num (Keccak.perm s) := by
  match s, h with
  | [s0, s1, s2, s3, s4, s5, s6, s7, s8, s9, s10, s11, s12, s13, s14, s15, s16, s17, s18, s19, s20, s21, s22, s23, s24], _ =>
    obtain ⟨L', e, h⟩ := permuteLanes_st ⟨s0, s1, s2, s3, s4, s5, s6, s7, s8, s9, s10, s11, s12, s13, s14, s15, s16, s17, s18, s19, s20, s21, s22, s23, s24⟩
    have g : ∀ (s : List W64) (i : Nat), Nat.mod (Nat.shiftRight (num s) (64 * i)) 18446744073709551616 = (s.getD i 0).toNat := by
      intro s i
      show (num s) >>> (64 * i) % 18446744073709551616 = _
      rw [Nat.shiftRight_eq_div_pow]
      exact num_lane s i
    have u : unpackSt (num [s0, s1, s2, s3, s4, s5, s6, s7, s8, s9, s10, s11, s12, s13, s14, s15, s16, s17, s18, s19, s20, s21, s22, s23, s24]) =
        toSt ⟨s0, s1, s2, s3, s4, s5, s6, s7, s8, s9, s10, s11, s12, s13, s14, s15, s16, s17, s18, s19, s20, s21, s22, s23, s24⟩ := by
      generalize hs : [s0, s1, s2, s3, s4, s5, s6, s7, s8, s9, s10, s11, s12, s13, s14, s15, s16, s17, s18, s19, s20, s21, s22, s23, s24] = s
      unfold unpackSt toSt
      simp only [St.mk.injEq]
      refine ⟨?_, ?_, ?_, ?_, ?_, ?_, ?_, ?_, ?_, ?_, ?_, ?_, ?_, ?_, ?_, ?_, ?_, ?_, ?_, ?_, ?_, ?_, ?_, ?_, ?_⟩
      · exact (g s 0).trans (by rw [← hs]; rfl)
      · exact (g s 1).trans (by rw [← hs]; rfl)
      · exact (g s 2).trans (by rw [← hs]; rfl)
      · exact (g s 3).trans (by rw [← hs]; rfl)
      · exact (g s 4).trans (by rw [← hs]; rfl)
      · exact (g s 5).trans (by rw [← hs]; rfl)
      · exact (g s 6).trans (by rw [← hs]; rfl)
      · exact (g s 7).trans (by rw [← hs]; rfl)
      · exact (g s 8).trans (by rw [← hs]; rfl)
      · exact (g s 9).trans (by rw [← hs]; rfl)
      · exact (g s 10).trans (by rw [← hs]; rfl)
      · exact (g s 11).trans (by rw [← hs]; rfl)
      · exact (g s 12).trans (by rw [← hs]; rfl)
      · exact (g s 13).trans (by rw [← hs]; rfl)
      · exact (g s 14).trans (by rw [← hs]; rfl)
      · exact (g s 15).trans (by rw [← hs]; rfl)
      · exact (g s 16).trans (by rw [← hs]; rfl)
      · exact (g s 17).trans (by rw [← hs]; rfl)
      · exact (g s 18).trans (by rw [← hs]; rfl)
      · exact (g s 19).trans (by rw [← hs]; rfl)
      · exact (g s 20).trans (by rw [← hs]; rfl)
      · exact (g s 21).trans (by rw [← hs]; rfl)
      · exact (g s 22).trans (by rw [← hs]; rfl)
      · exact (g s 23).trans (by rw [← hs]; rfl)
      · exact (g s 24).trans (by rw [← hs]; rfl)
    rw [permN, u, ← h, Keccak.perm, permute]
    simp only [e, ok_bind]
    unfold toSt packSt
    simp only [num, join_eq, Nat.mul_zero, Nat.add_zero]

theorem testBit_ofLe (b : Bytes) (k : Nat) : (ofLe b).testBit k = (b.getD (k / 8) 0).getLsbD (k % 8) := by
  induction b generalizing k with
  | nil => simp [ofLe]
  | cons a b ih =>
    have e : ofLe (a :: b) = 2 ^ 8 * ofLe b + a.toNat := by rw [ofLe_cons, Nat.add_comm]; rfl
    rw [e, Nat.testBit_two_pow_mul_add _ a.isLt]
    by_cases h : k < 8
    · rw [if_pos h, Nat.div_eq_of_lt h, Nat.mod_eq_of_lt h, BitVec.testBit_toNat]; rfl
    · rw [if_neg h, ih, show k / 8 = (k - 8) / 8 + 1 by omega, show k % 8 = (k - 8) % 8 by omega]; rfl

theorem num_xorBytes {s : List W64} (m : Bytes) (hs : s.length = 25) (hm : m.length ≤ 200) : num (xorBytes s 0 m) = Nat.xor (num s) (ofLe m) := by
  apply Nat.eq_of_testBit_eq
  intro k
  show _ = ((num s) ^^^ (ofLe m)).testBit k
  rw [Nat.testBit_xor, testBit_num, testBit_num, testBit_ofLe, sbit_xorBytes s 0 m hs (by omega)]
  by_cases h : k / 8 < m.length
  · simp [h]
  · have : m.getD (k / 8) 0 = 0 := by rw [List.getD_eq_getElem?_getD, List.getElem?_eq_none (by omega)]; rfl
    rw [this]
    simp [h]

theorem num_bytesAt {s : List W64} (r : Nat) : ofLe (bytesAt s 0 r) = num s % 2 ^ (8 * r) := by
  apply Nat.eq_of_testBit_eq
  intro k
  rw [testBit_ofLe, Nat.testBit_mod_two_pow, testBit_num]
  by_cases h : k / 8 < r
  · have : k < 8 * r := by omega
    rw [List.getD_eq_getElem?_getD, bytesAt, List.getElem?_map, List.getElem?_range h]
    simp only [Option.map_some, Option.getD_some, Nat.zero_add, this, decide_true, Bool.true_and]
    rw [getLsbD_byteAt _ _ _ (Nat.mod_lt _ (by decide)), Nat.div_add_mod]
  · have : ¬ k < 8 * r := by omega
    rw [List.getD_eq_getElem?_getD, List.getElem?_eq_none (by rw [length_bytesAt]; omega)]
    simp [this]

theorem absorbN_num {r : Nat} (h0 : 0 < r) (hr : r ≤ 200) (q : Nat) {s : List W64} (hs : s.length = 25) {m c : Bytes} {t : Nat}
    (hm : m.length = r * q + t) (ht : t < r) (hc : t + c.length = r) :
    num (xorBytes (feedAll r ⟨s, 0⟩ m).s (feedAll r ⟨s, 0⟩ m).cnt c) = absorbN (8 * r) q (ofLe (m ++ c)) (num s) := by
  induction q generalizing s m with
  | zero =>
    rw [Nat.mul_zero, Nat.zero_add] at hm
    rw [feedAll_lt _ _ (by simp only; omega)]
    simp only [Nat.zero_add]
    have e := xorBytes_append s 0 m c
    rw [Nat.zero_add] at e
    rw [← e, num_xorBytes _ hs (by rw [List.length_append]; omega)]
    rfl
  | succ q ih =>
    obtain ⟨b, m', rfl, hb⟩ : ∃ b m', m = b ++ m' ∧ b.length = r :=
      ⟨m.take r, m.drop r, (List.take_append_drop r m).symm, by rw [List.length_take, hm, Nat.mul_succ]; omega⟩
    have hm' : m'.length = r * q + t := by rw [List.length_append, hb, Nat.mul_succ] at hm; omega
    rw [feedAll_append, feedAll_eq ⟨s, 0⟩ b (by simp only; omega) (by simp only; omega), ih (length_perm (by rw [length_xorBytes]; exact hs)) hm', absorbN, force_eq, force_eq]
    have p8 : (256 : Nat) ^ r = 2 ^ (8 * r) := by rw [Nat.pow_mul]
    have hlt : ofLe b < 2 ^ (8 * r) := by rw [← p8, ← hb]; exact ofLe_lt b
    have e1 : ofLe (b ++ m' ++ c) = ofLe b + 2 ^ (8 * r) * ofLe (m' ++ c) := by rw [List.append_assoc, ofLe_append, hb, p8]
    have e2 : Nat.mod (ofLe (b ++ m' ++ c)) (Nat.pow 2 (8 * r)) = ofLe b := by
      rw [e1]
      show (ofLe b + 2 ^ (8 * r) * ofLe (m' ++ c)) % 2 ^ (8 * r) = _
      rw [Nat.add_mul_mod_self_left, Nat.mod_eq_of_lt hlt]
    have e3 : Nat.shiftRight (ofLe (b ++ m' ++ c)) (8 * r) = ofLe (m' ++ c) := by
      rw [e1]
      show (ofLe b + 2 ^ (8 * r) * ofLe (m' ++ c)) >>> (8 * r) = _
      rw [Nat.shiftRight_eq_div_pow, Nat.add_mul_div_left _ _ (Nat.two_pow_pos _), Nat.div_eq_of_lt hlt, Nat.zero_add]
    rw [e2, e3, ← num_xorBytes b hs (by omega), permN_num (by rw [length_xorBytes]; exact hs)]

theorem squeezeN_num {r : Nat} (h0 : 0 < r) (hr : r ≤ 200) (k : Nat) {s : List W64} (hs : s.length = 25) :
    ofLe (nextN r ⟨s, 0⟩ (r * k)).1 = squeezeN (8 * r) k (num s) := by
  induction k generalizing s with
  | zero => rfl
  | succ k ih =>
    rw [show r * (k + 1) = r + r * k by ring, nextN_add, nextN_new _ h0 (Nat.le_refl _)]
    simp only [Nat.sub_self]
    rw [ofLe_append, length_bytesAt, ih (length_perm hs), squeezeN, force_eq, join_eq, permN_num hs, num_bytesAt]
    have p8 : (256 : Nat) ^ r = 2 ^ (8 * r) := by rw [Nat.pow_mul]
    rw [p8]
    rfl

theorem ofLe_replicate (k : Nat) (l : Bytes) : ofLe (List.replicate k 0 ++ l) = 256 ^ k * ofLe l := by
  induction k with
  | zero => simp
  | succ k ih =>
    rw [List.replicate_succ, List.cons_append, ofLe_cons, ih, Nat.pow_succ]
    show 0 + 256 * (256 ^ k * ofLe l) = _
    ring

theorem ofLe_padBytes {r len : Nat} {p : Byte} (hp : (p ||| 128).toNat = p.toNat + 128) (h0 : 0 < r) : ofLe (padBytes r p len) = p.toNat + 2 ^ (8 * (r - len % r - 1)) * 128 := by
  have := Nat.mod_lt len h0
  unfold padBytes
  simp only
  by_cases h : r - len % r = 1
  · rw [if_pos h, h, ofLe_cons, hp]; rfl
  · rw [if_neg h, ofLe_cons, ofLe_replicate]
    have e : (256 : Nat) ^ (r - len % r - 2) * 256 = 2 ^ (8 * (r - len % r - 1)) := by
      rw [← Nat.pow_succ, Nat.pow_mul]; congr 1; omega
    rw [← e]
    show p.toNat + 256 * (256 ^ (r - len % r - 2) * 128) = _
    ring

theorem spongeN_eq {r : Nat} {p : Byte} (hp : (p ||| 128).toNat = p.toNat + 128) (h0 : 0 < r) (hr : r ≤ 200) (m : Bytes) (k : Nat) : ofLe (stream r p m (r * k)) =
    squeezeN (8 * r) k (absorbN (8 * r) (m.length / r)
      (Nat.add (ofLe m) (Nat.shiftLeft (Nat.add p.toNat (Nat.shiftLeft 128 (8 * (r - m.length % r - 1)))) (8 * m.length))) 0) := by
  have hl : (padded r p m).length = 25 := length_padded h0 hr
  unfold stream
  rw [squeezeN_num h0 hr k hl]
  congr 1
  have hz : num (List.replicate 25 0) = 0 := by decide
  have := absorbN_num h0 hr (m.length / r) (s := List.replicate 25 0) (m := m) (c := padBytes r p m.length) (t := m.length % r) rfl
    (Nat.div_add_mod _ _).symm (Nat.mod_lt _ h0) (by rw [length_padBytes h0]; have := Nat.mod_lt m.length h0; omega)
  rw [hz] at this
  rw [padded]
  simp only [incInit]
  rw [this]
  congr 1
  rw [ofLe_append, ofLe_padBytes hp h0]
  show _ = ofLe m + (p.toNat + 128 <<< (8 * (r - m.length % r - 1))) <<< (8 * m.length)
  rw [Nat.shiftLeft_eq, Nat.shiftLeft_eq, Nat.pow_mul 2 8 m.length]
  ring

/-- SHAKE on numbers is SHAKE on bytes. -/
theorem shakeN_eq {r : Nat} (h0 : 0 < r) (hr : r ≤ 200) (m : Bytes) (k : Nat) : ofLe (stream r 0x1F m (r * k)) = shakeN r m.length (ofLe m) k :=
  spongeN_eq (p := 0x1F) (by decide) h0 hr m k

/-- SHA-3 on numbers is SHA-3 on bytes. -/
theorem sha3N_eq {r : Nat} (h0 : 0 < r) (hr : r ≤ 200) (m : Bytes) : ofLe (stream r 0x06 m r) = sha3N r m.length (ofLe m) := by
  have := spongeN_eq (p := 0x06) (by decide) h0 hr m 1
  rwa [Nat.mul_one] at this

end Verif.Witness
