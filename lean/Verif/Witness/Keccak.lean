import Mathlib.Tactic.Ring
import Verif.Keccak.Sponge

/-!
KECCAK-f[1600] on natural numbers, for evaluation by the kernel (which computes with natural numbers fast, but not with bit vectors), and
the proof that it is the permutation of the model.
-/

namespace Verif.Witness
open Verif Verif.Keccak

/-- Evaluation of a number before it is passed on (no line of its own). -/
def force {α : Type} (n : Nat) (k : Nat → α) : α := Nat.casesOn n (k 0) (fun m => k (Nat.succ m))

theorem force_eq {α : Type} (n : Nat) (k : Nat → α) : force n k = k n := by cases n <;> rfl

/-- 25 lanes as numbers (common/fips202.c:76-87). -/
@[ext] structure St where
  (a0 a1 a2 a3 a4 : Nat)
  (a5 a6 a7 a8 a9 : Nat)
  (a10 a11 a12 a13 a14 : Nat)
  (a15 a16 a17 a18 a19 : Nat)
  (a20 a21 a22 a23 a24 : Nat)

/-- Rotation of 64 bits to the left by multiplication: `k` is 2^r * (2^64 + 1) (common/fips202.c:15). -/
def rolK (a k : Nat) : Nat := Nat.mod (Nat.shiftRight (Nat.mul a k) 64) 18446744073709551616
/-- `a ^ (~b & c)` (the step chi in common/fips202.c:117-211). -/
def chi3 (a b c : Nat) : Nat := Nat.xor a (Nat.xor c (Nat.land b c))
/-- `a ^ b ^ c ^ d ^ e` (the step theta in common/fips202.c:117-211). -/
def xor5 (a b c d e : Nat) : Nat := Nat.xor (Nat.xor (Nat.xor (Nat.xor a b) c) d) e

/-- Chi and iota of the round, from the lanes after pi (common/fips202.c:117-211). -/
def chiSt (rc b0 b1 b2 b3 b4 b5 b6 b7 b8 b9 b10 b11 b12 b13 b14 b15 b16 b17 b18 b19 b20 b21 b22 b23 b24 : Nat) : St where
  a0 := Nat.xor (chi3 b0 b1 b2) rc
  a1 := chi3 b1 b2 b3
  a2 := chi3 b2 b3 b4
  a3 := chi3 b3 b4 b0
  a4 := chi3 b4 b0 b1
  a5 := chi3 b5 b6 b7
  a6 := chi3 b6 b7 b8
  a7 := chi3 b7 b8 b9
  a8 := chi3 b8 b9 b5
  a9 := chi3 b9 b5 b6
  a10 := chi3 b10 b11 b12
  a11 := chi3 b11 b12 b13
  a12 := chi3 b12 b13 b14
  a13 := chi3 b13 b14 b10
  a14 := chi3 b14 b10 b11
  a15 := chi3 b15 b16 b17
  a16 := chi3 b16 b17 b18
  a17 := chi3 b17 b18 b19
  a18 := chi3 b18 b19 b15
  a19 := chi3 b19 b15 b16
  a20 := chi3 b20 b21 b22
  a21 := chi3 b21 b22 b23
  a22 := chi3 b22 b23 b24
  a23 := chi3 b23 b24 b20
  a24 := chi3 b24 b20 b21

/-- Rho and pi of the round, from the lanes and the words that theta adds (common/fips202.c:117-211). -/
def rhoSt (rc a0 a1 a2 a3 a4 a5 a6 a7 a8 a9 a10 a11 a12 a13 a14 a15 a16 a17 a18 a19 a20 a21 a22 a23 a24 d0 d1 d2 d3 d4 : Nat) : St :=
  chiSt rc
    (Nat.xor a0 d0)
    (rolK (Nat.xor a6 d1) 324518553658426726800748206620672)
    (rolK (Nat.xor a12 d2) 162259276829213363400374103310336)
    (rolK (Nat.xor a18 d3) 38685626227668133592694784)
    (rolK (Nat.xor a24 d4) 302231454903657293692928)
    (rolK (Nat.xor a3 d3) 4951760157141521099864932352)
    (rolK (Nat.xor a9 d4) 19342813113834066796347392)
    (rolK (Nat.xor a10 d0) 147573952589676412936)
    (rolK (Nat.xor a16 d1) 649037107316853453601496413241344)
    (rolK (Nat.xor a22 d2) 42535295865117307935227668938184720384)
    (rolK (Nat.xor a1 d1) 36893488147419103234)
    (rolK (Nat.xor a7 d2) 1180591620717411303488)
    (rolK (Nat.xor a13 d3) 618970019642690137483116544)
    (rolK (Nat.xor a19 d4) 4722366482869645213952)
    (rolK (Nat.xor a20 d0) 4835703278458516699086848)
    (rolK (Nat.xor a4 d4) 2475880078570760549932466176)
    (rolK (Nat.xor a5 d0) 1267650600228229401565422682112)
    (rolK (Nat.xor a11 d1) 18889465931478580855808)
    (rolK (Nat.xor a17 d2) 604462909807314587385856)
    (rolK (Nat.xor a23 d3) 1329227995784915872975864654318272512)
    (rolK (Nat.xor a2 d2) 85070591730234615870455337876369440768)
    (rolK (Nat.xor a8 d3) 664613997892457936487932327159136256)
    (rolK (Nat.xor a14 d4) 10141204801825835212523381456896)
    (rolK (Nat.xor a15 d0) 40564819207303340850093525827584)
    (rolK (Nat.xor a21 d1) 73786976294838206468)

/-- Theta of the round, from the lanes and the parities of the columns (common/fips202.c:117-211). -/
def thetaSt (rc a0 a1 a2 a3 a4 a5 a6 a7 a8 a9 a10 a11 a12 a13 a14 a15 a16 a17 a18 a19 a20 a21 a22 a23 a24 c0 c1 c2 c3 c4 : Nat) : St :=
  rhoSt rc a0 a1 a2 a3 a4 a5 a6 a7 a8 a9 a10 a11 a12 a13 a14 a15 a16 a17 a18 a19 a20 a21 a22 a23 a24
    (Nat.xor c4 (rolK c1 36893488147419103234))
    (Nat.xor c0 (rolK c2 36893488147419103234))
    (Nat.xor c1 (rolK c3 36893488147419103234))
    (Nat.xor c2 (rolK c4 36893488147419103234))
    (Nat.xor c3 (rolK c0 36893488147419103234))

/-- One round (common/fips202.c:117-211). -/
def rnd (rc : Nat) (s : St) : St :=
  St.casesOn s fun a0 a1 a2 a3 a4 a5 a6 a7 a8 a9 a10 a11 a12 a13 a14 a15 a16 a17 a18 a19 a20 a21 a22 a23 a24 =>
  thetaSt rc a0 a1 a2 a3 a4 a5 a6 a7 a8 a9 a10 a11 a12 a13 a14 a15 a16 a17 a18 a19 a20 a21 a22 a23 a24
    (xor5 a0 a5 a10 a15 a20)
    (xor5 a1 a6 a11 a16 a21)
    (xor5 a2 a7 a12 a17 a22)
    (xor5 a3 a8 a13 a18 a23)
    (xor5 a4 a9 a14 a19 a24)

/-- The round constants (common/fips202.c:44-70). -/
def rcs : List Nat :=
  [0x1, 0x8082, 0x800000000000808a, 0x8000000080008000, 0x808b, 0x80000001,
    0x8000000080008081, 0x8000000000008009, 0x8a, 0x88, 0x80008009, 0x8000000a,
    0x8000808b, 0x800000000000008b, 0x8000000000008089, 0x8000000000008003, 0x8000000000008002, 0x8000000000000080,
    0x800a, 0x800000008000000a, 0x8000000080008081, 0x8000000000008080, 0x80000001, 0x8000000080008008]

/-- The rounds with the given constants (common/fips202.c:114-310). -/
def rounds : List Nat → St → St
  | [], s => s
  | c :: cs, s => rounds cs (rnd c s)

/-- Evaluation of the lanes (no line of its own). -/
def forceSt (s : St) : St :=
  St.casesOn s fun a0 a1 a2 a3 a4 a5 a6 a7 a8 a9 a10 a11 a12 a13 a14 a15 a16 a17 a18 a19 a20 a21 a22 a23 a24 =>
  force a0 fun b0 => force a1 fun b1 => force a2 fun b2 => force a3 fun b3 => force a4 fun b4 =>
  force a5 fun b5 => force a6 fun b6 => force a7 fun b7 => force a8 fun b8 => force a9 fun b9 =>
  force a10 fun b10 => force a11 fun b11 => force a12 fun b12 => force a13 fun b13 => force a14 fun b14 =>
  force a15 fun b15 => force a16 fun b16 => force a17 fun b17 => force a18 fun b18 => force a19 fun b19 =>
  force a20 fun b20 => force a21 fun b21 => force a22 fun b22 => force a23 fun b23 => force a24 fun b24 =>
  St.mk b0 b1 b2 b3 b4 b5 b6 b7 b8 b9 b10 b11 b12 b13 b14 b15 b16 b17 b18 b19 b20 b21 b22 b23 b24

theorem forceSt_eq (s : St) : forceSt s = s := by cases s; simp only [forceSt, force_eq]

/-- The permutation (common/fips202.c:76-344). -/
def permSt (s : St) : St := forceSt (rounds rcs s)

/-! ### Equality with the model -/

/-- The lanes of the model as numbers (common/fips202.c:89-114). -/
def toSt (L : Lanes) : St :=
  ⟨L.ba.toNat, L.be.toNat, L.bi.toNat, L.bo.toNat, L.bu.toNat, L.ga.toNat, L.ge.toNat, L.gi.toNat, L.go.toNat, L.gu.toNat, L.ka.toNat, L.ke.toNat, L.ki.toNat, L.ko.toNat, L.ku.toNat, L.ma.toNat, L.me.toNat, L.mi.toNat, L.mo.toNat, L.mu.toNat, L.sa.toNat, L.se.toNat, L.si.toNat, L.so.toNat, L.su.toNat⟩

theorem toNat_xor' (a b : W64) : (a ^^^ b).toNat = Nat.xor a.toNat b.toNat := rfl

theorem toNat_chi (b c : W64) : (~~~ b &&& c).toNat = Nat.xor c.toNat (Nat.land b.toNat c.toNat) := by
  have h : ~~~ b &&& c = c ^^^ (b &&& c) := by
    apply BitVec.eq_of_getLsbD_eq
    intro i hi
    simp only [BitVec.getLsbD_and, BitVec.getLsbD_not, BitVec.getLsbD_xor, hi, decide_true, Bool.true_and]
    cases b.getLsbD i <;> cases c.getLsbD i <;> rfl
  rw [h]; rfl

theorem rolK_eq {a r : Nat} (ha : a < 2 ^ 64) (h0 : 0 < r) (hr : r < 64) : rolK a (2 ^ r * (2 ^ 64 + 1)) = a * 2 ^ r % 2 ^ 64 + a * 2 ^ r / 2 ^ 64 := by
  show (a * (2 ^ r * (2 ^ 64 + 1))) >>> 64 % 18446744073709551616 = _
  rw [Nat.shiftRight_eq_div_pow]
  have e : a * (2 ^ r * (2 ^ 64 + 1)) = a * 2 ^ r * 2 ^ 64 + a * 2 ^ r := by ring
  rw [e]
  have hx : a * 2 ^ r = 2 ^ r * a := Nat.mul_comm _ _
  -- a = hi * 2^(64-r) + lo
  have hs : 2 ^ r * 2 ^ (64 - r) = 2 ^ 64 := by rw [← Nat.pow_add]; congr 1; omega
  generalize hX : a * 2 ^ r = X at *
  have h1 : X % 2 ^ 64 = 2 ^ r * (a % 2 ^ (64 - r)) := by rw [hx, ← hs, Nat.mul_mod_mul_left]
  have h2 : X / 2 ^ 64 < 2 ^ r := by
    rw [Nat.div_lt_iff_lt_mul (Nat.two_pow_pos _), hx]
    exact Nat.mul_lt_mul_of_pos_left ha (Nat.two_pow_pos _)
  have h3 : a % 2 ^ (64 - r) + 1 ≤ 2 ^ (64 - r) := Nat.mod_lt _ (Nat.two_pow_pos _)
  have h4 : 2 ^ r * (a % 2 ^ (64 - r)) + 2 ^ r ≤ 2 ^ 64 := by
    have := Nat.mul_le_mul_left (2 ^ r) h3
    rw [hs, Nat.mul_add, Nat.mul_one] at this
    exact this
  have h5 : (X * 2 ^ 64 + X) / 2 ^ 64 = X + X / 2 ^ 64 := by rw [Nat.mul_comm, Nat.mul_add_div (Nat.two_pow_pos _)]
  rw [h5]
  rw [← h1] at h4
  clear e hx hX h1 h3 h5 hs
  generalize 2 ^ r = R at *
  omega

theorem toNat_rol (a : W64) {r k : Nat} (hk : k = 2 ^ r * (2 ^ 64 + 1)) (h0 : 0 < r) (hr : r < 64) : (rol a r).toNat = rolK a.toNat k := by
  rw [hk, rolK_eq a.isLt h0 hr]
  show ((a <<< r) ^^^ (a >>> (64 - r))).toNat = _
  have e : (a <<< r) ^^^ (a >>> (64 - r)) = (a <<< r) + (a >>> (64 - r)) := by
    have h0 : ∀ i, (a <<< r).getLsbD i = false ∨ (a >>> (64 - r)).getLsbD i = false := by
      intro i
      simp only [BitVec.getLsbD_shiftLeft, BitVec.getLsbD_ushiftRight]
      by_cases c : i < r
      · exact Or.inl (by simp [c])
      · exact Or.inr (BitVec.getLsbD_of_ge a _ (by omega))
    rw [BitVec.add_eq_or_of_and_eq_zero]
    · apply BitVec.eq_of_getLsbD_eq
      intro i hi
      rw [BitVec.getLsbD_xor, BitVec.getLsbD_or]
      rcases h0 i with h | h <;> rw [h] <;> simp
    · apply BitVec.eq_of_getLsbD_eq
      intro i hi
      rw [BitVec.getLsbD_and]
      rcases h0 i with h | h <;> rw [h] <;> simp
  have hs : 2 ^ r * 2 ^ (64 - r) = 2 ^ 64 := by rw [← Nat.pow_add]; congr 1; omega
  have hx : a.toNat * 2 ^ r / 2 ^ 64 = a.toNat / 2 ^ (64 - r) := by
    rw [← hs, Nat.mul_comm a.toNat, Nat.mul_div_mul_left _ _ (Nat.two_pow_pos _)]
  have h1 : a.toNat * 2 ^ r % 2 ^ 64 = 2 ^ r * (a.toNat % 2 ^ (64 - r)) := by rw [← hs, Nat.mul_comm a.toNat, Nat.mul_mod_mul_left]
  have h2 : a.toNat / 2 ^ (64 - r) < 2 ^ r := by
    rw [Nat.div_lt_iff_lt_mul (Nat.two_pow_pos _), hs]; exact a.isLt
  have h3 : a.toNat % 2 ^ (64 - r) + 1 ≤ 2 ^ (64 - r) := Nat.mod_lt _ (Nat.two_pow_pos _)
  have h4 : 2 ^ r * (a.toNat % 2 ^ (64 - r)) + 2 ^ r ≤ 2 ^ 64 := by
    have := Nat.mul_le_mul_left (2 ^ r) h3
    rw [hs, Nat.mul_add, Nat.mul_one] at this
    exact this
  rw [e, BitVec.toNat_add, BitVec.toNat_shiftLeft, BitVec.toNat_ushiftRight, Nat.shiftLeft_eq, Nat.shiftRight_eq_div_pow, hx, h1]
  exact Nat.mod_eq_of_lt (by omega)

theorem rnd_toSt (rc : W64) (L : Lanes) : rnd rc.toNat (toSt L) = toSt (roundAE rc L) := by
  have hr : ∀ (a : W64) (r : Nat), 0 < r → r < 64 → (rol a r).toNat = rolK a.toNat (2 ^ r * (2 ^ 64 + 1)) := fun a r h0 h => toNat_rol a rfl h0 h
  obtain ⟨Aba, Abe, Abi, Abo, Abu, Aga, Age, Agi, Ago, Agu, Aka, Ake, Aki, Ako, Aku, Ama, Ame, Ami, Amo, Amu, Asa, Ase, Asi, Aso, Asu⟩ := L
  simp (discharger := decide) only [toSt, rnd, thetaSt, rhoSt, chiSt, roundAE, chi3, xor5, toNat_xor', toNat_chi, hr, Nat.reducePow, Nat.reduceMul, Nat.reduceAdd]

theorem get_inj {A B : Lanes} (h : A.get = B.get) : A = B := by
  have e := fun x y => congrFun (congrFun h x) y
  cases A; cases B
  simp only [Lanes.mk.injEq]
  exact ⟨e 0 0, e 1 0, e 2 0, e 3 0, e 4 0, e 0 1, e 1 1, e 2 1, e 3 1, e 4 1, e 0 2, e 1 2, e 2 2, e 3 2, e 4 2,
    e 0 3, e 1 3, e 2 3, e 3 3, e 4 3, e 0 4, e 1 4, e 2 4, e 3 4, e 4 4⟩

theorem roundEA_AE (rc : W64) (L : Lanes) : roundEA rc L = roundAE rc L := get_inj (by rw [roundEA_eq, roundAE_eq])

theorem rcs_eq : rcs = roundConstants.map BitVec.toNat := by decide +kernel

theorem rounds_append (l l' : List Nat) (s : St) : rounds (l ++ l') s = rounds l' (rounds l s) := by
  induction l generalizing s with
  | nil => rfl
  | cons c l ih => exact ih _

theorem permuteLanes_st (L : Lanes) : ∃ L', permuteLanes L = .ok L' ∧ toSt L' = permSt (toSt L) := by
  obtain ⟨L', e, h⟩ := loop_inv (fun k (B : Lanes) => toSt B = rounds ((roundConstants.map BitVec.toNat).take (2 * k)) (toSt L))
    (fun k A => do
      let rc0 ← rd roundConstants (2 * k)
      let rc1 ← rd roundConstants (2 * k + 1)
      .ok (roundEA rc1 (roundAE rc0 A))) 0 12 L rfl (by
    intro k B _ hk hB
    rw [rd_roundConstants (by omega), ok_bind, rd_roundConstants (by omega), ok_bind]
    refine ⟨_, rfl, ?_⟩
    have l : (roundConstants.map BitVec.toNat).length = 24 := rfl
    have e1 : (roundConstants.map BitVec.toNat).take (2 * (k + 1)) =
        (roundConstants.map BitVec.toNat).take (2 * k) ++ [(roundConstants.getD (2 * k) 0).toNat, (roundConstants.getD (2 * k + 1) 0).toNat] := by
      have g : ∀ i, i < 24 → (roundConstants.map BitVec.toNat)[i]? = some (roundConstants.getD i 0).toNat := by
        intro i hi
        rw [List.getElem?_map, List.getD_eq_getElem?_getD, List.getElem?_eq_getElem (by rw [roundConstants_length]; exact hi)]
        rfl
      rw [show 2 * (k + 1) = 2 * k + 1 + 1 by ring, List.take_add_one, List.take_add_one, g _ (by omega), g _ (by omega)]
      simp
    rw [e1, rounds_append, ← hB, roundEA_AE]
    simp only [rounds, rnd_toSt])
  refine ⟨L', e, ?_⟩
  rw [h, permSt, forceSt_eq, rcs_eq]
  rfl

end Verif.Witness
