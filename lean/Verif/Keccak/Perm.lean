import Mathlib.Tactic.FinCases
import Verif.Keccak.Model
import Verif.Keccak.Spec

/-! The unrolled permutation equals KECCAK-f[1600]. -/

namespace Verif.Keccak
open Verif

/-- A lane array, the state of FIPS 202 with 64-bit lanes. -/
abbrev LState := Fin 5 → Fin 5 → W64

/-- Rotation; offset 0 is the identity (the code does not rotate that lane). -/
def rot (a : W64) (n : Nat) : W64 := if n = 0 then a else rol a n

/-- Parity of a column, by lanes. -/
def laneColumn (A : LState) (x : Fin 5) : W64 := A x 0 ^^^ A x 1 ^^^ A x 2 ^^^ A x 3 ^^^ A x 4
/-- Theta by lanes. -/
def laneTheta (A : LState) : LState := fun x y => A x y ^^^ (laneColumn A (x - 1) ^^^ rol (laneColumn A (x + 1)) 1)
/-- Pi by lanes. -/
def lanePi (A : LState) : LState := fun x y => A (x + 3 * y) x
/-- Chi by lanes. -/
def laneChi (A : LState) : LState := fun x y => A x y ^^^ (~~~ (A (x + 1) y) &&& A (x + 2) y)

/-- The rotation offsets of the code as a table. -/
def offsets : List (List Nat) :=
  [[0, 36, 3, 41, 18], [1, 44, 10, 45, 2], [62, 6, 43, 15, 61], [28, 55, 25, 21, 56], [27, 20, 39, 8, 14]]

/-- Offset of rho. -/
def offTab (x y : Fin 5) : Nat := (offsets.getD x.val []).getD y.val 0

theorem offset_eq : ∀ x y : Fin 5, Spec.offset x y = 64 * (Spec.offset x y / 64) + offTab x y := by decide +kernel

theorem offTab_lt : ∀ x y : Fin 5, offTab x y < 64 := by decide +kernel

/-- Rho by lanes. -/
def laneRho (A : LState) : LState := fun x y => rot (A x y) (offTab x y)
/-- Iota by lanes. -/
def laneIota (rc : W64) (A : LState) : LState := fun x y => if x = 0 ∧ y = 0 then A x y ^^^ rc else A x y
/-- One round by lanes. -/
def laneRound (rc : W64) (A : LState) : LState := laneIota rc (laneChi (lanePi (laneRho (laneTheta A))))

/-- The 25 lanes as a function of the coordinates. -/
def Lanes.get (A : Lanes) : LState := fun x y =>
  match x, y with
  | 0, 0 => A.ba | 1, 0 => A.be | 2, 0 => A.bi | 3, 0 => A.bo | 4, 0 => A.bu
  | 0, 1 => A.ga | 1, 1 => A.ge | 2, 1 => A.gi | 3, 1 => A.go | 4, 1 => A.gu
  | 0, 2 => A.ka | 1, 2 => A.ke | 2, 2 => A.ki | 3, 2 => A.ko | 4, 2 => A.ku
  | 0, 3 => A.ma | 1, 3 => A.me | 2, 3 => A.mi | 3, 3 => A.mo | 4, 3 => A.mu
  | 0, 4 => A.sa | 1, 4 => A.se | 2, 4 => A.si | 3, 4 => A.so | 4, 4 => A.su

theorem roundAE_eq (rc : W64) (A : Lanes) : (roundAE rc A).get = laneRound rc A.get := by
  funext x y
  fin_cases x <;> fin_cases y <;> rfl

theorem roundEA_eq (rc : W64) (A : Lanes) : (roundEA rc A).get = laneRound rc A.get := by
  funext x y
  fin_cases x <;> fin_cases y <;> rfl

/-- The bit state of a lane state. -/
def bitState (A : LState) : Spec.State := fun x y z => (A x y).getLsbD z.val

theorem getLsbD_rol (a : W64) (n z : Nat) (h0 : 0 < n) (hn : n < 64) (hz : z < 64) :
    (rol a n).getLsbD z = a.getLsbD ((z + (64 - n)) % 64) := by
  unfold rol
  simp only [BitVec.getLsbD_xor, BitVec.getLsbD_shiftLeft, BitVec.getLsbD_ushiftRight]
  by_cases h : z < n
  · have e : (z + (64 - n)) % 64 = 64 - n + z := by omega
    simp [h, hz, e]
  · have e : (z + (64 - n)) % 64 = z - n := by omega
    have e2 : a.getLsbD (64 - n + z) = false := BitVec.getLsbD_of_ge _ _ (by omega)
    simp [h, hz, e, e2]

theorem fin_sub_val (z k : Fin 64) : (z - k).val = (z.val + (64 - k.val)) % 64 := by
  rw [Fin.sub_def]; simp only []; rw [Nat.add_comm]

theorem bitState_round (ir : Nat) (rc : W64) (hrc : ∀ z : Fin 64, rc.getLsbD z.val = Spec.RC ir z) (A : LState) :
    bitState (laneRound rc A) = Spec.round ir (bitState A) := by
  have hθ : bitState (laneTheta A) = Spec.theta (bitState A) := by
    funext x y z
    simp only [bitState, laneTheta, Spec.theta, Spec.column, laneColumn, BitVec.getLsbD_xor]
    rw [getLsbD_rol _ _ _ (by omega) (by omega) z.isLt]
    simp only [BitVec.getLsbD_xor, fin_sub_val]
    rfl
  have hρ : ∀ A : LState, bitState (laneRho A) = Spec.rho (bitState A) := by
    intro A; funext x y z
    simp only [bitState, laneRho, Spec.rho, rot]
    have e : (Fin.ofNat 64 (Spec.offset x y)).val = offTab x y := by
      simp only [Fin.ofNat]
      rw [offset_eq x y]
      have := offTab_lt x y
      omega
    rw [fin_sub_val, e]
    by_cases h : offTab x y = 0
    · rw [if_pos h, h]; simp [Nat.mod_eq_of_lt z.isLt]
    · rw [if_neg h, getLsbD_rol _ _ _ (by omega) (offTab_lt x y) z.isLt]
  have hπ : ∀ A : LState, bitState (lanePi A) = Spec.pi (bitState A) := fun A => rfl
  have hχ : ∀ A : LState, bitState (laneChi A) = Spec.chi (bitState A) := by
    intro A; funext x y z
    simp [bitState, laneChi, Spec.chi]
  have hι : ∀ A : LState, bitState (laneIota rc A) = Spec.iota ir (bitState A) := by
    intro A; funext x y z
    simp only [bitState, laneIota, Spec.iota]
    split
    · rw [BitVec.getLsbD_xor, hrc]
    · rfl
  rw [laneRound, hι, hχ, hπ, hρ, hθ, Spec.round]

/-- The table of round constants is the one generated by rc(t). -/
theorem roundConstants_spec : ∀ (ir : Fin 24) (z : Fin 64), (roundConstants.getD ir.val 0).getLsbD z.val = Spec.RC ir.val z := by
  decide +kernel

theorem roundConstants_length : roundConstants.length = 24 := rfl

theorem rd_roundConstants {k : Nat} (h : k < 24) : rd roundConstants k = .ok (roundConstants.getD k 0) := by
  rw [rd_ok (by rw [roundConstants_length]; exact h), List.getD_eq_getElem?_getD, List.getElem?_eq_getElem (by rw [roundConstants_length]; exact h)]
  rfl

theorem permuteLanes_run (A : Lanes) :
    ∃ A', permuteLanes A = .ok A' ∧ bitState A'.get = Spec.keccakF (bitState A.get) := by
  have := loop_inv (fun k (B : Lanes) => bitState B.get = Spec.rounds (2 * k) (bitState A.get))
    (fun k A => do
      let rc0 ← rd roundConstants (2 * k)
      let rc1 ← rd roundConstants (2 * k + 1)
      .ok (roundEA rc1 (roundAE rc0 A))) 0 12 A rfl (by
    intro k B _ hk hB
    rw [rd_roundConstants (by omega), ok_bind, rd_roundConstants (by omega), ok_bind]
    refine ⟨_, rfl, ?_⟩
    rw [roundEA_eq, roundAE_eq, bitState_round (2 * k + 1) _ (fun z => roundConstants_spec ⟨2 * k + 1, by omega⟩ z),
      bitState_round (2 * k) _ (fun z => roundConstants_spec ⟨2 * k, by omega⟩ z), hB]
    rfl)
  exact this

/-- The state array of FIPS 202 that is stored in 25 words. -/
def stateOf (s : List W64) : Spec.State := fun x y z => (s.getD (5 * y.val + x.val) 0).getLsbD z.val

/-- `permute` on 25 words does not fault and is KECCAK-f[1600]. -/
theorem permute_run (s : List W64) (h : s.length = 25) :
    ∃ s', permute s = .ok s' ∧ s'.length = 25 ∧ stateOf s' = Spec.keccakF (stateOf s) := by
  match s, h with
  | [s0, s1, s2, s3, s4, s5, s6, s7, s8, s9, s10, s11, s12, s13, s14, s15, s16, s17, s18, s19, s20, s21, s22, s23, s24], _ =>
    obtain ⟨A', e, hA⟩ := permuteLanes_run ⟨s0, s1, s2, s3, s4, s5, s6, s7, s8, s9, s10, s11, s12, s13, s14, s15, s16, s17, s18, s19, s20, s21, s22, s23, s24⟩
    simp only [permute, e, ok_bind]
    refine ⟨_, rfl, rfl, ?_⟩
    have e1 : stateOf [s0, s1, s2, s3, s4, s5, s6, s7, s8, s9, s10, s11, s12, s13, s14, s15, s16, s17, s18, s19, s20, s21, s22, s23, s24] =
      bitState (Lanes.get ⟨s0, s1, s2, s3, s4, s5, s6, s7, s8, s9, s10, s11, s12, s13, s14, s15, s16, s17, s18, s19, s20, s21, s22, s23, s24⟩) := by
      funext x y z
      fin_cases x <;> fin_cases y <;> rfl
    rw [e1, ← hA]
    funext x y z
    fin_cases x <;> fin_cases y <;> rfl

/-- The permutation as a total function. -/
def perm (s : List W64) : List W64 := match permute s with | .ok s' => s' | .error _ => s

theorem permute_eq {s : List W64} (h : s.length = 25) : permute s = .ok (perm s) := by
  obtain ⟨s', e, -, -⟩ := permute_run s h
  rw [perm, e]

theorem length_perm {s : List W64} (h : s.length = 25) : (perm s).length = 25 := by
  obtain ⟨s', e, h1, -⟩ := permute_run s h
  rw [perm, e]; exact h1

theorem stateOf_perm {s : List W64} (h : s.length = 25) : stateOf (perm s) = Spec.keccakF (stateOf s) := by
  obtain ⟨s', e, -, h1⟩ := permute_run s h
  rw [perm, e]; exact h1

end Verif.Keccak
