import Verif.Witness.Check
import Verif.Witness.DataC

/-!
The numbers in `Verif/Witness/DataC.lean` are those of a run of Dilithium2 on the hash that compact mode signs.
-/

namespace Verif.Witness.Run7
open Verif Verif.Keccak Verif.Dilithium Verif.Dilithium.Spec

set_option maxRecDepth 100000

/-- The challenge (compare dilithium2/sign.c:171). -/
def _root_.Verif.Witness.RunC.c : List Nat := fieldsN 2 256 RunC.cD

theorem _root_.Verif.Witness.RunC.k_mu : Nat.beq (shakeN 136 128 (join tr 512 RunC.hashN) 1 % 2 ^ 512) RunC.mu = true := by decide +kernel
theorem _root_.Verif.Witness.RunC.k_rp : Nat.beq (shakeN 136 128 (join key 512 RunC.mu) 1 % 2 ^ 512) RunC.rp = true := by decide +kernel
theorem _root_.Verif.Witness.RunC.k_y0 : eqL (maskN RunC.rp 0) (pol RunC.yD 0) = true := by decide +kernel
theorem _root_.Verif.Witness.RunC.k_y1 : eqL (maskN RunC.rp 1) (pol RunC.yD 1) = true := by decide +kernel
theorem _root_.Verif.Witness.RunC.k_y2 : eqL (maskN RunC.rp 2) (pol RunC.yD 2) = true := by decide +kernel
theorem _root_.Verif.Witness.RunC.k_y3 : eqL (maskN RunC.rp 3) (pol RunC.yD 3) = true := by decide +kernel
theorem _root_.Verif.Witness.RunC.k_yh0 : nttIs (pol RunC.yD 0) (pol RunC.yhD 0) = true := by decide +kernel
theorem _root_.Verif.Witness.RunC.k_yh1 : nttIs (pol RunC.yD 1) (pol RunC.yhD 1) = true := by decide +kernel
theorem _root_.Verif.Witness.RunC.k_yh2 : nttIs (pol RunC.yD 2) (pol RunC.yhD 2) = true := by decide +kernel
theorem _root_.Verif.Witness.RunC.k_yh3 : nttIs (pol RunC.yD 3) (pol RunC.yhD 3) = true := by decide +kernel
theorem _root_.Verif.Witness.RunC.k_w0 : nttIs (pol RunC.wD 0) (rowN (mat 0 0) (mat 0 1) (mat 0 2) (mat 0 3) (pol RunC.yhD 0) (pol RunC.yhD 1) (pol RunC.yhD 2) (pol RunC.yhD 3)) = true := by decide +kernel
theorem _root_.Verif.Witness.RunC.k_w1 : nttIs (pol RunC.wD 1) (rowN (mat 1 0) (mat 1 1) (mat 1 2) (mat 1 3) (pol RunC.yhD 0) (pol RunC.yhD 1) (pol RunC.yhD 2) (pol RunC.yhD 3)) = true := by decide +kernel
theorem _root_.Verif.Witness.RunC.k_w2 : nttIs (pol RunC.wD 2) (rowN (mat 2 0) (mat 2 1) (mat 2 2) (mat 2 3) (pol RunC.yhD 0) (pol RunC.yhD 1) (pol RunC.yhD 2) (pol RunC.yhD 3)) = true := by decide +kernel
theorem _root_.Verif.Witness.RunC.k_w3 : nttIs (pol RunC.wD 3) (rowN (mat 3 0) (mat 3 1) (mat 3 2) (mat 3 3) (pol RunC.yhD 0) (pol RunC.yhD 1) (pol RunC.yhD 2) (pol RunC.yhD 3)) = true := by decide +kernel
theorem _root_.Verif.Witness.RunC.k_wr0 : resL (pol RunC.wD 0) = true := by decide +kernel
theorem _root_.Verif.Witness.RunC.k_wr1 : resL (pol RunC.wD 1) = true := by decide +kernel
theorem _root_.Verif.Witness.RunC.k_wr2 : resL (pol RunC.wD 2) = true := by decide +kernel
theorem _root_.Verif.Witness.RunC.k_wr3 : resL (pol RunC.wD 3) = true := by decide +kernel
theorem _root_.Verif.Witness.RunC.k_ct : Nat.beq (shakeN 136 832 (join RunC.mu 512 (digN 6 (mapL hiN (appL (pol RunC.wD 0) (appL (pol RunC.wD 1) (appL (pol RunC.wD 2) (pol RunC.wD 3))))))) 1 % 2 ^ 256) RunC.ct = true := by decide +kernel
theorem _root_.Verif.Witness.RunC.k_c : challIs (challN RunC.ct) RunC.c = true := by decide +kernel
theorem _root_.Verif.Witness.RunC.k_z0 : smallL 130994 (addL (mulN RunC.c (pol s1D 0)) (pol RunC.yD 0)) = true := by decide +kernel
theorem _root_.Verif.Witness.RunC.k_z1 : smallL 130994 (addL (mulN RunC.c (pol s1D 1)) (pol RunC.yD 1)) = true := by decide +kernel
theorem _root_.Verif.Witness.RunC.k_z2 : smallL 130994 (addL (mulN RunC.c (pol s1D 2)) (pol RunC.yD 2)) = true := by decide +kernel
theorem _root_.Verif.Witness.RunC.k_z3 : smallL 130994 (addL (mulN RunC.c (pol s1D 3)) (pol RunC.yD 3)) = true := by decide +kernel
theorem _root_.Verif.Witness.RunC.k_r0 : smallL 95154 (subL (mapL loN (pol RunC.wD 0)) (mulN RunC.c (pol s2D 0))) = true := by decide +kernel
theorem _root_.Verif.Witness.RunC.k_r1 : smallL 95154 (subL (mapL loN (pol RunC.wD 1)) (mulN RunC.c (pol s2D 1))) = true := by decide +kernel
theorem _root_.Verif.Witness.RunC.k_r2 : smallL 95154 (subL (mapL loN (pol RunC.wD 2)) (mulN RunC.c (pol s2D 2))) = true := by decide +kernel
theorem _root_.Verif.Witness.RunC.k_r3 : smallL 95154 (subL (mapL loN (pol RunC.wD 3)) (mulN RunC.c (pol s2D 3))) = true := by decide +kernel
theorem _root_.Verif.Witness.RunC.k_ct00 : smallL 95232 (mulN RunC.c (mapL lo13 (addL (pol tD 0) (pol s2D 0)))) = true := by decide +kernel
theorem _root_.Verif.Witness.RunC.k_ct01 : smallL 95232 (mulN RunC.c (mapL lo13 (addL (pol tD 1) (pol s2D 1)))) = true := by decide +kernel
theorem _root_.Verif.Witness.RunC.k_ct02 : smallL 95232 (mulN RunC.c (mapL lo13 (addL (pol tD 2) (pol s2D 2)))) = true := by decide +kernel
theorem _root_.Verif.Witness.RunC.k_ct03 : smallL 95232 (mulN RunC.c (mapL lo13 (addL (pol tD 3) (pol s2D 3)))) = true := by decide +kernel
theorem _root_.Verif.Witness.RunC.k_h0 : Nat.ble (sumN (combL hintN (addL (subL (mapL loN (pol RunC.wD 0)) (mulN RunC.c (pol s2D 0))) (mulN RunC.c (mapL lo13 (addL (pol tD 0) (pol s2D 0))))) (mapL hiN (pol RunC.wD 0)))) 20 = true := by decide +kernel
theorem _root_.Verif.Witness.RunC.k_h1 : Nat.ble (sumN (combL hintN (addL (subL (mapL loN (pol RunC.wD 1)) (mulN RunC.c (pol s2D 1))) (mulN RunC.c (mapL lo13 (addL (pol tD 1) (pol s2D 1))))) (mapL hiN (pol RunC.wD 1)))) 20 = true := by decide +kernel
theorem _root_.Verif.Witness.RunC.k_h2 : Nat.ble (sumN (combL hintN (addL (subL (mapL loN (pol RunC.wD 2)) (mulN RunC.c (pol s2D 2))) (mulN RunC.c (mapL lo13 (addL (pol tD 2) (pol s2D 2))))) (mapL hiN (pol RunC.wD 2)))) 20 = true := by decide +kernel
theorem _root_.Verif.Witness.RunC.k_h3 : Nat.ble (sumN (combL hintN (addL (subL (mapL loN (pol RunC.wD 3)) (mulN RunC.c (pol s2D 3))) (mulN RunC.c (mapL lo13 (addL (pol tD 3) (pol s2D 3))))) (mapL hiN (pol RunC.wD 3)))) 20 = true := by decide +kernel

/-- A run of Dilithium2 (dilithium2/sign.c:23-68 and dilithium2/sign.c:113-210). -/
def _root_.Verif.Witness.RunC.run : Run (7 :: List.replicate 31 0) RunC.hash where
  E := E
  rho := rho
  rhop := rhop
  key := key
  tr := tr
  mu := RunC.mu
  rp := RunC.rp
  ct := RunC.ct
  A := mat
  s1 := pol s1D
  s2 := pol s2D
  sh := pol shD
  a := pol tD
  y := pol RunC.yD
  yh := pol RunC.yhD
  w := pol RunC.wD
  c := RunC.c
  hseed := by decide
  hE := by
    have e : ofLe (7 :: List.replicate 31 0) = 7 := by decide
    rw [e]; exact beq_eq k_E
  hrho := beq_eq k_rho
  hrhop := beq_eq k_rhop
  hkey := beq_eq k_key
  hA := all4 (all4 ⟨eqL_eq k_A00, length_pol _ _⟩ ⟨eqL_eq k_A01, length_pol _ _⟩ ⟨eqL_eq k_A02, length_pol _ _⟩ ⟨eqL_eq k_A03, length_pol _ _⟩) (all4 ⟨eqL_eq k_A10, length_pol _ _⟩ ⟨eqL_eq k_A11, length_pol _ _⟩ ⟨eqL_eq k_A12, length_pol _ _⟩ ⟨eqL_eq k_A13, length_pol _ _⟩) (all4 ⟨eqL_eq k_A20, length_pol _ _⟩ ⟨eqL_eq k_A21, length_pol _ _⟩ ⟨eqL_eq k_A22, length_pol _ _⟩ ⟨eqL_eq k_A23, length_pol _ _⟩) (all4 ⟨eqL_eq k_A30, length_pol _ _⟩ ⟨eqL_eq k_A31, length_pol _ _⟩ ⟨eqL_eq k_A32, length_pol _ _⟩ ⟨eqL_eq k_A33, length_pol _ _⟩)
  h1 := all4 (⟨eqL_eq k_s10, length_pol _ _⟩) (⟨eqL_eq k_s11, length_pol _ _⟩) (⟨eqL_eq k_s12, length_pol _ _⟩) (⟨eqL_eq k_s13, length_pol _ _⟩)
  h2 := all4 (⟨eqL_eq k_s20, length_pol _ _⟩) (⟨eqL_eq k_s21, length_pol _ _⟩) (⟨eqL_eq k_s22, length_pol _ _⟩) (⟨eqL_eq k_s23, length_pol _ _⟩)
  hsh := all4 (nttIs_eq k_sh0) (nttIs_eq k_sh1) (nttIs_eq k_sh2) (nttIs_eq k_sh3)
  ha := all4 (⟨nttIs_eq k_t0, length_pol _ _⟩) (⟨nttIs_eq k_t1, length_pol _ _⟩) (⟨nttIs_eq k_t2, length_pol _ _⟩) (⟨nttIs_eq k_t3, length_pol _ _⟩)
  htr := beq_eq k_tr
  hmu := by
    have e : ofLe RunC.hash = RunC.hashN := by decide +kernel
    have e' : 64 + RunC.hash.length = 128 := by decide
    rw [e, e']; exact beq_eq RunC.k_mu
  hrp := beq_eq RunC.k_rp
  hy := all4 (eqL_eq RunC.k_y0) (eqL_eq RunC.k_y1) (eqL_eq RunC.k_y2) (eqL_eq RunC.k_y3)
  hyh := all4 (nttIs_eq RunC.k_yh0) (nttIs_eq RunC.k_yh1) (nttIs_eq RunC.k_yh2) (nttIs_eq RunC.k_yh3)
  hw := all4 (⟨nttIs_eq RunC.k_w0, length_pol _ _, resL_eq RunC.k_wr0⟩) (⟨nttIs_eq RunC.k_w1, length_pol _ _, resL_eq RunC.k_wr1⟩) (⟨nttIs_eq RunC.k_w2, length_pol _ _, resL_eq RunC.k_wr2⟩) (⟨nttIs_eq RunC.k_w3, length_pol _ _, resL_eq RunC.k_wr3⟩)
  hct := beq_eq RunC.k_ct
  hc := challIs_eq RunC.k_c
  hz := all4 (RunC.k_z0) (RunC.k_z1) (RunC.k_z2) (RunC.k_z3)
  hr0 := all4 (RunC.k_r0) (RunC.k_r1) (RunC.k_r2) (RunC.k_r3)
  hct0 := all4 (RunC.k_ct00) (RunC.k_ct01) (RunC.k_ct02) (RunC.k_ct03)
  hh := all4 (Nat.le_of_ble_eq_true RunC.k_h0) (Nat.le_of_ble_eq_true RunC.k_h1) (Nat.le_of_ble_eq_true RunC.k_h2) (Nat.le_of_ble_eq_true RunC.k_h3)

end Verif.Witness.Run7
