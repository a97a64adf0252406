import Verif.Witness.Data

/-!
The numbers in `Verif/Witness/Data.lean` are those of a run of Dilithium2: every equation of `Run` is evaluated by the kernel.  The checks are separate theorems, so that the kernel can
forget the intermediate results of one before it goes on to the next.
-/

namespace Verif.Witness.Run7
open Verif Verif.Keccak Verif.Dilithium Verif.Dilithium.Spec

set_option maxRecDepth 100000

/-- Polynomial number `i` of a list (numbers of 24 bits, as in `Verif/Witness/Data.lean`) (no line of its own). -/
def pol (l : List Nat) (i : Nat) : List Nat := fieldsN 24 256 (getL l i)
/-- The matrix (compare dilithium2/sign.c:42). -/
def mat (i j : Nat) : List Nat := pol (Nat.casesOn i aD0 fun i => Nat.casesOn i aD1 fun i => Nat.casesOn i aD2 fun _ => aD3) j
/-- The challenge (compare dilithium2/sign.c:171). -/
def c : List Nat := fieldsN 2 256 cD

theorem length_pol (l : List Nat) (i : Nat) : (pol l i).length = 256 := by rw [pol, fieldsN_eq, List.length_map, List.length_range]

theorem all4 {P : Nat → Prop} (h0 : P 0) (h1 : P 1) (h2 : P 2) (h3 : P 3) : ∀ i, i < 4 → P i := by
  intro i hi
  match i, hi with
  | 0, _ => exact h0
  | 1, _ => exact h1
  | 2, _ => exact h2
  | 3, _ => exact h3

/-- All entries are residues (compare dilithium2/poly.c:39-49). -/
def resL (l : List Nat) : Bool := List.rec (motive := fun _ => Bool) true (fun x _ ih => bif Nat.blt x 8380417 then ih else false) l

theorem resL_eq {l : List Nat} (h : resL l = true) : ∀ x ∈ l, x < 8380417 := by
  induction l with
  | nil => intro x hx; cases hx
  | cons a l ih =>
    have h' : (bif Nat.blt a 8380417 then resL l else false) = true := h
    cases hb : Nat.blt a 8380417 with
    | false => rw [hb] at h'; exact absurd h' Bool.false_ne_true
    | true =>
      rw [hb] at h'
      intro x hx
      rcases List.mem_cons.1 hx with rfl | hx
      · exact Nat.le_of_ble_eq_true hb
      · exact ih h' x hx

/-- The transform of `l` is `m` (dilithium2/ntt.c:49-66). -/
def nttIs (l m : List Nat) : Bool := forceL l fun s => eqL (nttN s) m
theorem nttIs_eq {l m : List Nat} (h : nttIs l m = true) : nttN l = m := by rw [nttIs, forceL_eq] at h; exact eqL_eq h

/-- The challenge is `d` (dilithium2/poly.c:480-515). -/
def challIs (o : Option (List Nat)) (d : List Nat) : Bool := Option.casesOn o false fun e => eqL e d
theorem challIs_eq {o : Option (List Nat)} {d : List Nat} (h : challIs o d = true) : o = some d := by
  cases o with
  | none => exact absurd h Bool.false_ne_true
  | some e => exact congrArg some (eqL_eq h)

/-- The equality of two numbers. -/
theorem beq_eq {a b : Nat} (h : Nat.beq a b = true) : a = b := Nat.eq_of_beq_eq_true h

theorem k_E : Nat.beq (shakeN 136 32 7 1 % 2 ^ 1024) E = true := by decide +kernel
theorem k_rho : Nat.beq (E % 2 ^ 256) rho = true := by decide +kernel
theorem k_rhop : Nat.beq (E / 2 ^ 256 % 2 ^ 512) rhop = true := by decide +kernel
theorem k_key : Nat.beq (E / 2 ^ 768 % 2 ^ 256) key = true := by decide +kernel
theorem k_A00 : eqL (entryN rho 0) (mat 0 0) = true := by decide +kernel
theorem k_A01 : eqL (entryN rho 1) (mat 0 1) = true := by decide +kernel
theorem k_A02 : eqL (entryN rho 2) (mat 0 2) = true := by decide +kernel
theorem k_A03 : eqL (entryN rho 3) (mat 0 3) = true := by decide +kernel
theorem k_A10 : eqL (entryN rho 256) (mat 1 0) = true := by decide +kernel
theorem k_A11 : eqL (entryN rho 257) (mat 1 1) = true := by decide +kernel
theorem k_A12 : eqL (entryN rho 258) (mat 1 2) = true := by decide +kernel
theorem k_A13 : eqL (entryN rho 259) (mat 1 3) = true := by decide +kernel
theorem k_A20 : eqL (entryN rho 512) (mat 2 0) = true := by decide +kernel
theorem k_A21 : eqL (entryN rho 513) (mat 2 1) = true := by decide +kernel
theorem k_A22 : eqL (entryN rho 514) (mat 2 2) = true := by decide +kernel
theorem k_A23 : eqL (entryN rho 515) (mat 2 3) = true := by decide +kernel
theorem k_A30 : eqL (entryN rho 768) (mat 3 0) = true := by decide +kernel
theorem k_A31 : eqL (entryN rho 769) (mat 3 1) = true := by decide +kernel
theorem k_A32 : eqL (entryN rho 770) (mat 3 2) = true := by decide +kernel
theorem k_A33 : eqL (entryN rho 771) (mat 3 3) = true := by decide +kernel
theorem k_s10 : eqL (smallN rhop 0) (pol s1D 0) = true := by decide +kernel
theorem k_s11 : eqL (smallN rhop 1) (pol s1D 1) = true := by decide +kernel
theorem k_s12 : eqL (smallN rhop 2) (pol s1D 2) = true := by decide +kernel
theorem k_s13 : eqL (smallN rhop 3) (pol s1D 3) = true := by decide +kernel
theorem k_s20 : eqL (smallN rhop 4) (pol s2D 0) = true := by decide +kernel
theorem k_s21 : eqL (smallN rhop 5) (pol s2D 1) = true := by decide +kernel
theorem k_s22 : eqL (smallN rhop 6) (pol s2D 2) = true := by decide +kernel
theorem k_s23 : eqL (smallN rhop 7) (pol s2D 3) = true := by decide +kernel
theorem k_sh0 : nttIs (pol s1D 0) (pol shD 0) = true := by decide +kernel
theorem k_sh1 : nttIs (pol s1D 1) (pol shD 1) = true := by decide +kernel
theorem k_sh2 : nttIs (pol s1D 2) (pol shD 2) = true := by decide +kernel
theorem k_sh3 : nttIs (pol s1D 3) (pol shD 3) = true := by decide +kernel
theorem k_t0 : nttIs (pol tD 0) (rowN (mat 0 0) (mat 0 1) (mat 0 2) (mat 0 3) (pol shD 0) (pol shD 1) (pol shD 2) (pol shD 3)) = true := by decide +kernel
theorem k_t1 : nttIs (pol tD 1) (rowN (mat 1 0) (mat 1 1) (mat 1 2) (mat 1 3) (pol shD 0) (pol shD 1) (pol shD 2) (pol shD 3)) = true := by decide +kernel
theorem k_t2 : nttIs (pol tD 2) (rowN (mat 2 0) (mat 2 1) (mat 2 2) (mat 2 3) (pol shD 0) (pol shD 1) (pol shD 2) (pol shD 3)) = true := by decide +kernel
theorem k_t3 : nttIs (pol tD 3) (rowN (mat 3 0) (mat 3 1) (mat 3 2) (mat 3 3) (pol shD 0) (pol shD 1) (pol shD 2) (pol shD 3)) = true := by decide +kernel
theorem k_tr : Nat.beq (shakeN 136 1312 (join rho 256 (digN 10 (mapL hi13 (appL (addL (pol tD 0) (pol s2D 0)) (appL (addL (pol tD 1) (pol s2D 1)) (appL (addL (pol tD 2) (pol s2D 2)) (addL (pol tD 3) (pol s2D 3)))))))) 1 % 2 ^ 512) tr = true := by decide +kernel
theorem k_mu : Nat.beq (shakeN 136 65 (join tr 512 2) 1 % 2 ^ 512) mu = true := by decide +kernel
theorem k_rp : Nat.beq (shakeN 136 128 (join key 512 mu) 1 % 2 ^ 512) rp = true := by decide +kernel
theorem k_y0 : eqL (maskN rp 0) (pol yD 0) = true := by decide +kernel
theorem k_y1 : eqL (maskN rp 1) (pol yD 1) = true := by decide +kernel
theorem k_y2 : eqL (maskN rp 2) (pol yD 2) = true := by decide +kernel
theorem k_y3 : eqL (maskN rp 3) (pol yD 3) = true := by decide +kernel
theorem k_yh0 : nttIs (pol yD 0) (pol yhD 0) = true := by decide +kernel
theorem k_yh1 : nttIs (pol yD 1) (pol yhD 1) = true := by decide +kernel
theorem k_yh2 : nttIs (pol yD 2) (pol yhD 2) = true := by decide +kernel
theorem k_yh3 : nttIs (pol yD 3) (pol yhD 3) = true := by decide +kernel
theorem k_w0 : nttIs (pol wD 0) (rowN (mat 0 0) (mat 0 1) (mat 0 2) (mat 0 3) (pol yhD 0) (pol yhD 1) (pol yhD 2) (pol yhD 3)) = true := by decide +kernel
theorem k_w1 : nttIs (pol wD 1) (rowN (mat 1 0) (mat 1 1) (mat 1 2) (mat 1 3) (pol yhD 0) (pol yhD 1) (pol yhD 2) (pol yhD 3)) = true := by decide +kernel
theorem k_w2 : nttIs (pol wD 2) (rowN (mat 2 0) (mat 2 1) (mat 2 2) (mat 2 3) (pol yhD 0) (pol yhD 1) (pol yhD 2) (pol yhD 3)) = true := by decide +kernel
theorem k_w3 : nttIs (pol wD 3) (rowN (mat 3 0) (mat 3 1) (mat 3 2) (mat 3 3) (pol yhD 0) (pol yhD 1) (pol yhD 2) (pol yhD 3)) = true := by decide +kernel
theorem k_wr0 : resL (pol wD 0) = true := by decide +kernel
theorem k_wr1 : resL (pol wD 1) = true := by decide +kernel
theorem k_wr2 : resL (pol wD 2) = true := by decide +kernel
theorem k_wr3 : resL (pol wD 3) = true := by decide +kernel
theorem k_ct : Nat.beq (shakeN 136 832 (join mu 512 (digN 6 (mapL hiN (appL (pol wD 0) (appL (pol wD 1) (appL (pol wD 2) (pol wD 3))))))) 1 % 2 ^ 256) ct = true := by decide +kernel
theorem k_c : challIs (challN ct) c = true := by decide +kernel
theorem k_z0 : smallL 130994 (addL (mulN c (pol s1D 0)) (pol yD 0)) = true := by decide +kernel
theorem k_z1 : smallL 130994 (addL (mulN c (pol s1D 1)) (pol yD 1)) = true := by decide +kernel
theorem k_z2 : smallL 130994 (addL (mulN c (pol s1D 2)) (pol yD 2)) = true := by decide +kernel
theorem k_z3 : smallL 130994 (addL (mulN c (pol s1D 3)) (pol yD 3)) = true := by decide +kernel
theorem k_r0 : smallL 95154 (subL (mapL loN (pol wD 0)) (mulN c (pol s2D 0))) = true := by decide +kernel
theorem k_r1 : smallL 95154 (subL (mapL loN (pol wD 1)) (mulN c (pol s2D 1))) = true := by decide +kernel
theorem k_r2 : smallL 95154 (subL (mapL loN (pol wD 2)) (mulN c (pol s2D 2))) = true := by decide +kernel
theorem k_r3 : smallL 95154 (subL (mapL loN (pol wD 3)) (mulN c (pol s2D 3))) = true := by decide +kernel
theorem k_ct00 : smallL 95232 (mulN c (mapL lo13 (addL (pol tD 0) (pol s2D 0)))) = true := by decide +kernel
theorem k_ct01 : smallL 95232 (mulN c (mapL lo13 (addL (pol tD 1) (pol s2D 1)))) = true := by decide +kernel
theorem k_ct02 : smallL 95232 (mulN c (mapL lo13 (addL (pol tD 2) (pol s2D 2)))) = true := by decide +kernel
theorem k_ct03 : smallL 95232 (mulN c (mapL lo13 (addL (pol tD 3) (pol s2D 3)))) = true := by decide +kernel
theorem k_h0 : Nat.ble (sumN (combL hintN (addL (subL (mapL loN (pol wD 0)) (mulN c (pol s2D 0))) (mulN c (mapL lo13 (addL (pol tD 0) (pol s2D 0))))) (mapL hiN (pol wD 0)))) 20 = true := by decide +kernel
theorem k_h1 : Nat.ble (sumN (combL hintN (addL (subL (mapL loN (pol wD 1)) (mulN c (pol s2D 1))) (mulN c (mapL lo13 (addL (pol tD 1) (pol s2D 1))))) (mapL hiN (pol wD 1)))) 20 = true := by decide +kernel
theorem k_h2 : Nat.ble (sumN (combL hintN (addL (subL (mapL loN (pol wD 2)) (mulN c (pol s2D 2))) (mulN c (mapL lo13 (addL (pol tD 2) (pol s2D 2))))) (mapL hiN (pol wD 2)))) 20 = true := by decide +kernel
theorem k_h3 : Nat.ble (sumN (combL hintN (addL (subL (mapL loN (pol wD 3)) (mulN c (pol s2D 3))) (mulN c (mapL lo13 (addL (pol tD 3) (pol s2D 3))))) (mapL hiN (pol wD 3)))) 20 = true := by decide +kernel

/-- A run of Dilithium2 (dilithium2/sign.c:23-68 and dilithium2/sign.c:113-210). -/
def run : Run (7 :: List.replicate 31 0) [2] where
  E := E
  rho := rho
  rhop := rhop
  key := key
  tr := tr
  mu := mu
  rp := rp
  ct := ct
  A := mat
  s1 := pol s1D
  s2 := pol s2D
  sh := pol shD
  a := pol tD
  y := pol yD
  yh := pol yhD
  w := pol wD
  c := c
  hseed := by decide
  hE := by
    have e : ofLe (7 :: List.replicate 31 0) = 7 := by decide
    rw [e]; exact beq_eq k_E
  hrho := beq_eq k_rho
  hrhop := beq_eq k_rhop
  hkey := beq_eq k_key
  hA := all4 (all4 ⟨eqL_eq k_A00, length_pol _ _⟩ ⟨eqL_eq k_A01, length_pol _ _⟩ ⟨eqL_eq k_A02, length_pol _ _⟩ ⟨eqL_eq k_A03, length_pol _ _⟩) (all4 ⟨eqL_eq k_A10, length_pol _ _⟩ ⟨eqL_eq k_A11, length_pol _ _⟩ ⟨eqL_eq k_A12, length_pol _ _⟩ ⟨eqL_eq k_A13, length_pol _ _⟩) (all4 ⟨eqL_eq k_A20, length_pol _ _⟩ ⟨eqL_eq k_A21, length_pol _ _⟩ ⟨eqL_eq k_A22, length_pol _ _⟩ ⟨eqL_eq k_A23, length_pol _ _⟩) (all4 ⟨eqL_eq k_A30, length_pol _ _⟩ ⟨eqL_eq k_A31, length_pol _ _⟩ ⟨eqL_eq k_A32, length_pol _ _⟩ ⟨eqL_eq k_A33, length_pol _ _⟩)
  h1 := all4 (⟨eqL_eq k_s10, length_pol _ _⟩) (⟨eqL_eq k_s11, length_pol _ _⟩) (⟨eqL_eq k_s12, length_pol _ _⟩) (⟨eqL_eq k_s13, length_pol _ _⟩)
  h2 := all4 (⟨eqL_eq k_s20, length_pol _ _⟩) (⟨eqL_eq k_s21, length_pol _ _⟩) (⟨eqL_eq k_s22, length_pol _ _⟩) (⟨eqL_eq k_s23, length_pol _ _⟩)
  hsh := all4 (nttIs_eq k_sh0) (nttIs_eq k_sh1) (nttIs_eq k_sh2) (nttIs_eq k_sh3)
  ha := all4 (⟨nttIs_eq k_t0, length_pol _ _⟩) (⟨nttIs_eq k_t1, length_pol _ _⟩) (⟨nttIs_eq k_t2, length_pol _ _⟩) (⟨nttIs_eq k_t3, length_pol _ _⟩)
  htr := beq_eq k_tr
  hmu := by
    have e : ofLe [2] = 2 := by decide
    have e' : 64 + ([2] : Bytes).length = 65 := by decide
    rw [e, e']; exact beq_eq k_mu
  hrp := beq_eq k_rp
  hy := all4 (eqL_eq k_y0) (eqL_eq k_y1) (eqL_eq k_y2) (eqL_eq k_y3)
  hyh := all4 (nttIs_eq k_yh0) (nttIs_eq k_yh1) (nttIs_eq k_yh2) (nttIs_eq k_yh3)
  hw := all4 (⟨nttIs_eq k_w0, length_pol _ _, resL_eq k_wr0⟩) (⟨nttIs_eq k_w1, length_pol _ _, resL_eq k_wr1⟩) (⟨nttIs_eq k_w2, length_pol _ _, resL_eq k_wr2⟩) (⟨nttIs_eq k_w3, length_pol _ _, resL_eq k_wr3⟩)
  hct := beq_eq k_ct
  hc := challIs_eq k_c
  hz := all4 (k_z0) (k_z1) (k_z2) (k_z3)
  hr0 := all4 (k_r0) (k_r1) (k_r2) (k_r3)
  hct0 := all4 (k_ct00) (k_ct01) (k_ct02) (k_ct03)
  hh := all4 (Nat.le_of_ble_eq_true k_h0) (Nat.le_of_ble_eq_true k_h1) (Nat.le_of_ble_eq_true k_h2) (Nat.le_of_ble_eq_true k_h3)

end Verif.Witness.Run7

namespace Verif.Witness
open Verif Verif.Dilithium

/-- There are a seed, a key pair and a signature of Dilithium2 as the specification demands. -/
theorem dilithium_run : ∃ pk sk sig, Spec.KeyGen S128 S256 (7 :: List.replicate 31 0) pk sk ∧ Spec.Signs S128 S256 sk [2] 0 sig := Run7.run.signs

end Verif.Witness
