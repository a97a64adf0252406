import Verif.Dilithium.Spec

/-!
The lattice problems behind Dilithium, in terms of the specification alone (used by C97).
-/

namespace Verif.Dilithium.Spec
open Verif

/-- The vector t1 of a public key (compare dilithium2/packing.c:39-52). -/
def t1Of (pk : Bytes) : List (List Int) := vec fun i => unpackPos 10 (slice pk (32 + i * 320) 320)
/-- The vector z of a signature (compare dilithium2/packing.c:220-228). -/
def zOfSig (sig : Bytes) : List (List Int) := vec fun i => unpackAt 18 131072 (slice sig (32 + i * 576) 576)

/-- Four polynomials with coefficients of absolute value at most `B` (compare dilithium2/polyvec.c:148-158). -/
def Short (v : List (List Int)) (B : Int) : Prop := v.length = 4 ∧ ∀ i, i < 4 → (at_ v i).length = 256 ∧ ∀ j, j < 256 → -B ≤ co (at_ v i) j ∧ co (at_ v i) j ≤ B

/-- Differences of polynomials and vectors of integers, without reduction (compare dilithium2/polyvec.c:233-239). -/
def diff (a b : List Int) : List Int := mk fun j => co a j - co b j
/-- The same for vectors (compare dilithium2/polyvec.c:233-239). -/
def diffV (a b : List (List Int)) : List (List Int) := vec fun i => diff (at_ a i) (at_ b i)

/-- A z - 2^13 c t1 + u = v modulo q (compare dilithium2/sign.c:294-308). -/
def Equation (A : List (List (List Int))) (t1 z : List (List Int)) (c : List Int) (u v : List (List Int)) : Prop :=
  ∀ i, i < 4 → ∀ j, j < 256 → (co (at_ (matVec A z) i) j - co (mul c (scale 8192 (at_ t1 i))) j + co (at_ u i) j - co (at_ v i) j) % q = 0

variable (S128 S256 : Bytes → Nat → Bytes)

/-- The string that is hashed to the challenge (compare dilithium2/sign.c:312-319). -/
def hashed (pk m : Bytes) (w1 : List (List Int)) : Bytes := S256 (S256 pk 64 ++ m) 64 ++ w1.flatMap (packPos 6)

/-- The signature is a solution of the problem SelfTargetMSIS: its z with the challenge c and the error u is short, A z - 2^13 c t1 + u is 2 gamma2 times a vector w1, and the
first 32 bytes of the signature, from which c is made, are the hash of the message representative and w1 (compare dilithium2/sign.c:257-328).  At most 80 coefficients of u
(those where the hint h is not 0) exceed gamma2. -/
structure Solution (pk m sig : Bytes) (A : List (List (List Int))) (c : List Int) (u w1 h : List (List Int)) : Prop where
  len : sig.length = 2420
  matrix : IsMatrix S128 (slice pk 0 32) A
  chal : IsBall S256 (slice sig 0 32) c
  ones : c.length = 256 ∧ (∀ x ∈ c, x = 0 ∨ x = 1 ∨ x = -1) ∧ c.countP (· ≠ 0) = 39
  hz : Short (zOfSig sig) 130993
  hu : Short u 190465
  hint : IsHint h ∧ weight h ≤ 80
  few : ∀ i, i < 4 → ∀ j, j < 256 → co (at_ h i) j = 0 → -95232 ≤ co (at_ u i) j ∧ co (at_ u i) j ≤ 95232
  hw1 : w1.length = 4 ∧ ∀ i, i < 4 → (at_ w1 i).length = 256 ∧ ∀ j, j < 256 → 0 ≤ co (at_ w1 i) j ∧ co (at_ w1 i) j ≤ 43
  eq : Equation A (t1Of pk) (zOfSig sig) c u (vec fun i => scale 190464 (at_ w1 i))
  hash : slice sig 0 32 = S256 (hashed S256 pk m w1) 32

/-- The solution that verification works with: the hints are those in the signature and w1 is the vector that the verifier recovers (compare dilithium2/sign.c:300-319).  These two
conditions leave only one possible string to be hashed (`checked_unique`). -/
structure Checked (pk m sig : Bytes) (A : List (List (List Int))) (c : List Int) (u w1 h : List (List Int)) : Prop extends Solution S128 S256 pk m sig A c u w1 h where
  decoded : sig = encodeSig (slice sig 0 32) (zOfSig sig) h
  recovered : w1 = w1Of A (zOfSig sig) (t1Of pk) h c

/-- A short vector of the lattice of the public key: the problem MSIS for the matrix (A, -2^13 t1, I) (compare dilithium2/params.h:8-21). -/
structure Relation (pk : Bytes) (z : List (List Int)) (c : List Int) (u : List (List Int)) : Prop where
  hz : Short z 261986
  hc : c.length = 256 ∧ ∀ j, j < 256 → -2 ≤ co c j ∧ co c j ≤ 2
  hu : Short u 380930
  eq : ∃ A, IsMatrix S128 (slice pk 0 32) A ∧ Equation A (t1Of pk) z c u (vec fun _ => mk fun _ => 0)

/-- Some coefficient of `z` or `c` is not 0; when they are short as above, it is then not 0 modulo q either (compare dilithium2/params.h:8-21). -/
def Nonzero (z : List (List Int)) (c : List Int) : Prop := (∃ i j, i < 4 ∧ j < 256 ∧ co (at_ z i) j ≠ 0) ∨ ∃ j, j < 256 ∧ co c j ≠ 0

end Verif.Dilithium.Spec
