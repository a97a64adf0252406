import Mathlib.Data.Fin.Basic
import Mathlib.Data.BitVec
import Verif.Base

/-!
FIPS 202 at the level of single bits, written from the standard (sections 3.2 to 3.4, 4, 5.1, 6, B.1), independent of the code.
-/

namespace Verif.Keccak.Spec
open Verif

/-- FIPS 202, 3.1: the state array A[x, y, z] of KECCAK-p[1600, n_r], w = 64. -/
abbrev State := Fin 5 → Fin 5 → Fin 64 → Bool

/-- FIPS 202, Algorithm 1, step 1. -/
def column (A : State) (x : Fin 5) (z : Fin 64) : Bool :=
  A x 0 z ^^ A x 1 z ^^ A x 2 z ^^ A x 3 z ^^ A x 4 z

/-- FIPS 202, Algorithm 1: theta. -/
def theta (A : State) : State := fun x y z => A x y z ^^ (column A (x - 1) z ^^ column A (x + 1) (z - 1))

/-- FIPS 202, Algorithm 2, steps 2 and 3b: the t-th position visited. -/
def walk : Nat → Fin 5 × Fin 5
  | 0 => (1, 0)
  | t + 1 => let (x, y) := walk t; (y, 2 * x + 3 * y)

/-- FIPS 202, Algorithm 2: the rotation offset of lane (x, y): 0 for (0, 0), else (t+1)(t+2)/2 for the t with `walk t = (x, y)`. -/
def offset (x y : Fin 5) : Nat :=
  match (List.range 24).find? (fun t => walk t = (x, y)) with
  | some t => (t + 1) * (t + 2) / 2
  | none => 0

/-- FIPS 202, Algorithm 2: rho.  A'[x, y, z] = A[x, y, (z - offset) mod 64]. -/
def rho (A : State) : State := fun x y z => A x y (z - Fin.ofNat 64 (offset x y))

/-- FIPS 202, Algorithm 3: pi. -/
def pi (A : State) : State := fun x y z => A (x + 3 * y) x z

/-- FIPS 202, Algorithm 4: chi. -/
def chi (A : State) : State := fun x y z => A x y z ^^ (!(A (x + 1) y z) && A (x + 2) y z)

/-- FIPS 202, Algorithm 5, steps 3a to 3f: one step of the register R (R[0] first). -/
def lfsrStep (R : List Bool) : List Bool :=
  let R := false :: R
  let b := R.getD 8 false
  let R := R.set 0 (R.getD 0 false ^^ b)
  let R := R.set 4 (R.getD 4 false ^^ b)
  let R := R.set 5 (R.getD 5 false ^^ b)
  let R := R.set 6 (R.getD 6 false ^^ b)
  R.take 8

/-- FIPS 202, Algorithm 5: rc(t). -/
def rc (t : Nat) : Bool :=
  if t % 255 = 0 then true else
  (Nat.repeat lfsrStep (t % 255) [true, false, false, false, false, false, false, false]).getD 0 false

/-- FIPS 202, Algorithm 6, steps 2 and 3: bit z of the round constant RC of round ir; RC[2^j - 1] = rc(j + 7 ir) for j = 0..6. -/
def RC (ir : Nat) (z : Fin 64) : Bool :=
  match (List.range 7).find? (fun j => 2 ^ j - 1 = z.val) with
  | some j => rc (j + 7 * ir)
  | none => false

/-- FIPS 202, Algorithm 6: iota. -/
def iota (ir : Nat) (A : State) : State := fun x y z => if x = 0 ∧ y = 0 then A x y z ^^ RC ir z else A x y z

/-- FIPS 202, 3.3: Rnd. -/
def round (ir : Nat) (A : State) : State := iota ir (chi (pi (rho (theta A))))

/-- The first n rounds. -/
def rounds : Nat → State → State
  | 0, A => A
  | n + 1, A => round n (rounds n A)

/-- FIPS 202, Algorithm 7: KECCAK-p[1600, 24] = KECCAK-f[1600]. -/
def keccakF (A : State) : State := rounds 24 A

/-- FIPS 202, 3.1.2 and 3.1.3: bit k of the string S that corresponds to the state array, S[64 (5 y + x) + z] = A[x, y, z]. -/
def bitOf (A : State) (k : Fin 1600) : Bool :=
  A (Fin.ofNat 5 (k.val / 64)) (Fin.ofNat 5 (k.val / 320)) (Fin.ofNat 64 k.val)

/-- FIPS 202, 3.1.2: the state array of a string. -/
def ofBits (S : Fin 1600 → Bool) : State := fun x y z => S ⟨64 * (5 * y.val + x.val) + z.val, by omega⟩

/-- FIPS 202, 4, Algorithm 8, steps 4 to 6: S = f(S xor (P_i || 0^c)) for the n blocks of r bits of P. -/
def absorb (r : Nat) (P : List Bool) : Nat → State
  | 0 => fun _ _ _ => false
  | n + 1 => keccakF (ofBits fun k =>
      bitOf (absorb r P n) k ^^ (decide (k.val < r) && P.getD (r * n + k.val) false))

/-- FIPS 202, 5.1, Algorithm 9: pad10*1(x, m) = 1 || 0^j || 1 with j = (-m - 2) mod x. -/
def pad101 (x m : Nat) : List Bool := true :: (List.replicate ((-(m : Int) - 2) % (x : Int)).toNat false ++ [true])

/-- FIPS 202, Algorithm 8, steps 7 to 10: the output stream.  Z is the concatenation of the first r bits of S, f(S), f(f(S)), ... -/
def squeezeBit (r : Nat) (S : State) (k : Nat) : Bool :=
  (Nat.repeat keccakF (k / r) S) (Fin.ofNat 5 (k % r / 64)) (Fin.ofNat 5 (k % r / 320)) (Fin.ofNat 64 (k % r))

/-- FIPS 202, Algorithm 8: SPONGE[KECCAK-f[1600], pad10*1, r](N, d). -/
def sponge (r : Nat) (N : List Bool) (d : Nat) : List Bool :=
  let P := N ++ pad101 r N.length
  (List.range d).map (squeezeBit r (absorb r P (P.length / r)))

/-- FIPS 202, B.1: the bit string of a byte string, least significant bit of each byte first. -/
def bits (m : Bytes) : List Bool := m.flatMap fun b => (List.range 8).map b.getLsbD

/-- FIPS 202, 6.1 and 6.2 (5.2: KECCAK[c] = SPONGE[KECCAK-f, pad10*1, 1600 - c]). -/
def SHA3_256 (M : List Bool) : List Bool := sponge (1600 - 512) (M ++ [false, true]) 256
/-- FIPS 202 section 6.1. -/
def SHA3_384 (M : List Bool) : List Bool := sponge (1600 - 768) (M ++ [false, true]) 384
/-- FIPS 202 section 6.1. -/
def SHA3_512 (M : List Bool) : List Bool := sponge (1600 - 1024) (M ++ [false, true]) 512
/-- FIPS 202 section 6.2. -/
def SHAKE128 (M : List Bool) (d : Nat) : List Bool := sponge (1600 - 256) (M ++ [true, true, true, true]) d
/-- FIPS 202 section 6.2. -/
def SHAKE256 (M : List Bool) (d : Nat) : List Bool := sponge (1600 - 512) (M ++ [true, true, true, true]) d

end Verif.Keccak.Spec
