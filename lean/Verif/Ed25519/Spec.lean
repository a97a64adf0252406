import Verif.Base
import Verif.Ed25519.Prime
import Verif.Ed25519.Curve
import Mathlib.NumberTheory.LegendreSymbol.Basic
import Mathlib.Algebra.BigOperators.Group.Finset.Basic

/-!
Specification of SHA-512 (FIPS 180-4) and of Ed25519 (RFC 8032), independent of tweetnacl.c: the field is `ZMod (2^255 - 19)`, the group is the group of
the Edwards curve of Curve.lean, scalars are natural numbers.
-/

namespace Verif.Ed25519
open Verif

namespace Spec

/-! ### Byte strings and numbers -/

/-- Little-endian value. -/
def leVal : Bytes → Nat
  | [] => 0
  | b :: bs => b.toNat + 256 * leVal bs

/-- The `n` little-endian bytes of `v`. -/
def leBytes (n v : Nat) : Bytes := (List.range n).map fun i => BitVec.ofNat 8 (v / 256 ^ i)

/-- The `n` big-endian bytes of `v`. -/
def beBytes (n v : Nat) : Bytes := (leBytes n v).reverse

/-- Big-endian value. -/
def beVal (b : Bytes) : Nat := leVal b.reverse

/-! ### SHA-512 (FIPS 180-4) -/

/-- 64-bit words of SHA-512 (FIPS 180-4; tweetnacl/tweetnacl.c:7). -/
abbrev Word := BitVec 64

/-- FIPS 180-4 section 3.2 (compare tweetnacl/tweetnacl.c:489). -/
def ROTR (n : Nat) (x : Word) : Word := x >>> n ||| x <<< (64 - n)
/-- FIPS 180-4 section 3.2. -/
def SHR (n : Nat) (x : Word) : Word := x >>> n
/-- 4.1.3 -/
def Ch (x y z : Word) : Word := (x &&& y) ^^^ (~~~x &&& z)
/-- FIPS 180-4 (4.9) (compare tweetnacl/tweetnacl.c:491). -/
def Maj (x y z : Word) : Word := (x &&& y) ^^^ (x &&& z) ^^^ (y &&& z)
/-- FIPS 180-4 (4.10) (compare tweetnacl/tweetnacl.c:492). -/
def bigSigma0 (x : Word) : Word := ROTR 28 x ^^^ ROTR 34 x ^^^ ROTR 39 x
/-- FIPS 180-4 (4.11) (compare tweetnacl/tweetnacl.c:493). -/
def bigSigma1 (x : Word) : Word := ROTR 14 x ^^^ ROTR 18 x ^^^ ROTR 41 x
/-- FIPS 180-4 (4.12) (compare tweetnacl/tweetnacl.c:494). -/
def smallSigma0 (x : Word) : Word := ROTR 1 x ^^^ ROTR 8 x ^^^ SHR 7 x
/-- FIPS 180-4 (4.13) (compare tweetnacl/tweetnacl.c:495). -/
def smallSigma1 (x : Word) : Word := ROTR 19 x ^^^ ROTR 61 x ^^^ SHR 6 x

/-- The first eighty prime numbers. -/
def primes : List Nat := [2, 3, 5, 7, 11, 13, 17, 19, 23, 29, 31, 37, 41, 43, 47, 53, 59, 61, 67, 71, 73, 79, 83, 89, 97, 101, 103, 107, 109, 113, 127, 131, 137,
  139, 149, 151, 157, 163, 167, 173, 179, 181, 191, 193, 197, 199, 211, 223, 227, 229, 233, 239, 241, 251, 257, 263, 269, 271, 277, 281, 283, 293, 307, 311, 313,
  317, 331, 337, 347, 349, 353, 359, 367, 373, 379, 383, 389, 397, 401, 409]

/-- The largest `r < 2 ^ bits + acc` with `r ^ k ≤ n`, bit by bit. -/
def rootGo (k n : Nat) : (bits acc : Nat) → Nat
  | 0, acc => acc
  | b + 1, acc => rootGo k n b (if (acc + 2 ^ b) ^ k ≤ n then acc + 2 ^ b else acc)

/-- 4.2.3: the first sixty-four bits of the fractional part of the k-th root of q. -/
def fracRoot (k q : Nat) : Word := BitVec.ofNat 64 (rootGo k (q * 2 ^ (64 * k)) 72 0)

/-- 4.2.3: the constants: cube roots of the first eighty primes. -/
def K (t : Nat) : Word := fracRoot 3 (primes.getD t 0)

/-- 5.3.5: the initial hash value: square roots of the first eight primes. -/
def H0 : List Word := (primes.take 8).map (fracRoot 2)

/-- 5.1.2: a one bit, zeros up to 896 modulo 1024, the length in bits in 128 bits; for messages of whole bytes. -/
def pad (m : Bytes) : Bytes := m ++ [0x80] ++ List.replicate ((239 - m.length % 128) % 128) 0 ++ beBytes 16 (8 * m.length)

/-- 6.4.2 step 1: the message schedule of a block of sixteen words. -/
def W (M : Nat → Word) (t : Nat) : Word :=
  if t < 16 then M t else smallSigma1 (W M (t - 2)) + W M (t - 7) + smallSigma0 (W M (t - 15)) + W M (t - 16)
termination_by t

/-- The eight working variables. -/
structure Vars where
  (a b c d e f g h : Word)

/-- 6.4.2 step 3. -/
def round (w : Word) (k : Word) (v : Vars) : Vars :=
  let T1 := v.h + bigSigma1 v.e + Ch v.e v.f v.g + k + w
  let T2 := bigSigma0 v.a + Maj v.a v.b v.c
  ⟨T1 + T2, v.a, v.b, v.c, v.d + T1, v.e, v.f, v.g⟩

/-- `n` rounds. -/
def rounds (M : Nat → Word) : (n : Nat) → Vars → Vars
  | 0, v => v
  | n + 1, v => round (W M n) (K n) (rounds M n v)

/-- 6.4.2: one block. -/
def compress (H : Vars) (block : Bytes) : Vars :=
  let v := rounds (fun i => BitVec.ofNat 64 (beVal ((block.drop (8 * i)).take 8))) 80 H
  ⟨H.a + v.a, H.b + v.b, H.c + v.c, H.d + v.d, H.e + v.e, H.f + v.f, H.g + v.g, H.h + v.h⟩

/-- All blocks of a string whose length is a multiple of 128. -/
def compressAll (H : Vars) (m : Bytes) : Nat → Vars
  | 0 => H
  | n + 1 => compress (compressAll H m n) ((m.drop (128 * n)).take 128)

/-- The initial hash value as the eight variables. -/
def initVars : Vars := ⟨H0.getD 0 0, H0.getD 1 0, H0.getD 2 0, H0.getD 3 0, H0.getD 4 0, H0.getD 5 0, H0.getD 6 0, H0.getD 7 0⟩

/-- The eight variables as big-endian bytes. -/
def Vars.bytes (v : Vars) : Bytes := [v.a, v.b, v.c, v.d, v.e, v.f, v.g, v.h].flatMap fun w => beBytes 8 w.toNat

/-- SHA-512 of a string of bytes. -/
def sha512 (m : Bytes) : Bytes := (compressAll initVars (pad m) ((pad m).length / 128)).bytes

/-! ### The curve -/

/-- The field prime. -/
def p : Nat := 2 ^ 255 - 19
/-- 2^255 - 19 is prime. -/
instance : Fact p.Prime := ⟨prime_p⟩
/-- The field. -/
abbrev F := ZMod p

/-- RFC 8032 5.1 -/
def d : F := -121665 / 121666

/-- The order of the base point. -/
def L : Nat := 2 ^ 252 + 27742317777372353535851937790883648493

/-- `d` as a number; only used to prove facts about `d`. -/
def dNat : Nat := 37095705934669439343138083508754565189542113879843219016388785533085940283555

theorem natCast_ne_zero {n : Nat} (h : n % p ≠ 0) : (n : F) ≠ 0 := by
  intro h0
  exact h (Nat.mod_eq_zero_of_dvd ((ZMod.natCast_eq_zero_iff n p).1 h0))

theorem natCast_eq {a b : Nat} (h : a % p = b % p) : (a : F) = b := (ZMod.natCast_eq_natCast_iff a b p).2 h

theorem d_eq : d = (dNat : F) := by
  have h : (121666 : F) ≠ 0 := by
    have := natCast_ne_zero (n := 121666) (by decide +kernel)
    simpa using this
  unfold d
  rw [div_eq_iff h]
  have : ((dNat * 121666 + 121665 : Nat) : F) = (0 : Nat) := natCast_eq (by decide +kernel)
  push_cast at this
  linear_combination -this

/-- Square root of -1. -/
def sqrtm1 : Nat := 19681161376707505956807079304988542015446066515923890162744021073123829784752

/-- d is not a square, so the addition law is complete. -/
instance : Complete d where
  nonsquare := by
    have h0 : d ≠ 0 := by rw [d_eq]; exact natCast_ne_zero (by decide +kernel)
    rw [ZMod.euler_criterion p h0, d_eq, zmod_pow_eq (c := p - 1) (by decide +kernel) (by decide +kernel)]
    intro h
    have h1 : ((p - 1 : Nat) : F) = (1 : Nat) := by simpa using h
    rw [ZMod.natCast_eq_natCast_iff] at h1
    revert h1
    unfold Nat.ModEq
    decide +kernel
  root := by
    refine ⟨(sqrtm1 : F), ?_⟩
    have : ((sqrtm1 * sqrtm1 + 1 : Nat) : F) = (0 : Nat) := natCast_eq (by decide +kernel)
    push_cast at this
    linear_combination this

/-- The x coordinate of the base point, RFC 8032 5.1. -/
def Bx : Nat := 15112221349535400772501151409588531511454012693041857206046113283949847762202

/-- The base point: y = 4/5. -/
def B : Point d where
  x := (Bx : F)
  y := 4 / 5
  on := by
    have h : (5 : F) ≠ 0 := by
      have := natCast_ne_zero (n := 5) (by decide +kernel)
      simpa using this
    have : ((25 * Bx ^ 2 + 25 + 16 * dNat * Bx ^ 2 : Nat) : F) = (16 : Nat) := natCast_eq (by decide +kernel)
    push_cast at this
    rw [div_pow, d_eq]
    have h25 : (5 : F) ^ 2 ≠ 0 := pow_ne_zero 2 h
    rw [← mul_right_inj' h25]
    have e : (5 : F) ^ 2 * (4 ^ 2 / 5 ^ 2) = 4 ^ 2 := mul_div_cancel₀ _ h25
    generalize ((4 : F) ^ 2 / 5 ^ 2) = z at *
    linear_combination -this + (1 - (dNat : F) * (Bx : F) ^ 2) * e

/-- RFC 8032 5.1.2: the encoding of a point. -/
def encode (P : Point d) : Bytes := leBytes 32 (P.y.val + 2 ^ 255 * (P.x.val % 2))

/-- The point that a public key stands for: the low 255 bits are y modulo p, the top bit is the parity of x; unlike RFC 8032 5.1.3 neither y < p nor, for x = 0, a zero top bit
is required. -/
def Decodes (pk : Bytes) (A : Point d) : Prop :=
  A.y = ((leVal pk % 2 ^ 255 : Nat) : F) ∧ (A.x.val % 2 = leVal pk / 2 ^ 255 ∨ A.x = 0)

/-! ### Keys and signatures -/

/-- RFC 8032 5.1.5: the secret scalar. -/
def scalar (seed : Bytes) : Nat := 2 ^ 254 + 8 * (leVal ((sha512 seed).take 32) / 8 % 2 ^ 251)

/-- RFC 8032 5.1.5: the public key. -/
def publicKey (seed : Bytes) : Bytes := encode (scalar seed • B)

/-- SHA-512 modulo L. -/
def hashL (m : Bytes) : Nat := leVal (sha512 m) % L

/-- RFC 8032 5.1.6, with the public key given. -/
def sign (seed pk m : Bytes) : Bytes :=
  let r := hashL ((sha512 seed).drop 32 ++ m)
  let R := encode (r • B)
  R ++ leBytes 32 ((r + hashL (R ++ pk ++ m) * scalar seed) % L)

/-- RFC 8032 5.1.7 with the equation without cofactor, and without the condition S < L. -/
def Valid (pk m sig : Bytes) : Prop :=
  ∃ A, Decodes pk A ∧ sig.take 32 = encode (leVal (sig.drop 32) • B - hashL (sig.take 32 ++ pk ++ m) • A)

/-! ### Numbers in limbs -/

/-- Sixteen limbs of absolute value at most `b`. -/
def InRange (b : Int) (a : List Int) : Prop := a.length = 16 ∧ ∀ x ∈ a, -b ≤ x ∧ x ≤ b

/-- The residue that limbs in base 2^16 stand for. -/
def residue (a : List Int) : F := ∑ k ∈ Finset.range a.length, ((a.getD k 0 : Int) : F) * 2 ^ (16 * k)

/-- The number that limbs in base 256 stand for. -/
def number (a : List Int) : Int := ∑ k ∈ Finset.range a.length, a.getD k 0 * 256 ^ k

/-- Extended homogeneous coordinates of a point (RFC 8032 5.1.4), in limbs. -/
def Stands (P : Point d) (x y z t : List Int) : Prop :=
  InRange (2 ^ 18) x ∧ InRange (2 ^ 18) y ∧ InRange (2 ^ 18) z ∧ InRange (2 ^ 18) t ∧
    residue z ≠ 0 ∧ residue x / residue z = P.x ∧ residue y / residue z = P.y ∧ residue t / residue z = P.x * P.y

end Spec
end Verif.Ed25519
