import Verif.Ed25519.Spec

/-!
What Salsa20, HSalsa20, XSalsa20, Poly1305 and secretbox are, written from the papers
(D. J. Bernstein: "The Salsa20 family of stream ciphers" / "Salsa20 specification", "Extending the Salsa20 nonce",
"The Poly1305-AES message-authentication code", "Cryptography in NaCl"), independently of the model of the code.
-/

namespace Verif.Nacl.Spec
open Verif Verif.Ed25519.Spec

/-! ### Salsa20 -/

/-- 32-bit words of Salsa20. -/
abbrev Word := BitVec 32

/-- Salsa20 specification, section 3: the quarterround function. -/
def quarter (y0 y1 y2 y3 : Word) : Word × Word × Word × Word :=
  let z1 := y1 ^^^ (y0 + y3).rotateLeft 7
  let z2 := y2 ^^^ (z1 + y0).rotateLeft 9
  let z3 := y3 ^^^ (z2 + z1).rotateLeft 13
  let z0 := y0 ^^^ (z3 + z2).rotateLeft 18
  (z0, z1, z2, z3)

/-- Section 4: the rowround function. -/
def rowround : List Word → List Word
  | [y0, y1, y2, y3, y4, y5, y6, y7, y8, y9, y10, y11, y12, y13, y14, y15] =>
    let (z0, z1, z2, z3) := quarter y0 y1 y2 y3
    let (z5, z6, z7, z4) := quarter y5 y6 y7 y4
    let (z10, z11, z8, z9) := quarter y10 y11 y8 y9
    let (z15, z12, z13, z14) := quarter y15 y12 y13 y14
    [z0, z1, z2, z3, z4, z5, z6, z7, z8, z9, z10, z11, z12, z13, z14, z15]
  | l => l

/-- Section 5: the columnround function. -/
def columnround : List Word → List Word
  | [x0, x1, x2, x3, x4, x5, x6, x7, x8, x9, x10, x11, x12, x13, x14, x15] =>
    let (y0, y4, y8, y12) := quarter x0 x4 x8 x12
    let (y5, y9, y13, y1) := quarter x5 x9 x13 x1
    let (y10, y14, y2, y6) := quarter x10 x14 x2 x6
    let (y15, y3, y7, y11) := quarter x15 x3 x7 x11
    [y0, y1, y2, y3, y4, y5, y6, y7, y8, y9, y10, y11, y12, y13, y14, y15]
  | l => l

/-- Section 6: the doubleround function. -/
def doubleround (l : List Word) : List Word := rowround (columnround l)

/-- Section 7: a string of 64 bytes as sixteen little-endian words. -/
def words (x : Bytes) : List Word := (List.range 16).map fun i => BitVec.ofNat 32 (leVal ((x.drop (4 * i)).take 4))

/-- The bytes of a list of words. -/
def unwords (l : List Word) : Bytes := l.flatMap fun v => leBytes 4 v.toNat

/-- Section 8: the Salsa20 hash function. -/
def salsa20 (x : Bytes) : Bytes := unwords (List.zipWith (· + ·) (words x) (doubleround^[10] (words x)))

/-- Section 9: the constants, "expand 32-byte k" in ASCII. -/
def sigma0 : Bytes := [101, 120, 112, 97]
/-- "nd 3" -/
def sigma1 : Bytes := [110, 100, 32, 51]
/-- "2-by" -/
def sigma2 : Bytes := [50, 45, 98, 121]
/-- "te k" -/
def sigma3 : Bytes := [116, 101, 32, 107]

/-- Section 9: the 64 bytes that a key of 32 bytes and a block of 16 bytes are arranged into. -/
def arrange (k n : Bytes) : Bytes := sigma0 ++ k.take 16 ++ sigma1 ++ n ++ sigma2 ++ k.drop 16 ++ sigma3

/-- Section 9: the expansion function for a key of 32 bytes. -/
def expansion (k n : Bytes) : Bytes := salsa20 (arrange k n)

/-- Section 10: byte `j` of the Salsa20 stream with key `k` and nonce `v` of 8 bytes; the block number is taken modulo 2^64. -/
def salsaByte (k v : Bytes) (j : Nat) : Byte := (expansion k (v ++ leBytes 8 (j / 64))).getD (j % 64) 0

/-- Extending the Salsa20 nonce, section 2: HSalsa20. -/
def hsalsa20 (k n : Bytes) : Bytes :=
  let z := doubleround^[10] (words (arrange k n))
  unwords ([0, 5, 10, 15, 6, 7, 8, 9].map fun i => z.getD i 0)

/-- Byte `j` of the XSalsa20 stream with key `k` and nonce `n` of 24 bytes. -/
def xsalsaByte (k n : Bytes) (j : Nat) : Byte := salsaByte (hsalsa20 k (n.take 16)) (n.drop 16) j

/-- The first `len` bytes of the XSalsa20 stream. -/
def xsalsa20 (k n : Bytes) (len : Nat) : Bytes := (List.range len).map (xsalsaByte k n)

/-- The string `x` exclusive-or the string `y` of the same length. -/
def xorBytes (x y : Bytes) : Bytes := List.zipWith (· ^^^ ·) x y

/-! ### Poly1305 -/

/-- The prime 2^130 - 5. -/
def P1305 : Nat := 2 ^ 130 - 5

/-- The clamped multiplier: the bits that have to be zero are cleared. -/
def clampR (k : Bytes) : Nat := leVal (k.take 16) &&& 0x0ffffffc0ffffffc0ffffffc0fffffff

/-- The number of chunk `i` (from 0) of the message: its bytes, followed by a one. -/
def chunk (m : Bytes) (i : Nat) : Nat :=
  let b := (m.drop (16 * i)).take 16
  leVal b + 256 ^ b.length

/-- c_1 r^q + c_2 r^(q-1) + ... + c_q r for the q chunks of the message. -/
def polySum (m : Bytes) (r : Nat) : Nat :=
  let q := (m.length + 15) / 16
  ((List.range q).map fun i => chunk m i * r ^ (q - i)).sum

/-- Poly1305 of the message `m` under the one-time key `k` of 32 bytes. -/
def poly1305 (k m : Bytes) : Bytes :=
  leBytes 16 ((polySum m (clampR k) % P1305 + leVal (k.drop 16)) % 2 ^ 128)

/-! ### secretbox -/

/-- The authenticated ciphertext of the message `m` (without the leading zeros of the C interface): tag, then encrypted message. -/
def sealBox (k n m : Bytes) : Bytes :=
  let s := xsalsa20 k n (32 + m.length)
  let e := xorBytes m (s.drop 32)
  poly1305 (s.take 32) e ++ e

end Verif.Nacl.Spec
