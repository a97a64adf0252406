import Verif.Base

/-!
Dilithium2 as a mathematical scheme, written from FIPS 204 (initial public draft, sections 5, 6, 8) and the Dilithium 3.1
specification with the parameters of level 2, not from the C code.  There is no NTT trick, no Montgomery representation and no
packing loop here: polynomials are lists of 256 integers, the product is the negacyclic convolution, encodings are numbers written
in base 256.

`S128 m n` and `S256 m n` stand for the first `n` bytes of SHAKE128(m) and SHAKE256(m).  The samplers read an unbounded stream, so
they are relations: a value is the sample if some prefix of the stream determines it.
-/

namespace Verif.Dilithium.Spec
open Verif

/-- The modulus (dilithium2/params.h:9). -/
abbrev q : Int := 8380417

/-- Coefficient `i`. -/
def co (a : List Int) (i : Nat) : Int := a.getD i 0
/-- The polynomial with the given coefficients. -/
def mk (f : Nat → Int) : List Int := (List.range 256).map f
/-- Component `i` of a vector. -/
def at_ {α : Type} (v : List (List α)) (i : Nat) : List α := v.getD i []
/-- The vector of four components. -/
def vec {α : Type} (f : Nat → α) : List α := (List.range 4).map f

/-! ### The ring Z_q[X]/(X^256+1), residues represented in [0, q) -/

/-- Addition of polynomials modulo q (compare dilithium2/poly.c:59-68). -/
def add (a b : List Int) : List Int := mk fun i => (co a i + co b i) % q
/-- Subtraction of polynomials modulo q (compare dilithium2/poly.c:81-90). -/
def sub (a b : List Int) : List Int := mk fun i => (co a i - co b i) % q
/-- Multiplication of a polynomial by a number modulo q. -/
def scale (k : Int) (a : List Int) : List Int := mk fun i => (k * co a i) % q
/-- Negacyclic product: X^256 = -1. -/
def mul (a b : List Int) : List Int :=
  mk fun k => ((List.range 256).map fun i => co a i * (if i ≤ k then co b (k - i) else -co b (256 + k - i))).sum % q

/-- Reversal of the 8 bits of `j`. -/
def brv (j : Nat) : Nat :=
  ((List.range 8).map fun i => (j / 2 ^ i % 2) * 2 ^ (7 - i)).sum

/-- The NTT representation: the values of the polynomial at the 256 odd powers of the 512th root of unity 1753, in bit-reversed order
(FIPS 204 section 8.5). -/
def ntt (a : List Int) : List Int :=
  mk fun j => ((List.range 256).map fun i => co a i * 1753 ^ ((2 * brv j + 1) * i)).sum % q
/-- The polynomial with given NTT representation; 731434 is the inverse of 1753 and 8347681 that of 256. -/
def invNtt (c : List Int) : List Int :=
  mk fun i => (8347681 * ((List.range 256).map fun j => co c j * 731434 ^ ((2 * brv j + 1) * i)).sum) % q

/-- Matrix times vector; the matrix is given by the NTT representation of its entries. -/
def matVec (A : List (List (List Int))) (v : List (List Int)) : List (List Int) :=
  vec fun i => mk fun k => ((List.range 4).map fun j => co (mul (invNtt (at_ (at_ A i) j)) (at_ v j)) k).sum % q

/-! ### Rounding (FIPS 204 section 8.4) -/

/-- Representative of `x` modulo `m` in (-m/2, m/2]. -/
def cmod (x m : Int) : Int := if x % m > m / 2 then x % m - m else x % m

/-- Power2Round of the Dilithium specification (compare dilithium2/rounding.c). -/
def power2Round (r : Int) : Int × Int := ((r % q - cmod (r % q) 8192) / 8192, cmod (r % q) 8192)
/-- Decompose of the Dilithium specification (compare dilithium2/rounding.c). -/
def decompose (r : Int) : Int × Int :=
  let r0 := cmod (r % q) 190464
  if r % q - r0 = q - 1 then (0, r0 - 1) else ((r % q - r0) / 190464, r0)
/-- HighBits of the Dilithium specification. -/
def highBits (r : Int) : Int := (decompose r).1
/-- LowBits of the Dilithium specification. -/
def lowBits (r : Int) : Int := (decompose r).2
/-- Does adding `z` change the high bits of `r`? -/
def makeHint (z r : Int) : Int := if highBits r = highBits (r + z) then 0 else 1
/-- UseHint of the Dilithium specification (compare dilithium2/rounding.c). -/
def useHint (h r : Int) : Int :=
  if h = 1 then (if lowBits r > 0 then (highBits r + 1) % 44 else (highBits r - 1) % 44) else highBits r

/-- Every coefficient of every component, reduced to (-q/2, q/2], has absolute value below `B`. -/
def NormLt (v : List (List Int)) (B : Int) : Prop := ∀ i, i < 4 → ∀ j, j < 256 → -B < cmod (co (at_ v i) j) q ∧ cmod (co (at_ v i) j) q < B

/-! ### Encodings (FIPS 204 section 8.1, 8.2) -/

/-- The `n` base-256 digits of `v`, least significant first. -/
def toLe : Nat → Nat → Bytes
  | 0, _ => []
  | n + 1, v => BitVec.ofNat 8 v :: toLe n (v / 256)

/-- The number with base-`2^w` digits `l`, least significant first. -/
def digits (w : Nat) : List Nat → Nat
  | [] => 0
  | x :: l => x + 2 ^ w * digits w l

/-- Fields of `w` bits one after the other. -/
def packBits (w : Nat) (l : List Nat) : Bytes := toLe (w * l.length / 8) (digits w l)
/-- The `n` fields of `w` bits. -/
def unpackBits (w n : Nat) (b : Bytes) : List Nat := (List.range n).map fun i => ofLe b / 2 ^ (w * i) % 2 ^ w

/-- Coefficients in (c - 2^w, c] are written as c - x. -/
def packAt (w : Nat) (c : Int) (a : List Int) : Bytes := packBits w (a.map fun x => (c - x).toNat)
/-- Decoding of 256 fields of w bits that stand for c minus the field. -/
def unpackAt (w : Nat) (c : Int) (b : Bytes) : List Int := (unpackBits w 256 b).map fun (x : Nat) => c - (x : Int)
/-- Nonnegative coefficients. -/
def packPos (w : Nat) (a : List Int) : Bytes := packBits w (a.map Int.toNat)
/-- Decoding of 256 fields of w bits. -/
def unpackPos (w : Nat) (b : Bytes) : List Int := (unpackBits w 256 b).map fun (x : Nat) => (x : Int)

/-- Positions of the nonzero coefficients in increasing order. -/
def positions (h : List Int) : Bytes := ((List.range 256).filter fun j => co h j ≠ 0).map (BitVec.ofNat 8)
/-- Hint encoding: all positions, zeros up to 80 bytes, then four running totals. -/
def packHint (h : List (List Int)) : Bytes :=
  let p := h.flatMap positions
  p ++ List.replicate (80 - p.length) 0 ++ vec fun i => BitVec.ofNat 8 ((h.take (i + 1)).flatMap positions).length
/-- Number of nonzero hints. -/
def weight (h : List (List Int)) : Nat := (h.flatMap positions).length
/-- Four polynomials with coefficients 0 and 1. -/
def IsHint (h : List (List Int)) : Prop := h.length = 4 ∧ ∀ x ∈ h, x.length = 256 ∧ ∀ c ∈ x, c = 0 ∨ c = 1

/-- The signature as bytes (layout of dilithium2/packing.c:168-199). -/
def encodeSig (c : Bytes) (z h : List (List Int)) : Bytes := c ++ z.flatMap (packAt 18 131072) ++ packHint h
/-- The public key as bytes (layout of dilithium2/packing.c:15-28). -/
def encodePk (rho : Bytes) (t1 : List (List Int)) : Bytes := rho ++ t1.flatMap (packPos 10)
/-- The secret key as bytes (layout of dilithium2/packing.c:67-104). -/
def encodeSk (rho key tr : Bytes) (s1 s2 t0 : List (List Int)) : Bytes :=
  rho ++ key ++ tr ++ s1.flatMap (packAt 3 2) ++ s2.flatMap (packAt 3 2) ++ t0.flatMap (packAt 13 4096)

/-! ### Sampling (FIPS 204 section 8.3) -/

/-- Two little-endian bytes. -/
def le16 (n : Nat) : Bytes := toLe 2 n

/-- Groups of three bytes as 23-bit numbers. -/
def triples : Bytes → List Nat
  | b0 :: b1 :: b2 :: l => (b0.toNat + 256 * b1.toNat + 65536 * (b2.toNat % 128)) :: triples l
  | _ => []

/-- The first 256 candidates, if there are as many. -/
def first256 (l : List Int) : Option (List Int) := if 256 ≤ l.length then some (l.take 256) else none

/-- The polynomial sampled from a byte string by taking the 23-bit numbers below q (compare dilithium2/poly.c:311-333). -/
def uniformOf (b : Bytes) : Option (List Int) := first256 (((triples b).filter fun t => t < 8380417).map fun (t : Nat) => (t : Int))
/-- The polynomial with small coefficients sampled from a byte string by half bytes (compare dilithium2/poly.c:387-412). -/
def etaOf (b : Bytes) : Option (List Int) :=
  first256 (((b.flatMap fun x => [x.toNat % 16, x.toNat / 16]).filter fun t => t < 15).map fun (t : Nat) => 2 - ((t % 5 : Nat) : Int))

/-- The first byte that is at most `i`, and what follows it. -/
def firstLe (i : Nat) : Bytes → Option (Nat × Bytes)
  | [] => none
  | b :: l => if b.toNat ≤ i then some (b.toNat, l) else firstLe i l
/-- The loop of SampleInBall: `n` rounds from position `i`. -/
def ballLoop : (n i signs : Nat) → Bytes → List Int → Option (List Int)
  | 0, _, _, _, c => some c
  | n + 1, i, s, b, c =>
    match firstLe i b with
    | none => none
    | some (j, b) => ballLoop n (i + 1) (s / 2) b ((c.set i (co c j)).set j (if s % 2 = 0 then 1 else -1))
/-- The challenge sampled from a byte string (compare dilithium2/poly.c:480-515). -/
def ballOf (b : Bytes) : Option (List Int) :=
  if 8 ≤ b.length then ballLoop 39 217 (ofLe (b.take 8)) (b.drop 8) (List.replicate 256 0) else none

variable (S128 S256 : Bytes → Nat → Bytes)

/-- The polynomial that the stream of seed and nonce determines, uniform coefficients. -/
def IsUniform (seed : Bytes) (nonce : Nat) (a : List Int) : Prop := ∃ n, uniformOf (S128 (seed ++ le16 nonce) n) = some a
/-- The polynomial that the stream of seed and nonce determines, small coefficients. -/
def IsEta (seed : Bytes) (nonce : Nat) (a : List Int) : Prop := ∃ n, etaOf (S256 (seed ++ le16 nonce) n) = some a
/-- The challenge that a seed determines. -/
def IsBall (seed : Bytes) (c : List Int) : Prop := ∃ n, ballOf (S256 seed n) = some c
/-- ExpandMask for one polynomial. -/
def mask (seed : Bytes) (nonce : Nat) : List Int := unpackAt 18 131072 (S256 (seed ++ le16 nonce) 576)

/-- The matrix that rho determines (compare dilithium2/polyvec.c:16-24). -/
def IsMatrix (rho : Bytes) (A : List (List (List Int))) : Prop :=
  A.length = 4 ∧ ∀ i, i < 4 → (at_ A i).length = 4 ∧ ∀ j, j < 4 → IsUniform S128 rho (256 * i + j) (at_ (at_ A i) j)
/-- The vector of small polynomials that a seed determines, with four nonces in a row. -/
def IsEtaVec (seed : Bytes) (nonce : Nat) (v : List (List Int)) : Prop :=
  v.length = 4 ∧ ∀ i, i < 4 → IsEta S256 seed (nonce + i) (at_ v i)

/-! ### The scheme (FIPS 204 algorithms 1, 2, 3; deterministic variant) -/

/-- t = A s1 + s2 -/
def tOf (A : List (List (List Int))) (s1 s2 : List (List Int)) : List (List Int) :=
  vec fun i => add (at_ (matVec A s1) i) (at_ s2 i)

/-- Key generation from a 32-byte seed. -/
def KeyGen (seed pk sk : Bytes) : Prop :=
  ∃ A s1 s2,
    IsMatrix S128 (slice (S256 seed 128) 0 32) A ∧
    IsEtaVec S256 (slice (S256 seed 128) 32 64) 0 s1 ∧
    IsEtaVec S256 (slice (S256 seed 128) 32 64) 4 s2 ∧
    pk = encodePk (slice (S256 seed 128) 0 32) ((tOf A s1 s2).map (·.map fun r => (power2Round r).1)) ∧
    sk = encodeSk (slice (S256 seed 128) 0 32) (slice (S256 seed 128) 96 32) (S256 pk 64) s1 s2
      ((tOf A s1 s2).map (·.map fun r => (power2Round r).2))

/-- What signing uses: the matrix, the secret vectors, the message representative and the mask seed. -/
structure Ctx where
  A : List (List (List Int))
  s1 : List (List Int)
  s2 : List (List Int)
  t0 : List (List Int)
  mu : Bytes
  rhoprime : Bytes

/-- Attempt number `k`: the masking vector and w = A y. -/
def yOf (x : Ctx) (k : Nat) : List (List Int) := vec fun i => mask S256 x.rhoprime (4 * k + i)
/-- w = A y in attempt k. -/
def wOf (x : Ctx) (k : Nat) : List (List Int) := matVec x.A (yOf S256 x k)
/-- The challenge hash of attempt k. -/
def cTilde (x : Ctx) (k : Nat) : Bytes := S256 (x.mu ++ ((wOf S256 x k).map (·.map highBits)).flatMap (packPos 6)) 32
/-- z = y + c s1, r0 = LowBits(w) - c s2 and c t0, all with coefficients in (-q/2, q/2]; the hint for r0 + c t0. -/
def zOf (x : Ctx) (k : Nat) (c : List Int) : List (List Int) :=
  vec fun i => mk fun j => cmod (co (mul c (at_ x.s1 i)) j + co (at_ (yOf S256 x k) i) j) q
/-- The low bits of w - c s2 in attempt k. -/
def r0Of (x : Ctx) (k : Nat) (c : List Int) : List (List Int) :=
  vec fun i => mk fun j => cmod (lowBits (co (at_ (wOf S256 x k) i) j) - co (mul c (at_ x.s2 i)) j) q
/-- c t0. -/
def ct0Of (x : Ctx) (c : List Int) : List (List Int) :=
  vec fun i => mk fun j => cmod (co (mul c (at_ x.t0 i)) j) q
/-- The hint bit: does the error `e` carry the value with high part `w1` and low part 0 out of its rounding interval? -/
def hintBit (e w1 : Int) : Int := if e > 95232 ∨ e < -95232 ∨ (e = -95232 ∧ w1 ≠ 0) then 1 else 0
/-- The hints of attempt k. -/
def hOf (x : Ctx) (k : Nat) (c : List Int) : List (List Int) :=
  vec fun i => mk fun j => hintBit (co (at_ (r0Of S256 x k c) i) j + co (at_ (ct0Of x c) i) j) (highBits (co (at_ (wOf S256 x k) i) j))

/-- The attempt with challenge `c` may be released. -/
def Accept (x : Ctx) (k : Nat) (c : List Int) : Prop :=
  NormLt (zOf S256 x k c) (131072 - 78) ∧ NormLt (r0Of S256 x k c) (95232 - 78) ∧ NormLt (ct0Of x c) 95232 ∧
    weight (hOf S256 x k c) ≤ 80

/-- The attempts before number `k` were all rejected, attempt `k` gives the signature. -/
def SignsAt (x : Ctx) (k : Nat) (sig : Bytes) : Prop :=
  (∀ i, i < k → ∃ c, IsBall S256 (cTilde S256 x i) c ∧ ¬ Accept S256 x i c) ∧
  ∃ c, IsBall S256 (cTilde S256 x k) c ∧ Accept S256 x k c ∧
    sig = encodeSig (cTilde S256 x k) (zOf S256 x k c) (hOf S256 x k c)

/-- The contents of a 2560-byte secret key, with the derived values for message `m`. -/
def IsCtx (sk m : Bytes) (x : Ctx) : Prop :=
  IsMatrix S128 (slice sk 0 32) x.A ∧
  x.s1 = (vec fun i => unpackAt 3 2 (slice sk (128 + i * 96) 96)) ∧
  x.s2 = (vec fun i => unpackAt 3 2 (slice sk (512 + i * 96) 96)) ∧
  x.t0 = (vec fun i => unpackAt 13 4096 (slice sk (896 + i * 416) 416)) ∧
  x.mu = S256 (slice sk 64 64 ++ m) 64 ∧
  x.rhoprime = S256 (slice sk 32 32 ++ List.replicate 32 0 ++ x.mu) 64

/-- Signing: the result after `k` rejected attempts. -/
def Signs (sk m : Bytes) (k : Nat) (sig : Bytes) : Prop := ∃ x, IsCtx S128 S256 sk m x ∧ SignsAt S256 x k sig

/-- The high parts that the verifier recovers: UseHint(h, A z - c t1 2^13). -/
def wApprox (A : List (List (List Int))) (z t1 : List (List Int)) (c : List Int) : List (List Int) :=
  vec fun i => sub (at_ (matVec A z) i) (mul c (scale 8192 (at_ t1 i)))
/-- What the verifier recomputes for the high bits of w. -/
def w1Of (A : List (List (List Int))) (z t1 h : List (List Int)) (c : List Int) : List (List Int) :=
  vec fun i => mk fun j => useHint (co (at_ h i) j) (co (at_ (wApprox A z t1 c) i) j)

/-- A valid signature: it is the encoding of c~, z and h within their bounds, and c~ is the hash of the recovered high parts. -/
def Valid (pk m sig : Bytes) : Prop :=
  ∃ ct z h c A,
    ct.length = 32 ∧ z.length = 4 ∧ (∀ x ∈ z, x.length = 256 ∧ ∀ v ∈ x, -(131072 - 78) < v ∧ v < 131072 - 78) ∧ IsHint h ∧ weight h ≤ 80 ∧
    sig = encodeSig ct z h ∧ IsBall S256 ct c ∧ IsMatrix S128 (slice pk 0 32) A ∧
    ct = S256 (S256 (S256 pk 64 ++ m) 64 ++
      (w1Of A z (vec fun i => unpackPos 10 (slice pk (32 + i * 320) 320)) h c).flatMap (packPos 6)) 32

end Verif.Dilithium.Spec
