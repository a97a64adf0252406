import Verif.Base
import Verif.Mem

/-!
Model of the parts of tweetnacl/tweetnacl.c that Ed25519 uses.

How C is read here:
* the machine is LP64, so `u32` (unsigned long) and `u64` have 64 bits, and `i64` is two's complement;
* an `i64` is an `Int` with a range check after every signed operation (`i64`): overflow is undefined behaviour;
* `x >> k` on a negative `i64` rounds down and conversion from `u64` to `i64` wraps, as every compiler in use defines them;
* `c << 16` and `carry << 8` on a negative value (car25519, modL) are read as multiplications; ISO C leaves them undefined, gcc and clang define them;
* a local array that is filled before it is read starts with zeros.
-/

namespace Verif.Ed25519
open Verif

/-- tweetnacl/tweetnacl.c:9 `gf`: sixteen `i64` limbs, the value is the sum of limb i times 2^(16 i). -/
abbrev Gf := List Int

/-- Range check of a signed 64-bit result (models no line of its own; applied wherever an `i64` operation yields a value). -/
def i64 (v : Int) : C Int := if -2 ^ 63 ≤ v ∧ v < 2 ^ 63 then .ok v else .error .ub

/-- Conversion of a `u64` value to `i64` (models the implicit conversions in tweetnacl/tweetnacl.c:700, 709, 713, 754). -/
def toI64 (v : Int) : Int := (BitVec.ofInt 64 v).toInt

/-- `x & y` on `i64` (tweetnacl/tweetnacl.c:288 and others). -/
def and64 (x y : Int) : Int := (BitVec.ofInt 64 x &&& BitVec.ofInt 64 y).toInt

/-- `x ^ y` on `i64` (tweetnacl/tweetnacl.c:288-290). -/
def xor64 (x y : Int) : Int := (BitVec.ofInt 64 x ^^^ BitVec.ofInt 64 y).toInt

/-- tweetnacl/tweetnacl.c:16 -/
def gf0 : Gf := List.replicate 16 0
/-- tweetnacl/tweetnacl.c:17 -/
def gf1 : Gf := 1 :: List.replicate 15 0
/-- tweetnacl/tweetnacl.c:19 `D` -/
def gfD : Gf := [0x78a3, 0x1359, 0x4dca, 0x75eb, 0xd8ab, 0x4141, 0x0a4d, 0x0070, 0xe898, 0x7779, 0x4079, 0x8cc7, 0xfe73, 0x2b6f, 0x6cee, 0x5203]
/-- tweetnacl/tweetnacl.c:20 `D2` -/
def gfD2 : Gf := [0xf159, 0x26b2, 0x9b94, 0xebd6, 0xb156, 0x8283, 0x149a, 0x00e0, 0xd130, 0xeef3, 0x80f2, 0x198e, 0xfce7, 0x56df, 0xd9dc, 0x2406]
/-- tweetnacl/tweetnacl.c:21 `X` -/
def gfX : Gf := [0xd51a, 0x8f25, 0x2d60, 0xc956, 0xa7b2, 0x9525, 0xc760, 0x692c, 0xdc5c, 0xfdd6, 0xe231, 0xc0a4, 0x53fe, 0xcd6e, 0x36d3, 0x2169]
/-- tweetnacl/tweetnacl.c:22 `Y` -/
def gfY : Gf := [0x6658, 0x6666, 0x6666, 0x6666, 0x6666, 0x6666, 0x6666, 0x6666, 0x6666, 0x6666, 0x6666, 0x6666, 0x6666, 0x6666, 0x6666, 0x6666]
/-- tweetnacl/tweetnacl.c:23 `I` -/
def gfI : Gf := [0xa0b0, 0x4a0e, 0x1b27, 0xc4ee, 0xe478, 0xad2f, 0x1806, 0x2f43, 0xd7a7, 0x3dfb, 0x0099, 0x2b4d, 0xdf0b, 0x4fc1, 0x2480, 0x2b83]

/-- tweetnacl/tweetnacl.c:35-40 `dl64(x + o)`: the index `i` runs over 0..7. -/
def dl64 (x : Bytes) (o : Nat) : C (BitVec 64) :=
  loop (fun i u => do
    let b ← rd x (o + i)
    .ok (u <<< 8 ||| b.setWidth 64)) 0 8 0

/-- tweetnacl/tweetnacl.c:48-52 `ts64(x + o, u)`: the k-th iteration has i = 7 - k. -/
def ts64 (x : Bytes) (o : Nat) (u : BitVec 64) : C Bytes := do
  let (x, _) ← loop (fun k (s : Bytes × BitVec 64) => do
    let x ← wr s.1 (o + (7 - k)) (s.2.setWidth 8)
    .ok (x, s.2 >>> 8)) 0 8 (x, u)
  .ok x

/-- tweetnacl/tweetnacl.c:54-59 `vn(x, y, n)`: the accumulator is an unsigned long, the result is converted to int (0 or 2^64 - 1, that is 0 or -1). -/
def vn (x y : Bytes) (n : Nat) : C Int := do
  let d ← loop (fun i (d : BitVec 64) => do
    let a ← rd x i
    let b ← rd y i
    .ok (d ||| (a ^^^ b).setWidth 64)) 0 n 0
  .ok (((1 &&& ((d - 1) >>> 8)) - 1).setWidth 32).toInt

/-- tweetnacl/tweetnacl.c:61-64 -/
def cryptoVerify16 (x y : Bytes) : C Int := vn x y 16
/-- tweetnacl/tweetnacl.c:66-69 -/
def cryptoVerify32 (x y : Bytes) : C Int := vn x y 32

/-! ### The field -/

/-- tweetnacl/tweetnacl.c:267-271 `set25519`: a copy; the destination is returned. -/
def set25519 (a : Gf) : C Gf :=
  loop (fun i r => do
    let v ← rd a i
    wr r i v) 0 16 (List.replicate 16 0)

/-- tweetnacl/tweetnacl.c:273-283 `car25519`. -/
def car25519 (o : Gf) : C Gf :=
  loop (fun i o => do
    let oi ← rd o i
    let oi ← i64 (oi + 65536)
    let o ← wr o i oi
    let c := oi / 65536
    let c1 ← i64 (c - 1)
    let t ← i64 (37 * c1)
    let t ← i64 (t * if i = 15 then 1 else 0)
    let t ← i64 (c1 + t)
    let k := (i + 1) * if i < 15 then 1 else 0
    let ok ← rd o k
    let ok ← i64 (ok + t)
    let o ← wr o k ok
    let oi ← rd o i
    let s ← i64 (c * 65536)
    let oi ← i64 (oi - s)
    wr o i oi) 0 16 o

/-- tweetnacl/tweetnacl.c:285-293 `sel25519(p, q, b)`: returns p and q. -/
def sel25519 (p q : Gf) (b : Int) : C (Gf × Gf) :=
  let c := -(b - 1) - 1
  loop (fun i s => do
    let pi ← rd s.1 i
    let qi ← rd s.2 i
    let t := and64 c (xor64 pi qi)
    let p ← wr s.1 i (xor64 pi t)
    let q ← wr s.2 i (xor64 qi t)
    .ok (p, q)) 0 16 (p, q)

/-- tweetnacl/tweetnacl.c:303-313, the body of the loop over j in pack25519: returns t and m. -/
def packStep (t m : Gf) : C (Gf × Gf) := do
  let t0 ← rd t 0
  let m0 ← i64 (t0 - 0xffed)
  let m ← wr m 0 m0
  let m ← loop (fun i m => do
    let ti ← rd t i
    let mp ← rd m (i - 1)
    let a ← i64 (ti - 0xffff)
    let a ← i64 (a - and64 (mp / 65536) 1)
    let m ← wr m i a
    wr m (i - 1) (and64 mp 0xffff)) 1 14 m
  let t15 ← rd t 15
  let m14 ← rd m 14
  let a ← i64 (t15 - 0x7fff)
  let a ← i64 (a - and64 (m14 / 65536) 1)
  let m ← wr m 15 a
  let b := and64 (a / 65536) 1
  let m ← wr m 14 (and64 m14 0xffff)
  sel25519 t m (1 - b)

/-- tweetnacl/tweetnacl.c:295-318 `pack25519(o, n)`: returns the thirty-two bytes of o. -/
def pack25519 (n : Gf) : C Bytes := do
  let t ← set25519 n
  let t ← car25519 t
  let t ← car25519 t
  let t ← car25519 t
  let (t, _) ← loop (fun _ (s : Gf × Gf) => packStep s.1 s.2) 0 2 (t, List.replicate 16 0)
  loop (fun i o => do
    let ti ← rd t i
    let o ← wr o (2 * i) (BitVec.ofInt 8 (and64 ti 0xff))
    wr o (2 * i + 1) (BitVec.ofInt 8 (ti / 256))) 0 16 (List.replicate 32 0)

/-- tweetnacl/tweetnacl.c:320-326 -/
def neq25519 (a b : Gf) : C Int := do
  let c ← pack25519 a
  let d ← pack25519 b
  cryptoVerify32 c d

/-- tweetnacl/tweetnacl.c:328-333 -/
def par25519 (a : Gf) : C Byte := do
  let d ← pack25519 a
  let d0 ← rd d 0
  .ok (d0 &&& 1)

/-- tweetnacl/tweetnacl.c:335-340 -/
def unpack25519 (n : Bytes) : C Gf := do
  let o ← loop (fun i o => do
    let a ← rd n (2 * i)
    let b ← rd n (2 * i + 1)
    wr o i ((a.toNat : Int) + (b.toNat : Int) * 256)) 0 16 (List.replicate 16 0)
  let x ← rd o 15
  wr o 15 (and64 x 0x7fff)

/-- tweetnacl/tweetnacl.c:342-346 `A(o, a, b)`: the loop reads index i before it writes it, so o may be a or b. -/
def fA (a b : Gf) : C Gf :=
  loop (fun i o => do
    let x ← rd a i
    let y ← rd b i
    let s ← i64 (x + y)
    wr o i s) 0 16 (List.replicate 16 0)

/-- tweetnacl/tweetnacl.c:348-352 `Z(o, a, b)`. -/
def fZ (a b : Gf) : C Gf :=
  loop (fun i o => do
    let x ← rd a i
    let y ← rd b i
    let s ← i64 (x - y)
    wr o i s) 0 16 (List.replicate 16 0)

/-- tweetnacl/tweetnacl.c:354-363 `M(o, a, b)`: a and b are not read after o is written, so o may be a or b. -/
def fM (a b : Gf) : C Gf := do
  let t ← loop (fun i t =>
    loop (fun j t => do
      let x ← rd a i
      let y ← rd b j
      let z ← i64 (x * y)
      let u ← rd t (i + j)
      let u ← i64 (u + z)
      wr t (i + j) u) 0 16 t) 0 16 (List.replicate 31 0)
  let t ← loop (fun i t => do
    let x ← rd t (i + 16)
    let y ← i64 (38 * x)
    let u ← rd t i
    let u ← i64 (u + y)
    wr t i u) 0 15 t
  let o ← loop (fun i o => do
    let x ← rd t i
    wr o i x) 0 16 (List.replicate 16 0)
  let o ← car25519 o
  car25519 o

/-- tweetnacl/tweetnacl.c:365-368 -/
def fS (a : Gf) : C Gf := fM a a

/-- tweetnacl/tweetnacl.c:370-380: the k-th iteration has a = 253 - k. -/
def inv25519 (i : Gf) : C Gf := do
  let c ← set25519 i
  let c ← loop (fun k c => do
    let a := 253 - k
    let c ← fS c
    if a ≠ 2 ∧ a ≠ 4 then fM c i else .ok c) 0 254 c
  set25519 c

/-- tweetnacl/tweetnacl.c:382-392: the k-th iteration has a = 250 - k. -/
def pow2523 (i : Gf) : C Gf := do
  let c ← set25519 i
  let c ← loop (fun k c => do
    let a := 250 - k
    let c ← fS c
    if a ≠ 1 then fM c i else .ok c) 0 251 c
  set25519 c

/-! ### SHA-512 -/

/-- tweetnacl/tweetnacl.c:489 -/
def shaR (x : BitVec 64) (c : Nat) : BitVec 64 := x >>> c ||| x <<< (64 - c)
/-- tweetnacl/tweetnacl.c:490 -/
def shaCh (x y z : BitVec 64) : BitVec 64 := (x &&& y) ^^^ (~~~x &&& z)
/-- tweetnacl/tweetnacl.c:491 -/
def shaMaj (x y z : BitVec 64) : BitVec 64 := (x &&& y) ^^^ (x &&& z) ^^^ (y &&& z)
/-- tweetnacl/tweetnacl.c:492 -/
def shaSigma0 (x : BitVec 64) : BitVec 64 := shaR x 28 ^^^ shaR x 34 ^^^ shaR x 39
/-- tweetnacl/tweetnacl.c:493 -/
def shaSigma1 (x : BitVec 64) : BitVec 64 := shaR x 14 ^^^ shaR x 18 ^^^ shaR x 41
/-- tweetnacl/tweetnacl.c:494 -/
def shasigma0 (x : BitVec 64) : BitVec 64 := shaR x 1 ^^^ shaR x 8 ^^^ x >>> 7
/-- tweetnacl/tweetnacl.c:495 -/
def shasigma1 (x : BitVec 64) : BitVec 64 := shaR x 19 ^^^ shaR x 61 ^^^ x >>> 6

/-- tweetnacl/tweetnacl.c:497-519 `K` -/
def shaK : List (BitVec 64) := [
  0x428a2f98d728ae22, 0x7137449123ef65cd, 0xb5c0fbcfec4d3b2f, 0xe9b5dba58189dbbc, 0x3956c25bf348b538, 0x59f111f1b605d019, 0x923f82a4af194f9b, 0xab1c5ed5da6d8118,
  0xd807aa98a3030242, 0x12835b0145706fbe, 0x243185be4ee4b28c, 0x550c7dc3d5ffb4e2, 0x72be5d74f27b896f, 0x80deb1fe3b1696b1, 0x9bdc06a725c71235, 0xc19bf174cf692694,
  0xe49b69c19ef14ad2, 0xefbe4786384f25e3, 0x0fc19dc68b8cd5b5, 0x240ca1cc77ac9c65, 0x2de92c6f592b0275, 0x4a7484aa6ea6e483, 0x5cb0a9dcbd41fbd4, 0x76f988da831153b5,
  0x983e5152ee66dfab, 0xa831c66d2db43210, 0xb00327c898fb213f, 0xbf597fc7beef0ee4, 0xc6e00bf33da88fc2, 0xd5a79147930aa725, 0x06ca6351e003826f, 0x142929670a0e6e70,
  0x27b70a8546d22ffc, 0x2e1b21385c26c926, 0x4d2c6dfc5ac42aed, 0x53380d139d95b3df, 0x650a73548baf63de, 0x766a0abb3c77b2a8, 0x81c2c92e47edaee6, 0x92722c851482353b,
  0xa2bfe8a14cf10364, 0xa81a664bbc423001, 0xc24b8b70d0f89791, 0xc76c51a30654be30, 0xd192e819d6ef5218, 0xd69906245565a910, 0xf40e35855771202a, 0x106aa07032bbd1b8,
  0x19a4c116b8d2d0c8, 0x1e376c085141ab53, 0x2748774cdf8eeb99, 0x34b0bcb5e19b48a8, 0x391c0cb3c5c95a63, 0x4ed8aa4ae3418acb, 0x5b9cca4f7763e373, 0x682e6ff3d6b2b8a3,
  0x748f82ee5defb2fc, 0x78a5636f43172f60, 0x84c87814a1f0ab72, 0x8cc702081a6439ec, 0x90befffa23631e28, 0xa4506cebde82bde9, 0xbef9a3f7b2c67915, 0xc67178f2e372532b,
  0xca273eceea26619c, 0xd186b8c721c0c207, 0xeada7dd6cde0eb1e, 0xf57d4f7fee6ed178, 0x06f067aa72176fba, 0x0a637dc5a2c898a6, 0x113f9804bef90dae, 0x1b710b35131c471b,
  0x28db77f523047d84, 0x32caab7b40c72493, 0x3c9ebe0a15c9bebc, 0x431d67c49c100d4c, 0x4cc5d4becb3e42b6, 0x597f299cfc657e2a, 0x5fcb6fab3ad6faec, 0x6c44198c4a475817]

/-- tweetnacl/tweetnacl.c:531-540, the body of the loop over i: `a` and `w` before and after. -/
def shaRound (i : Nat) (a w : List (BitVec 64)) : C (List (BitVec 64) × List (BitVec 64)) := do
  let b := a
  let a0 ← rd a 0
  let a1 ← rd a 1
  let a2 ← rd a 2
  let a4 ← rd a 4
  let a5 ← rd a 5
  let a6 ← rd a 6
  let a7 ← rd a 7
  let k ← rd shaK i
  let wi ← rd w (i % 16)
  let t := a7 + shaSigma1 a4 + shaCh a4 a5 a6 + k + wi
  let b ← wr b 7 (t + shaSigma0 a0 + shaMaj a0 a1 a2)
  let b3 ← rd b 3
  let b ← wr b 3 (b3 + t)
  let a ← loop (fun j a => do
    let x ← rd b j
    wr a ((j + 1) % 8) x) 0 8 a
  let w ← if i % 16 = 15 then
      loop (fun j w => do
        let wj ← rd w j
        let w9 ← rd w ((j + 9) % 16)
        let w1 ← rd w ((j + 1) % 16)
        let w14 ← rd w ((j + 14) % 16)
        wr w j (wj + (w9 + shasigma0 w1 + shasigma1 w14))) 0 16 w
    else .ok w
  .ok (a, w)

/-- tweetnacl/tweetnacl.c:528-546, one pass of the while loop with m at offset o: `z` (equal to `a`) before and after. -/
def shaBlock (z : List (BitVec 64)) (m : Bytes) (o : Nat) : C (List (BitVec 64)) := do
  let w ← loop (fun i w => do
    let x ← dl64 m (o + 8 * i)
    wr w i x) 0 16 (List.replicate 16 0)
  let (a, _) ← loop (fun i (s : List (BitVec 64) × List (BitVec 64)) => shaRound i s.1 s.2) 0 80 (z, w)
  loop (fun i r => do
    let x ← rd a i
    let y ← rd z i
    wr r i (x + y)) 0 8 (List.replicate 8 0)

/-- tweetnacl/tweetnacl.c:521-551 `crypto_hashblocks(x, m, n)`: returns x; the while loop runs n / 128 times, m advances by 128.  The int result n % 128 is not used by any caller. -/
def hashblocks (x : Bytes) (m : Bytes) (n : Nat) : C Bytes := do
  let z ← loop (fun i z => do
    let v ← dl64 x (8 * i)
    wr z i v) 0 8 (List.replicate 8 0)
  let z ← loop (fun k z => shaBlock z m (128 * k)) 0 (n / 128) z
  loop (fun i x => do
    let v ← rd z i
    ts64 x (8 * i) v) 0 8 x

/-- tweetnacl/tweetnacl.c:553-562 `iv` -/
def shaIv : Bytes := [
  0x6a, 0x09, 0xe6, 0x67, 0xf3, 0xbc, 0xc9, 0x08, 0xbb, 0x67, 0xae, 0x85, 0x84, 0xca, 0xa7, 0x3b,
  0x3c, 0x6e, 0xf3, 0x72, 0xfe, 0x94, 0xf8, 0x2b, 0xa5, 0x4f, 0xf5, 0x3a, 0x5f, 0x1d, 0x36, 0xf1,
  0x51, 0x0e, 0x52, 0x7f, 0xad, 0xe6, 0x82, 0xd1, 0x9b, 0x05, 0x68, 0x8c, 0x2b, 0x3e, 0x6c, 0x1f,
  0x1f, 0x83, 0xd9, 0xab, 0xfb, 0x41, 0xbd, 0x6b, 0x5b, 0xe0, 0xcd, 0x19, 0x13, 0x7e, 0x21, 0x79]

/-- tweetnacl/tweetnacl.c:564-588 `crypto_hash(out, m, n)`: returns the sixty-four bytes of out. -/
def cryptoHash (m : Bytes) (n : Nat) : C Bytes := do
  let h ← hashblocks shaIv m n
  let b := BitVec.ofNat 64 n
  let r := n % 128
  let x ← loop (fun i x => do
    let v ← rd m (n - r + i)
    wr x i v) 0 r (List.replicate 256 (0 : Byte))
  let x ← wr x r 128
  let e := 256 - 128 * if r < 112 then 1 else 0
  let x ← wr x (e - 9) ((b >>> 61).setWidth 8)
  let x ← ts64 x (e - 8) (b <<< 3)
  hashblocks h x e

/-! ### The group -/

/-- `gf p[4]`: extended coordinates (tweetnacl/tweetnacl.c:590). -/
structure Pt where
  x : Gf
  y : Gf
  z : Gf
  t : Gf

/-- tweetnacl/tweetnacl.c:590-613 `add(p, q)`: p and q are not read after p is written, so q may be p; returns p. -/
def add (p q : Pt) : C Pt := do
  let a ← fZ p.y p.x
  let t ← fZ q.y q.x
  let a ← fM a t
  let b ← fA p.x p.y
  let t ← fA q.x q.y
  let b ← fM b t
  let c ← fM p.t q.t
  let c ← fM c gfD2
  let d ← fM p.z q.z
  let d ← fA d d
  let e ← fZ b a
  let f ← fZ d c
  let g ← fA d c
  let h ← fA b a
  let x ← fM e f
  let y ← fM h g
  let z ← fM g f
  let t ← fM e h
  .ok ⟨x, y, z, t⟩

/-- tweetnacl/tweetnacl.c:615-620; the loop over the four coordinates is written out. -/
def cswap (p q : Pt) (b : Byte) : C (Pt × Pt) := do
  let (px, qx) ← sel25519 p.x q.x b.toNat
  let (py, qy) ← sel25519 p.y q.y b.toNat
  let (pz, qz) ← sel25519 p.z q.z b.toNat
  let (pt, qt) ← sel25519 p.t q.t b.toNat
  .ok (⟨px, py, pz, pt⟩, ⟨qx, qy, qz, qt⟩)

/-- tweetnacl/tweetnacl.c:622-630 `pack(r, p)`: returns the thirty-two bytes of r. -/
def pack (p : Pt) : C Bytes := do
  let zi ← inv25519 p.z
  let tx ← fM p.x zi
  let ty ← fM p.y zi
  let r ← pack25519 ty
  let b ← par25519 tx
  let r31 ← rd r 31
  wr r 31 (r31 ^^^ b <<< 7)

/-- tweetnacl/tweetnacl.c:632-646 `scalarmult(p, q, s)`: the k-th iteration has i = 255 - k; returns p (q is left modified, and not used afterwards). -/
def scalarmult (q : Pt) (s : Bytes) : C Pt := do
  let px ← set25519 gf0
  let py ← set25519 gf1
  let pz ← set25519 gf1
  let pt ← set25519 gf0
  let (p, _) ← loop (fun k (st : Pt × Pt) => do
    let i := 255 - k
    let si ← rd s (i / 8)
    let b := si >>> (i % 8) &&& 1
    let (p, q) ← cswap st.1 st.2 b
    let q ← add q p
    let p ← add p p
    cswap p q b) 0 256 (⟨px, py, pz, pt⟩, q)
  .ok p

/-- tweetnacl/tweetnacl.c:648-656 -/
def scalarbase (s : Bytes) : C Pt := do
  let x ← set25519 gfX
  let y ← set25519 gfY
  let z ← set25519 gf1
  let t ← fM gfX gfY
  scalarmult ⟨x, y, z, t⟩ s

/-- tweetnacl/tweetnacl.c:669-671 and 734-736 -/
def clamp (d : Bytes) : C Bytes := do
  let d0 ← rd d 0
  let d ← wr d 0 (d0 &&& 248)
  let d31 ← rd d 31
  let d ← wr d 31 (d31 &&& 127)
  let d31 ← rd d 31
  wr d 31 (d31 ||| 64)

/-- tweetnacl/tweetnacl.c:658-678 `crypto_sign_keypair_seed(pk, sk, seed)`: code, pk, sk. -/
def keypairSeed (pk sk seed : Bytes) : C (Int × Bytes × Bytes) := do
  let sk ← copy sk 0 seed 0 32
  let d ← cryptoHash sk 32
  let d ← clamp d
  let p ← scalarbase d
  let r ← pack p
  let pk ← copy pk 0 r 0 32
  let sk ← copy sk 32 pk 0 32
  .ok (0, pk, sk)

/-- tweetnacl/tweetnacl.c:680-690 `crypto_sign_keypair(pk, sk)`; a failing random source gives a nonzero code, here -1. -/
def keypair (pk sk : Bytes) : RandM (Int × Bytes × Bytes) := do
  match ← randombytes 32 with
  | none => pure (-1, pk, sk)
  | some seed => liftCR (keypairSeed pk sk seed)

/-! ### Scalars -/

/-- tweetnacl/tweetnacl.c:692 `L` -/
def tabL : List Int := [0xed, 0xd3, 0xf5, 0x5c, 0x1a, 0x63, 0x12, 0x58, 0xd6, 0x9c, 0xf7, 0xa2, 0xde, 0xf9, 0xde, 0x14, 0, 0, 0, 0, 0, 0, 0, 0, 0, 0, 0, 0, 0, 0, 0, 0x10]

/-- tweetnacl/tweetnacl.c:699-703, the body of the loop over j for a given i: x and carry before and after.  `16 * x[i]` is signed, the rest of the first line is `u64`. -/
def modLInner (i j : Nat) (s : List Int × Int) : C (List Int × Int) := do
  let xj ← rd s.1 j
  let xi ← rd s.1 i
  let u ← i64 (16 * xi)
  let l ← rd tabL (j - (i - 32))
  let x ← wr s.1 j (toI64 (xj + (s.2 - u * l)))
  let xj ← rd x j
  let v ← i64 (xj + 128)
  let carry := v / 256
  let w ← i64 (carry * 256)
  let xj ← i64 (xj - w)
  let x ← wr x j xj
  .ok (x, carry)

/-- tweetnacl/tweetnacl.c:697-706, the body of the loop over i. -/
def modLOuter (i : Nat) (x : List Int) : C (List Int) := do
  let (x, carry) ← loop (modLInner i) (i - 32) 20 (x, 0)
  let xj ← rd x (i - 12)
  let xj ← i64 (xj + carry)
  let x ← wr x (i - 12) xj
  wr x i 0

/-- tweetnacl/tweetnacl.c:694-718 `modL(r, x)`: returns the thirty-two bytes of r.  The k-th iteration of the first loop has i = 63 - k. -/
def modL (x : List Int) : C Bytes := do
  let x ← loop (fun k x => modLOuter (63 - k) x) 0 32 x
  let (x, carry) ← loop (fun j (s : List Int × Int) => do
    let xj ← rd s.1 j
    let x31 ← rd s.1 31
    let l ← rd tabL j
    let x ← wr s.1 j (toI64 (xj + (s.2 - x31 / 16 * l)))
    let xj ← rd x j
    let x ← wr x j (and64 xj 255)
    .ok (x, xj / 256)) 0 32 (x, 0)
  let x ← loop (fun j x => do
    let xj ← rd x j
    let l ← rd tabL j
    wr x j (toI64 (xj - carry * l))) 0 32 x
  let (_, r) ← loop (fun i (s : List Int × Bytes) => do
    let xi ← rd s.1 i
    let xn ← rd s.1 (i + 1)
    let xn ← i64 (xn + xi / 256)
    let x ← wr s.1 (i + 1) xn
    let r ← wr s.2 i (BitVec.ofInt 8 (and64 xi 255))
    .ok (x, r)) 0 32 (x, List.replicate 32 0)
  .ok r

/-- tweetnacl/tweetnacl.c:720-726 `reduce(r)`: the first thirty-two bytes are the reduced value, the rest is zero. -/
def reduce (r : Bytes) : C Bytes := do
  let x ← loop (fun i x => do
    let v ← rd r i
    wr x i (v.toNat : Int)) 0 64 (List.replicate 64 0)
  let r ← loop (fun i r => wr r i 0) 0 64 r
  let o ← modL x
  copy r 0 o 0 32

/-! ### Signatures -/

/-- tweetnacl/tweetnacl.c:728-758 `crypto_sign(sm, &smlen, m, n, sk)`: code, sm, smlen; `n` is the length of the list `m`.  The counter `i` is an `i64`: lengths from 2^63 on overflow it. -/
def sign (sm : Bytes) (_smlen : Nat) (m sk : Bytes) : C (Int × Bytes × Nat) := do
  let n := m.length
  let d ← cryptoHash sk 32
  let d ← clamp d
  let smlen := (n + 64) % 2 ^ 64
  if 2 ^ 63 ≤ n then .error .ub
  let sm ← copy sm 64 m 0 n
  let sm ← copy sm 32 d 32 32
  let r ← cryptoHash (sm.drop 32) (n + 32)
  let r ← reduce r
  let p ← scalarbase r
  let R ← pack p
  let sm ← copy sm 0 R 0 32
  let sm ← copy sm 32 sk 32 32
  let h ← cryptoHash sm (n + 64)
  let h ← reduce h
  let x ← loop (fun i x => do
    let v ← rd r i
    wr x i (v.toNat : Int)) 0 32 (List.replicate 64 0)
  let x ← loop (fun i x =>
    loop (fun j x => do
      let hi ← rd h i
      let dj ← rd d j
      let v ← rd x (i + j)
      wr x (i + j) (toI64 (v + (hi.toNat : Int) * (dj.toNat : Int)))) 0 32 x) 0 32 x
  let S ← modL x
  let sm ← copy sm 32 S 0 32
  .ok (0, sm, smlen)

/-- tweetnacl/tweetnacl.c:760-794 `unpackneg(r, p)`: `none` is the return value -1. -/
def unpackneg (p : Bytes) : C (Option Pt) := do
  let r2 ← set25519 gf1
  let r1 ← unpack25519 p
  let num ← fS r1
  let den ← fM num gfD
  let num ← fZ num r2
  let den ← fA r2 den
  let den2 ← fS den
  let den4 ← fS den2
  let den6 ← fM den4 den2
  let t ← fM den6 num
  let t ← fM t den
  let t ← pow2523 t
  let t ← fM t num
  let t ← fM t den
  let t ← fM t den
  let r0 ← fM t den
  let chk ← fS r0
  let chk ← fM chk den
  let e ← neq25519 chk num
  let r0 ← if e ≠ 0 then fM r0 gfI else .ok r0
  let chk ← fS r0
  let chk ← fM chk den
  let e ← neq25519 chk num
  if e ≠ 0 then .ok none
  else do
    let b ← par25519 r0
    let p31 ← rd p 31
    let r0 ← if b = p31 >>> 7 then fZ gf0 r0 else .ok r0
    let r3 ← fM r0 r1
    .ok (some ⟨r0, r1, r2, r3⟩)

/-- tweetnacl/tweetnacl.c:796-826 `crypto_sign_open(m, &mlen, sm, n, pk)`: code, m, mlen.  `m` and `sm` are different arrays.  The counter `i` is an `int`: a length from 2^31 on overflows it. -/
def signOpen (m : Bytes) (_mlen : Nat) (sm : Bytes) (n : Nat) (pk : Bytes) : C (Int × Bytes × Nat) := do
  let mlen := 2 ^ 64 - 1
  if n < 64 then .ok (-1, m, mlen)
  else do
    match ← unpackneg pk with
    | none => .ok (-1, m, mlen)
    | some q =>
      if 2 ^ 31 ≤ n then .error .ub
      let m ← copy m 0 sm 0 n
      let m ← copy m 32 pk 0 32
      let h ← cryptoHash m n
      let h ← reduce h
      let p ← scalarmult q h
      let q ← scalarbase (sm.drop 32)
      let p ← add p q
      let t ← pack p
      let n := n - 64
      let e ← cryptoVerify32 sm t
      if e ≠ 0 then do
        let m ← loop (fun i m => wr m i 0) 0 n m
        .ok (-1, m, mlen)
      else do
        let m ← copy m 0 sm 64 n
        .ok (0, m, n)

end Verif.Ed25519
