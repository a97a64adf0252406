import Verif.Ct.Base
import Verif.Ed25519.Model

/-!
The Ed25519 part of tweetnacl/tweetnacl.c with traces: key generation and signing.  Reading a key and checking a signature have no secret
inputs and are left out.  The definitions are those of Verif/Ed25519/Model.lean, with every access and every condition of the source recorded.
Expressions such as `(i < 15)` used as a number are no conditions.
-/

namespace Verif.Ct.Ed25519
open Verif.Ed25519 (Gf Pt and64 xor64 toI64 gf0 gf1 gfD2 gfX gfY shaSigma0 shaSigma1 shasigma0 shasigma1 shaCh shaMaj shaK shaIv tabL)

/-- Range check of a signed 64-bit result, as in Verif/Ed25519/Model.lean (models no line of its own); it is no event. -/
def i64 (v : Int) : T Int := ⟨Verif.Ed25519.i64 v, []⟩

/-- tweetnacl/tweetnacl.c:35-40 `dl64(x + o)`: the index `i` runs over 0..7. -/
def dl64 (x : Bytes) (o : Nat) : T (BitVec 64) :=
  loop (fun i u => do
    let b ← rd x (o + i)
    pure (u <<< 8 ||| b.setWidth 64)) 0 8 0

/-- tweetnacl/tweetnacl.c:48-52 `ts64(x + o, u)`: the k-th iteration has i = 7 - k. -/
def ts64 (x : Bytes) (o : Nat) (u : BitVec 64) : T Bytes := do
  let (x, _) ← loop (fun k (s : Bytes × BitVec 64) => do
    let x ← wr s.1 (o + (7 - k)) (s.2.setWidth 8)
    pure (x, s.2 >>> 8)) 0 8 (x, u)
  pure x

/-- tweetnacl/tweetnacl.c:54-59 `vn(x, y, n)`: the accumulator is an unsigned long, the result is converted to int (0 or 2^64 - 1, that is 0 or -1). -/
def vn (x y : Bytes) (n : Nat) : T Int := do
  let d ← loop (fun i (d : BitVec 64) => do
    let a ← rd x i
    let b ← rd y i
    pure (d ||| (a ^^^ b).setWidth 64)) 0 n 0
  pure (((1 &&& ((d - 1) >>> 8)) - 1).setWidth 32).toInt

/-- tweetnacl/tweetnacl.c:61-64 -/
def cryptoVerify16 (x y : Bytes) : T Int := vn x y 16

/-- tweetnacl/tweetnacl.c:66-69 -/
def cryptoVerify32 (x y : Bytes) : T Int := vn x y 32

/-! ### The field -/

/-- tweetnacl/tweetnacl.c:267-271 `set25519`: a copy; the destination is returned. -/
def set25519 (a : Gf) : T Gf :=
  loop (fun i r => do
    let v ← rd a i
    wr r i v) 0 16 (List.replicate 16 0)

/-- tweetnacl/tweetnacl.c:273-283 `car25519`. -/
def car25519 (o : Gf) : T Gf :=
  loop (fun i o => do
    let oi ← rd o i
    let oi ← i64 (oi + 65536)
    let o ← wr o i oi
    let c := oi / 65536
    let c1 ← i64 (c - 1)
    let t ← i64 (37 * c1)
    let t ← i64 (t * if i = 15 then 1 else 0)
    let t ← i64 (c1 + t)
    let k := (i + 1) * if i < 15 then 1 else 0
    let ok ← rd o k
    let ok ← i64 (ok + t)
    let o ← wr o k ok
    let oi ← rd o i
    let s ← i64 (c * 65536)
    let oi ← i64 (oi - s)
    wr o i oi) 0 16 o

/-- tweetnacl/tweetnacl.c:285-293 `sel25519(p, q, b)`: returns p and q. -/
def sel25519 (p q : Gf) (b : Int) : T (Gf × Gf) :=
  let c := -(b - 1) - 1
  loop (fun i s => do
    let pi ← rd s.1 i
    let qi ← rd s.2 i
    let t := and64 c (xor64 pi qi)
    let p ← wr s.1 i (xor64 pi t)
    let q ← wr s.2 i (xor64 qi t)
    pure (p, q)) 0 16 (p, q)

/-- tweetnacl/tweetnacl.c:303-313, the body of the loop over j in pack25519: returns t and m. -/
def packStep (t m : Gf) : T (Gf × Gf) := do
  let t0 ← rd t 0
  let m0 ← i64 (t0 - 0xffed)
  let m ← wr m 0 m0
  let m ← loop (fun i m => do
    let ti ← rd t i
    let mp ← rd m (i - 1)
    let a ← i64 (ti - 0xffff)
    let a ← i64 (a - and64 (mp / 65536) 1)
    let m ← wr m i a
    wr m (i - 1) (and64 mp 0xffff)) 1 14 m
  let t15 ← rd t 15
  let m14 ← rd m 14
  let a ← i64 (t15 - 0x7fff)
  let a ← i64 (a - and64 (m14 / 65536) 1)
  let m ← wr m 15 a
  let b := and64 (a / 65536) 1
  let m ← wr m 14 (and64 m14 0xffff)
  sel25519 t m (1 - b)

/-- tweetnacl/tweetnacl.c:295-318 `pack25519(o, n)`: returns the thirty-two bytes of o. -/
def pack25519 (n : Gf) : T Bytes := do
  let t ← set25519 n
  let t ← car25519 t
  let t ← car25519 t
  let t ← car25519 t
  let (t, _) ← loop (fun _ (s : Gf × Gf) => packStep s.1 s.2) 0 2 (t, List.replicate 16 0)
  loop (fun i o => do
    let ti ← rd t i
    let o ← wr o (2 * i) (BitVec.ofInt 8 (and64 ti 0xff))
    wr o (2 * i + 1) (BitVec.ofInt 8 (ti / 256))) 0 16 (List.replicate 32 0)

/-- tweetnacl/tweetnacl.c:328-333 -/
def par25519 (a : Gf) : T Byte := do
  let d ← pack25519 a
  let d0 ← rd d 0
  pure (d0 &&& 1)

/-- tweetnacl/tweetnacl.c:335-340 -/
def unpack25519 (n : Bytes) : T Gf := do
  let o ← loop (fun i o => do
    let a ← rd n (2 * i)
    let b ← rd n (2 * i + 1)
    wr o i ((a.toNat : Int) + (b.toNat : Int) * 256)) 0 16 (List.replicate 16 0)
  let x ← rd o 15
  wr o 15 (and64 x 0x7fff)

/-- tweetnacl/tweetnacl.c:342-346 `A(o, a, b)`: the loop reads index i before it writes it, so o may be a or b. -/
def fA (a b : Gf) : T Gf :=
  loop (fun i o => do
    let x ← rd a i
    let y ← rd b i
    let s ← i64 (x + y)
    wr o i s) 0 16 (List.replicate 16 0)

/-- tweetnacl/tweetnacl.c:348-352 `Z(o, a, b)`. -/
def fZ (a b : Gf) : T Gf :=
  loop (fun i o => do
    let x ← rd a i
    let y ← rd b i
    let s ← i64 (x - y)
    wr o i s) 0 16 (List.replicate 16 0)

/-- tweetnacl/tweetnacl.c:354-363 `M(o, a, b)`: a and b are not read after o is written, so o may be a or b. -/
def fM (a b : Gf) : T Gf := do
  let t ← loop (fun i t =>
    loop (fun j t => do
      let x ← rd a i
      let y ← rd b j
      let z ← i64 (x * y)
      let u ← rd t (i + j)
      let u ← i64 (u + z)
      wr t (i + j) u) 0 16 t) 0 16 (List.replicate 31 0)
  let t ← loop (fun i t => do
    let x ← rd t (i + 16)
    let y ← i64 (38 * x)
    let u ← rd t i
    let u ← i64 (u + y)
    wr t i u) 0 15 t
  let o ← loop (fun i o => do
    let x ← rd t i
    wr o i x) 0 16 (List.replicate 16 0)
  let o ← car25519 o
  car25519 o

/-- tweetnacl/tweetnacl.c:365-368 -/
def fS (a : Gf) : T Gf := fM a a

/-- tweetnacl/tweetnacl.c:370-380: the k-th iteration has a = 253 - k. -/
def inv25519 (i : Gf) : T Gf := do
  let c ← set25519 i
  let c ← loop (fun k c => do
    let a := 253 - k
    let c ← fS c
    cond (a ≠ 2 ∧ a ≠ 4) (fM c i) (pure c)) 0 254 c
  set25519 c

/-! ### SHA-512 -/

/-- tweetnacl/tweetnacl.c:531-540, the body of the loop over i: `a` and `w` before and after. -/
def shaRound (i : Nat) (a w : List (BitVec 64)) : T (List (BitVec 64) × List (BitVec 64)) := do
  let b := a
  let a0 ← rd a 0
  let a1 ← rd a 1
  let a2 ← rd a 2
  let a4 ← rd a 4
  let a5 ← rd a 5
  let a6 ← rd a 6
  let a7 ← rd a 7
  let k ← rd shaK i
  let wi ← rd w (i % 16)
  let t := a7 + shaSigma1 a4 + shaCh a4 a5 a6 + k + wi
  let b ← wr b 7 (t + shaSigma0 a0 + shaMaj a0 a1 a2)
  let b3 ← rd b 3
  let b ← wr b 3 (b3 + t)
  let a ← loop (fun j a => do
    let x ← rd b j
    wr a ((j + 1) % 8) x) 0 8 a
  let w ← cond (i % 16 = 15)
    (loop (fun j w => do
        let wj ← rd w j
        let w9 ← rd w ((j + 9) % 16)
        let w1 ← rd w ((j + 1) % 16)
        let w14 ← rd w ((j + 14) % 16)
        wr w j (wj + (w9 + shasigma0 w1 + shasigma1 w14))) 0 16 w)
    (pure w)
  pure (a, w)

/-- tweetnacl/tweetnacl.c:528-546, one pass of the while loop with m at offset o: `z` (equal to `a`) before and after. -/
def shaBlock (z : List (BitVec 64)) (m : Bytes) (o : Nat) : T (List (BitVec 64)) := do
  let w ← loop (fun i w => do
    let x ← dl64 m (o + 8 * i)
    wr w i x) 0 16 (List.replicate 16 0)
  let (a, _) ← loop (fun i (s : List (BitVec 64) × List (BitVec 64)) => shaRound i s.1 s.2) 0 80 (z, w)
  loop (fun i r => do
    let x ← rd a i
    let y ← rd z i
    wr r i (x + y)) 0 8 (List.replicate 8 0)

/-- tweetnacl/tweetnacl.c:521-551 `crypto_hashblocks(x, m, n)`: returns x; the while loop runs n / 128 times, m advances by 128.  The int result n % 128 is not used by any caller. -/
def hashblocks (x : Bytes) (m : Bytes) (n : Nat) : T Bytes := do
  let z ← loop (fun i z => do
    let v ← dl64 x (8 * i)
    wr z i v) 0 8 (List.replicate 8 0)
  let z ← loop (fun k z => shaBlock z m (128 * k)) 0 (n / 128) z
  loop (fun i x => do
    let v ← rd z i
    ts64 x (8 * i) v) 0 8 x

/-- tweetnacl/tweetnacl.c:564-588 `crypto_hash(out, m, n)`: returns the sixty-four bytes of out. -/
def cryptoHash (m : Bytes) (n : Nat) : T Bytes := do
  let h ← hashblocks shaIv m n
  let b := BitVec.ofNat 64 n
  let r := n % 128
  let x ← loop (fun i x => do
    let v ← rd m (n - r + i)
    wr x i v) 0 r (List.replicate 256 (0 : Byte))
  let x ← wr x r 128
  let e := 256 - 128 * if r < 112 then 1 else 0
  let x ← wr x (e - 9) ((b >>> 61).setWidth 8)
  let x ← ts64 x (e - 8) (b <<< 3)
  hashblocks h x e

/-! ### The group -/

/-- tweetnacl/tweetnacl.c:590-613 `add(p, q)`: p and q are not read after p is written, so q may be p; returns p. -/
def add (p q : Pt) : T Pt := do
  let a ← fZ p.y p.x
  let t ← fZ q.y q.x
  let a ← fM a t
  let b ← fA p.x p.y
  let t ← fA q.x q.y
  let b ← fM b t
  let c ← fM p.t q.t
  let c ← fM c gfD2
  let d ← fM p.z q.z
  let d ← fA d d
  let e ← fZ b a
  let f ← fZ d c
  let g ← fA d c
  let h ← fA b a
  let x ← fM e f
  let y ← fM h g
  let z ← fM g f
  let t ← fM e h
  pure ⟨x, y, z, t⟩

/-- tweetnacl/tweetnacl.c:615-620; the loop over the four coordinates is written out. -/
def cswap (p q : Pt) (b : Byte) : T (Pt × Pt) := do
  let (px, qx) ← sel25519 p.x q.x b.toNat
  let (py, qy) ← sel25519 p.y q.y b.toNat
  let (pz, qz) ← sel25519 p.z q.z b.toNat
  let (pt, qt) ← sel25519 p.t q.t b.toNat
  pure (⟨px, py, pz, pt⟩, ⟨qx, qy, qz, qt⟩)

/-- tweetnacl/tweetnacl.c:622-630 `pack(r, p)`: returns the thirty-two bytes of r. -/
def pack (p : Pt) : T Bytes := do
  let zi ← inv25519 p.z
  let tx ← fM p.x zi
  let ty ← fM p.y zi
  let r ← pack25519 ty
  let b ← par25519 tx
  let r31 ← rd r 31
  wr r 31 (r31 ^^^ b <<< 7)

/-- tweetnacl/tweetnacl.c:632-646 `scalarmult(p, q, s)`: the k-th iteration has i = 255 - k; returns p (q is left modified, and not used afterwards). -/
def scalarmult (q : Pt) (s : Bytes) : T Pt := do
  let px ← set25519 gf0
  let py ← set25519 gf1
  let pz ← set25519 gf1
  let pt ← set25519 gf0
  let (p, _) ← loop (fun k (st : Pt × Pt) => do
    let i := 255 - k
    let si ← rd s (i / 8)
    let b := si >>> (i % 8) &&& 1
    let (p, q) ← cswap st.1 st.2 b
    let q ← add q p
    let p ← add p p
    cswap p q b) 0 256 (⟨px, py, pz, pt⟩, q)
  pure p

/-- tweetnacl/tweetnacl.c:648-656 -/
def scalarbase (s : Bytes) : T Pt := do
  let x ← set25519 gfX
  let y ← set25519 gfY
  let z ← set25519 gf1
  let t ← fM gfX gfY
  scalarmult ⟨x, y, z, t⟩ s

/-- tweetnacl/tweetnacl.c:669-671 and 734-736 -/
def clamp (d : Bytes) : T Bytes := do
  let d0 ← rd d 0
  let d ← wr d 0 (d0 &&& 248)
  let d31 ← rd d 31
  let d ← wr d 31 (d31 &&& 127)
  let d31 ← rd d 31
  wr d 31 (d31 ||| 64)

/-- tweetnacl/tweetnacl.c:658-678 `crypto_sign_keypair_seed(pk, sk, seed)`: code, pk, sk. -/
def keypairSeed (pk sk seed : Bytes) : T (Int × Bytes × Bytes) := do
  let sk ← copy sk 0 seed 0 32
  let d ← cryptoHash sk 32
  let d ← clamp d
  let p ← scalarbase d
  let r ← pack p
  let pk ← copy pk 0 r 0 32
  let sk ← copy sk 32 pk 0 32
  pure (0, pk, sk)

/-! ### Scalars -/

/-- tweetnacl/tweetnacl.c:699-703, the body of the loop over j for a given i: x and carry before and after.  `16 * x[i]` is signed, the rest of the first line is `u64`. -/
def modLInner (i j : Nat) (s : List Int × Int) : T (List Int × Int) := do
  let xj ← rd s.1 j
  let xi ← rd s.1 i
  let u ← i64 (16 * xi)
  let l ← rd tabL (j - (i - 32))
  let x ← wr s.1 j (toI64 (xj + (s.2 - u * l)))
  let xj ← rd x j
  let v ← i64 (xj + 128)
  let carry := v / 256
  let w ← i64 (carry * 256)
  let xj ← i64 (xj - w)
  let x ← wr x j xj
  pure (x, carry)

/-- tweetnacl/tweetnacl.c:697-706, the body of the loop over i. -/
def modLOuter (i : Nat) (x : List Int) : T (List Int) := do
  let (x, carry) ← loop (modLInner i) (i - 32) 20 (x, 0)
  let xj ← rd x (i - 12)
  let xj ← i64 (xj + carry)
  let x ← wr x (i - 12) xj
  wr x i 0

/-- tweetnacl/tweetnacl.c:694-718 `modL(r, x)`: returns the thirty-two bytes of r.  The k-th iteration of the first loop has i = 63 - k. -/
def modL (x : List Int) : T Bytes := do
  let x ← loop (fun k x => modLOuter (63 - k) x) 0 32 x
  let (x, carry) ← loop (fun j (s : List Int × Int) => do
    let xj ← rd s.1 j
    let x31 ← rd s.1 31
    let l ← rd tabL j
    let x ← wr s.1 j (toI64 (xj + (s.2 - x31 / 16 * l)))
    let xj ← rd x j
    let x ← wr x j (and64 xj 255)
    pure (x, xj / 256)) 0 32 (x, 0)
  let x ← loop (fun j x => do
    let xj ← rd x j
    let l ← rd tabL j
    wr x j (toI64 (xj - carry * l))) 0 32 x
  let (_, r) ← loop (fun i (s : List Int × Bytes) => do
    let xi ← rd s.1 i
    let xn ← rd s.1 (i + 1)
    let xn ← i64 (xn + xi / 256)
    let x ← wr s.1 (i + 1) xn
    let r ← wr s.2 i (BitVec.ofInt 8 (and64 xi 255))
    pure (x, r)) 0 32 (x, List.replicate 32 0)
  pure r

/-- tweetnacl/tweetnacl.c:720-726 `reduce(r)`: the first thirty-two bytes are the reduced value, the rest is zero. -/
def reduce (r : Bytes) : T Bytes := do
  let x ← loop (fun i x => do
    let v ← rd r i
    wr x i (v.toNat : Int)) 0 64 (List.replicate 64 0)
  let r ← loop (fun i r => wr r i 0) 0 64 r
  let o ← modL x
  copy r 0 o 0 32

/-! ### Signatures -/

/-- tweetnacl/tweetnacl.c:728-758 `crypto_sign(sm, &smlen, m, n, sk)`: code, sm, smlen; `n` is the length of the list `m`.  The counter `i` is an `i64`: lengths from 2^63 on overflow it. -/
def sign (sm : Bytes) (_smlen : Nat) (m sk : Bytes) : T (Int × Bytes × Nat) := do
  let n := m.length
  let d ← cryptoHash sk 32
  let d ← clamp d
  let smlen := (n + 64) % 2 ^ 64
  if 2 ^ 63 ≤ n then ub else do
  let sm ← copy sm 64 m 0 n
  let sm ← copy sm 32 d 32 32
  let r ← cryptoHash (sm.drop 32) (n + 32)
  let r ← reduce r
  let p ← scalarbase r
  let R ← pack p
  let sm ← copy sm 0 R 0 32
  let sm ← copy sm 32 sk 32 32
  let h ← cryptoHash sm (n + 64)
  let h ← reduce h
  let x ← loop (fun i x => do
    let v ← rd r i
    wr x i (v.toNat : Int)) 0 32 (List.replicate 64 0)
  let x ← loop (fun i x =>
    loop (fun j x => do
      let hi ← rd h i
      let dj ← rd d j
      let v ← rd x (i + j)
      wr x (i + j) (toI64 (v + (hi.toNat : Int) * (dj.toNat : Int)))) 0 32 x) 0 32 x
  let S ← modL x
  let sm ← copy sm 32 S 0 32
  pure (0, sm, smlen)

end Verif.Ct.Ed25519
