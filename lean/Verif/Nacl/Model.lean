import Verif.Ed25519.Model

/-!
Model of the parts of tweetnacl/tweetnacl.c that the library exports beside Ed25519: Salsa20, XSalsa20, Poly1305,
secretbox, X25519 and box.

How C is read here, beyond the conventions of Verif/Ed25519/Model.lean:
* `u32` is `unsigned long`; its width `w` is a parameter, because it is 64 on LP64 and 32 in the WebAssembly build (wasm/hybrid-pqc.c);
* a local array that is filled before it is read starts with zeros;
* buffers that are different arguments do not overlap, except where a caller in tweetnacl.c passes overlapping ones.
-/

namespace Verif.Nacl
open Verif Verif.Ed25519

variable (w : Nat)

/-! ### Salsa20 -/

/-- tweetnacl/tweetnacl.c:25 `L32(x, c)`; the bits above the low 32 are not masked. -/
def L32 (x : BitVec w) (c : Nat) : BitVec w := x <<< c ||| (x &&& BitVec.ofNat w 0xffffffff) >>> (32 - c)

/-- tweetnacl/tweetnacl.c:27-33 `ld32(x + o)`. -/
def ld32 (x : Bytes) (o : Nat) : C (BitVec w) := do
  let b3 ← rd x (o + 3)
  let u := b3.setWidth w
  let b2 ← rd x (o + 2)
  let u := u <<< 8 ||| b2.setWidth w
  let b1 ← rd x (o + 1)
  let u := u <<< 8 ||| b1.setWidth w
  let b0 ← rd x o
  .ok (u <<< 8 ||| b0.setWidth w)

/-- tweetnacl/tweetnacl.c:42-46 `st32(x + o, u)`. -/
def st32 (x : Bytes) (o : Nat) (u : BitVec w) : C Bytes := do
  let (x, _) ← loop (fun i (s : Bytes × BitVec w) => do
    let x ← wr s.1 (o + i) (s.2.setWidth 8)
    .ok (x, s.2 >>> 8)) 0 4 (x, u)
  .ok x

/-- tweetnacl/tweetnacl.c:86-92, the body of the loop over j in `core`: one quarter of a round, from x into the array here called v (`w` in the source). -/
def coreQuarter (x : List (BitVec w)) (j : Nat) (v : List (BitVec w)) : C (List (BitVec w)) := do
  let t ← loop (fun m t => do
    let a ← rd x ((5 * j + 4 * m) % 16)
    wr t m a) 0 4 (List.replicate 4 0)
  let t0 ← rd t 0
  let t1 ← rd t 1
  let t2 ← rd t 2
  let t3 ← rd t 3
  let t1 := t1 ^^^ L32 w (t0 + t3) 7
  let t2 := t2 ^^^ L32 w (t1 + t0) 9
  let t3 := t3 ^^^ L32 w (t2 + t1) 13
  let t0 := t0 ^^^ L32 w (t3 + t2) 18
  let t ← wr t 1 t1
  let t ← wr t 2 t2
  let t ← wr t 3 t3
  let t ← wr t 0 t0
  loop (fun m v => do
    let a ← rd t m
    wr v (4 * j + (j + m) % 4) a) 0 4 v

/-- tweetnacl/tweetnacl.c:85-95, the body of the loop over i in `core`: one round. -/
def coreRound (x : List (BitVec w)) : C (List (BitVec w)) := do
  let v ← loop (coreQuarter w x) 0 4 (List.replicate 16 0)
  loop (fun m x => do
    let a ← rd v m
    wr x m a) 0 16 x

/-- tweetnacl/tweetnacl.c:76-81, loading the sixteen words. -/
def coreLoad (inp k c : Bytes) : C (List (BitVec w)) :=
  loop (fun i x => do
    let a ← ld32 w c (4 * i)
    let x ← wr x (5 * i) a
    let a ← ld32 w k (4 * i)
    let x ← wr x (1 + i) a
    let a ← ld32 w inp (4 * i)
    let x ← wr x (6 + i) a
    let a ← ld32 w k (16 + 4 * i)
    wr x (11 + i) a) 0 4 (List.replicate 16 0)

/-- tweetnacl/tweetnacl.c:71-109 `core(out, in, k, c, h)`: returns out. -/
def core (out inp k c : Bytes) (h : Bool) : C Bytes := do
  let x ← coreLoad w inp k c
  let y ← loop (fun i y => do
    let a ← rd x i
    wr y i a) 0 16 (List.replicate 16 0)
  let x ← loop (fun _ x => coreRound w x) 0 20 x
  if h then do
    let x ← loop (fun i x => do
      let a ← rd x i
      let b ← rd y i
      wr x i (a + b)) 0 16 x
    let x ← loop (fun i x => do
      let a ← rd x (5 * i)
      let b ← ld32 w c (4 * i)
      let x ← wr x (5 * i) (a - b)
      let a ← rd x (6 + i)
      let b ← ld32 w inp (4 * i)
      wr x (6 + i) (a - b)) 0 4 x
    loop (fun i out => do
      let a ← rd x (5 * i)
      let out ← st32 w out (4 * i) a
      let a ← rd x (6 + i)
      st32 w out (16 + 4 * i) a) 0 4 out
  else
    loop (fun i out => do
      let a ← rd x i
      let b ← rd y i
      st32 w out (4 * i) (a + b)) 0 16 out

/-- tweetnacl/tweetnacl.c:111-115 (the return value is always 0 and left out) -/
def coreSalsa20 (out inp k c : Bytes) : C Bytes := core w out inp k c false

/-- tweetnacl/tweetnacl.c:117-121 (the return value is always 0 and left out) -/
def coreHsalsa20 (out inp k c : Bytes) : C Bytes := core w out inp k c true

/-- tweetnacl/tweetnacl.c:123 `sigma`: "expand 32-byte k" -/
def sigma : Bytes := [0x65, 0x78, 0x70, 0x61, 0x6e, 0x64, 0x20, 0x33, 0x32, 0x2d, 0x62, 0x79, 0x74, 0x65, 0x20, 0x6b]

/-- tweetnacl/tweetnacl.c:134 and 146, `FOR(i,n) c[i] = (m?m[i]:0) ^ x[i]` with both pointers advanced by `o`; `none` is the null pointer. -/
def xorBlock (c : Bytes) (m : Option Bytes) (o : Nat) (x : Bytes) (n : Nat) : C Bytes :=
  loop (fun i c => do
    let a ← (match m with
      | some m => rd m (o + i)
      | none => .ok 0 : C Byte)
    let b ← rd x i
    wr c (o + i) (a ^^^ b)) 0 n c

/-- tweetnacl/tweetnacl.c:135-140: the counter in bytes 8 to 15 of z. -/
def incCounter (z : Bytes) : C Bytes := do
  let (z, _) ← loop (fun k (s : Bytes × BitVec w) => do
    let a ← rd s.1 (8 + k)
    let u := s.2 + a.setWidth w
    let z ← wr s.1 (8 + k) (u.setWidth 8)
    .ok (z, u >>> 8)) 0 8 (z, 1)
  .ok z

/-- tweetnacl/tweetnacl.c:125-150 `crypto_stream_salsa20_xor(c, m, b, n + no, k)`: returns c (the return value is always 0).
The loop runs b / 64 times; in the i-th iteration the pointers c and m have been advanced by 64 i. -/
def streamSalsa20Xor (c : Bytes) (m : Option Bytes) (b : Nat) (n : Bytes) (no : Nat) (k : Bytes) : C Bytes := do
  if b = 0 then .ok c else do
  let z := List.replicate 16 0
  let z ← copy z 0 n no 8
  let (c, z) ← loop (fun i (s : Bytes × Bytes) => do
    let x ← coreSalsa20 w (List.replicate 64 0) s.2 k sigma
    let c ← xorBlock s.1 m (64 * i) x 64
    let z ← incCounter w s.2
    .ok (c, z)) 0 (b / 64) (c, z)
  if b % 64 = 0 then .ok c else do
  let x ← coreSalsa20 w (List.replicate 64 0) z k sigma
  xorBlock c m (64 * (b / 64)) x (b % 64)

/-- tweetnacl/tweetnacl.c:152-155 `crypto_stream_salsa20` -/
def streamSalsa20 (c : Bytes) (d : Nat) (n : Bytes) (no : Nat) (k : Bytes) : C Bytes := streamSalsa20Xor w c none d n no k

/-- tweetnacl/tweetnacl.c:157-162 `crypto_stream` -/
def stream (c : Bytes) (d : Nat) (n k : Bytes) : C Bytes := do
  let s ← coreHsalsa20 w (List.replicate 32 0) n k sigma
  streamSalsa20 w c d n 16 s

/-- tweetnacl/tweetnacl.c:164-169 `crypto_stream_xor` -/
def streamXor (c m : Bytes) (d : Nat) (n k : Bytes) : C Bytes := do
  let s ← coreHsalsa20 w (List.replicate 32 0) n k sigma
  streamSalsa20Xor w c (some m) d n 16 s

/-! ### Poly1305 -/

/-- tweetnacl/tweetnacl.c:171-179 `add1305(h, c)`: returns h. -/
def add1305 (h c : List (BitVec w)) : C (List (BitVec w)) := do
  let (h, _) ← loop (fun j (s : List (BitVec w) × BitVec w) => do
    let a ← rd s.1 j
    let b ← rd c j
    let u := s.2 + (a + b)
    let h ← wr s.1 j (u &&& 255)
    .ok (h, u >>> 8)) 0 17 (h, 0)
  .ok h

/-- tweetnacl/tweetnacl.c:181-183 `minusp` -/
def minusp : List (BitVec w) := [5, 0, 0, 0, 0, 0, 0, 0, 0, 0, 0, 0, 0, 0, 0, 0, 252]

/-- tweetnacl/tweetnacl.c:189-197: the multiplier r from the first half of the key. -/
def polyR (k : Bytes) : C (List (BitVec w)) := do
  let r ← loop (fun j r => do
    let a ← rd k j
    wr r j (a.setWidth w)) 0 16 (List.replicate 17 0)
  let msk := fun (r : List (BitVec w)) (i : Nat) (m : BitVec w) => (do
    let a ← rd r i
    wr r i (a &&& m) : C (List (BitVec w)))
  let r ← msk r 3 15
  let r ← msk r 4 252
  let r ← msk r 7 15
  let r ← msk r 8 252
  let r ← msk r 11 15
  let r ← msk r 12 252
  msk r 15 15

/-- tweetnacl/tweetnacl.c:200-202: the next block of at most 16 bytes, followed by a one; `n` bytes of m are left, from position o on. -/
def polyBlock (m : Bytes) (o n : Nat) : C (List (BitVec w)) := do
  let j := min 16 n
  let c ← loop (fun j c => do
    let a ← rd m (o + j)
    wr c j (a.setWidth w)) 0 j (List.replicate 17 0)
  wr c j 1

/-- tweetnacl/tweetnacl.c:205-208 and 209: the product of h and r without carries. -/
def polyMul (h r : List (BitVec w)) : C (List (BitVec w)) :=
  loop (fun i x => do
    let x ← wr x i 0
    loop (fun j x => do
      let a ← rd x i
      let hj ← rd h j
      let f ← (if j ≤ i then rd r (i - j) else do
        let b ← rd r (i + 17 - j)
        .ok (320 * b) : C (BitVec w))
      wr x i (a + hj * f)) 0 17 x) 0 17 (List.replicate 17 0)

/-- tweetnacl/tweetnacl.c:211-215 and 218-222: one pass of carries through the low sixteen bytes, starting with carry u; returns h and the carry. -/
def polyCarry (h : List (BitVec w)) (u : BitVec w) : C (List (BitVec w) × BitVec w) :=
  loop (fun j (s : List (BitVec w) × BitVec w) => do
    let a ← rd s.1 j
    let u := s.2 + a
    let h ← wr s.1 j (u &&& 255)
    .ok (h, u >>> 8)) 0 16 (h, u)

/-- tweetnacl/tweetnacl.c:210-223: the reduction of h. -/
def polySqueeze (h : List (BitVec w)) : C (List (BitVec w)) := do
  let (h, u) ← polyCarry w h 0
  let a ← rd h 16
  let u := u + a
  let h ← wr h 16 (u &&& 3)
  let u := (5 : BitVec w) * (u >>> 2)
  let (h, u) ← polyCarry w h u
  let a ← rd h 16
  wr h 16 (u + a)

/-- tweetnacl/tweetnacl.c:199-224: the loop over the blocks of the message; the i-th iteration starts at byte 16 i and has n - 16 i bytes left. -/
def polyLoop (m : Bytes) (mo n : Nat) (r h : List (BitVec w)) : C (List (BitVec w)) :=
  loop (fun i h => do
    let c ← polyBlock w m (mo + 16 * i) (n - 16 * i)
    let h ← add1305 w h c
    let x ← polyMul w h r
    polySqueeze w x) 0 ((n + 15) / 16) h

/-- tweetnacl/tweetnacl.c:226-229: h minus 2^130 - 5 if that is not negative, chosen without a branch. -/
def polyFreeze (h : List (BitVec w)) : C (List (BitVec w)) := do
  let gg := h
  let h ← add1305 w h (minusp w)
  let a ← rd h 16
  let s := -(a >>> 7)
  loop (fun j h => do
    let a ← rd h j
    let b ← rd gg j
    wr h j (a ^^^ (s &&& (b ^^^ a)))) 0 17 h

/-- tweetnacl/tweetnacl.c:185-236 `crypto_onetimeauth(out + oo, m + mo, n, k)`: returns the buffer out (the return value is always 0).
The output is written after the last read, so it may overlap m and k, as in `secretbox`. -/
def onetimeauth (out : Bytes) (oo : Nat) (m : Bytes) (mo n : Nat) (k : Bytes) : C Bytes := do
  let r ← polyR w k
  let h ← polyLoop w m mo n r (List.replicate 17 0)
  let h ← polyFreeze w h
  let c ← loop (fun j c => do
    let a ← rd k (j + 16)
    wr c j (a.setWidth w)) 0 16 (List.replicate 17 0)
  let c ← wr c 16 0
  let h ← add1305 w h c
  loop (fun j out => do
    let a ← rd h j
    wr out (oo + j) (a.setWidth 8)) 0 16 out

/-- tweetnacl/tweetnacl.c:54-59 `vn(x + xo, y, n)`, here with an accumulator of width w; Verif/Ed25519/Model.lean has the 64-bit one. -/
def vnw (x : Bytes) (xo : Nat) (y : Bytes) (n : Nat) : C Int := do
  let d ← loop (fun i (d : BitVec w) => do
    let a ← rd x (xo + i)
    let b ← rd y i
    .ok (d ||| (a ^^^ b).setWidth w)) 0 n 0
  .ok ((((1 : BitVec w) &&& ((d - 1) >>> 8)) - 1).setWidth 32).toInt

/-- tweetnacl/tweetnacl.c:238-243 `crypto_onetimeauth_verify(h + ho, m + mo, n, k)` -/
def onetimeauthVerify (h : Bytes) (ho : Nat) (m : Bytes) (mo n : Nat) (k : Bytes) : C Int := do
  let x ← onetimeauth w (List.replicate 16 0) 0 m mo n k
  vnw w h ho x 16

/-! ### secretbox -/

/-- `FOR(i,n) c[i] = 0` (tweetnacl/tweetnacl.c:251 and 263) -/
def zero (c : Bytes) (n : Nat) : C Bytes := loop (fun i c => wr c i 0) 0 n c

/-- tweetnacl/tweetnacl.c:245-253 `crypto_secretbox(c, m, d, n, k)`: code and c. -/
def secretbox (c m : Bytes) (d : Nat) (n k : Bytes) : C (Int × Bytes) := do
  if d < 32 then .ok (-1, c) else do
  let c ← streamXor w c m d n k
  let c ← onetimeauth w c 16 c 32 (d - 32) c
  let c ← zero c 16
  .ok (0, c)

/-- tweetnacl/tweetnacl.c:255-265 `crypto_secretbox_open(m, c, d, n, k)`: code and m. -/
def secretboxOpen (m c : Bytes) (d : Nat) (n k : Bytes) : C (Int × Bytes) := do
  if d < 32 then .ok (-1, m) else do
  let x ← stream w (List.replicate 32 0) 32 n k
  let r ← onetimeauthVerify w c 16 c 32 (d - 32) x
  if r ≠ 0 then .ok (-1, m) else do
  let m ← streamXor w m c d n k
  let m ← zero m 32
  .ok (0, m)

/-! ### X25519 -/

/-- tweetnacl/tweetnacl.c:18 `_121665` -/
def gf121665 : Gf := [0xDB41, 1, 0, 0, 0, 0, 0, 0, 0, 0, 0, 0, 0, 0, 0, 0]

/-- tweetnacl/tweetnacl.c:399-401: the scalar z made of n. -/
def clampX (n : Bytes) : C Bytes := do
  let z ← copy (List.replicate 32 0) 0 n 0 31
  let n31 ← rd n 31
  let z ← wr z 31 ((n31 &&& 127) ||| 64)
  let z0 ← rd z 0
  wr z 0 (z0 &&& 248)

/-- The four field elements a, b, c, d of tweetnacl/tweetnacl.c:398. -/
structure Ladder where
  (a b c d : Gf)

/-- tweetnacl/tweetnacl.c:411-431, the body of the ladder between the two reads of the bit r; x holds the argument in its first sixteen limbs. -/
def ladderStep (x : Gf) (r : Int) (s : Ladder) : C Ladder := do
  let (a, b) ← sel25519 s.a s.b r
  let (c, d) ← sel25519 s.c s.d r
  let e ← fA a c
  let a ← fZ a c
  let c ← fA b d
  let b ← fZ b d
  let d ← fS e
  let f ← fS a
  let a ← fM c a
  let c ← fM b e
  let e ← fA a c
  let a ← fZ a c
  let b ← fS a
  let c ← fZ d f
  let a ← fM c gf121665
  let a ← fA a d
  let c ← fM c a
  let a ← fM d f
  let d ← fM b x
  let b ← fS e
  let (a, b) ← sel25519 a b r
  let (c, d) ← sel25519 c d r
  .ok ⟨a, b, c, d⟩

/-- tweetnacl/tweetnacl.c:394-443 `crypto_scalarmult(q, n, p)`: returns the thirty-two bytes of q (the return value is always 0).
The k-th iteration of the ladder has i = 254 - k.  The parts x+16 and x+32 of the array x are separate values here. -/
def scalarmultX (n p : Bytes) : C Bytes := do
  let z ← clampX n
  let x ← unpack25519 p
  let s ← loop (fun k s => do
    let i := 254 - k
    let zi ← rd z (i / 8)
    let r : Int := ((zi >>> (i % 8)) &&& 1).toNat
    ladderStep x r s) 0 255 ⟨gf1, x, gf0, gf1⟩
  let x32 ← inv25519 s.c
  let x16 ← fM s.a x32
  pack25519 x16

/-- tweetnacl/tweetnacl.c:15 `_9` -/
def nine : Bytes := 9 :: List.replicate 31 0

/-- tweetnacl/tweetnacl.c:445-448 `crypto_scalarmult_base(q, n)` -/
def scalarmultBase (n : Bytes) : C Bytes := scalarmultX n nine

/-! ### box -/

/-- tweetnacl/tweetnacl.c:450-456 `crypto_box_keypair(y, x)`: code, y, x. `left` is what the buffer x holds if the random source fails: the source is handed the caller's buffer and may have written some of it before it failed (C65), so `left` is arbitrary. -/
def boxKeypair (left y x : Bytes) : RandM (Int × Bytes × Bytes) := do
  match ← randombytes 32 with
  | none => pure (-1, y, left)
  | some b => liftCR (do
    let x ← copy x 0 b 0 32
    let q ← scalarmultBase x
    let y ← copy y 0 q 0 32
    .ok (0, y, x))

/-- tweetnacl/tweetnacl.c:458-463 `crypto_box_beforenm(k, y, x)`: returns k (the return value is always 0); `_0` (line 14) is sixteen zeros. -/
def boxBeforenm (k y x : Bytes) : C Bytes := do
  let s ← scalarmultX x y
  coreHsalsa20 w k (List.replicate 16 0) s sigma

/-- tweetnacl/tweetnacl.c:465-468 -/
def boxAfternm (c m : Bytes) (d : Nat) (n k : Bytes) : C (Int × Bytes) := secretbox w c m d n k

/-- tweetnacl/tweetnacl.c:470-473 -/
def boxOpenAfternm (m c : Bytes) (d : Nat) (n k : Bytes) : C (Int × Bytes) := secretboxOpen w m c d n k

/-- tweetnacl/tweetnacl.c:475-480 `crypto_box(c, m, d, n, y, x)`: code and c. -/
def box (c m : Bytes) (d : Nat) (n y x : Bytes) : C (Int × Bytes) := do
  let k ← boxBeforenm w (List.replicate 32 0) y x
  boxAfternm w c m d n k

/-- tweetnacl/tweetnacl.c:482-487 `crypto_box_open(m, c, d, n, y, x)`: code and m. -/
def boxOpen (m c : Bytes) (d : Nat) (n y x : Bytes) : C (Int × Bytes) := do
  let k ← boxBeforenm w (List.replicate 32 0) y x
  boxOpenAfternm w m c d n k

end Verif.Nacl
