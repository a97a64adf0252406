import Verif.Keccak.Model
import Verif.Mem

/-!
Model of dilithium2/ (reduce.c, rounding.c, ntt.c, symmetric-shake.c, poly.c, polyvec.c, packing.c, sign.c).

Reading of the C code:
* `int32_t` and `int64_t` values are integers; every signed addition, subtraction, multiplication and left shift is followed by the
  range check `i32` or `i64`, which gives `ub` on overflow.  Conversions to a signed type wrap.  `>>` of a signed value is arithmetic.
* A polynomial is the list of its 256 coefficients, a vector the list of its four polynomials.
* A loop `for (i = 0; i < n; ++i) out[i] = ...` that fills an array is `build`.  Functions that work in place read their argument
  and return the new value; this is the same because iteration i reads only position i of the arrays it overwrites.
* The loops of the rejection samplers and of signing have no static bound; they get `fuel` and end in `diverge` when it is used up.
* The benchmarking macros DBENCH_START and DBENCH_STOP are empty.
-/

namespace Verif.Dilithium
open Verif Verif.Keccak

/-! dilithium2/params.h:4-25 (constants are written out in the code below; these names are used in conditions) -/
/-- dilithium2/params.h:9. -/
abbrev Q : Int := 8380417
/-- dilithium2/params.h:18. -/
abbrev GAMMA1 : Int := 131072
/-- dilithium2/params.h:19. -/
abbrev GAMMA2 : Int := 95232
/-- dilithium2/params.h:17. -/
abbrev BETA : Int := 78

/-- Result of a signed 32-bit operation; overflow is undefined behaviour (for example dilithium2/poly.c:64). -/
def i32 (x : Int) : C Int := if -2147483648 ≤ x ∧ x ≤ 2147483647 then .ok x else .error .ub

/-- Result of a signed 64-bit operation; overflow is undefined behaviour (for example dilithium2/reduce.c:15-21). -/
def i64 (x : Int) : C Int := if -9223372036854775808 ≤ x ∧ x ≤ 9223372036854775807 then .ok x else .error .ub

/-- Conversion to `int32_t` (for example dilithium2/reduce.c:18). -/
def toI32 (x : Int) : Int := x.bmod 4294967296

/-- `a & b` on `int32_t` (for example dilithium2/poly.c:285). -/
def and32 (a b : Int) : Int := (BitVec.ofInt 32 a &&& BitVec.ofInt 32 b).toInt

/-- `a ^ b` on `int32_t` (for example in the comparison masks of dilithium2/rounding.c). -/
def xor32 (a b : Int) : Int := (BitVec.ofInt 32 a ^^^ BitVec.ofInt 32 b).toInt

/-- `for (i = 0; i < n; ++i) out[i] = f(i);` (for example dilithium2/poly.c:63-65). -/
def build {α : Type} (n : Nat) (d : α) (f : Nat → C α) : C (List α) :=
  loop (fun i out => do
    let v ← f i
    wr out i v) 0 n (List.replicate n d)

/-- `for (k = i; k < i + n; k++) if (f(k)) return 1;` followed by `return 0;` (for example dilithium2/poly.c:282-292). -/
def anyBad (f : Nat → C Bool) : (i n : Nat) → C Bool
  | _, 0 => .ok false
  | i, n + 1 => do
    let b ← f i
    if b then .ok true else anyBad f (i + 1) n

/-- `poly`, dilithium2/poly.h:6-8. -/
abbrev Poly := List Int

/-! ### reduce.c -/

/-- dilithium2/reduce.c:15-21 `montgomery_reduce`; QINV = 58728449 is dilithium2/reduce.h:7 -/
def montgomeryReduce (a : Int) : C Int := do
  let t := toI32 (a * 58728449 % 18446744073709551616)
  let p ← i64 (t * Q)
  let d ← i64 (a - p)
  .ok (toI32 (d >>> 32))

/-- dilithium2/reduce.c:33-39 `reduce32` -/
def reduce32 (a : Int) : C Int := do
  let s ← i32 (a + 4194304)
  let t := s >>> 23
  let p ← i32 (t * Q)
  i32 (a - p)

/-- dilithium2/reduce.c:50-53 `caddq` -/
def caddq (a : Int) : C Int := i32 (a + and32 (a >>> 31) Q)

/-- dilithium2/reduce.c:65-69 `freeze` -/
def freeze (a : Int) : C Int := do
  let a ← reduce32 a
  caddq a

/-! ### rounding.c -/

/-- dilithium2/rounding.c:17-23 `power2round`; returns (a1, a0) -/
def power2round (a : Int) : C (Int × Int) := do
  let s ← i32 (a + 4096)
  let s ← i32 (s - 1)
  let a1 := s >>> 13
  let h ← i32 (a1 * 8192)
  let a0 ← i32 (a - h)
  .ok (a1, a0)

/-- dilithium2/rounding.c:39-49 `decompose`; returns (a1, a0) -/
def decompose (a : Int) : C (Int × Int) := do
  let s ← i32 (a + 127)
  let a1 := s >>> 7
  let p ← i32 (a1 * 11275)
  let p ← i32 (p + 8388608)
  let a1 := p >>> 24
  let d ← i32 (43 - a1)
  let a1 := xor32 a1 (and32 (d >>> 31) a1)
  let p ← i32 (a1 * 2)
  let p ← i32 (p * GAMMA2)
  let a0 ← i32 (a - p)
  let d ← i32 (4190208 - a0)
  let a0 ← i32 (a0 - and32 (d >>> 31) Q)
  .ok (a1, a0)

/-- dilithium2/rounding.c:62-68 `make_hint` -/
def makeHint (a0 a1 : Int) : Int :=
  if a0 > GAMMA2 ∨ a0 < -GAMMA2 ∨ (a0 = -GAMMA2 ∧ a1 ≠ 0) then 1 else 0

/-- dilithium2/rounding.c:80-98 `use_hint` -/
def useHint (a hint : Int) : C Int := do
  let (a1, a0) ← decompose a
  if hint = 0 then .ok a1
  else if a0 > 0 then
    if a1 = 43 then .ok 0 else i32 (a1 + 1)
  else if a1 = 0 then .ok 43 else i32 (a1 - 1)

/-! ### ntt.c -/

/-- dilithium2/ntt.c:6-39 `zetas` -/
def zetas : List Int := [
  0, 25847, -2608894, -518909, 237124, -777960, -876248, 466468,
  1826347, 2353451, -359251, -2091905, 3119733, -2884855, 3111497, 2680103,
  2725464, 1024112, -1079900, 3585928, -549488, -1119584, 2619752, -2108549,
  -2118186, -3859737, -1399561, -3277672, 1757237, -19422, 4010497, 280005,
  2706023, 95776, 3077325, 3530437, -1661693, -3592148, -2537516, 3915439,
  -3861115, -3043716, 3574422, -2867647, 3539968, -300467, 2348700, -539299,
  -1699267, -1643818, 3505694, -3821735, 3507263, -2140649, -1600420, 3699596,
  811944, 531354, 954230, 3881043, 3900724, -2556880, 2071892, -2797779,
  -3930395, -1528703, -3677745, -3041255, -1452451, 3475950, 2176455, -1585221,
  -1257611, 1939314, -4083598, -1000202, -3190144, -3157330, -3632928, 126922,
  3412210, -983419, 2147896, 2715295, -2967645, -3693493, -411027, -2477047,
  -671102, -1228525, -22981, -1308169, -381987, 1349076, 1852771, -1430430,
  -3343383, 264944, 508951, 3097992, 44288, -1100098, 904516, 3958618,
  -3724342, -8578, 1653064, -3249728, 2389356, -210977, 759969, -1316856,
  189548, -3553272, 3159746, -1851402, -2409325, -177440, 1315589, 1341330,
  1285669, -1584928, -812732, -1439742, -3019102, -3881060, -3628969, 3839961,
  2091667, 3407706, 2316500, 3817976, -3342478, 2244091, -2446433, -3562462,
  266997, 2434439, -1235728, 3513181, -3520352, -3759364, -1197226, -3193378,
  900702, 1859098, 909542, 819034, 495491, -1613174, -43260, -522500,
  -655327, -3122442, 2031748, 3207046, -3556995, -525098, -768622, -3595838,
  342297, 286988, -2437823, 4108315, 3437287, -3342277, 1735879, 203044,
  2842341, 2691481, -2590150, 1265009, 4055324, 1247620, 2486353, 1595974,
  -3767016, 1250494, 2635921, -3548272, -2994039, 1869119, 1903435, -1050970,
  -1333058, 1237275, -3318210, -1430225, -451100, 1312455, 3306115, -1962642,
  -1279661, 1917081, -2546312, -1374803, 1500165, 777191, 2235880, 3406031,
  -542412, -2831860, -1671176, -1846953, -2584293, -3724270, 594136, -3776993,
  -2013608, 2432395, 2454455, -164721, 1957272, 3369112, 185531, -1207385,
  -3183426, 162844, 1616392, 3014001, 810149, 1652634, -3694233, -1799107,
  -3038916, 3523897, 3866901, 269760, 2213111, -975884, 1717735, 472078,
  -426683, 1723600, -1803090, 1910376, -1667432, -1104333, -260646, -3833893,
  -2939036, -2235985, -420899, -2286327, 183443, -976891, 1612842, -3545687,
  -554416, 3919660, -48306, -1362209, 3937738, 1400424, -846154, 1976782]

/-- dilithium2/ntt.c:57-61: one block of butterflies -/
def nttBlock (zeta : Int) (len start : Nat) (a : Poly) : C Poly :=
  loop (fun j a => do
    let y ← rd a (j + len)
    let p ← i64 (zeta * y)
    let t ← montgomeryReduce p
    let x ← rd a j
    let d ← i32 (x - t)
    let a ← wr a (j + len) d
    let x ← rd a j
    let s ← i32 (x + t)
    wr a j s) start len a

/-- dilithium2/ntt.c:55-62: one layer; block number b starts at 2 * len * b because j ends at start + len and `start = j + len`.
The state carries the running index k into `zetas`. -/
def nttLayer (len : Nat) (s : Poly × Nat) : C (Poly × Nat) :=
  loop (fun b s => do
    let k := s.2 + 1
    let zeta ← rd zetas k
    let a ← nttBlock zeta len (2 * len * b) s.1
    .ok (a, k)) 0 (128 / len) s

/-- dilithium2/ntt.c:49-64 `ntt` (dilithium2/poly.c:119-125 only calls it); layer number l has len = 128 >> l -/
def ntt (a : Poly) : C Poly := do
  let s ← loop (fun l s => nttLayer (128 / 2 ^ l) s) 0 8 (a, 0)
  .ok s.1

/-- dilithium2/ntt.c:86-91 -/
def invnttBlock (zeta : Int) (len start : Nat) (a : Poly) : C Poly :=
  loop (fun j a => do
    let t ← rd a j
    let y ← rd a (j + len)
    let s ← i32 (t + y)
    let a ← wr a j s
    let y ← rd a (j + len)
    let d ← i32 (t - y)
    let a ← wr a (j + len) d
    let y ← rd a (j + len)
    let p ← i64 (zeta * y)
    let r ← montgomeryReduce p
    wr a (j + len) r) start len a

/-- dilithium2/ntt.c:84-92; the state carries the running index k into `zetas`, which is decremented before use -/
def invnttLayer (len : Nat) (s : Poly × Nat) : C (Poly × Nat) :=
  loop (fun b s => do
    if s.2 = 0 then .error .ub else
    let k := s.2 - 1
    let z ← rd zetas k
    let zeta ← i32 (-z)
    let a ← invnttBlock zeta len (2 * len * b) s.1
    .ok (a, k)) 0 (128 / len) s

/-- dilithium2/ntt.c:77-98 `invntt_tomont` (dilithium2/poly.c:136-142 only calls it); f = 41978 -/
def invntt (a : Poly) : C Poly := do
  let s ← loop (fun l s => invnttLayer (2 ^ l) s) 0 8 (a, 256)
  build 256 0 fun j => do
    let x ← rd s.1 j
    let p ← i64 (41978 * x)
    montgomeryReduce p

/-! ### poly.c: arithmetic -/

/-- dilithium2/poly.c:20-29 `poly_reduce` -/
def polyReduce (a : Poly) : C Poly := build 256 0 fun i => do let x ← rd a i; reduce32 x
/-- dilithium2/poly.c:39-48 `poly_caddq` -/
def polyCaddq (a : Poly) : C Poly := build 256 0 fun i => do let x ← rd a i; caddq x
/-- dilithium2/poly.c:59-68 `poly_add` -/
def polyAdd (a b : Poly) : C Poly := build 256 0 fun i => do let x ← rd a i; let y ← rd b i; i32 (x + y)
/-- dilithium2/poly.c:81-90 `poly_sub` -/
def polySub (a b : Poly) : C Poly := build 256 0 fun i => do let x ← rd a i; let y ← rd b i; i32 (x - y)
/-- dilithium2/poly.c:100-109 `poly_shiftl` -/
def polyShiftl (a : Poly) : C Poly := build 256 0 fun i => do let x ← rd a i; i32 (x * 8192)
/-- dilithium2/poly.c:155-164 `poly_pointwise_montgomery` -/
def polyPointwise (a b : Poly) : C Poly := build 256 0 fun i => do
  let x ← rd a i
  let y ← rd b i
  let p ← i64 (x * y)
  montgomeryReduce p
/-- dilithium2/poly.c:178-187 `poly_power2round`; returns the coefficients as pairs (a1, a0) -/
def polyPower2round (a : Poly) : C (List (Int × Int)) := build 256 (0, 0) fun i => do let x ← rd a i; power2round x
/-- dilithium2/poly.c:202-211 `poly_decompose`; returns the coefficients as pairs (a1, a0) -/
def polyDecompose (a : Poly) : C (List (Int × Int)) := build 256 (0, 0) fun i => do let x ← rd a i; decompose x
/-- dilithium2/poly.c:226-237 `poly_make_hint`; the number s of hints is the sum of the result -/
def polyMakeHint (a0 a1 : Poly) : C Poly := build 256 0 fun i => do let x ← rd a0 i; let y ← rd a1 i; .ok (makeHint x y)
/-- dilithium2/poly.c:248-257 `poly_use_hint` -/
def polyUseHint (a h : Poly) : C Poly := build 256 0 fun i => do let x ← rd a i; let y ← rd h i; useHint x y

/-- dilithium2/poly.c:281-289: is the coefficient too big? -/
def coeffBad (a : Poly) (B : Int) (i : Nat) : C Bool := do
  let x ← rd a i
  let d ← i32 (2 * x)
  let t ← i32 (x - and32 (x >>> 31) d)
  .ok (decide (B ≤ t))

/-- dilithium2/poly.c:270-295 `poly_chknorm`; true stands for 1 -/
def polyChknorm (a : Poly) (B : Int) : C Bool :=
  if B > 1047552 then .ok true else anyBad (coeffBad a B) 0 256

/-! ### symmetric-shake.c and the samplers of poly.c -/

/-- dilithium2/symmetric-shake.c:6-26 `dilithium_shake128_stream_init` (r = 168, seed of 32 bytes) and
`dilithium_shake256_stream_init` (r = 136, seed of 64 bytes) -/
def streamInit (r : Nat) (seed : Bytes) (seedlen : Nat) (nonce : BitVec 16) : C Inc := do
  let t : Bytes := [nonce.setWidth 8, (nonce >>> 8).setWidth 8]
  let st ← incAbsorb incInit r seed seedlen
  let st ← incAbsorb st r t 2
  incFinalize st r 0x1F

/-- Squeezing into `buf + off` (for example dilithium2/poly.c:366). -/
def squeezeAt (buf : Bytes) (off n : Nat) (st : Inc) (r : Nat) : C (Bytes × Inc) := do
  let (x, st) ← incSqueeze (buf.drop off) n st r
  .ok (buf.take off ++ x, st)

/-- dilithium2/poly.c:319-329: the loop of `rej_uniform`; writes `a[base + ctr]` -/
def rejUniformLoop (base len : Nat) (buf : Bytes) (buflen : Nat) (a : Poly) (ctr pos : Nat) : C (Poly × Nat) :=
  if _h : ctr < len ∧ pos + 3 ≤ buflen then do
    let b0 ← rd buf pos
    let b1 ← rd buf (pos + 1)
    let b2 ← rd buf (pos + 2)
    let t : BitVec 32 := (b0.setWidth 32 ||| b1.setWidth 32 <<< 8 ||| b2.setWidth 32 <<< 16) &&& 0x7FFFFF
    if t.toNat < 8380417 then do
      let a ← wr a (base + ctr) (t.toNat : Int)
      rejUniformLoop base len buf buflen a (ctr + 1) (pos + 3)
    else rejUniformLoop base len buf buflen a ctr (pos + 3)
  else .ok (a, ctr)
termination_by buflen - pos

/-- dilithium2/poly.c:311-333 `rej_uniform(a->coeffs + base, len, buf, buflen)` -/
def rejUniform (a : Poly) (base len : Nat) (buf : Bytes) (buflen : Nat) : C (Poly × Nat) := rejUniformLoop base len buf buflen a 0 0

/-- dilithium2/poly.c:360-369: the loop of `poly_uniform` -/
def polyUniformLoop : (fuel : Nat) → (a : Poly) → (buf : Bytes) → (buflen ctr : Nat) → Inc → C Poly
  | fuel, a, buf, buflen, ctr, st =>
    if ctr < 256 then
      match fuel with
      | 0 => .error .diverge
      | fuel + 1 => do
        let off := buflen % 3
        let buf ← loop (fun i buf => do
          let b ← rd buf (buflen - off + i)
          wr buf i b) 0 off buf
        let (buf, st) ← squeezeAt buf off 168 st 168
        let buflen := 168 + off
        let (a, n) ← rejUniform a ctr (256 - ctr) buf buflen
        polyUniformLoop fuel a buf buflen (ctr + n) st
    else .ok a

/-- dilithium2/poly.c:346-371 `poly_uniform`; POLY_UNIFORM_NBLOCKS = 5, 5 * 168 = 840 -/
def polyUniform (fuel : Nat) (seed : Bytes) (nonce : BitVec 16) : C Poly := do
  let st ← streamInit 168 seed 32 nonce
  let (buf, st) ← squeezeAt (List.replicate 842 0) 0 840 st 168
  let (a, ctr) ← rejUniform (List.replicate 256 0) 0 256 buf 840
  polyUniformLoop fuel a buf 840 ctr st

/-- dilithium2/poly.c:400, 404: `2 - t` with `t = t - (205 * t >> 10) * 5` in unsigned 32-bit arithmetic, stored in an `int32_t` -/
def etaVal (t : BitVec 32) : Int := (2 - (t - ((205 * t) >>> 10) * 5)).toInt

/-- dilithium2/poly.c:395-408: the loop of `rej_eta` -/
def rejEtaLoop (base len : Nat) (buf : Bytes) (buflen : Nat) (a : Poly) (ctr pos : Nat) : C (Poly × Nat) :=
  if _h : ctr < len ∧ pos < buflen then do
    let b ← rd buf pos
    let t0 : BitVec 32 := b.setWidth 32 &&& 0x0F
    let t1 : BitVec 32 := b.setWidth 32 >>> 4
    let (a, ctr) ← (if t0.toNat < 15 then do
        let a ← wr a (base + ctr) (etaVal t0)
        .ok (a, ctr + 1)
      else .ok (a, ctr) : C (Poly × Nat))
    let (a, ctr) ← (if t1.toNat < 15 ∧ ctr < len then do
        let a ← wr a (base + ctr) (etaVal t1)
        .ok (a, ctr + 1)
      else .ok (a, ctr) : C (Poly × Nat))
    rejEtaLoop base len buf buflen a ctr (pos + 1)
  else .ok (a, ctr)
termination_by buflen - pos

/-- dilithium2/poly.c:387-412 `rej_eta(a->coeffs + base, len, buf, buflen)` -/
def rejEta (a : Poly) (base len : Nat) (buf : Bytes) (buflen : Nat) : C (Poly × Nat) := rejEtaLoop base len buf buflen a 0 0

/-- dilithium2/poly.c:439-442: the loop of `poly_uniform_eta` -/
def polyUniformEtaLoop : (fuel : Nat) → (a : Poly) → (buf : Bytes) → (ctr : Nat) → Inc → C Poly
  | fuel, a, buf, ctr, st =>
    if ctr < 256 then
      match fuel with
      | 0 => .error .diverge
      | fuel + 1 => do
        let (buf, st) ← squeezeAt buf 0 136 st 136
        let (a, n) ← rejEta a ctr (256 - ctr) buf 136
        polyUniformEtaLoop fuel a buf (ctr + n) st
    else .ok a

/-- dilithium2/poly.c:425-444 `poly_uniform_eta`; POLY_UNIFORM_ETA_NBLOCKS = 1 -/
def polyUniformEta (fuel : Nat) (seed : Bytes) (nonce : BitVec 16) : C Poly := do
  let st ← streamInit 136 seed 64 nonce
  let (buf, st) ← squeezeAt (List.replicate 136 0) 0 136 st 136
  let (a, ctr) ← rejEta (List.replicate 256 0) 0 256 buf 136
  polyUniformEtaLoop fuel a buf ctr st

/-! ### poly.c: bit packing
All packers handle groups: group i of the coefficients `a[m * i], ..., a[m * i + m - 1]` becomes bytes
`r[k * i], ..., r[k * i + k - 1]`.  `packLoop` and `unpackLoop` are these loops; the functions on one group follow the C expressions
byte by byte (`r[..] = x; r[..] |= y;` is written `x ||| y`). -/

/-- The `n` elements of `a` from position `o` on, which must exist (the operands of one group, for example dilithium2/poly.c:647-654). -/
def rdN {α : Type} (a : List α) (o n : Nat) : C (List α) := if o + n ≤ a.length then .ok (slice a o n) else .error .ub

/-- Packing loop of `n` groups, writing to `r + base` (for example dilithium2/poly.c:646-676). -/
def packLoop (m k n : Nat) (f : List Int → C Bytes) (r : Bytes) (base : Nat) (a : Poly) : C Bytes :=
  loop (fun i r => do
    let t ← rdN a (m * i) m
    let bs ← f t
    copy r (base + k * i) bs 0 k) 0 n r

/-- Unpacking loop of `n` groups, reading from `src + base` (for example dilithium2/poly.c:693-737). -/
def unpackLoop (m k n : Nat) (f : Bytes → C (List Int)) (src : Bytes) (base : Nat) : C Poly :=
  loop (fun i a => do
    let bs ← rdN src (base + k * i) k
    let t ← f bs
    copy a (m * i) t 0 m) 0 n (List.replicate 256 0)

/-- `uint8_t` value of `c - a` (dilithium2/poly.c:532-539). -/
def sub8 (c a : Int) : C Byte := do
  let d ← i32 (c - a)
  .ok (BitVec.ofInt 8 d)

/-- `uint32_t` value of `c - a` (for example dilithium2/poly.c:647-654). -/
def sub32 (c a : Int) : C (BitVec 32) := do
  let d ← i32 (c - a)
  .ok (BitVec.ofInt 32 d)

/-- Signed `a << k` (for example dilithium2/poly.c:599-603). -/
def shl32 (a : Int) (k : Nat) : C (BitVec 32) := do
  let d ← i32 (a * 2 ^ k)
  .ok (BitVec.ofInt 32 d)

/-- Signed `a >> k` (for example dilithium2/poly.c:599-603). -/
def shr32 (a : Int) (k : Nat) : BitVec 32 := BitVec.ofInt 32 (a >>> k)

/-- `(uint8_t) x`, for example dilithium2/poly.c:656-675. -/
abbrev b8 (x : BitVec 32) : Byte := x.setWidth 8
/-- `(uint32_t) x` of a byte, for example dilithium2/poly.c:694-696. -/
abbrev w32 (x : Byte) : BitVec 32 := x.setWidth 32

/-- dilithium2/poly.c:532-543 -/
def etaPackGroup : List Int → C Bytes
  | [a0, a1, a2, a3, a4, a5, a6, a7] => do
    let t0 ← sub8 2 a0
    let t1 ← sub8 2 a1
    let t2 ← sub8 2 a2
    let t3 ← sub8 2 a3
    let t4 ← sub8 2 a4
    let t5 ← sub8 2 a5
    let t6 ← sub8 2 a6
    let t7 ← sub8 2 a7
    .ok [t0 ||| t1 <<< 3 ||| t2 <<< 6,
      t2 >>> 2 ||| t3 <<< 1 ||| t4 <<< 4 ||| t5 <<< 7,
      t5 >>> 1 ||| t6 <<< 2 ||| t7 <<< 5]
  | _ => .error .ub

/-- dilithium2/poly.c:526-547 `polyeta_pack(r + base, a)` -/
def polyetaPack (r : Bytes) (base : Nat) (a : Poly) : C Bytes := packLoop 8 3 32 etaPackGroup r base a

/-- `c - x` for an `int32_t` x that was just unpacked (for example dilithium2/poly.c:730-737). -/
def csub (c : Int) (x : BitVec 32) : C Int := i32 (c - x.toInt)

/-- dilithium2/poly.c:562-578 -/
def etaUnpackGroup : Bytes → C (List Int)
  | [a0, a1, a2] => do
    let r0 ← csub 2 (w32 a0 &&& 7)
    let r1 ← csub 2 (w32 a0 >>> 3 &&& 7)
    let r2 ← csub 2 ((w32 a0 >>> 6 ||| w32 a1 <<< 2) &&& 7)
    let r3 ← csub 2 (w32 a1 >>> 1 &&& 7)
    let r4 ← csub 2 (w32 a1 >>> 4 &&& 7)
    let r5 ← csub 2 ((w32 a1 >>> 7 ||| w32 a2 <<< 1) &&& 7)
    let r6 ← csub 2 (w32 a2 >>> 2 &&& 7)
    let r7 ← csub 2 (w32 a2 >>> 5 &&& 7)
    .ok [r0, r1, r2, r3, r4, r5, r6, r7]
  | _ => .error .ub

/-- dilithium2/poly.c:557-582 `polyeta_unpack(r, a + base)` -/
def polyetaUnpack (a : Bytes) (base : Nat) : C Poly := unpackLoop 8 3 32 etaUnpackGroup a base

/-- dilithium2/poly.c:599-603 -/
def t1PackGroup : List Int → C Bytes
  | [a0, a1, a2, a3] => do
    let s1 ← shl32 a1 2
    let s2 ← shl32 a2 4
    let s3 ← shl32 a3 6
    .ok [b8 (shr32 a0 0), b8 (shr32 a0 8 ||| s1), b8 (shr32 a1 6 ||| s2), b8 (shr32 a2 4 ||| s3), b8 (shr32 a3 2)]
  | _ => .error .ub

/-- dilithium2/poly.c:594-607 `polyt1_pack(r + base, a)` -/
def polyt1Pack (r : Bytes) (base : Nat) (a : Poly) : C Bytes := packLoop 4 5 64 t1PackGroup r base a

/-- dilithium2/poly.c:623-626 -/
def t1UnpackGroup : Bytes → C (List Int)
  | [a0, a1, a2, a3, a4] => .ok [
      ((w32 a0 ||| w32 a1 <<< 8) &&& 0x3FF).toInt,
      ((w32 a1 >>> 2 ||| w32 a2 <<< 6) &&& 0x3FF).toInt,
      ((w32 a2 >>> 4 ||| w32 a3 <<< 4) &&& 0x3FF).toInt,
      ((w32 a3 >>> 6 ||| w32 a4 <<< 2) &&& 0x3FF).toInt]
  | _ => .error .ub

/-- dilithium2/poly.c:618-630 `polyt1_unpack(r, a + base)` -/
def polyt1Unpack (a : Bytes) (base : Nat) : C Poly := unpackLoop 4 5 64 t1UnpackGroup a base

/-- dilithium2/poly.c:647-675 -/
def t0PackGroup : List Int → C Bytes
  | [a0, a1, a2, a3, a4, a5, a6, a7] => do
    let t0 ← sub32 4096 a0
    let t1 ← sub32 4096 a1
    let t2 ← sub32 4096 a2
    let t3 ← sub32 4096 a3
    let t4 ← sub32 4096 a4
    let t5 ← sub32 4096 a5
    let t6 ← sub32 4096 a6
    let t7 ← sub32 4096 a7
    .ok [b8 t0,
      b8 (t0 >>> 8) ||| b8 (t1 <<< 5),
      b8 (t1 >>> 3),
      b8 (t1 >>> 11) ||| b8 (t2 <<< 2),
      b8 (t2 >>> 6) ||| b8 (t3 <<< 7),
      b8 (t3 >>> 1),
      b8 (t3 >>> 9) ||| b8 (t4 <<< 4),
      b8 (t4 >>> 4),
      b8 (t4 >>> 12) ||| b8 (t5 <<< 1),
      b8 (t5 >>> 7) ||| b8 (t6 <<< 6),
      b8 (t6 >>> 2),
      b8 (t6 >>> 10) ||| b8 (t7 <<< 3),
      b8 (t7 >>> 5)]
  | _ => .error .ub

/-- dilithium2/poly.c:641-679 `polyt0_pack(r + base, a)` -/
def polyt0Pack (r : Bytes) (base : Nat) (a : Poly) : C Bytes := packLoop 8 13 32 t0PackGroup r base a

/-- dilithium2/poly.c:694-737 -/
def t0UnpackGroup : Bytes → C (List Int)
  | [a0, a1, a2, a3, a4, a5, a6, a7, a8, a9, a10, a11, a12] => do
    let r0 ← csub 4096 ((w32 a0 ||| w32 a1 <<< 8) &&& 0x1FFF)
    let r1 ← csub 4096 ((w32 a1 >>> 5 ||| w32 a2 <<< 3 ||| w32 a3 <<< 11) &&& 0x1FFF)
    let r2 ← csub 4096 ((w32 a3 >>> 2 ||| w32 a4 <<< 6) &&& 0x1FFF)
    let r3 ← csub 4096 ((w32 a4 >>> 7 ||| w32 a5 <<< 1 ||| w32 a6 <<< 9) &&& 0x1FFF)
    let r4 ← csub 4096 ((w32 a6 >>> 4 ||| w32 a7 <<< 4 ||| w32 a8 <<< 12) &&& 0x1FFF)
    let r5 ← csub 4096 ((w32 a8 >>> 1 ||| w32 a9 <<< 7) &&& 0x1FFF)
    let r6 ← csub 4096 ((w32 a9 >>> 6 ||| w32 a10 <<< 2 ||| w32 a11 <<< 10) &&& 0x1FFF)
    let r7 ← csub 4096 ((w32 a11 >>> 3 ||| w32 a12 <<< 5) &&& 0x1FFF)
    .ok [r0, r1, r2, r3, r4, r5, r6, r7]
  | _ => .error .ub

/-- dilithium2/poly.c:689-741 `polyt0_unpack(r, a + base)` -/
def polyt0Unpack (a : Bytes) (base : Nat) : C Poly := unpackLoop 8 13 32 t0UnpackGroup a base

/-- dilithium2/poly.c:759-775 -/
def zPackGroup : List Int → C Bytes
  | [a0, a1, a2, a3] => do
    let t0 ← sub32 131072 a0
    let t1 ← sub32 131072 a1
    let t2 ← sub32 131072 a2
    let t3 ← sub32 131072 a3
    .ok [b8 t0,
      b8 (t0 >>> 8),
      b8 (t0 >>> 16) ||| b8 (t1 <<< 2),
      b8 (t1 >>> 6),
      b8 (t1 >>> 14) ||| b8 (t2 <<< 4),
      b8 (t2 >>> 4),
      b8 (t2 >>> 12) ||| b8 (t3 <<< 6),
      b8 (t3 >>> 2),
      b8 (t3 >>> 10)]
  | _ => .error .ub

/-- dilithium2/poly.c:753-779 `polyz_pack(r + base, a)` -/
def polyzPack (r : Bytes) (base : Nat) (a : Poly) : C Bytes := packLoop 4 9 64 zPackGroup r base a

/-- dilithium2/poly.c:795-818 -/
def zUnpackGroup : Bytes → C (List Int)
  | [a0, a1, a2, a3, a4, a5, a6, a7, a8] => do
    let r0 ← csub 131072 ((w32 a0 ||| w32 a1 <<< 8 ||| w32 a2 <<< 16) &&& 0x3FFFF)
    let r1 ← csub 131072 ((w32 a2 >>> 2 ||| w32 a3 <<< 6 ||| w32 a4 <<< 14) &&& 0x3FFFF)
    let r2 ← csub 131072 ((w32 a4 >>> 4 ||| w32 a5 <<< 4 ||| w32 a6 <<< 12) &&& 0x3FFFF)
    let r3 ← csub 131072 ((w32 a6 >>> 6 ||| w32 a7 <<< 2 ||| w32 a8 <<< 10) &&& 0x3FFFF)
    .ok [r0, r1, r2, r3]
  | _ => .error .ub

/-- dilithium2/poly.c:790-822 `polyz_unpack(r, a + base)` -/
def polyzUnpack (a : Bytes) (base : Nat) : C Poly := unpackLoop 4 9 64 zUnpackGroup a base

/-- dilithium2/poly.c:839-844 -/
def w1PackGroup : List Int → C Bytes
  | [a0, a1, a2, a3] => do
    let s1 ← shl32 a1 6
    let s2 ← shl32 a2 4
    let s3 ← shl32 a3 2
    .ok [b8 (shr32 a0 0) ||| b8 s1, b8 (shr32 a1 2) ||| b8 s2, b8 (shr32 a2 4) ||| b8 s3]
  | _ => .error .ub

/-- dilithium2/poly.c:834-848 `polyw1_pack(r + base, a)` -/
def polyw1Pack (r : Bytes) (base : Nat) (a : Poly) : C Bytes := packLoop 4 3 64 w1PackGroup r base a

/-- dilithium2/poly.c:457-468 `poly_uniform_gamma1`; POLY_UNIFORM_GAMMA1_NBLOCKS = 5, 5 * 136 = 680 -/
def polyUniformGamma1 (seed : Bytes) (nonce : BitVec 16) : C Poly := do
  let st ← streamInit 136 seed 64 nonce
  let (buf, _) ← squeezeAt (List.replicate 680 0) 0 680 st 136
  polyzUnpack buf 0

/-- State of the sampler of the challenge polynomial: buffer, position in it, Keccak context (dilithium2/poly.c:484-498). -/
structure ChalSt where
  buf : Bytes
  pos : Nat
  st : Inc

/-- dilithium2/poly.c:503-510: `do { ... b = buf[pos++]; } while (b > i);` -/
def challengeByte : (fuel i : Nat) → ChalSt → C (Nat × ChalSt)
  | 0, _, _ => .error .diverge
  | fuel + 1, i, s => do
    let s ← (if s.pos ≥ 136 then do
        let (buf, st) ← squeezeAt s.buf 0 136 s.st 136
        .ok ⟨buf, 0, st⟩
      else .ok s : C ChalSt)
    let b ← rd s.buf s.pos
    let s : ChalSt := ⟨s.buf, s.pos + 1, s.st⟩
    if b.toNat > i then challengeByte fuel i s else .ok (b.toNat, s)

/-- dilithium2/poly.c:502-514: one round of the loop; the state is the polynomial, the sign bits and the sampler state.
`1 - 2 * (signs & 1)` is computed in 64-bit unsigned arithmetic and stored in an `int32_t`. -/
def challengeStep (fuel i : Nat) (s : Poly × BitVec 64 × ChalSt) : C (Poly × BitVec 64 × ChalSt) := do
  let (c, signs, cs) := s
  let (b, cs) ← challengeByte fuel i cs
  let x ← rd c b
  let c ← wr c i x
  let c ← wr c b (toI32 ((1 - 2 * (signs &&& 1)).toNat : Int))
  .ok (c, signs >>> 1, cs)

/-- dilithium2/poly.c:480-515 `poly_challenge`; N - TAU = 217 -/
def polyChallenge (fuel : Nat) (seed : Bytes) : C Poly := do
  let st ← incAbsorb incInit 136 seed 32
  let st ← incFinalize st 136 0x1F
  let (buf, st) ← squeezeAt (List.replicate 136 0) 0 136 st 136
  let signs ← loop (fun i (signs : BitVec 64) => do
    let b ← rd buf i
    .ok (signs ||| b.setWidth 64 <<< (8 * i))) 0 8 0
  let (c, _, _) ← loop (challengeStep fuel) 217 39 (List.replicate 256 0, signs, ⟨buf, 8, st⟩)
  .ok c

/-! ### polyvec.c (K = L = 4) -/

/-- `polyvecl` and `polyveck`, dilithium2/polyvec.h:8-10, 30-32. -/
abbrev Vec := List Poly

/-- `for (i = 0; i < 4; ++i) out.vec[i] = f(v.vec[i]);` (for example dilithium2/polyvec.c:57-59). -/
def vmap (f : Poly → C Poly) (v : Vec) : C Vec := build 4 [] fun i => do let x ← rd v i; f x
/-- `for (i = 0; i < 4; ++i) out.vec[i] = f(u.vec[i], v.vec[i]);` (for example dilithium2/polyvec.c:75-77). -/
def vzip (f : Poly → Poly → C Poly) (u v : Vec) : C Vec := build 4 [] fun i => do let x ← rd u i; let y ← rd v i; f x y

/-- dilithium2/polyvec.c:16-24 `polyvec_matrix_expand` -/
def matrixExpand (fuel : Nat) (rho : Bytes) : C (List Vec) :=
  build 4 [] fun i => build 4 [] fun j => polyUniform fuel rho (BitVec.ofNat 16 (i * 256 + j))

/-- dilithium2/polyvec.c:123-134 `polyvecl_pointwise_acc_montgomery` -/
def pointwiseAcc (u v : Vec) : C Poly := do
  let x ← rd u 0
  let y ← rd v 0
  let w ← polyPointwise x y
  loop (fun i w => do
    let x ← rd u i
    let y ← rd v i
    let t ← polyPointwise x y
    polyAdd w t) 1 3 w

/-- dilithium2/polyvec.c:26-32 `polyvec_matrix_pointwise_montgomery` -/
def matrixPointwise (mat : List Vec) (v : Vec) : C Vec := build 4 [] fun i => do let u ← rd mat i; pointwiseAcc u v

/-- dilithium2/polyvec.c:38-44 and dilithium2/polyvec.c:164-170 `polyvecl_uniform_eta`, `polyveck_uniform_eta` -/
def vecUniformEta (fuel : Nat) (seed : Bytes) (nonce : BitVec 16) : C Vec :=
  build 4 [] fun i => polyUniformEta fuel seed (nonce + BitVec.ofNat 16 i)

/-- dilithium2/polyvec.c:46-52 `polyvecl_uniform_gamma1`; `(uint16_t)(L * nonce + i)` -/
def vecUniformGamma1 (seed : Bytes) (nonce : BitVec 16) : C Vec :=
  build 4 [] fun i => polyUniformGamma1 seed (BitVec.ofNat 16 (4 * nonce.toNat + i))

/-- dilithium2/polyvec.c:54-60, 180-186 -/
def vecReduce (v : Vec) : C Vec := vmap polyReduce v
/-- dilithium2/polyvec.c:196-202 -/
def vecCaddq (v : Vec) : C Vec := vmap polyCaddq v
/-- dilithium2/polyvec.c:72-78, 214-220 -/
def vecAdd (u v : Vec) : C Vec := vzip polyAdd u v
/-- dilithium2/polyvec.c:233-239 -/
def vecSub (u v : Vec) : C Vec := vzip polySub u v
/-- dilithium2/polyvec.c:249-255 -/
def vecShiftl (v : Vec) : C Vec := vmap polyShiftl v
/-- dilithium2/polyvec.c:88-94, 265-271 -/
def vecNtt (v : Vec) : C Vec := vmap ntt v
/-- dilithium2/polyvec.c:96-102, 282-288 -/
def vecInvntt (v : Vec) : C Vec := vmap invntt v
/-- dilithium2/polyvec.c:104-110, 290-296 -/
def vecPointwisePoly (a : Poly) (v : Vec) : C Vec := vmap (polyPointwise a) v
/-- dilithium2/polyvec.c:148-158, 310-320 -/
def vecChknorm (v : Vec) (B : Int) : C Bool := anyBad (fun i => do let x ← rd v i; polyChknorm x B) 0 4
/-- dilithium2/polyvec.c:336-342; returns (v1, v0) -/
def vecPower2round (v : Vec) : C (Vec × Vec) := do
  let l ← build 4 [] fun i => do let x ← rd v i; polyPower2round x
  .ok (l.map (·.map (·.1)), l.map (·.map (·.2)))
/-- dilithium2/polyvec.c:359-365; returns (v1, v0) -/
def vecDecompose (v : Vec) : C (Vec × Vec) := do
  let l ← build 4 [] fun i => do let x ← rd v i; polyDecompose x
  .ok (l.map (·.map (·.1)), l.map (·.map (·.2)))
/-- dilithium2/polyvec.c:378-388; returns the hints and their number s -/
def vecMakeHint (v0 v1 : Vec) : C (Vec × Int) := do
  let h ← vzip polyMakeHint v0 v1
  .ok (h, (h.map List.sum).sum)
/-- dilithium2/polyvec.c:400-406 -/
def vecUseHint (u h : Vec) : C Vec := vzip polyUseHint u h

/-- `for (i = 0; i < 4; ++i) pack(r + base + i * size, v.vec[i]);` (for example dilithium2/polyvec.c:408-414). -/
def vecPack (pack : Bytes → Nat → Poly → C Bytes) (size : Nat) (r : Bytes) (base : Nat) (v : Vec) : C Bytes :=
  loop (fun i r => do
    let x ← rd v i
    pack r (base + i * size) x) 0 4 r
/-- `for (i = 0; i < 4; ++i) unpack(v.vec[i], a + base + i * size);` (for example dilithium2/packing.c:49-51). -/
def vecUnpack (unpack : Bytes → Nat → C Poly) (size : Nat) (a : Bytes) (base : Nat) : C Vec :=
  build 4 [] fun i => unpack a (base + i * size)

/-- dilithium2/polyvec.c:408-414 `polyveck_pack_w1` -/
def vecPackW1 (r : Bytes) (v : Vec) : C Bytes := vecPack polyw1Pack 192 r 0 v

/-! ### packing.c -/

/-- dilithium2/packing.c:15-28 `pack_pk` -/
def packPk (pk rho : Bytes) (t1 : Vec) : C Bytes := do
  let pk ← copy pk 0 rho 0 32
  vecPack polyt1Pack 320 pk 32 t1

/-- dilithium2/packing.c:39-52 `unpack_pk`; returns (rho, t1) -/
def unpackPk (pk : Bytes) : C (Bytes × Vec) := do
  let rho ← copy (List.replicate 32 0) 0 pk 0 32
  let t1 ← vecUnpack polyt1Unpack 320 pk 32
  .ok (rho, t1)

/-- dilithium2/packing.c:67-104 `pack_sk` -/
def packSk (sk rho tr key : Bytes) (t0 s1 s2 : Vec) : C Bytes := do
  let sk ← copy sk 0 rho 0 32
  let sk ← copy sk 32 key 0 32
  let sk ← copy sk 64 tr 0 64
  let sk ← vecPack polyetaPack 96 sk 128 s1
  let sk ← vecPack polyetaPack 96 sk 512 s2
  vecPack polyt0Pack 416 sk 896 t0

/-- Everything in a secret key (the outputs of dilithium2/packing.c:119-125). -/
structure SkParts where
  rho : Bytes
  tr : Bytes
  key : Bytes
  t0 : Vec
  s1 : Vec
  s2 : Vec

/-- dilithium2/packing.c:119-156 `unpack_sk` -/
def unpackSk (sk : Bytes) : C SkParts := do
  let rho ← copy (List.replicate 32 0) 0 sk 0 32
  let key ← copy (List.replicate 32 0) 0 sk 32 32
  let tr ← copy (List.replicate 64 0) 0 sk 64 64
  let s1 ← vecUnpack polyetaUnpack 96 sk 128
  let s2 ← vecUnpack polyetaUnpack 96 sk 512
  let t0 ← vecUnpack polyt0Unpack 416 sk 896
  .ok ⟨rho, tr, key, t0, s1, s2⟩

/-- dilithium2/packing.c:191-195: the inner loop over one polynomial; `o` is where the hints start, the state is (sig, k) -/
def packHintPoly (o : Nat) (h : Poly) (s : Bytes × Nat) : C (Bytes × Nat) :=
  loop (fun j s => do
    let x ← rd h j
    if x ≠ 0 then do
      let sig ← wr s.1 (o + s.2) (BitVec.ofNat 8 j)
      .ok (sig, s.2 + 1)
    else .ok s) 0 256 s

/-- dilithium2/packing.c:168-199 `pack_sig(sig, c, z, h)`; `sig` points to the hints at offset 32 + 4 * 576 = 2336 -/
def packSig (sig c : Bytes) (z h : Vec) : C Bytes := do
  let sig ← copy sig 0 c 0 32
  let sig ← vecPack polyzPack 576 sig 32 z
  let sig ← loop (fun i sig => wr sig (2336 + i) 0) 0 84 sig
  let (sig, _) ← loop (fun i s => do
    let x ← rd h i
    let (sig, k) ← packHintPoly 2336 x s
    let sig ← wr sig (2336 + 80 + i) (BitVec.ofNat 8 k)
    .ok (sig, k)) 0 4 (sig, 0)
  .ok sig

/-- dilithium2/packing.c:241-247: positions k .. end - 1 of the hints of one polynomial; none stands for `return 1` -/
def unpackHintPoly (sig : Bytes) (o k : Nat) : (j n : Nat) → Poly → C (Option Poly)
  | _, 0, h => .ok (some h)
  | j, n + 1, h => do
    let x ← rd sig (o + j)
    let bad ← (if j > k then do
        let y ← rd sig (o + j - 1)
        .ok (decide (x.toNat ≤ y.toNat))
      else .ok false : C Bool)
    if bad then .ok none else do
    let h ← wr h x.toNat 1
    unpackHintPoly sig o k (j + 1) n h

/-- dilithium2/packing.c:232-250: the polynomials from number i on; returns the polynomials and the final k -/
def unpackHints (sig : Bytes) (o : Nat) : (i n k : Nat) → C (Option (Vec × Nat))
  | _, 0, k => .ok (some ([], k))
  | i, n + 1, k => do
    let e ← rd sig (o + 80 + i)
    if e.toNat < k ∨ e.toNat > 80 then .ok none else do
    let r ← unpackHintPoly sig o k k (e.toNat - k) (List.replicate 256 0)
    match r with
    | none => .ok none
    | some h => do
      let rest ← unpackHints sig o (i + 1) n e.toNat
      match rest with
      | none => .ok none
      | some (hs, k) => .ok (some (h :: hs, k))

/-- dilithium2/packing.c:214-260 `unpack_sig`; none stands for a nonzero return value -/
def unpackSig (sig : Bytes) : C (Option (Bytes × Vec × Vec)) := do
  let c ← copy (List.replicate 32 0) 0 sig 0 32
  let z ← vecUnpack polyzUnpack 576 sig 32
  let r ← unpackHints sig 2336 0 4 0
  match r with
  | none => .ok none
  | some (h, k) => do
    let bad ← anyBad (fun j => do
      let x ← rd sig (2336 + j)
      .ok (decide (x ≠ 0))) k (80 - k)
    if bad then .ok none else .ok (some (c, z, h))

/-! ### sign.c -/

/-- dilithium2/sign.c:131-136 and the like: incremental SHAKE256 of two pieces -/
def shake256Inc2 (x : Bytes) (xlen : Nat) (y : Bytes) (ylen : Nat) (out : Bytes) (outlen : Nat) : C Bytes := do
  let st ← incAbsorb incInit 136 x xlen
  let st ← incAbsorb st 136 y ylen
  let st ← incFinalize st 136 0x1F
  let (out, _) ← incSqueeze out outlen st 136
  .ok out

/-- dilithium2/sign.c:23-68 `crypto_sign_keypair_seed`; `shake256` absorbs all of its input before it writes, so the shared
buffer `seedbuf` can be read as two arrays -/
def keypairSeed (fuel : Nat) (pk sk seed : Bytes) : C (Int × Bytes × Bytes) := do
  let seedbuf ← copy (List.replicate 128 0) 0 seed 0 32
  let seedbuf ← shake256 seedbuf 128 seedbuf 32
  let rho := slice seedbuf 0 32
  let rhoprime := slice seedbuf 32 64
  let key := slice seedbuf 96 32
  let mat ← matrixExpand fuel rho
  let s1 ← vecUniformEta fuel rhoprime 0
  let s2 ← vecUniformEta fuel rhoprime 4
  let s1hat ← vecNtt s1
  let t ← matrixPointwise mat s1hat
  let t ← vecReduce t
  let t ← vecInvntt t
  let t ← vecAdd t s2
  let t ← vecCaddq t
  let (t1, t0) ← vecPower2round t
  let pk ← packPk pk rho t1
  let tr ← shake256 (List.replicate 64 0) 64 pk 1312
  let sk ← packSk sk rho tr key t0 s1 s2
  .ok (0, pk, sk)

/-- What stays fixed during the rejection loop of signing (the locals of dilithium2/sign.c crypto_sign_signature that the loop only reads). -/
structure SignCtx where
  mat : List Vec
  s1 : Vec
  s2 : Vec
  t0 : Vec
  mu : Bytes
  rhoprime : Bytes

/-- dilithium2/sign.c:150-208: one pass through the rejection loop with the given nonce.  Returns the buffer `sig`, which is also
used as scratch space, and whether the pass ended in a signature (true) or in `goto rej` (false). -/
def signAttempt (fuel : Nat) (x : SignCtx) (sig : Bytes) (nonce : BitVec 16) : C (Bool × Bytes) := do
  let y ← vecUniformGamma1 x.rhoprime nonce
  let z ← vecNtt y
  let w ← matrixPointwise x.mat z
  let w ← vecReduce w
  let w ← vecInvntt w
  let w ← vecCaddq w
  let (w1, w0) ← vecDecompose w
  let sig ← vecPackW1 sig w1
  let sig ← shake256Inc2 x.mu 64 sig 768 sig 32
  let cp ← polyChallenge fuel sig
  let cp ← ntt cp
  let z ← vecPointwisePoly cp x.s1
  let z ← vecInvntt z
  let z ← vecAdd z y
  let z ← vecReduce z
  let bad ← vecChknorm z (GAMMA1 - BETA)
  if bad then .ok (false, sig) else do
  let h ← vecPointwisePoly cp x.s2
  let h ← vecInvntt h
  let w0 ← vecSub w0 h
  let w0 ← vecReduce w0
  let bad ← vecChknorm w0 (GAMMA2 - BETA)
  if bad then .ok (false, sig) else do
  let h ← vecPointwisePoly cp x.t0
  let h ← vecInvntt h
  let h ← vecReduce h
  let bad ← vecChknorm h GAMMA2
  if bad then .ok (false, sig) else do
  let w0 ← vecAdd w0 h
  let (h, n) ← vecMakeHint w0 w1
  if n > 80 then .ok (false, sig) else do
  let sig ← packSig sig (slice sig 0 32) z h
  .ok (true, sig)

/-- dilithium2/sign.c:149-208: the rejection loop; `nonce` is a 16-bit counter -/
def signLoop (fuel : Nat) (x : SignCtx) : (rounds : Nat) → (sig : Bytes) → (nonce : BitVec 16) → C Bytes
  | 0, _, _ => .error .diverge
  | rounds + 1, sig, nonce => do
    let (done, sig) ← signAttempt fuel x sig nonce
    if done then .ok sig else signLoop fuel x rounds sig (nonce + 1)

/-- dilithium2/sign.c:108-211 `crypto_sign_signature`; layout of `seedbuf`: rho 0, tr 32, key 96, rnd 128, mu 160, rhoprime 224.
Returns (code, sig, siglen).  The same fuel bounds each sampler and the number of passes. -/
def signature (fuel : Nat) (sig : Bytes) (_siglen : Nat) (m sk : Bytes) : C (Int × Bytes × Nat) := do
  let p ← unpackSk sk
  let seedbuf := p.rho ++ p.tr ++ p.key ++ List.replicate 160 0
  let mu ← shake256Inc2 (slice seedbuf 32 64) 64 m m.length (slice seedbuf 160 64) 64
  let seedbuf ← copy seedbuf 160 mu 0 64
  let seedbuf ← loop (fun n b => wr b (128 + n) 0) 0 32 seedbuf
  let rhoprime ← shake256 (slice seedbuf 224 64) 64 (slice seedbuf 96 128) 128
  let mat ← matrixExpand fuel (slice seedbuf 0 32)
  let s1 ← vecNtt p.s1
  let s2 ← vecNtt p.s2
  let t0 ← vecNtt p.t0
  let sig ← signLoop fuel ⟨mat, s1, s2, t0, slice seedbuf 160 64, rhoprime⟩ fuel sig 0
  .ok (0, sig, 2420)

/-- dilithium2/sign.c:229-242 `crypto_sign`, for a message buffer that does not overlap the output -/
def sign (fuel : Nat) (sm : Bytes) (smlen : Nat) (m sk : Bytes) : C (Int × Bytes × Nat) := do
  let sm ← loop (fun i sm => do
    let b ← rd m (m.length - 1 - i)
    wr sm (2420 + m.length - 1 - i) b) 0 m.length sm
  let (_, sig, smlen) ← signature fuel (sm.take 2420) smlen (slice sm 2420 m.length) sk
  .ok (0, splice sm 0 sig, smlen + m.length)

/-- dilithium2/sign.c:257-328 `crypto_sign_verify(sig, siglen, m, mlen, pk)`; `siglen` is the length argument, the array may be
longer -/
def verify (fuel : Nat) (sig : Bytes) (siglen : Nat) (m pk : Bytes) : C Int := do
  if siglen ≠ 2420 then .ok (-1) else do
  let (rho, t1) ← unpackPk pk
  let r ← unpackSig sig
  match r with
  | none => .ok (-1)
  | some (c, z, h) => do
    let bad ← vecChknorm z (GAMMA1 - BETA)
    if bad then .ok (-1) else do
    let mu ← shake256 (List.replicate 64 0) 64 pk 1312
    let mu ← shake256Inc2 mu 64 m m.length mu 64
    let cp ← polyChallenge fuel c
    let mat ← matrixExpand fuel rho
    let z ← vecNtt z
    let w1 ← matrixPointwise mat z
    let cp ← ntt cp
    let t1 ← vecShiftl t1
    let t1 ← vecNtt t1
    let t1 ← vecPointwisePoly cp t1
    let w1 ← vecSub w1 t1
    let w1 ← vecReduce w1
    let w1 ← vecInvntt w1
    let w1 ← vecCaddq w1
    let w1 ← vecUseHint w1 h
    let buf ← vecPackW1 (List.replicate 768 0) w1
    let c2 ← shake256Inc2 mu 64 buf 768 (List.replicate 32 0) 32
    let bad ← anyBad (fun i => do
      let x ← rd c i
      let y ← rd c2 i
      .ok (decide (x ≠ y))) 0 32
    if bad then .ok (-1) else .ok 0

/-- dilithium2/sign.c:229-242 `crypto_sign` with `sm == m`, which the comment at dilithium2/sign.c:218-220 allows: `buf` holds the message in its first
`mlen` bytes and receives the signed message -/
def signInPlace (fuel : Nat) (buf : Bytes) (mlen smlen : Nat) (sk : Bytes) : C (Int × Bytes × Nat) := do
  let buf ← loop (fun i buf => do
    let b ← rd buf (mlen - 1 - i)
    wr buf (2420 + mlen - 1 - i) b) 0 mlen buf
  let (_, sig, smlen) ← signature fuel (buf.take 2420) smlen (slice buf 2420 mlen) sk
  .ok (0, splice buf 0 sig, smlen + mlen)

/-- dilithium2/sign.c:344-365 `crypto_sign_open`; returns (code, m, mlen).  `verify` gets the first 2420 bytes of `sm` as an array of
their own; it reads nothing behind them. -/
def open_ (fuel : Nat) (m : Bytes) (mlen : Nat) (sm : Bytes) (smlen : Nat) (pk : Bytes) : C (Int × Bytes × Nat) := do
  if smlen < 2420 then .ok (-1, m, mlen) else do
  let mlen := smlen - 2420
  if smlen > sm.length then .error .ub else do
  let r ← verify fuel (slice sm 0 2420) 2420 (slice sm 2420 mlen) pk
  if r ≠ 0 then .ok (-2, m, mlen) else do
  let m ← copy m 0 sm 2420 mlen
  .ok (0, m, mlen)

/-- dilithium2/sign.c:344-365 `crypto_sign_open` with `m == sm`, which the comment at dilithium2/sign.c:335-336 allows -/
def openInPlace (fuel : Nat) (buf : Bytes) (mlen smlen : Nat) (pk : Bytes) : C (Int × Bytes × Nat) := do
  if smlen < 2420 then .ok (-1, buf, mlen) else do
  let mlen := smlen - 2420
  if smlen > buf.length then .error .ub else do
  let r ← verify fuel (slice buf 0 2420) 2420 (slice buf 2420 mlen) pk
  if r ≠ 0 then .ok (-2, buf, mlen) else do
  let buf ← loop (fun i buf => do
    let b ← rd buf (2420 + i)
    wr buf i b) 0 mlen buf
  .ok (0, buf, mlen)

/-- dilithium2/sign.c:82-93 `crypto_sign_keypair`; returns (code, pk, sk) -/
def keypair (fuel : Nat) (pk sk : Bytes) : RandM (Int × Bytes × Bytes) := do
  match ← randombytes 32 with
  | none => pure (-1, pk, sk)
  | some seed => liftCR (keypairSeed fuel pk sk seed)

end Verif.Dilithium
