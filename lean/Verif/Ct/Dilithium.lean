import Verif.Ct.KeccakProps
import Verif.Dilithium.Model

/-!
/repo/dilithium2, key generation and signing, with traces: the functions of Verif/Dilithium/Model.lean with every array index and every condition recorded.
See Verif/Ct/Base.lean for what a trace holds.  Verification handles public data only and is left out.

Functions that work on local variables only and have no condition (`montgomery_reduce`, `reduce32`, `caddq`, `power2round`, `decompose`, the expressions of the packers)
are taken from the model with `lift`; they leave no event.  The check for overflow that the model makes is none of the code.  Where a packer reads an element several
times, one event is recorded.  `a && b` as the condition of a loop is one event.  In-place loops are `build` as in the model: one event for each read of the loop
body and one for the write.
-/

namespace Verif.Ct.Dilithium
open Verif.Dilithium (Poly Vec SkParts SignCtx ChalSt zetas i32 i64 and32 toI32 etaVal etaPackGroup etaUnpackGroup t1PackGroup t0PackGroup t0UnpackGroup zPackGroup zUnpackGroup w1PackGroup
  montgomeryReduce reduce32 caddq power2round decompose GAMMA1 GAMMA2 BETA)
open Verif.Keccak (Inc incInit)
open Verif.Ct.Keccak (touch diverge incAbsorb incFinalize incSqueeze shake256)

variable {α : Type}

/-- A computation on local variables (for example dilithium2/reduce.c:15-21). -/
def lift (x : C α) : T α := ⟨x, []⟩

/-- `for (i = 0; i < n; ++i) out[i] = f(i);` (for example dilithium2/poly.c:63-65). -/
def build (n : Nat) (d : α) (f : Nat → T α) : T (List α) :=
  loop (fun i out => do
    let v ← f i
    wr out i v) 0 n (List.replicate n d)

/-- `for (k = i; k < i + n; k++) if (f(k)) return 1;` followed by `return 0;` (for example dilithium2/poly.c:282-292). -/
def anyBad (f : Nat → T Bool) : (i n : Nat) → T Bool
  | _, 0 => do
    touch [.branch false]
    pure false
  | i, n + 1 => do
    touch [.branch true]
    let b ← f i
    cond (b = true) (pure true) (anyBad f (i + 1) n)

/-! ### rounding.c and ntt.c -/

/-- dilithium2/rounding.c:62-68 `make_hint`: `||` and `&&` are conditions of their own. -/
def makeHint (a0 a1 : Int) : T Int :=
  cond (a0 > GAMMA2) (pure 1) (cond (a0 < -GAMMA2) (pure 1) (cond (a0 = -GAMMA2) (cond (a1 ≠ 0) (pure 1) (pure 0)) (pure 0)))

/-- dilithium2/ntt.c:57-61: one block of butterflies -/
def nttBlock (zeta : Int) (len start : Nat) (a : Poly) : T Poly :=
  loop (fun j a => do
    let y ← rd a (j + len)
    let p ← lift (i64 (zeta * y))
    let t ← lift (montgomeryReduce p)
    let x ← rd a j
    let d ← lift (i32 (x - t))
    let a ← wr a (j + len) d
    let x ← rd a j
    let s ← lift (i32 (x + t))
    wr a j s) start len a

/-- dilithium2/ntt.c:55-62: one layer -/
def nttLayer (len : Nat) (s : Poly × Nat) : T (Poly × Nat) :=
  loop (fun b s => do
    let k := s.2 + 1
    let zeta ← rd zetas k
    let a ← nttBlock zeta len (2 * len * b) s.1
    pure (a, k)) 0 (128 / len) s

/-- dilithium2/ntt.c:49-64 `ntt` -/
def ntt (a : Poly) : T Poly := do
  let s ← loop (fun l s => nttLayer (128 / 2 ^ l) s) 0 8 (a, 0)
  pure s.1

/-- dilithium2/ntt.c:86-91 -/
def invnttBlock (zeta : Int) (len start : Nat) (a : Poly) : T Poly :=
  loop (fun j a => do
    let t ← rd a j
    let y ← rd a (j + len)
    let s ← lift (i32 (t + y))
    let a ← wr a j s
    let y ← rd a (j + len)
    let d ← lift (i32 (t - y))
    let a ← wr a (j + len) d
    let y ← rd a (j + len)
    let p ← lift (i64 (zeta * y))
    let r ← lift (montgomeryReduce p)
    wr a (j + len) r) start len a

/-- dilithium2/ntt.c:84-92 -/
def invnttLayer (len : Nat) (s : Poly × Nat) : T (Poly × Nat) :=
  loop (fun b s => do
    if s.2 = 0 then ub else
    let k := s.2 - 1
    let z ← rd zetas k
    let zeta ← lift (i32 (-z))
    let a ← invnttBlock zeta len (2 * len * b) s.1
    pure (a, k)) 0 (128 / len) s

/-- dilithium2/ntt.c:77-98 `invntt_tomont` -/
def invntt (a : Poly) : T Poly := do
  let s ← loop (fun l s => invnttLayer (2 ^ l) s) 0 8 (a, 256)
  build 256 0 fun j => do
    let x ← rd s.1 j
    let p ← lift (i64 (41978 * x))
    lift (montgomeryReduce p)

/-! ### poly.c: arithmetic -/

/-- dilithium2/poly.c:20-29 `poly_reduce` -/
def polyReduce (a : Poly) : T Poly := build 256 0 fun i => do
  let x ← rd a i
  lift (reduce32 x)
/-- dilithium2/poly.c:39-48 `poly_caddq` -/
def polyCaddq (a : Poly) : T Poly := build 256 0 fun i => do
  let x ← rd a i
  lift (caddq x)
/-- dilithium2/poly.c:59-68 `poly_add` -/
def polyAdd (a b : Poly) : T Poly := build 256 0 fun i => do
  let x ← rd a i
  let y ← rd b i
  lift (i32 (x + y))
/-- dilithium2/poly.c:81-90 `poly_sub` -/
def polySub (a b : Poly) : T Poly := build 256 0 fun i => do
  let x ← rd a i
  let y ← rd b i
  lift (i32 (x - y))
/-- dilithium2/poly.c:155-164 `poly_pointwise_montgomery` -/
def polyPointwise (a b : Poly) : T Poly := build 256 0 fun i => do
  let x ← rd a i
  let y ← rd b i
  let p ← lift (i64 (x * y))
  lift (montgomeryReduce p)
/-- dilithium2/poly.c:178-187 `poly_power2round` -/
def polyPower2round (a : Poly) : T (List (Int × Int)) := build 256 (0, 0) fun i => do
  let x ← rd a i
  lift (power2round x)
/-- dilithium2/poly.c:202-211 `poly_decompose` -/
def polyDecompose (a : Poly) : T (List (Int × Int)) := build 256 (0, 0) fun i => do
  let x ← rd a i
  lift (decompose x)
/-- dilithium2/poly.c:226-237 `poly_make_hint` -/
def polyMakeHint (a0 a1 : Poly) : T Poly := build 256 0 fun i => do
  let x ← rd a0 i
  let y ← rd a1 i
  makeHint x y

/-- dilithium2/poly.c:281-289: is the coefficient too big?  The absolute value is computed without a condition. -/
def coeffBad (a : Poly) (B : Int) (i : Nat) : T Bool := do
  let x ← rd a i
  let d ← lift (i32 (2 * x))
  let t ← lift (i32 (x - and32 (x >>> 31) d))
  pure (decide (B ≤ t))

/-- dilithium2/poly.c:270-295 `poly_chknorm` -/
def polyChknorm (a : Poly) (B : Int) : T Bool := cond (B > 1047552) (pure true) (anyBad (coeffBad a B) 0 256)

/-! ### symmetric-shake.c and the samplers of poly.c -/

/-- dilithium2/symmetric-shake.c:6-26 -/
def streamInit (r : Nat) (seed : Bytes) (seedlen : Nat) (nonce : BitVec 16) : T Inc := do
  let t : Bytes := [nonce.setWidth 8, (nonce >>> 8).setWidth 8]
  let st ← incAbsorb incInit r seed seedlen
  let st ← incAbsorb st r t 2
  incFinalize st r 0x1F

/-- Squeezing into `buf + off` (for example dilithium2/poly.c:366). -/
def squeezeAt (buf : Bytes) (off n : Nat) (st : Inc) (r : Nat) : T (Bytes × Inc) := do
  let (x, st) ← incSqueeze (buf.drop off) n st r
  pure (buf.take off ++ x, st)

/-- dilithium2/poly.c:319-329: the loop of `rej_uniform` -/
def rejUniformLoop (base len : Nat) (buf : Bytes) (buflen : Nat) (a : Poly) (ctr pos : Nat) : T (Poly × Nat) :=
  if _h : ctr < len ∧ pos + 3 ≤ buflen then do
    touch [.branch true]
    let b0 ← rd buf pos
    let b1 ← rd buf (pos + 1)
    let b2 ← rd buf (pos + 2)
    let t : BitVec 32 := (b0.setWidth 32 ||| b1.setWidth 32 <<< 8 ||| b2.setWidth 32 <<< 16) &&& 0x7FFFFF
    cond (t.toNat < 8380417)
      (do
        let a ← wr a (base + ctr) (t.toNat : Int)
        rejUniformLoop base len buf buflen a (ctr + 1) (pos + 3))
      (rejUniformLoop base len buf buflen a ctr (pos + 3))
  else do
    touch [.branch false]
    pure (a, ctr)
termination_by buflen - pos

/-- dilithium2/poly.c:311-333 `rej_uniform(a->coeffs + base, len, buf, buflen)` -/
def rejUniform (a : Poly) (base len : Nat) (buf : Bytes) (buflen : Nat) : T (Poly × Nat) := rejUniformLoop base len buf buflen a 0 0

/-- dilithium2/poly.c:360-369: the loop of `poly_uniform` -/
def polyUniformLoop : (fuel : Nat) → (a : Poly) → (buf : Bytes) → (buflen ctr : Nat) → Inc → T Poly
  | fuel, a, buf, buflen, ctr, st =>
    cond (ctr < 256)
      (match fuel with
      | 0 => diverge
      | fuel + 1 => do
        let off := buflen % 3
        let buf ← loop (fun i buf => do
          let b ← rd buf (buflen - off + i)
          wr buf i b) 0 off buf
        let (buf, st) ← squeezeAt buf off 168 st 168
        let buflen := 168 + off
        let (a, n) ← rejUniform a ctr (256 - ctr) buf buflen
        polyUniformLoop fuel a buf buflen (ctr + n) st)
      (pure a)

/-- dilithium2/poly.c:346-371 `poly_uniform` -/
def polyUniform (fuel : Nat) (seed : Bytes) (nonce : BitVec 16) : T Poly := do
  let st ← streamInit 168 seed 32 nonce
  let (buf, st) ← squeezeAt (List.replicate 842 0) 0 840 st 168
  let (a, ctr) ← rejUniform (List.replicate 256 0) 0 256 buf 840
  polyUniformLoop fuel a buf 840 ctr st

/-- dilithium2/poly.c:395-408: the loop of `rej_eta` -/
def rejEtaLoop (base len : Nat) (buf : Bytes) (buflen : Nat) (a : Poly) (ctr pos : Nat) : T (Poly × Nat) :=
  if _h : ctr < len ∧ pos < buflen then do
    touch [.branch true]
    let b ← rd buf pos
    let t0 : BitVec 32 := b.setWidth 32 &&& 0x0F
    let t1 : BitVec 32 := b.setWidth 32 >>> 4
    let (a, ctr) ← cond (t0.toNat < 15)
      (do
        let a ← wr a (base + ctr) (etaVal t0)
        pure (a, ctr + 1))
      (pure (a, ctr))
    let (a, ctr) ← cond (t1.toNat < 15 ∧ ctr < len)
      (do
        let a ← wr a (base + ctr) (etaVal t1)
        pure (a, ctr + 1))
      (pure (a, ctr))
    rejEtaLoop base len buf buflen a ctr (pos + 1)
  else do
    touch [.branch false]
    pure (a, ctr)
termination_by buflen - pos

/-- dilithium2/poly.c:387-412 `rej_eta(a->coeffs + base, len, buf, buflen)` -/
def rejEta (a : Poly) (base len : Nat) (buf : Bytes) (buflen : Nat) : T (Poly × Nat) := rejEtaLoop base len buf buflen a 0 0

/-- dilithium2/poly.c:439-442: the loop of `poly_uniform_eta` -/
def polyUniformEtaLoop : (fuel : Nat) → (a : Poly) → (buf : Bytes) → (ctr : Nat) → Inc → T Poly
  | fuel, a, buf, ctr, st =>
    cond (ctr < 256)
      (match fuel with
      | 0 => diverge
      | fuel + 1 => do
        let (buf, st) ← squeezeAt buf 0 136 st 136
        let (a, n) ← rejEta a ctr (256 - ctr) buf 136
        polyUniformEtaLoop fuel a buf (ctr + n) st)
      (pure a)

/-- dilithium2/poly.c:425-444 `poly_uniform_eta` -/
def polyUniformEta (fuel : Nat) (seed : Bytes) (nonce : BitVec 16) : T Poly := do
  let st ← streamInit 136 seed 64 nonce
  let (buf, st) ← squeezeAt (List.replicate 136 0) 0 136 st 136
  let (a, ctr) ← rejEta (List.replicate 256 0) 0 256 buf 136
  polyUniformEtaLoop fuel a buf ctr st

/-! ### poly.c: bit packing -/

/-- The `n` elements of `a` from position `o` on (the operands of one group, for example dilithium2/poly.c:647-654). -/
def rdN (a : List α) (o n : Nat) : T (List α) := ⟨Verif.Dilithium.rdN a o n, (List.range n).map fun i => .read (o + i)⟩

/-- Packing loop of `n` groups, writing to `r + base` (for example dilithium2/poly.c:646-676). -/
def packLoop (m k n : Nat) (f : List Int → C Bytes) (r : Bytes) (base : Nat) (a : Poly) : T Bytes :=
  loop (fun i r => do
    let t ← rdN a (m * i) m
    let bs ← lift (f t)
    copy r (base + k * i) bs 0 k) 0 n r

/-- Unpacking loop of `n` groups, reading from `src + base` (for example dilithium2/poly.c:693-737). -/
def unpackLoop (m k n : Nat) (f : Bytes → C (List Int)) (src : Bytes) (base : Nat) : T Poly :=
  loop (fun i a => do
    let bs ← rdN src (base + k * i) k
    let t ← lift (f bs)
    copy a (m * i) t 0 m) 0 n (List.replicate 256 0)

/-- dilithium2/poly.c:526-547 `polyeta_pack(r + base, a)` -/
def polyetaPack (r : Bytes) (base : Nat) (a : Poly) : T Bytes := packLoop 8 3 32 etaPackGroup r base a
/-- dilithium2/poly.c:557-582 `polyeta_unpack(r, a + base)` -/
def polyetaUnpack (a : Bytes) (base : Nat) : T Poly := unpackLoop 8 3 32 etaUnpackGroup a base
/-- dilithium2/poly.c:594-607 `polyt1_pack(r + base, a)` -/
def polyt1Pack (r : Bytes) (base : Nat) (a : Poly) : T Bytes := packLoop 4 5 64 t1PackGroup r base a
/-- dilithium2/poly.c:641-679 `polyt0_pack(r + base, a)` -/
def polyt0Pack (r : Bytes) (base : Nat) (a : Poly) : T Bytes := packLoop 8 13 32 t0PackGroup r base a
/-- dilithium2/poly.c:689-741 `polyt0_unpack(r, a + base)` -/
def polyt0Unpack (a : Bytes) (base : Nat) : T Poly := unpackLoop 8 13 32 t0UnpackGroup a base
/-- dilithium2/poly.c:753-779 `polyz_pack(r + base, a)` -/
def polyzPack (r : Bytes) (base : Nat) (a : Poly) : T Bytes := packLoop 4 9 64 zPackGroup r base a
/-- dilithium2/poly.c:790-822 `polyz_unpack(r, a + base)` -/
def polyzUnpack (a : Bytes) (base : Nat) : T Poly := unpackLoop 4 9 64 zUnpackGroup a base
/-- dilithium2/poly.c:834-848 `polyw1_pack(r + base, a)` -/
def polyw1Pack (r : Bytes) (base : Nat) (a : Poly) : T Bytes := packLoop 4 3 64 w1PackGroup r base a

/-- dilithium2/poly.c:457-468 `poly_uniform_gamma1` -/
def polyUniformGamma1 (seed : Bytes) (nonce : BitVec 16) : T Poly := do
  let st ← streamInit 136 seed 64 nonce
  let (buf, _) ← squeezeAt (List.replicate 680 0) 0 680 st 136
  polyzUnpack buf 0

/-- dilithium2/poly.c:503-510: `do { ... b = buf[pos++]; } while (b > i);` -/
def challengeByte : (fuel i : Nat) → ChalSt → T (Nat × ChalSt)
  | 0, _, _ => diverge
  | fuel + 1, i, s => do
    let s ← cond (s.pos ≥ 136)
      (do
        let (buf, st) ← squeezeAt s.buf 0 136 s.st 136
        pure ⟨buf, 0, st⟩)
      (pure s)
    let b ← rd s.buf s.pos
    let s : ChalSt := ⟨s.buf, s.pos + 1, s.st⟩
    cond (b.toNat > i) (challengeByte fuel i s) (pure (b.toNat, s))

/-- dilithium2/poly.c:502-514: one round of the loop -/
def challengeStep (fuel i : Nat) (s : Poly × BitVec 64 × ChalSt) : T (Poly × BitVec 64 × ChalSt) := do
  let (c, signs, cs) := s
  let (b, cs) ← challengeByte fuel i cs
  let x ← rd c b
  let c ← wr c i x
  let c ← wr c b (toI32 ((1 - 2 * (signs &&& 1)).toNat : Int))
  pure (c, signs >>> 1, cs)

/-- dilithium2/poly.c:480-515 `poly_challenge` -/
def polyChallenge (fuel : Nat) (seed : Bytes) : T Poly := do
  let st ← incAbsorb incInit 136 seed 32
  let st ← incFinalize st 136 0x1F
  let (buf, st) ← squeezeAt (List.replicate 136 0) 0 136 st 136
  let signs ← loop (fun i (signs : BitVec 64) => do
    let b ← rd buf i
    pure (signs ||| b.setWidth 64 <<< (8 * i))) 0 8 0
  let (c, _, _) ← loop (challengeStep fuel) 217 39 (List.replicate 256 0, signs, ⟨buf, 8, st⟩)
  pure c

/-! ### polyvec.c (K = L = 4) -/

/-- `for (i = 0; i < 4; ++i) out.vec[i] = f(v.vec[i]);` (for example dilithium2/polyvec.c:57-59). -/
def vmap (f : Poly → T Poly) (v : Vec) : T Vec := build 4 [] fun i => do
  let x ← rd v i
  f x
/-- `for (i = 0; i < 4; ++i) out.vec[i] = f(u.vec[i], v.vec[i]);` (for example dilithium2/polyvec.c:75-77). -/
def vzip (f : Poly → Poly → T Poly) (u v : Vec) : T Vec := build 4 [] fun i => do
  let x ← rd u i
  let y ← rd v i
  f x y

/-- dilithium2/polyvec.c:16-24 `polyvec_matrix_expand` -/
def matrixExpand (fuel : Nat) (rho : Bytes) : T (List Vec) :=
  build 4 [] fun i => build 4 [] fun j => polyUniform fuel rho (BitVec.ofNat 16 (i * 256 + j))

/-- dilithium2/polyvec.c:123-134 `polyvecl_pointwise_acc_montgomery` -/
def pointwiseAcc (u v : Vec) : T Poly := do
  let x ← rd u 0
  let y ← rd v 0
  let w ← polyPointwise x y
  loop (fun i w => do
    let x ← rd u i
    let y ← rd v i
    let t ← polyPointwise x y
    polyAdd w t) 1 3 w

/-- dilithium2/polyvec.c:26-32 `polyvec_matrix_pointwise_montgomery` -/
def matrixPointwise (mat : List Vec) (v : Vec) : T Vec := build 4 [] fun i => do
  let u ← rd mat i
  pointwiseAcc u v

/-- dilithium2/polyvec.c:38-44 and 164-170 `polyvecl_uniform_eta`, `polyveck_uniform_eta` -/
def vecUniformEta (fuel : Nat) (seed : Bytes) (nonce : BitVec 16) : T Vec :=
  build 4 [] fun i => polyUniformEta fuel seed (nonce + BitVec.ofNat 16 i)

/-- dilithium2/polyvec.c:46-52 `polyvecl_uniform_gamma1` -/
def vecUniformGamma1 (seed : Bytes) (nonce : BitVec 16) : T Vec :=
  build 4 [] fun i => polyUniformGamma1 seed (BitVec.ofNat 16 (4 * nonce.toNat + i))

/-- dilithium2/polyvec.c:54-60, 180-186 -/
def vecReduce (v : Vec) : T Vec := vmap polyReduce v
/-- dilithium2/polyvec.c:196-202 -/
def vecCaddq (v : Vec) : T Vec := vmap polyCaddq v
/-- dilithium2/polyvec.c:72-78, 214-220 -/
def vecAdd (u v : Vec) : T Vec := vzip polyAdd u v
/-- dilithium2/polyvec.c:233-239 -/
def vecSub (u v : Vec) : T Vec := vzip polySub u v
/-- dilithium2/polyvec.c:88-94, 265-271 -/
def vecNtt (v : Vec) : T Vec := vmap ntt v
/-- dilithium2/polyvec.c:96-102, 282-288 -/
def vecInvntt (v : Vec) : T Vec := vmap invntt v
/-- dilithium2/polyvec.c:104-110, 290-296 -/
def vecPointwisePoly (a : Poly) (v : Vec) : T Vec := vmap (polyPointwise a) v
/-- dilithium2/polyvec.c:148-158, 310-320 -/
def vecChknorm (v : Vec) (B : Int) : T Bool := anyBad (fun i => do
  let x ← rd v i
  polyChknorm x B) 0 4
/-- dilithium2/polyvec.c:336-342 -/
def vecPower2round (v : Vec) : T (Vec × Vec) := do
  let l ← build 4 [] fun i => do
    let x ← rd v i
    polyPower2round x
  pure (l.map (·.map (·.1)), l.map (·.map (·.2)))
/-- dilithium2/polyvec.c:359-365 -/
def vecDecompose (v : Vec) : T (Vec × Vec) := do
  let l ← build 4 [] fun i => do
    let x ← rd v i
    polyDecompose x
  pure (l.map (·.map (·.1)), l.map (·.map (·.2)))
/-- dilithium2/polyvec.c:378-388; returns the hints and their number -/
def vecMakeHint (v0 v1 : Vec) : T (Vec × Int) := do
  let h ← vzip polyMakeHint v0 v1
  pure (h, (h.map List.sum).sum)

/-- `for (i = 0; i < 4; ++i) pack(r + base + i * size, v.vec[i]);` (for example dilithium2/polyvec.c:408-414). -/
def vecPack (pack : Bytes → Nat → Poly → T Bytes) (size : Nat) (r : Bytes) (base : Nat) (v : Vec) : T Bytes :=
  loop (fun i r => do
    let x ← rd v i
    pack r (base + i * size) x) 0 4 r
/-- `for (i = 0; i < 4; ++i) unpack(v.vec[i], a + base + i * size);` (for example dilithium2/packing.c:49-51). -/
def vecUnpack (unpack : Bytes → Nat → T Poly) (size : Nat) (a : Bytes) (base : Nat) : T Vec :=
  build 4 [] fun i => unpack a (base + i * size)

/-- dilithium2/polyvec.c:408-414 `polyveck_pack_w1` -/
def vecPackW1 (r : Bytes) (v : Vec) : T Bytes := vecPack polyw1Pack 192 r 0 v

/-! ### packing.c -/

/-- dilithium2/packing.c:15-28 `pack_pk` -/
def packPk (pk rho : Bytes) (t1 : Vec) : T Bytes := do
  let pk ← copy pk 0 rho 0 32
  vecPack polyt1Pack 320 pk 32 t1

/-- dilithium2/packing.c:67-104 `pack_sk` -/
def packSk (sk rho tr key : Bytes) (t0 s1 s2 : Vec) : T Bytes := do
  let sk ← copy sk 0 rho 0 32
  let sk ← copy sk 32 key 0 32
  let sk ← copy sk 64 tr 0 64
  let sk ← vecPack polyetaPack 96 sk 128 s1
  let sk ← vecPack polyetaPack 96 sk 512 s2
  vecPack polyt0Pack 416 sk 896 t0

/-- dilithium2/packing.c:119-156 `unpack_sk` -/
def unpackSk (sk : Bytes) : T SkParts := do
  let rho ← copy (List.replicate 32 0) 0 sk 0 32
  let key ← copy (List.replicate 32 0) 0 sk 32 32
  let tr ← copy (List.replicate 64 0) 0 sk 64 64
  let s1 ← vecUnpack polyetaUnpack 96 sk 128
  let s2 ← vecUnpack polyetaUnpack 96 sk 512
  let t0 ← vecUnpack polyt0Unpack 416 sk 896
  pure ⟨rho, tr, key, t0, s1, s2⟩

/-- dilithium2/packing.c:191-195: the inner loop over one polynomial -/
def packHintPoly (o : Nat) (h : Poly) (s : Bytes × Nat) : T (Bytes × Nat) :=
  loop (fun j s => do
    let x ← rd h j
    cond (x ≠ 0)
      (do
        let sig ← wr s.1 (o + s.2) (BitVec.ofNat 8 j)
        pure (sig, s.2 + 1))
      (pure s)) 0 256 s

/-- dilithium2/packing.c:168-199 `pack_sig(sig, c, z, h)` -/
def packSig (sig c : Bytes) (z h : Vec) : T Bytes := do
  let sig ← copy sig 0 c 0 32
  let sig ← vecPack polyzPack 576 sig 32 z
  let sig ← loop (fun i sig => wr sig (2336 + i) 0) 0 84 sig
  let (sig, _) ← loop (fun i s => do
    let x ← rd h i
    let (sig, k) ← packHintPoly 2336 x s
    let sig ← wr sig (2336 + 80 + i) (BitVec.ofNat 8 k)
    pure (sig, k)) 0 4 (sig, 0)
  pure sig

/-! ### sign.c -/

/-- dilithium2/sign.c:131-136 and the like: incremental SHAKE256 of two pieces -/
def shake256Inc2 (x : Bytes) (xlen : Nat) (y : Bytes) (ylen : Nat) (out : Bytes) (outlen : Nat) : T Bytes := do
  let st ← incAbsorb incInit 136 x xlen
  let st ← incAbsorb st 136 y ylen
  let st ← incFinalize st 136 0x1F
  let (out, _) ← incSqueeze out outlen st 136
  pure out

/-- dilithium2/sign.c:23-68 `crypto_sign_keypair_seed` -/
def keypairSeed (fuel : Nat) (pk sk seed : Bytes) : T (Int × Bytes × Bytes) := do
  let seedbuf ← copy (List.replicate 128 0) 0 seed 0 32
  let seedbuf ← shake256 seedbuf 128 seedbuf 32
  let rho := slice seedbuf 0 32
  let rhoprime := slice seedbuf 32 64
  let key := slice seedbuf 96 32
  let mat ← matrixExpand fuel rho
  let s1 ← vecUniformEta fuel rhoprime 0
  let s2 ← vecUniformEta fuel rhoprime 4
  let s1hat ← vecNtt s1
  let t ← matrixPointwise mat s1hat
  let t ← vecReduce t
  let t ← vecInvntt t
  let t ← vecAdd t s2
  let t ← vecCaddq t
  let (t1, t0) ← vecPower2round t
  let pk ← packPk pk rho t1
  let tr ← shake256 (List.replicate 64 0) 64 pk 1312
  let sk ← packSk sk rho tr key t0 s1 s2
  pure (0, pk, sk)

/-- dilithium2/sign.c:150-208: one pass through the rejection loop.  `poly_challenge` gets the first 32 bytes of `sig` as an array of their own;
it reads nothing behind them. -/
def signAttempt (fuel : Nat) (x : SignCtx) (sig : Bytes) (nonce : BitVec 16) : T (Bool × Bytes) := do
  let y ← vecUniformGamma1 x.rhoprime nonce
  let z ← vecNtt y
  let w ← matrixPointwise x.mat z
  let w ← vecReduce w
  let w ← vecInvntt w
  let w ← vecCaddq w
  let (w1, w0) ← vecDecompose w
  let sig ← vecPackW1 sig w1
  let sig ← shake256Inc2 x.mu 64 sig 768 sig 32
  let cp ← polyChallenge fuel (sig.take 32)
  let cp ← ntt cp
  let z ← vecPointwisePoly cp x.s1
  let z ← vecInvntt z
  let z ← vecAdd z y
  let z ← vecReduce z
  let bad ← vecChknorm z (GAMMA1 - BETA)
  cond (bad = true) (pure (false, sig)) do
  let h ← vecPointwisePoly cp x.s2
  let h ← vecInvntt h
  let w0 ← vecSub w0 h
  let w0 ← vecReduce w0
  let bad ← vecChknorm w0 (GAMMA2 - BETA)
  cond (bad = true) (pure (false, sig)) do
  let h ← vecPointwisePoly cp x.t0
  let h ← vecInvntt h
  let h ← vecReduce h
  let bad ← vecChknorm h GAMMA2
  cond (bad = true) (pure (false, sig)) do
  let w0 ← vecAdd w0 h
  let (h, n) ← vecMakeHint w0 w1
  cond (n > 80) (pure (false, sig)) do
  let sig ← packSig sig (slice sig 0 32) z h
  pure (true, sig)

/-- dilithium2/sign.c:149-208: the rejection loop -/
def signLoop (fuel : Nat) (x : SignCtx) : (rounds : Nat) → (sig : Bytes) → (nonce : BitVec 16) → T Bytes
  | 0, _, _ => diverge
  | rounds + 1, sig, nonce => do
    let (done, sig) ← signAttempt fuel x sig nonce
    if done then pure sig else signLoop fuel x rounds sig (nonce + 1)

/-- dilithium2/sign.c:108-211 `crypto_sign_signature`; the array `seedbuf` is as in the model. -/
def signature (fuel : Nat) (sig : Bytes) (_siglen : Nat) (m sk : Bytes) : T (Int × Bytes × Nat) := do
  let p ← unpackSk sk
  let seedbuf := p.rho ++ p.tr ++ p.key ++ List.replicate 160 0
  let mu ← shake256Inc2 (slice seedbuf 32 64) 64 m m.length (slice seedbuf 160 64) 64
  let seedbuf ← copy seedbuf 160 mu 0 64
  let seedbuf ← loop (fun n b => wr b (128 + n) 0) 0 32 seedbuf
  let rhoprime ← shake256 (slice seedbuf 224 64) 64 (slice seedbuf 96 128) 128
  let mat ← matrixExpand fuel (slice seedbuf 0 32)
  let s1 ← vecNtt p.s1
  let s2 ← vecNtt p.s2
  let t0 ← vecNtt p.t0
  let sig ← signLoop fuel ⟨mat, s1, s2, t0, slice seedbuf 160 64, rhoprime⟩ fuel sig 0
  pure (0, sig, 2420)

end Verif.Ct.Dilithium
