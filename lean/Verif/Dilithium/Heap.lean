import Verif.Keccak.Heap
import Verif.Dilithium.Model

/-!
The functions of dilithium2 that use Keccak contexts, with the contexts on the heap.  They differ from those of Verif/Dilithium/Model.lean only in
that; `onC` marks the calls of functions that use no context.
-/

namespace Verif.Dilithium.Heap
open Verif Verif.Keccak Verif.Keccak.Heap Verif.Dilithium

/-- dilithium2/symmetric-shake.c:6-26 `dilithium_shake128_stream_init`, `dilithium_shake256_stream_init` -/
def streamInitH (r : Nat) (seed : Bytes) (seedlen : Nat) (nonce : BitVec 16) : K Nat := do
  let t : Bytes := [nonce.setWidth 8, (nonce >>> 8).setWidth 8]
  let p ← incInitH
  incAbsorbH p r seed seedlen
  incAbsorbH p r t 2
  incFinalizeH p r
  pure p

/-- Squeezing into `buf + off` (for example dilithium2/poly.c:366). -/
def squeezeAtH (buf : Bytes) (off n p r : Nat) : K Bytes := do
  let x ← incSqueezeH (buf.drop off) n p r
  pure (buf.take off ++ x)

/-- dilithium2/poly.c:360-369: the loop of `poly_uniform` -/
def polyUniformLoopH (p : Nat) : (fuel : Nat) → (a : Poly) → (buf : Bytes) → (buflen ctr : Nat) → K Poly
  | fuel, a, buf, buflen, ctr =>
    if ctr < 256 then
      match fuel with
      | 0 => onC (.error .diverge)
      | fuel + 1 => do
        let off := buflen % 3
        let buf ← onC (loop (fun i buf => do
          let b ← rd buf (buflen - off + i)
          wr buf i b) 0 off buf)
        let buf ← squeezeAtH buf off 168 p 168
        let buflen := 168 + off
        let (a, n) ← onC (rejUniform a ctr (256 - ctr) buf buflen)
        polyUniformLoopH p fuel a buf buflen (ctr + n)
    else pure a

/-- dilithium2/poly.c:346-371 `poly_uniform` -/
def polyUniformH (fuel : Nat) (seed : Bytes) (nonce : BitVec 16) : K Poly := do
  let p ← streamInitH 168 seed 32 nonce
  let buf ← squeezeAtH (List.replicate 842 0) 0 840 p 168
  let (a, ctr) ← onC (rejUniform (List.replicate 256 0) 0 256 buf 840)
  let a ← polyUniformLoopH p fuel a buf 840 ctr
  incReleaseH p
  pure a

/-- dilithium2/poly.c:439-442: the loop of `poly_uniform_eta` -/
def polyUniformEtaLoopH (p : Nat) : (fuel : Nat) → (a : Poly) → (buf : Bytes) → (ctr : Nat) → K Poly
  | fuel, a, buf, ctr =>
    if ctr < 256 then
      match fuel with
      | 0 => onC (.error .diverge)
      | fuel + 1 => do
        let buf ← squeezeAtH buf 0 136 p 136
        let (a, n) ← onC (rejEta a ctr (256 - ctr) buf 136)
        polyUniformEtaLoopH p fuel a buf (ctr + n)
    else pure a

/-- dilithium2/poly.c:425-444 `poly_uniform_eta` -/
def polyUniformEtaH (fuel : Nat) (seed : Bytes) (nonce : BitVec 16) : K Poly := do
  let p ← streamInitH 136 seed 64 nonce
  let buf ← squeezeAtH (List.replicate 136 0) 0 136 p 136
  let (a, ctr) ← onC (rejEta (List.replicate 256 0) 0 256 buf 136)
  let a ← polyUniformEtaLoopH p fuel a buf ctr
  incReleaseH p
  pure a

/-- dilithium2/poly.c:457-468 `poly_uniform_gamma1`, which releases before it unpacks -/
def polyUniformGamma1H (seed : Bytes) (nonce : BitVec 16) : K Poly := do
  let p ← streamInitH 136 seed 64 nonce
  let buf ← squeezeAtH (List.replicate 680 0) 0 680 p 136
  incReleaseH p
  onC (polyzUnpack buf 0)

/-- dilithium2/poly.c:503-510: `do { ... b = buf[pos++]; } while (b > i);` on buffer and position -/
def challengeByteH (p : Nat) : (fuel i : Nat) → Bytes × Nat → K (Nat × Bytes × Nat)
  | 0, _, _ => onC (.error .diverge)
  | fuel + 1, i, (buf, pos) => do
    let (buf, pos) ← (if pos ≥ 136 then do
        let buf ← squeezeAtH buf 0 136 p 136
        pure (buf, 0)
      else pure (buf, pos) : K (Bytes × Nat))
    let b ← onC (rd buf pos)
    if b.toNat > i then challengeByteH p fuel i (buf, pos + 1) else pure (b.toNat, buf, pos + 1)

/-- dilithium2/poly.c:502-514: the loop from `i` on, `n` rounds -/
def challengeLoopH (p fuel : Nat) : (i n : Nat) → Poly → BitVec 64 → Bytes × Nat → K Poly
  | _, 0, c, _, _ => pure c
  | i, n + 1, c, signs, cs => do
    let (b, cs) ← challengeByteH p fuel i cs
    let x ← onC (rd c b)
    let c ← onC (wr c i x)
    let c ← onC (wr c b (toI32 ((1 - 2 * (signs &&& 1)).toNat : Int)))
    challengeLoopH p fuel (i + 1) n c (signs >>> 1) cs

/-- dilithium2/poly.c:480-515 `poly_challenge` -/
def polyChallengeH (fuel : Nat) (seed : Bytes) : K Poly := do
  let p ← incInitH
  incAbsorbH p 136 seed 32
  incFinalizeH p 136
  let buf ← squeezeAtH (List.replicate 136 0) 0 136 p 136
  let signs ← onC (loop (fun i (signs : BitVec 64) => do
    let b ← rd buf i
    .ok (signs ||| b.setWidth 64 <<< (8 * i))) 0 8 0)
  let c ← challengeLoopH p fuel 217 39 (List.replicate 256 0) signs (buf, 8)
  incReleaseH p
  pure c

/-- dilithium2/sign.c:131-136, 165-170, 287-292, 316-321: incremental SHAKE256 of two pieces -/
def shake256Inc2H (x : Bytes) (xlen : Nat) (y : Bytes) (ylen : Nat) (out : Bytes) (outlen : Nat) : K Bytes := do
  let p ← incInitH
  incAbsorbH p 136 x xlen
  incAbsorbH p 136 y ylen
  incFinalizeH p 136
  let out ← incSqueezeH out outlen p 136
  incReleaseH p
  pure out

/-- `for (i = i0; i < i0 + n; ++i) out[i] = f(i);` where `f` uses contexts (for example dilithium2/polyvec.c:19-23). -/
def buildLoopH {α : Type} (f : Nat → K α) : (i n : Nat) → List α → K (List α)
  | _, 0, out => pure out
  | i, n + 1, out => do
    let v ← f i
    let out ← onC (wr out i v)
    buildLoopH f (i + 1) n out

/-- `for (i = 0; i < n; ++i) out[i] = f(i);` where `f` uses contexts (for example dilithium2/polyvec.c:19-23). -/
def buildH {α : Type} (n : Nat) (d : α) (f : Nat → K α) : K (List α) := buildLoopH f 0 n (List.replicate n d)

/-- dilithium2/polyvec.c:16-24 `polyvec_matrix_expand` -/
def matrixExpandH (fuel : Nat) (rho : Bytes) : K (List Vec) :=
  buildH 4 [] fun i => buildH 4 [] fun j => polyUniformH fuel rho (BitVec.ofNat 16 (i * 256 + j))

/-- dilithium2/polyvec.c:38-44 and 164-170 -/
def vecUniformEtaH (fuel : Nat) (seed : Bytes) (nonce : BitVec 16) : K Vec :=
  buildH 4 [] fun i => polyUniformEtaH fuel seed (nonce + BitVec.ofNat 16 i)

/-- dilithium2/polyvec.c:46-52 -/
def vecUniformGamma1H (seed : Bytes) (nonce : BitVec 16) : K Vec :=
  buildH 4 [] fun i => polyUniformGamma1H seed (BitVec.ofNat 16 (4 * nonce.toNat + i))

/-- dilithium2/sign.c:23-68 `crypto_sign_keypair_seed` -/
def keypairSeedH (fuel : Nat) (pk sk seed : Bytes) : K (Int × Bytes × Bytes) := do
  let seedbuf ← onC (copy (List.replicate 128 0) 0 seed 0 32)
  let seedbuf ← shakeH 136 seedbuf 128 seedbuf 32
  let rho := slice seedbuf 0 32
  let rhoprime := slice seedbuf 32 64
  let key := slice seedbuf 96 32
  let mat ← matrixExpandH fuel rho
  let s1 ← vecUniformEtaH fuel rhoprime 0
  let s2 ← vecUniformEtaH fuel rhoprime 4
  let s1hat ← onC (vecNtt s1)
  let t ← onC (matrixPointwise mat s1hat)
  let t ← onC (vecReduce t)
  let t ← onC (vecInvntt t)
  let t ← onC (vecAdd t s2)
  let t ← onC (vecCaddq t)
  let (t1, t0) ← onC (vecPower2round t)
  let pk ← onC (packPk pk rho t1)
  let tr ← shakeH 136 (List.replicate 64 0) 64 pk 1312
  let sk ← onC (packSk sk rho tr key t0 s1 s2)
  pure (0, pk, sk)

/-- dilithium2/sign.c:150-208: one pass through the rejection loop -/
def signAttemptH (fuel : Nat) (x : SignCtx) (sig : Bytes) (nonce : BitVec 16) : K (Bool × Bytes) := do
  let y ← vecUniformGamma1H x.rhoprime nonce
  let z ← onC (vecNtt y)
  let w ← onC (matrixPointwise x.mat z)
  let w ← onC (vecReduce w)
  let w ← onC (vecInvntt w)
  let w ← onC (vecCaddq w)
  let (w1, w0) ← onC (vecDecompose w)
  let sig ← onC (vecPackW1 sig w1)
  let sig ← shake256Inc2H x.mu 64 sig 768 sig 32
  let cp ← polyChallengeH fuel sig
  let cp ← onC (ntt cp)
  let z ← onC (vecPointwisePoly cp x.s1)
  let z ← onC (vecInvntt z)
  let z ← onC (vecAdd z y)
  let z ← onC (vecReduce z)
  let bad ← onC (vecChknorm z (GAMMA1 - BETA))
  if bad then pure (false, sig) else do
  let h ← onC (vecPointwisePoly cp x.s2)
  let h ← onC (vecInvntt h)
  let w0 ← onC (vecSub w0 h)
  let w0 ← onC (vecReduce w0)
  let bad ← onC (vecChknorm w0 (GAMMA2 - BETA))
  if bad then pure (false, sig) else do
  let h ← onC (vecPointwisePoly cp x.t0)
  let h ← onC (vecInvntt h)
  let h ← onC (vecReduce h)
  let bad ← onC (vecChknorm h GAMMA2)
  if bad then pure (false, sig) else do
  let w0 ← onC (vecAdd w0 h)
  let (h, n) ← onC (vecMakeHint w0 w1)
  if n > 80 then pure (false, sig) else do
  let sig ← onC (packSig sig (slice sig 0 32) z h)
  pure (true, sig)

/-- dilithium2/sign.c:149-208: the rejection loop -/
def signLoopH (fuel : Nat) (x : SignCtx) : (rounds : Nat) → (sig : Bytes) → (nonce : BitVec 16) → K Bytes
  | 0, _, _ => onC (.error .diverge)
  | rounds + 1, sig, nonce => do
    let (done, sig) ← signAttemptH fuel x sig nonce
    if done then pure sig else signLoopH fuel x rounds sig (nonce + 1)

/-- dilithium2/sign.c:108-211 `crypto_sign_signature` -/
def signatureH (fuel : Nat) (sig : Bytes) (_siglen : Nat) (m sk : Bytes) : K (Int × Bytes × Nat) := do
  let p ← onC (unpackSk sk)
  let seedbuf := p.rho ++ p.tr ++ p.key ++ List.replicate 160 0
  let mu ← shake256Inc2H (slice seedbuf 32 64) 64 m m.length (slice seedbuf 160 64) 64
  let seedbuf ← onC (copy seedbuf 160 mu 0 64)
  let seedbuf ← onC (loop (fun n b => wr b (128 + n) 0) 0 32 seedbuf)
  let rhoprime ← shakeH 136 (slice seedbuf 224 64) 64 (slice seedbuf 96 128) 128
  let mat ← matrixExpandH fuel (slice seedbuf 0 32)
  let s1 ← onC (vecNtt p.s1)
  let s2 ← onC (vecNtt p.s2)
  let t0 ← onC (vecNtt p.t0)
  let sig ← signLoopH fuel ⟨mat, s1, s2, t0, slice seedbuf 160 64, rhoprime⟩ fuel sig 0
  pure (0, sig, 2420)

/-- dilithium2/sign.c:257-328 `crypto_sign_verify` -/
def verifyH (fuel : Nat) (sig : Bytes) (siglen : Nat) (m pk : Bytes) : K Int := do
  if siglen ≠ 2420 then pure (-1) else do
  let (rho, t1) ← onC (unpackPk pk)
  let r ← onC (unpackSig sig)
  match r with
  | none => pure (-1)
  | some (c, z, h) => do
    let bad ← onC (vecChknorm z (GAMMA1 - BETA))
    if bad then pure (-1) else do
    let mu ← shakeH 136 (List.replicate 64 0) 64 pk 1312
    let mu ← shake256Inc2H mu 64 m m.length mu 64
    let cp ← polyChallengeH fuel c
    let mat ← matrixExpandH fuel rho
    let z ← onC (vecNtt z)
    let w1 ← onC (matrixPointwise mat z)
    let cp ← onC (ntt cp)
    let t1 ← onC (vecShiftl t1)
    let t1 ← onC (vecNtt t1)
    let t1 ← onC (vecPointwisePoly cp t1)
    let w1 ← onC (vecSub w1 t1)
    let w1 ← onC (vecReduce w1)
    let w1 ← onC (vecInvntt w1)
    let w1 ← onC (vecCaddq w1)
    let w1 ← onC (vecUseHint w1 h)
    let buf ← onC (vecPackW1 (List.replicate 768 0) w1)
    let c2 ← shake256Inc2H mu 64 buf 768 (List.replicate 32 0) 32
    let bad ← onC (anyBad (fun i => do
      let x ← rd c i
      let y ← rd c2 i
      .ok (decide (x ≠ y))) 0 32)
    if bad then pure (-1) else pure 0

end Verif.Dilithium.Heap
