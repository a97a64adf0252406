import Verif.Keccak.HeapProps
import Verif.Sphincs.Props

/-!
The functions of sphincs/hash_shake.c and sphincs/thash_shake_simple.c with their Keccak contexts on the heap, call by call.  The rest of
sphincs uses contexts only through these four functions.
-/

namespace Verif.Sphincs.Heap
open Verif Verif.Keccak Verif.Keccak.Heap

/-- sphincs/hash_shake.c:14-23 `prf_addr` -/
def prfAddrH (ctx : Ctx) (addr : Bytes) : K Bytes :=
  match ctx.skSeed with
  | none => onC (.error .ub)
  | some sk => do
    let buf ← onC (copy (zeroBytes 96) 0 ctx.pubSeed 0 32)
    let buf ← onC (copy buf 32 addr 0 32)
    let buf ← onC (copy buf 64 sk 0 32)
    shakeH 136 (zeroBytes 32) 32 buf 96

/-- sphincs/thash_shake_simple.c:15-24 `thash(out, in + o, inblocks, ctx, addr)` -/
def thashH (inp : Bytes) (o inblocks : Nat) (ctx : Ctx) (addr : Bytes) : K Bytes := do
  let buf ← onC (copy (zeroBytes (64 + inblocks * 32)) 0 ctx.pubSeed 0 32)
  let buf ← onC (copy buf 32 addr 0 32)
  let buf ← onC (copy buf 64 inp o (inblocks * 32))
  shakeH 136 (zeroBytes 32) 32 buf (64 + inblocks * 32)

/-- sphincs/hash_shake.c:29-43 `gen_message_random(R, sk_prf, optrand, m, mlen, ctx)` -/
def genMessageRandomH (skPrf optrand m : Bytes) : K Bytes := do
  let p ← incInitH
  incAbsorbH p 136 skPrf 32
  incAbsorbH p 136 optrand 32
  incAbsorbH p 136 m m.length
  incFinalizeH p 136
  let R ← incSqueezeH (zeroBytes 32) 32 p 136
  incReleaseH p
  pure R

/-- sphincs/hash_shake.c:50-82 `hash_message(digest, tree, leaf_idx, R, pk, m, mlen, ctx)` -/
def hashMessageH (R pk m : Bytes) : K (Bytes × Nat × Nat) := do
  let p ← incInitH
  incAbsorbH p 136 R 32
  incAbsorbH p 136 pk 64
  incAbsorbH p 136 m m.length
  incFinalizeH p 136
  let buf ← incSqueezeH (zeroBytes 49) 49 p 136
  incReleaseH p
  let digest ← onC (copy (zeroBytes 40) 0 buf 0 40)
  let tree ← onC (bytesToUll buf 40 8)
  let tree := tree &&& ((2 ^ 64 - 1) >>> (64 - 64))
  let leaf ← onC (bytesToUll buf 48 1)
  let leaf := (leaf % 2 ^ 32) &&& ((2 ^ 32 - 1) >>> (32 - 4))
  pure (digest, tree, leaf)

end Verif.Sphincs.Heap
