import Verif.Ct.KeccakProps
import Verif.Sphincs.Model

/-!
/repo/sphincs, key generation and signing, with traces: the functions of Verif/Sphincs/Model.lean, with the Keccak of Verif/Ct/Keccak.lean in place of the
parameter.  See Verif/Ct/Base.lean for what a trace holds.  Verification handles public data only and is left out.  `memcpy` counts as a loop
over bytes.  The copies between an array and a part of it that the model makes (`merkle_sign`, `fors_sign`, `wots_gen_leafx1`) add events that the C code
does not have; they are the same in every run.  The condition `a && b` is one event.
-/

namespace Verif.Ct.Sphincs
open Verif Verif.Ct
open Verif.Sphincs (zeroBytes Ctx LeafInfo)
open Verif.Ct.Keccak (diverge)

/-- common/fips202.c:726-746 `shake256(out, n, m, |m|)`, as called from sphincs/hash_shake.c:22 and sphincs/thash_shake_simple.c:23. -/
def hash (m : Bytes) (n : Nat) : T Bytes := Keccak.shake256 (List.replicate n 0) n m m.length

/-- The calls `shake256_inc_init`, `shake256_inc_absorb` for each of `ms`, `shake256_inc_finalize`, `shake256_inc_squeeze(out, n)` (sphincs/hash_shake.c:34-41, 62-68). -/
def hashInc (ms : List Bytes) (n : Nat) : T Bytes := do
  match ← Keccak.incSession 136 0 ms [n] with
  | [d] => pure d
  | _ => ub

/-! ### utils.c -/

/-- sphincs/utils.c:13-22 `ull_to_bytes(out + o, outlen, in)`. -/
def ullToBytes (out : Bytes) (o outlen v : Nat) : T Bytes := do
  let s ← loop (fun k s => do
    let b ← wr s.1 (o + (outlen - 1 - k)) (BitVec.ofNat 8 s.2)
    pure (b, s.2 / 256)) 0 outlen (out, v)
  pure s.1

/-- sphincs/utils.c:24-29 `u32_to_bytes(out + o, in)`. -/
def u32ToBytes (out : Bytes) (o v : Nat) : T Bytes := do
  let out ← wr out o (BitVec.ofNat 8 (v / 2 ^ 24))
  let out ← wr out (o + 1) (BitVec.ofNat 8 (v / 2 ^ 16))
  let out ← wr out (o + 2) (BitVec.ofNat 8 (v / 2 ^ 8))
  wr out (o + 3) (BitVec.ofNat 8 v)

/-- sphincs/utils.c:34-42 `bytes_to_ull(in + o, inlen)`. -/
def bytesToUll (inp : Bytes) (o inlen : Nat) : T Nat :=
  loop (fun i r => do
    let b ← rd inp (o + i)
    pure (r ||| (b.toNat <<< (8 * (inlen - 1 - i)) % 2 ^ 64))) 0 inlen 0

/-! ### address.c -/

/-- sphincs/address.c:11-13 -/
def setLayerAddr (a : Bytes) (layer : Nat) : T Bytes := wr a 3 (BitVec.ofNat 8 layer)

/-- sphincs/address.c:18-20 -/
def setTreeAddr (a : Bytes) (tree : Nat) : T Bytes := ullToBytes a 8 8 tree

/-- sphincs/address.c:28-30 -/
def setType (a : Bytes) (type : Nat) : T Bytes := wr a 19 (BitVec.ofNat 8 type)

/-- sphincs/address.c:36-38 -/
def copySubtreeAddr (out inp : Bytes) : T Bytes := copy out 0 inp 0 16

/-- sphincs/address.c:46-48 -/
def setKeypairAddr (a : Bytes) (kp : Nat) : T Bytes := wr a 23 (BitVec.ofNat 8 kp)

/-- sphincs/address.c:54-57 -/
def copyKeypairAddr (out inp : Bytes) : T Bytes := do
  let out ← copy out 0 inp 0 16
  let v ← rd inp 23
  wr out 23 v

/-- sphincs/address.c:63-65 -/
def setChainAddr (a : Bytes) (chain : Nat) : T Bytes := wr a 27 (BitVec.ofNat 8 chain)

/-- sphincs/address.c:71-73 -/
def setHashAddr (a : Bytes) (hash : Nat) : T Bytes := wr a 31 (BitVec.ofNat 8 hash)

/-- sphincs/address.c:81-83 -/
def setTreeHeight (a : Bytes) (h : Nat) : T Bytes := wr a 27 (BitVec.ofNat 8 h)

/-- sphincs/address.c:89-91 -/
def setTreeIndex (a : Bytes) (i : Nat) : T Bytes := u32ToBytes a 28 i

/-! ### hash_shake.c and thash_shake_simple.c -/

/-- sphincs/hash_shake.c:14-23 `prf_addr`. -/
def prfAddr (ctx : Ctx) (addr : Bytes) : T Bytes :=
  match ctx.skSeed with
  | none => ub
  | some sk => do
    let buf ← copy (zeroBytes 96) 0 ctx.pubSeed 0 32
    let buf ← copy buf 32 addr 0 32
    let buf ← copy buf 64 sk 0 32
    hash buf 32

/-- sphincs/thash_shake_simple.c:15-24 `thash(out, in + o, inblocks, ctx, addr)`. -/
def thash (inp : Bytes) (o inblocks : Nat) (ctx : Ctx) (addr : Bytes) : T Bytes := do
  let buf ← copy (zeroBytes (64 + inblocks * 32)) 0 ctx.pubSeed 0 32
  let buf ← copy buf 32 addr 0 32
  let buf ← copy buf 64 inp o (inblocks * 32)
  hash buf 32

/-- sphincs/hash_shake.c:29-43 `gen_message_random`.  Here the incremental calls are made one by one. -/
def genMessageRandom (skPrf optrand m : Bytes) : T Bytes := hashInc [skPrf, optrand, m] 32

/-- sphincs/hash_shake.c:50-82 `hash_message`: digest, tree, leaf_idx. -/
def hashMessage (R pk m : Bytes) : T (Bytes × Nat × Nat) := do
  let buf ← hashInc [R, pk, m] 49
  let digest ← copy (zeroBytes 40) 0 buf 0 40
  let tree ← bytesToUll buf 40 8
  let tree := tree &&& ((2 ^ 64 - 1) >>> (64 - 64))
  let leaf ← bytesToUll buf 48 1
  let leaf := (leaf % 2 ^ 32) &&& ((2 ^ 32 - 1) >>> (32 - 4))
  pure (digest, tree, leaf)

/-! ### utils.c: compute_root -/

/-! ### utilsx1.c -/

/-- sphincs/utilsx1.c:52-98, the inner loop of `treehashx1` and the copy to the stack after it.  First result: `some root` when the
function returns, `none` when the outer loop goes on.  `fuel` bounds the loop `for (h = 0;; ...)`. -/
def treehashInner (ctx : Ctx) (treeHeight idx : Nat) : (fuel h internalIdx internalLeaf internalOff : Nat) →
    (auth stack current addr : Bytes) → T (Option Bytes × Bytes × Bytes × Bytes)
  | 0, _, _, _, _, _, _, _, _ => diverge
  | fuel + 1, h, iIdx, iLeaf, iOff, auth, stack, current, addr =>
    cond (h = treeHeight)
     (do
      let root ← copy (zeroBytes 32) 0 current 32 32
      pure (some root, auth, stack, addr)) do
      let auth ← cond (iIdx ^^^ iLeaf = 1) (copy auth (h * 32) current 32 32) (pure auth)
      cond (iIdx &&& 1 = 0 ∧ idx < 2 ^ treeHeight - 1)
       (do
        let stack ← copy stack (h * 32) current 32 32
        pure (none, auth, stack, addr)) do
        let iOff := iOff >>> 1
        let addr ← setTreeHeight addr (h + 1)
        let addr ← setTreeIndex addr ((iIdx / 2 + iOff) % 2 ^ 32)
        let current ← copy current 0 stack (h * 32) 32
        let t ← thash current 0 2 ctx addr
        let current ← copy current 32 t 0 32
        treehashInner ctx treeHeight idx fuel (h + 1) (iIdx >>> 1) (iLeaf >>> 1) iOff auth stack current addr

/-- sphincs/utilsx1.c:39-99, the outer loop of `treehashx1`.  `genLeaf` is the callback with its mutable state `info`. -/
def treehashOuter {ι : Type} (ctx : Ctx) (leafIdx idxOffset treeHeight : Nat) (genLeaf : Nat → ι → T (Bytes × ι)) :
    (fuel idx : Nat) → (auth stack addr : Bytes) → ι → T (Bytes × Bytes × Bytes × ι)
  | 0, _, _, _, _, _ => diverge
  | fuel + 1, idx, auth, stack, addr, info => do
    let (leaf, info) ← genLeaf ((idx + idxOffset) % 2 ^ 32) info
    let current ← copy (zeroBytes 64) 32 leaf 0 32
    let (r, auth, stack, addr) ← treehashInner ctx treeHeight idx (treeHeight + 1) 0 idx leafIdx idxOffset auth stack current addr
    match r with
    | some root => pure (root, auth, addr, info)
    | none => treehashOuter ctx leafIdx idxOffset treeHeight genLeaf fuel (idx + 1) auth stack addr info

/-- sphincs/utilsx1.c:24-100 `treehashx1`: root, auth_path, tree_addr, info.  `stack` is the uninitialised local array. -/
def treehashx1 {ι : Type} (ctx : Ctx) (leafIdx idxOffset treeHeight : Nat) (genLeaf : Nat → ι → T (Bytes × ι))
    (auth stack addr : Bytes) (info : ι) : T (Bytes × Bytes × Bytes × ι) :=
  treehashOuter ctx leafIdx idxOffset treeHeight genLeaf (2 ^ treeHeight) 0 auth stack addr info

/-! ### wots.c -/

/-- sphincs/wots.c:45-63 `base_w(output + o, out_len, input)`. -/
def baseW (output : List Nat) (o outLen : Nat) (input : Bytes) : T (List Nat) := do
  let s ← loop (fun consumed s => do
    let (output, inPos, total, bits) := (s : List Nat × Nat × Byte × Nat)
    let (inPos, total, bits) ←
      cond (bits = 0)
       (do
        let t ← rd input inPos
        pure (inPos + 1, t, 8))
       (pure (inPos, total, bits))
    let bits := bits - 4
    let output ← wr output (o + consumed) ((total.toNat >>> bits) &&& 15)
    pure (output, inPos, total, bits)) 0 outLen (output, 0, (0 : Byte), 0)
  pure s.1

/-- sphincs/wots.c:66-82 `wots_checksum(lengths + 64, lengths)`, on the one array `lengths`. -/
def wotsChecksum (lengths : List Nat) : T (List Nat) := do
  let csum ← loop (fun i csum => do
    let d ← rd lengths i
    pure ((csum + (2 ^ 32 + 15 - d)) % 2 ^ 32)) 0 64 0
  let csum := (csum <<< 4) % 2 ^ 32
  let bytes ← ullToBytes (zeroBytes 2) 0 2 csum
  baseW lengths 64 3 bytes

/-- sphincs/wots.c:85-88 `chain_lengths`. -/
def chainLengths (msg : Bytes) : T (List Nat) := do
  let lengths ← baseW (List.replicate 67 0) 0 64 msg
  wotsChecksum lengths

/-! ### wotsx1.c -/

/-- sphincs/wotsx1.c:55-71, the chain loop `for (k = 0;; k++)` for chain `i`: buffer, wots_sig, leaf_addr. -/
def wotsChainLoop (ctx : Ctx) (i wotsK : Nat) : (fuel k : Nat) → (buffer wotsSig leafAddr : Bytes) → T (Bytes × Bytes × Bytes)
  | 0, _, _, _, _ => diverge
  | fuel + 1, k, buffer, wotsSig, leafAddr => do
    let wotsSig ← cond (k = wotsK) (copy wotsSig (i * 32) buffer 0 32) (pure wotsSig)
    cond (k = 15) (pure (buffer, wotsSig, leafAddr)) do
    let leafAddr ← setHashAddr leafAddr k
    let buffer ← thash buffer 0 1 ctx leafAddr
    wotsChainLoop ctx i wotsK fuel (k + 1) buffer wotsSig leafAddr

/-- sphincs/wotsx1.c:18-76 `wots_gen_leafx1(dest, ctx, leaf_idx, info)`. -/
def wotsGenLeaf (ctx : Ctx) (leafIdx : Nat) (info : LeafInfo) : T (Bytes × LeafInfo) := do
  let mask ← cond (leafIdx = info.wotsSignLeaf) (pure 0) (pure (2 ^ 32 - 1))
  let leafAddr ← setKeypairAddr info.leafAddr leafIdx
  let pkAddr ← setKeypairAddr info.pkAddr leafIdx
  let (pkBuffer, wotsSig, leafAddr) ← loop (fun i s => do
    let (pkBuffer, wotsSig, leafAddr) := (s : Bytes × Bytes × Bytes)
    let step ← rd info.wotsSteps i
    let wotsK := step ||| mask
    let leafAddr ← setChainAddr leafAddr i
    let leafAddr ← setHashAddr leafAddr 0
    let leafAddr ← setType leafAddr 5
    let buffer ← prfAddr ctx leafAddr
    let leafAddr ← setType leafAddr 0
    let (buffer, wotsSig, leafAddr) ← wotsChainLoop ctx i wotsK 16 0 buffer wotsSig leafAddr
    let pkBuffer ← copy pkBuffer (i * 32) buffer 0 32
    pure (pkBuffer, wotsSig, leafAddr)) 0 67 (zeroBytes 2144, info.wotsSig, leafAddr)
  let dest ← thash pkBuffer 0 67 ctx pkAddr
  pure (dest, { info with wotsSig := wotsSig, leafAddr := leafAddr, pkAddr := pkAddr })

/-! ### merkle.c -/

/-- sphincs/merkle.c:18-42 `merkle_sign(sig, root, ctx, wots_addr, tree_addr, idx_leaf)`: sig, root, tree_addr.  The two ranges
`sig[0..2143]` and `sig[2144..2271]` that `info.wots_sig` and `auth_path` point to are handled as two arrays. -/
def merkleSign (sig : Bytes) (o : Nat) (root : Bytes) (ctx : Ctx) (wotsAddr treeAddr : Bytes) (idxLeaf : Nat) : T (Bytes × Bytes × Bytes) := do
  let wotsPart ← copy (zeroBytes 2144) 0 sig o 2144
  let authPart ← copy (zeroBytes 128) 0 sig (o + 2144) 128
  let steps ← chainLengths root
  let treeAddr ← setType treeAddr 2
  let pkAddr ← setType (zeroBytes 32) 1
  let leafAddr ← copySubtreeAddr (zeroBytes 32) wotsAddr
  let pkAddr ← copySubtreeAddr pkAddr wotsAddr
  let info : LeafInfo := ⟨wotsPart, idxLeaf, steps, leafAddr, pkAddr⟩
  let (root, authPart, treeAddr, info) ←
    treehashx1 ctx idxLeaf 0 4 (wotsGenLeaf ctx) authPart (zeroBytes 128) treeAddr info
  let sig ← copy sig o info.wotsSig 0 2144
  let sig ← copy sig (o + 2144) authPart 0 128
  pure (sig, root, treeAddr)

/-- sphincs/merkle.c:45-59 `merkle_gen_root(root, ctx)`; `root` is the old content of the output, which is read. -/
def merkleGenRoot (root : Bytes) (ctx : Ctx) : T Bytes := do
  let topTreeAddr ← setLayerAddr (zeroBytes 32) 16
  let wotsAddr ← setLayerAddr (zeroBytes 32) 16
  let (_, root, _) ← merkleSign (zeroBytes 2272) 0 root ctx wotsAddr topTreeAddr (2 ^ 32 - 1)
  pure root

/-! ### fors.c -/

/-- sphincs/fors.c:28-42 `fors_gen_leafx1`; the state is `leaf_addrx`. -/
def forsGenLeaf (ctx : Ctx) (addrIdx : Nat) (leafAddr : Bytes) : T (Bytes × Bytes) := do
  let leafAddr ← setTreeIndex leafAddr addrIdx
  let leafAddr ← setType leafAddr 6
  let leaf ← prfAddr ctx leafAddr
  let leafAddr ← setType leafAddr 3
  let leaf ← thash leaf 0 1 ctx leafAddr
  pure (leaf, leafAddr)

/-- sphincs/fors.c:49-60 `message_to_indices`.  State of the loops: the index being built and the bit offset. -/
def messageToIndices (m : Bytes) : T (List Nat) := do
  let s ← loop (fun i s => do
    let (ind, offset) := (s : List Nat × Nat)
    let t ← loop (fun j t => do
      let b ← rd m (t.2 >>> 3)
      pure (t.1 ^^^ (((b.toNat >>> ((2 ^ 32 - 1 - t.2) &&& 7)) &&& 1) <<< (9 - 1 - j)), t.2 + 1)) 0 9 (0, offset)
    let ind ← wr ind i t.1
    pure (ind, t.2)) 0 35 (List.replicate 35 0, 0)
  pure s.1

/-- sphincs/fors.c:66-109 `fors_sign(sig + o, pk, m, ctx, fors_addr)`: sig, pk.  The auth path range of `sig` that is passed to
`treehashx1` is handled as an array of its own. -/
def forsSign (sig : Bytes) (o : Nat) (m : Bytes) (ctx : Ctx) (forsAddr : Bytes) : T (Bytes × Bytes) := do
  let treeAddr ← copyKeypairAddr (zeroBytes 32) forsAddr
  let leafAddr ← copyKeypairAddr (zeroBytes 32) forsAddr
  let pkAddr ← copyKeypairAddr (zeroBytes 32) forsAddr
  let pkAddr ← setType pkAddr 4
  let indices ← messageToIndices m
  let (sig, roots, _, _) ← loop (fun i s => do
    let (sig, roots, treeAddr, leafAddr) := (s : Bytes × Bytes × Bytes × Bytes)
    let idxOffset := i * 2 ^ 9
    let idx ← rd indices i
    let treeAddr ← setTreeHeight treeAddr 0
    let treeAddr ← setTreeIndex treeAddr ((idx + idxOffset) % 2 ^ 32)
    let treeAddr ← setType treeAddr 6
    let sk ← prfAddr ctx treeAddr
    let sig ← copy sig (o + i * 320) sk 0 32
    let treeAddr ← setType treeAddr 3
    let auth ← copy (zeroBytes 288) 0 sig (o + i * 320 + 32) 288
    let (root, auth, treeAddr, leafAddr) ←
      treehashx1 ctx idx idxOffset 9 (forsGenLeaf ctx) auth (zeroBytes 288) treeAddr leafAddr
    let sig ← copy sig (o + i * 320 + 32) auth 0 288
    let roots ← copy roots (i * 32) root 0 32
    pure (sig, roots, treeAddr, leafAddr)) 0 35 (sig, zeroBytes 1120, treeAddr, leafAddr)
  let pk ← thash roots 0 35 ctx pkAddr
  pure (sig, pk)

/-! ### sign.c -/

/-- sphincs/sign.c:50-75 `crypto_sign_seed_keypair(pk, sk, seed)`: code, pk, sk. -/
def seedKeypair (pk sk seed : Bytes) : T (Int × Bytes × Bytes) := do
  let sk ← copy sk 0 seed 0 96
  let pk ← copy pk 0 sk 64 32
  let pub ← copy (zeroBytes 32) 0 pk 0 32
  let sec ← copy (zeroBytes 32) 0 sk 0 32
  let old ← copy (zeroBytes 32) 0 sk 96 32
  let root ← merkleGenRoot old ⟨pub, some sec⟩
  let sk ← copy sk 96 root 0 32
  let pk ← copy pk 32 sk 96 32
  pure (0, pk, sk)

/-- sphincs/sign.c:143-156, one pass of the loop over the layers in `crypto_sign_signature`; state: sig, root, wots_addr, tree_addr, tree, idx_leaf. -/
def signStep (ctx : Ctx) (i : Nat) (s : Bytes × Bytes × Bytes × Bytes × Nat × Nat) : T (Bytes × Bytes × Bytes × Bytes × Nat × Nat) := do
  let (sig, root, wotsAddr, treeAddr, tree, idxLeaf) := s
  let treeAddr ← setLayerAddr treeAddr i
  let treeAddr ← setTreeAddr treeAddr tree
  let wotsAddr ← copySubtreeAddr wotsAddr treeAddr
  let wotsAddr ← setKeypairAddr wotsAddr idxLeaf
  let (sig, root, treeAddr) ← merkleSign sig (11232 + i * 2272) root ctx wotsAddr treeAddr idxLeaf
  let idxLeaf := tree &&& (2 ^ 4 - 1)
  let tree := tree >>> 4
  pure (sig, root, wotsAddr, treeAddr, tree, idxLeaf)

/-- sphincs/sign.c:96-163 `crypto_sign_signature`, the part after the draw of `optrand`: the signature buffer. -/
def signBody (sig m sk optrand : Bytes) : T Bytes := do
  let skPrf ← copy (zeroBytes 32) 0 sk 32 32
  let pk ← copy (zeroBytes 64) 0 sk 64 64
  let sec ← copy (zeroBytes 32) 0 sk 0 32
  let pub ← copy (zeroBytes 32) 0 pk 0 32
  let ctx : Ctx := ⟨pub, some sec⟩
  let wotsAddr ← setType (zeroBytes 32) 0
  let treeAddr ← setType (zeroBytes 32) 2
  let R ← genMessageRandom skPrf optrand m
  let sig ← copy sig 0 R 0 32
  let R ← copy (zeroBytes 32) 0 sig 0 32
  let (mhash, tree, idxLeaf) ← hashMessage R pk m
  let wotsAddr ← setTreeAddr wotsAddr tree
  let wotsAddr ← setKeypairAddr wotsAddr idxLeaf
  let (sig, root) ← forsSign sig 32 mhash ctx wotsAddr
  let s ← loop (signStep ctx) 0 17 (sig, root, wotsAddr, treeAddr, tree, idxLeaf)
  pure s.1

end Verif.Ct.Sphincs
