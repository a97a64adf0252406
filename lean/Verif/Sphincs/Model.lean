import Verif.Mem

/-!
Model of /repo/sphincs, function by function.  The preprocessor constants of sphincs/params.h:7-50 and sphincs/shake_offsets.h:9-17 are written as
numbers: SPX_N 32, SPX_D 17, SPX_FORS_HEIGHT 9, SPX_FORS_TREES 35, SPX_WOTS_W 16, SPX_WOTS_LEN1 64, SPX_WOTS_LEN2 3, SPX_WOTS_LEN 67,
SPX_WOTS_BYTES 2144, SPX_TREE_HEIGHT 4, SPX_FORS_MSG_BYTES 40, SPX_FORS_BYTES 11200, SPX_BYTES 49856.  The functions of
sphincs/sign.c:20-43 return such constants (secret key 128, public key 64, signature 49856, seed 96 bytes).

Conventions
* `uint32_t addr[8]` is only ever accessed as 32 bytes: a byte list.  Functions that change an address return it.
* `shake m n` is the result of shake256(out, n, m, |m|).  It is a parameter here; `shake256F` in
  Sphincs/Props.lean puts the Keccak model in its place.
* `memcpy` is `copy`, which faults outside either array.
* unsigned 32-bit values are naturals below 2^32, reduced where an operation could wrap.
-/

namespace Verif.Sphincs
open Verif

/-- A local array; the uninitialised ones are filled with zeros (they are written before they are read, except where a
function takes the old contents as an argument) (for example sphincs/sign.c:168-247). -/
def zeroBytes (n : Nat) : Bytes := List.replicate n 0

/-! ### utils.c -/

/-- sphincs/utils.c:13-22 `ull_to_bytes(out + o, outlen, in)`. -/
def ullToBytes (out : Bytes) (o outlen v : Nat) : C Bytes := do
  let s ← loop (fun k s => do
    let b ← wr s.1 (o + (outlen - 1 - k)) (BitVec.ofNat 8 s.2)
    pure (b, s.2 / 256)) 0 outlen (out, v)
  pure s.1

/-- sphincs/utils.c:24-29 `u32_to_bytes(out + o, in)`. -/
def u32ToBytes (out : Bytes) (o v : Nat) : C Bytes := do
  let out ← wr out o (BitVec.ofNat 8 (v / 2 ^ 24))
  let out ← wr out (o + 1) (BitVec.ofNat 8 (v / 2 ^ 16))
  let out ← wr out (o + 2) (BitVec.ofNat 8 (v / 2 ^ 8))
  wr out (o + 3) (BitVec.ofNat 8 v)

/-- sphincs/utils.c:34-42 `bytes_to_ull(in + o, inlen)`. -/
def bytesToUll (inp : Bytes) (o inlen : Nat) : C Nat :=
  loop (fun i r => do
    let b ← rd inp (o + i)
    pure (r ||| (b.toNat <<< (8 * (inlen - 1 - i)) % 2 ^ 64))) 0 inlen 0

/-! ### address.c -/

/-- sphincs/address.c:11-13 -/
def setLayerAddr (a : Bytes) (layer : Nat) : C Bytes := wr a 3 (BitVec.ofNat 8 layer)
/-- sphincs/address.c:18-20 -/
def setTreeAddr (a : Bytes) (tree : Nat) : C Bytes := ullToBytes a 8 8 tree
/-- sphincs/address.c:28-30 -/
def setType (a : Bytes) (type : Nat) : C Bytes := wr a 19 (BitVec.ofNat 8 type)
/-- sphincs/address.c:36-38 -/
def copySubtreeAddr (out inp : Bytes) : C Bytes := copy out 0 inp 0 16
/-- sphincs/address.c:46-48 -/
def setKeypairAddr (a : Bytes) (kp : Nat) : C Bytes := wr a 23 (BitVec.ofNat 8 kp)
/-- sphincs/address.c:54-57 -/
def copyKeypairAddr (out inp : Bytes) : C Bytes := do
  let out ← copy out 0 inp 0 16
  let v ← rd inp 23
  wr out 23 v
/-- sphincs/address.c:63-65 -/
def setChainAddr (a : Bytes) (chain : Nat) : C Bytes := wr a 27 (BitVec.ofNat 8 chain)
/-- sphincs/address.c:71-73 -/
def setHashAddr (a : Bytes) (hash : Nat) : C Bytes := wr a 31 (BitVec.ofNat 8 hash)
/-- sphincs/address.c:81-83 -/
def setTreeHeight (a : Bytes) (h : Nat) : C Bytes := wr a 27 (BitVec.ofNat 8 h)
/-- sphincs/address.c:89-91 -/
def setTreeIndex (a : Bytes) (i : Nat) : C Bytes := u32ToBytes a 28 i

/-! ### hash_shake.c and thash_shake_simple.c -/

/-- sphincs/context.h:8-12 `spx_ctx`; sphincs/context_shake.c:5-7 and sphincs/context_shake.c:10-12, called around its use, do nothing.  `skSeed = none`: not initialised, as in verification. -/
structure Ctx where
  pubSeed : Bytes
  skSeed : Option Bytes

variable (shake : Bytes → Nat → Bytes)

/-- sphincs/hash_shake.c:14-23 `prf_addr`. -/
def prfAddr (ctx : Ctx) (addr : Bytes) : C Bytes :=
  match ctx.skSeed with
  | none => .error .ub
  | some sk => do
    let buf ← copy (zeroBytes 96) 0 ctx.pubSeed 0 32
    let buf ← copy buf 32 addr 0 32
    let buf ← copy buf 64 sk 0 32
    pure (shake buf 32)

/-- sphincs/thash_shake_simple.c:15-24 `thash(out, in + o, inblocks, ctx, addr)`. -/
def thash (inp : Bytes) (o inblocks : Nat) (ctx : Ctx) (addr : Bytes) : C Bytes := do
  let buf ← copy (zeroBytes (64 + inblocks * 32)) 0 ctx.pubSeed 0 32
  let buf ← copy buf 32 addr 0 32
  let buf ← copy buf 64 inp o (inblocks * 32)
  pure (shake buf 32)

/-- sphincs/hash_shake.c:29-43 `gen_message_random`.  The incremental calls init, absorb, absorb, absorb, finalize, squeeze are written
as one call on the concatenation (justified by `Keccak.shake_incremental`). -/
def genMessageRandom (skPrf optrand m : Bytes) : Bytes := shake (skPrf ++ optrand ++ m) 32

/-- sphincs/hash_shake.c:50-82 `hash_message`: digest, tree, leaf_idx.  The incremental calls are written as one, as above. -/
def hashMessage (R pk m : Bytes) : C (Bytes × Nat × Nat) := do
  let buf := shake (R ++ pk ++ m) 49
  let digest ← copy (zeroBytes 40) 0 buf 0 40
  let tree ← bytesToUll buf 40 8
  let tree := tree &&& ((2 ^ 64 - 1) >>> (64 - 64))
  let leaf ← bytesToUll buf 48 1
  let leaf := (leaf % 2 ^ 32) &&& ((2 ^ 32 - 1) >>> (32 - 4))
  pure (digest, tree, leaf)

/-! ### utils.c: compute_root -/

/-- sphincs/utils.c:48-90 `compute_root(root, leaf, leaf_idx, idx_offset, auth_path + o, tree_height, ctx, addr)`: root and changed
address. -/
def computeRoot (leaf : Bytes) (leafIdx idxOffset : Nat) (auth : Bytes) (o treeHeight : Nat) (ctx : Ctx) (addr : Bytes) :
    C (Bytes × Bytes) := do
  let buffer ←
    (if leafIdx &&& 1 ≠ 0 then do
      let b ← copy (zeroBytes 64) 32 leaf 0 32
      copy b 0 auth o 32
    else do
      let b ← copy (zeroBytes 64) 0 leaf 0 32
      copy b 32 auth o 32 : C Bytes)
  let (buffer, li, off, addr) ← loop (fun i s => do
    let (buffer, li, off, addr) := (s : Bytes × Nat × Nat × Bytes)
    let li := li >>> 1
    let off := off >>> 1
    let addr ← setTreeHeight addr (i + 1)
    let addr ← setTreeIndex addr ((li + off) % 2 ^ 32)
    let t ← thash shake buffer 0 2 ctx addr
    let buffer ←
      (if li &&& 1 ≠ 0 then do
        let b ← copy buffer 32 t 0 32
        copy b 0 auth (o + 32 * (i + 1)) 32
      else do
        let b ← copy buffer 0 t 0 32
        copy b 32 auth (o + 32 * (i + 1)) 32 : C Bytes)
    pure (buffer, li, off, addr)) 0 (treeHeight - 1) (buffer, leafIdx, idxOffset, addr)
  let li := li >>> 1
  let off := off >>> 1
  let addr ← setTreeHeight addr treeHeight
  let addr ← setTreeIndex addr ((li + off) % 2 ^ 32)
  let root ← thash shake buffer 0 2 ctx addr
  pure (root, addr)

/-! ### utilsx1.c -/

/-- sphincs/utilsx1.c:52-98, the inner loop of `treehashx1` and the copy to the stack after it.  First result: `some root` when the
function returns, `none` when the outer loop goes on.  `fuel` bounds the loop `for (h = 0;; ...)`. -/
def treehashInner (ctx : Ctx) (treeHeight idx : Nat) : (fuel h internalIdx internalLeaf internalOff : Nat) →
    (auth stack current addr : Bytes) → C (Option Bytes × Bytes × Bytes × Bytes)
  | 0, _, _, _, _, _, _, _, _ => .error .diverge
  | fuel + 1, h, iIdx, iLeaf, iOff, auth, stack, current, addr =>
    if h = treeHeight then do
      let root ← copy (zeroBytes 32) 0 current 32 32
      pure (some root, auth, stack, addr)
    else do
      let auth ← (if iIdx ^^^ iLeaf = 1 then copy auth (h * 32) current 32 32 else pure auth : C Bytes)
      if iIdx &&& 1 = 0 ∧ idx < 2 ^ treeHeight - 1 then do
        let stack ← copy stack (h * 32) current 32 32
        pure (none, auth, stack, addr)
      else do
        let iOff := iOff >>> 1
        let addr ← setTreeHeight addr (h + 1)
        let addr ← setTreeIndex addr ((iIdx / 2 + iOff) % 2 ^ 32)
        let current ← copy current 0 stack (h * 32) 32
        let t ← thash shake current 0 2 ctx addr
        let current ← copy current 32 t 0 32
        treehashInner ctx treeHeight idx fuel (h + 1) (iIdx >>> 1) (iLeaf >>> 1) iOff auth stack current addr

/-- sphincs/utilsx1.c:39-99, the outer loop of `treehashx1`.  `genLeaf` is the callback with its mutable state `info`. -/
def treehashOuter {ι : Type} (ctx : Ctx) (leafIdx idxOffset treeHeight : Nat) (genLeaf : Nat → ι → C (Bytes × ι)) :
    (fuel idx : Nat) → (auth stack addr : Bytes) → ι → C (Bytes × Bytes × Bytes × ι)
  | 0, _, _, _, _, _ => .error .diverge
  | fuel + 1, idx, auth, stack, addr, info => do
    let (leaf, info) ← genLeaf ((idx + idxOffset) % 2 ^ 32) info
    let current ← copy (zeroBytes 64) 32 leaf 0 32
    let (r, auth, stack, addr) ← treehashInner shake ctx treeHeight idx (treeHeight + 1) 0 idx leafIdx idxOffset auth stack current addr
    match r with
    | some root => pure (root, auth, addr, info)
    | none => treehashOuter ctx leafIdx idxOffset treeHeight genLeaf fuel (idx + 1) auth stack addr info

/-- sphincs/utilsx1.c:24-100 `treehashx1`: root, auth_path, tree_addr, info.  `stack` is the uninitialised local array. -/
def treehashx1 {ι : Type} (ctx : Ctx) (leafIdx idxOffset treeHeight : Nat) (genLeaf : Nat → ι → C (Bytes × ι))
    (auth stack addr : Bytes) (info : ι) : C (Bytes × Bytes × Bytes × ι) :=
  treehashOuter shake ctx leafIdx idxOffset treeHeight genLeaf (2 ^ treeHeight) 0 auth stack addr info

/-! ### wots.c -/

/-- sphincs/wots.c:25-38 `gen_chain(out, in + o, start, steps, ctx, addr)`: out, addr. -/
def genChain (inp : Bytes) (o start steps : Nat) (ctx : Ctx) (addr : Bytes) : C (Bytes × Bytes) := do
  let out ← copy (zeroBytes 32) 0 inp o 32
  loop (fun i s => do
    let addr ← setHashAddr s.2 i
    let out ← thash shake s.1 0 1 ctx addr
    pure (out, addr)) start (min ((start + steps) % 2 ^ 32) 16 - start) (out, addr)

/-- sphincs/wots.c:45-63 `base_w(output + o, out_len, input)`. -/
def baseW (output : List Nat) (o outLen : Nat) (input : Bytes) : C (List Nat) := do
  let s ← loop (fun consumed s => do
    let (output, inPos, total, bits) := (s : List Nat × Nat × Byte × Nat)
    let (inPos, total, bits) ←
      (if bits = 0 then do
        let t ← rd input inPos
        pure (inPos + 1, t, 8)
      else pure (inPos, total, bits) : C (Nat × Byte × Nat))
    let bits := bits - 4
    let output ← wr output (o + consumed) ((total.toNat >>> bits) &&& 15)
    pure (output, inPos, total, bits)) 0 outLen (output, 0, (0 : Byte), 0)
  pure s.1

/-- sphincs/wots.c:66-82 `wots_checksum(lengths + 64, lengths)`, on the one array `lengths`. -/
def wotsChecksum (lengths : List Nat) : C (List Nat) := do
  let csum ← loop (fun i csum => do
    let d ← rd lengths i
    pure ((csum + (2 ^ 32 + 15 - d)) % 2 ^ 32)) 0 64 0
  let csum := (csum <<< 4) % 2 ^ 32
  let bytes ← ullToBytes (zeroBytes 2) 0 2 csum
  baseW lengths 64 3 bytes

/-- sphincs/wots.c:85-88 `chain_lengths`. -/
def chainLengths (msg : Bytes) : C (List Nat) := do
  let lengths ← baseW (List.replicate 67 0) 0 64 msg
  wotsChecksum lengths

/-- sphincs/wots.c:95-108 `wots_pk_from_sig(pk, sig + o, msg, ctx, addr)`: pk, addr. -/
def wotsPkFromSig (sig : Bytes) (o : Nat) (msg : Bytes) (ctx : Ctx) (addr : Bytes) : C (Bytes × Bytes) := do
  let lengths ← chainLengths msg
  loop (fun i s => do
    let addr ← setChainAddr s.2 i
    let l ← rd lengths i
    let (c, addr) ← genChain shake sig (o + i * 32) l ((2 ^ 32 + 15 - l) % 2 ^ 32) ctx addr
    let pk ← copy s.1 (i * 32) c 0 32
    pure (pk, addr)) 0 67 (zeroBytes 2144, addr)

/-! ### wotsx1.c -/

/-- sphincs/wotsx1.h:15-21 `struct leaf_info_x1`.  `wotsSig` is the array that the pointer of that name refers to. -/
structure LeafInfo where
  wotsSig : Bytes
  wotsSignLeaf : Nat
  wotsSteps : List Nat
  leafAddr : Bytes
  pkAddr : Bytes

/-- sphincs/wotsx1.c:55-71, the chain loop `for (k = 0;; k++)` for chain `i`: buffer, wots_sig, leaf_addr. -/
def wotsChainLoop (ctx : Ctx) (i wotsK : Nat) : (fuel k : Nat) → (buffer wotsSig leafAddr : Bytes) → C (Bytes × Bytes × Bytes)
  | 0, _, _, _, _ => .error .diverge
  | fuel + 1, k, buffer, wotsSig, leafAddr => do
    let wotsSig ← (if k = wotsK then copy wotsSig (i * 32) buffer 0 32 else pure wotsSig : C Bytes)
    if k = 15 then pure (buffer, wotsSig, leafAddr) else do
    let leafAddr ← setHashAddr leafAddr k
    let buffer ← thash shake buffer 0 1 ctx leafAddr
    wotsChainLoop ctx i wotsK fuel (k + 1) buffer wotsSig leafAddr

/-- sphincs/wotsx1.c:18-76 `wots_gen_leafx1(dest, ctx, leaf_idx, info)`. -/
def wotsGenLeaf (ctx : Ctx) (leafIdx : Nat) (info : LeafInfo) : C (Bytes × LeafInfo) := do
  let mask := if leafIdx = info.wotsSignLeaf then 0 else 2 ^ 32 - 1
  let leafAddr ← setKeypairAddr info.leafAddr leafIdx
  let pkAddr ← setKeypairAddr info.pkAddr leafIdx
  let (pkBuffer, wotsSig, leafAddr) ← loop (fun i s => do
    let (pkBuffer, wotsSig, leafAddr) := (s : Bytes × Bytes × Bytes)
    let step ← rd info.wotsSteps i
    let wotsK := step ||| mask
    let leafAddr ← setChainAddr leafAddr i
    let leafAddr ← setHashAddr leafAddr 0
    let leafAddr ← setType leafAddr 5
    let buffer ← prfAddr shake ctx leafAddr
    let leafAddr ← setType leafAddr 0
    let (buffer, wotsSig, leafAddr) ← wotsChainLoop shake ctx i wotsK 16 0 buffer wotsSig leafAddr
    let pkBuffer ← copy pkBuffer (i * 32) buffer 0 32
    pure (pkBuffer, wotsSig, leafAddr)) 0 67 (zeroBytes 2144, info.wotsSig, leafAddr)
  let dest ← thash shake pkBuffer 0 67 ctx pkAddr
  pure (dest, { info with wotsSig := wotsSig, leafAddr := leafAddr, pkAddr := pkAddr })

/-! ### merkle.c -/

/-- sphincs/merkle.c:18-42 `merkle_sign(sig, root, ctx, wots_addr, tree_addr, idx_leaf)`: sig, root, tree_addr.  The two ranges
`sig[0..2143]` and `sig[2144..2271]` that `info.wots_sig` and `auth_path` point to are handled as two arrays. -/
def merkleSign (sig : Bytes) (o : Nat) (root : Bytes) (ctx : Ctx) (wotsAddr treeAddr : Bytes) (idxLeaf : Nat) : C (Bytes × Bytes × Bytes) := do
  let wotsPart ← copy (zeroBytes 2144) 0 sig o 2144
  let authPart ← copy (zeroBytes 128) 0 sig (o + 2144) 128
  let steps ← chainLengths root
  let treeAddr ← setType treeAddr 2
  let pkAddr ← setType (zeroBytes 32) 1
  let leafAddr ← copySubtreeAddr (zeroBytes 32) wotsAddr
  let pkAddr ← copySubtreeAddr pkAddr wotsAddr
  let info : LeafInfo := ⟨wotsPart, idxLeaf, steps, leafAddr, pkAddr⟩
  let (root, authPart, treeAddr, info) ←
    treehashx1 shake ctx idxLeaf 0 4 (wotsGenLeaf shake ctx) authPart (zeroBytes 128) treeAddr info
  let sig ← copy sig o info.wotsSig 0 2144
  let sig ← copy sig (o + 2144) authPart 0 128
  pure (sig, root, treeAddr)

/-- sphincs/merkle.c:45-59 `merkle_gen_root(root, ctx)`; `root` is the old content of the output, which is read. -/
def merkleGenRoot (root : Bytes) (ctx : Ctx) : C Bytes := do
  let topTreeAddr ← setLayerAddr (zeroBytes 32) 16
  let wotsAddr ← setLayerAddr (zeroBytes 32) 16
  let (_, root, _) ← merkleSign shake (zeroBytes 2272) 0 root ctx wotsAddr topTreeAddr (2 ^ 32 - 1)
  pure root

/-! ### fors.c -/

/-- sphincs/fors.c:28-42 `fors_gen_leafx1`; the state is `leaf_addrx`. -/
def forsGenLeaf (ctx : Ctx) (addrIdx : Nat) (leafAddr : Bytes) : C (Bytes × Bytes) := do
  let leafAddr ← setTreeIndex leafAddr addrIdx
  let leafAddr ← setType leafAddr 6
  let leaf ← prfAddr shake ctx leafAddr
  let leafAddr ← setType leafAddr 3
  let leaf ← thash shake leaf 0 1 ctx leafAddr
  pure (leaf, leafAddr)

/-- sphincs/fors.c:49-60 `message_to_indices`.  State of the loops: the index being built and the bit offset. -/
def messageToIndices (m : Bytes) : C (List Nat) := do
  let s ← loop (fun i s => do
    let (ind, offset) := (s : List Nat × Nat)
    let t ← loop (fun j t => do
      let b ← rd m (t.2 >>> 3)
      pure (t.1 ^^^ (((b.toNat >>> ((2 ^ 32 - 1 - t.2) &&& 7)) &&& 1) <<< (9 - 1 - j)), t.2 + 1)) 0 9 (0, offset)
    let ind ← wr ind i t.1
    pure (ind, t.2)) 0 35 (List.replicate 35 0, 0)
  pure s.1

/-- sphincs/fors.c:66-109 `fors_sign(sig + o, pk, m, ctx, fors_addr)`: sig, pk.  The auth path range of `sig` that is passed to
`treehashx1` is handled as an array of its own. -/
def forsSign (sig : Bytes) (o : Nat) (m : Bytes) (ctx : Ctx) (forsAddr : Bytes) : C (Bytes × Bytes) := do
  let treeAddr ← copyKeypairAddr (zeroBytes 32) forsAddr
  let leafAddr ← copyKeypairAddr (zeroBytes 32) forsAddr
  let pkAddr ← copyKeypairAddr (zeroBytes 32) forsAddr
  let pkAddr ← setType pkAddr 4
  let indices ← messageToIndices m
  let (sig, roots, _, _) ← loop (fun i s => do
    let (sig, roots, treeAddr, leafAddr) := (s : Bytes × Bytes × Bytes × Bytes)
    let idxOffset := i * 2 ^ 9
    let idx ← rd indices i
    let treeAddr ← setTreeHeight treeAddr 0
    let treeAddr ← setTreeIndex treeAddr ((idx + idxOffset) % 2 ^ 32)
    let treeAddr ← setType treeAddr 6
    let sk ← prfAddr shake ctx treeAddr
    let sig ← copy sig (o + i * 320) sk 0 32
    let treeAddr ← setType treeAddr 3
    let auth ← copy (zeroBytes 288) 0 sig (o + i * 320 + 32) 288
    let (root, auth, treeAddr, leafAddr) ←
      treehashx1 shake ctx idx idxOffset 9 (forsGenLeaf shake ctx) auth (zeroBytes 288) treeAddr leafAddr
    let sig ← copy sig (o + i * 320 + 32) auth 0 288
    let roots ← copy roots (i * 32) root 0 32
    pure (sig, roots, treeAddr, leafAddr)) 0 35 (sig, zeroBytes 1120, treeAddr, leafAddr)
  let pk ← thash shake roots 0 35 ctx pkAddr
  pure (sig, pk)

/-- sphincs/fors.c:118-156 `fors_pk_from_sig(pk, sig + o, m, ctx, fors_addr)`. -/
def forsPkFromSig (sig : Bytes) (o : Nat) (m : Bytes) (ctx : Ctx) (forsAddr : Bytes) : C Bytes := do
  let treeAddr ← copyKeypairAddr (zeroBytes 32) forsAddr
  let pkAddr ← copyKeypairAddr (zeroBytes 32) forsAddr
  let treeAddr ← setType treeAddr 3
  let pkAddr ← setType pkAddr 4
  let indices ← messageToIndices m
  let (roots, _) ← loop (fun i s => do
    let (roots, treeAddr) := (s : Bytes × Bytes)
    let idxOffset := i * 2 ^ 9
    let idx ← rd indices i
    let treeAddr ← setTreeHeight treeAddr 0
    let treeAddr ← setTreeIndex treeAddr ((idx + idxOffset) % 2 ^ 32)
    let leaf ← thash shake sig (o + i * 320) 1 ctx treeAddr
    let (root, treeAddr) ← computeRoot shake leaf idx idxOffset sig (o + i * 320 + 32) 9 ctx treeAddr
    let roots ← copy roots (i * 32) root 0 32
    pure (roots, treeAddr)) 0 35 (zeroBytes 1120, treeAddr)
  thash shake roots 0 35 ctx pkAddr

/-! ### sign.c -/

/-- sphincs/sign.c:50-75 `crypto_sign_seed_keypair(pk, sk, seed)`: code, pk, sk. -/
def seedKeypair (pk sk seed : Bytes) : C (Int × Bytes × Bytes) := do
  let sk ← copy sk 0 seed 0 96
  let pk ← copy pk 0 sk 64 32
  let pub ← copy (zeroBytes 32) 0 pk 0 32
  let sec ← copy (zeroBytes 32) 0 sk 0 32
  let old ← copy (zeroBytes 32) 0 sk 96 32
  let root ← merkleGenRoot shake old ⟨pub, some sec⟩
  let sk ← copy sk 96 root 0 32
  let pk ← copy pk 32 sk 96 32
  pure (0, pk, sk)

/-- sphincs/sign.c:82-91 `crypto_sign_keypair(pk, sk)`; the result of the seeded function is ignored. -/
def keypair (pk sk : Bytes) : RandM (Int × Bytes × Bytes) := do
  match ← randombytes 96 with
  | none => pure (-1, pk, sk)
  | some seed => do
    let (_, pk, sk) ← liftCR (seedKeypair shake pk sk seed)
    pure (0, pk, sk)

/-- sphincs/sign.c:96-163 `crypto_sign_signature`, the part after the draw of `optrand`: the signature buffer. -/
def signBody (sig m sk optrand : Bytes) : C Bytes := do
  let skPrf ← copy (zeroBytes 32) 0 sk 32 32
  let pk ← copy (zeroBytes 64) 0 sk 64 64
  let sec ← copy (zeroBytes 32) 0 sk 0 32
  let pub ← copy (zeroBytes 32) 0 pk 0 32
  let ctx : Ctx := ⟨pub, some sec⟩
  let wotsAddr ← setType (zeroBytes 32) 0
  let treeAddr ← setType (zeroBytes 32) 2
  let R := genMessageRandom shake skPrf optrand m
  let sig ← copy sig 0 R 0 32
  let R ← copy (zeroBytes 32) 0 sig 0 32
  let (mhash, tree, idxLeaf) ← hashMessage shake R pk m
  let wotsAddr ← setTreeAddr wotsAddr tree
  let wotsAddr ← setKeypairAddr wotsAddr idxLeaf
  let (sig, root) ← forsSign shake sig 32 mhash ctx wotsAddr
  let s ← loop (fun i s => do
    let (sig, root, wotsAddr, treeAddr, tree, idxLeaf) := (s : Bytes × Bytes × Bytes × Bytes × Nat × Nat)
    let treeAddr ← setLayerAddr treeAddr i
    let treeAddr ← setTreeAddr treeAddr tree
    let wotsAddr ← copySubtreeAddr wotsAddr treeAddr
    let wotsAddr ← setKeypairAddr wotsAddr idxLeaf
    let (sig, root, treeAddr) ← merkleSign shake sig (11232 + i * 2272) root ctx wotsAddr treeAddr idxLeaf
    let idxLeaf := tree &&& (2 ^ 4 - 1)
    let tree := tree >>> 4
    pure (sig, root, wotsAddr, treeAddr, tree, idxLeaf)) 0 17 (sig, root, wotsAddr, treeAddr, tree, idxLeaf)
  pure s.1

/-- sphincs/sign.c:96-163 `crypto_sign_signature(sig, &siglen, m, mlen, sk)`: code, sig, siglen. -/
def signature (sig : Bytes) (siglen : Nat) (m sk : Bytes) : RandM (Int × Bytes × Nat) := do
  match ← randombytes 32 with
  | none => pure (-1, sig, siglen)
  | some optrand => do
    let sig ← liftCR (signBody shake sig m sk optrand)
    pure (0, sig, 49856)

/-- sphincs/sign.c:168-247 `crypto_sign_verify(sig, siglen, m, mlen, pk)`; `siglen` is the length passed, which may differ from the size of
the array. -/
def verify (sig : Bytes) (siglen : Nat) (m pk : Bytes) : C Int := do
  if siglen ≠ 49856 then pure (-1) else
  let pub ← copy (zeroBytes 32) 0 pk 0 32
  let ctx : Ctx := ⟨pub, none⟩
  let wotsAddr ← setType (zeroBytes 32) 0
  let treeAddr ← setType (zeroBytes 32) 2
  let wotsPkAddr ← setType (zeroBytes 32) 1
  let R ← copy (zeroBytes 32) 0 sig 0 32
  let pkb ← copy (zeroBytes 64) 0 pk 0 64
  let (mhash, tree, idxLeaf) ← hashMessage shake R pkb m
  let wotsAddr ← setTreeAddr wotsAddr tree
  let wotsAddr ← setKeypairAddr wotsAddr idxLeaf
  let root ← forsPkFromSig shake sig 32 mhash ctx wotsAddr
  let s ← loop (fun i s => do
    let (root, wotsAddr, treeAddr, wotsPkAddr, tree, idxLeaf) := (s : Bytes × Bytes × Bytes × Bytes × Nat × Nat)
    let treeAddr ← setLayerAddr treeAddr i
    let treeAddr ← setTreeAddr treeAddr tree
    let wotsAddr ← copySubtreeAddr wotsAddr treeAddr
    let wotsAddr ← setKeypairAddr wotsAddr idxLeaf
    let wotsPkAddr ← copyKeypairAddr wotsPkAddr wotsAddr
    let (wotsPk, wotsAddr) ← wotsPkFromSig shake sig (11232 + i * 2272) root ctx wotsAddr
    let leaf ← thash shake wotsPk 0 67 ctx wotsPkAddr
    let (root, treeAddr) ← computeRoot shake leaf idxLeaf 0 sig (11232 + i * 2272 + 2144) 4 ctx treeAddr
    let idxLeaf := tree &&& (2 ^ 4 - 1)
    let tree := tree >>> 4
    pure (root, wotsAddr, treeAddr, wotsPkAddr, tree, idxLeaf)) 0 17 (root, wotsAddr, treeAddr, wotsPkAddr, tree, idxLeaf)
  let pubRoot ← copy (zeroBytes 32) 0 pk 32 32
  if s.1 ≠ pubRoot then pure (-1) else pure 0

/-- sphincs/sign.c:252-263 `crypto_sign(sm, &smlen, m, mlen, sk)`: code, sm, smlen.  `siglen` is a local variable without initial value:
`junk` is what it happens to hold.  The result of `crypto_sign_signature` is ignored. -/
def cryptoSign (junk : Nat) (sm : Bytes) (m sk : Bytes) : RandM (Int × Bytes × Nat) := do
  let (_, sm, siglen) ← signature shake sm junk m sk
  let sm ← liftCR (copy sm 49856 m 0 m.length)
  pure (0, sm, (siglen + m.length) % 2 ^ 64)

/-- sphincs/sign.c:268-289 `crypto_sign_open(m, &mlen, sm, smlen, pk)`: code, m, mlen.  `m` and `sm` are separate arrays here. -/
def cryptoSignOpen (m sm : Bytes) (smlen : Nat) (pk : Bytes) : C (Int × Bytes × Nat) := do
  if smlen < 49856 then pure (-1, m, 0) else
  let mlen := smlen - 49856
  let msg ← copy (zeroBytes mlen) 0 sm 49856 mlen
  let r ← verify shake sm 49856 msg pk
  if r ≠ 0 then pure (-1, m, 0) else
  let m ← copy m 0 sm 49856 mlen
  pure (0, m, mlen)

end Verif.Sphincs
