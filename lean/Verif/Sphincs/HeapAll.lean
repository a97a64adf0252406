import Verif.Sphincs.Heap

/-!
The functions of /repo/sphincs that call the hash functions, with the Keccak contexts of those on the heap: the model of Sphincs/Model.lean
once more, call by call, in the monad `K` of Keccak/Heap.lean.  Functions that use no context are taken over with `onC`.
-/

namespace Verif.Sphincs.Heap
open Verif Verif.Keccak Verif.Keccak.Heap

/-- `for (k = i; k < i + n; k++) s = f(k, s)` where `f` uses contexts (for example sphincs/wots.c:34-37). -/
def loopH {σ : Type} (f : Nat → σ → K σ) : (i n : Nat) → σ → K σ
  | _, 0, s => pure s
  | i, n + 1, s => f i s >>= loopH f (i + 1) n

/-! ### utils.c: compute_root -/

/-- sphincs/utils.c:48-90 `compute_root(root, leaf, leaf_idx, idx_offset, auth_path + o, tree_height, ctx, addr)`: root and changed
address. -/
def computeRootH (leaf : Bytes) (leafIdx idxOffset : Nat) (auth : Bytes) (o treeHeight : Nat) (ctx : Ctx) (addr : Bytes) :
    K (Bytes × Bytes) := do
  let buffer ←
    (if leafIdx &&& 1 ≠ 0 then do
      let b ← onC (copy (zeroBytes 64) 32 leaf 0 32)
      onC (copy b 0 auth o 32)
    else do
      let b ← onC (copy (zeroBytes 64) 0 leaf 0 32)
      onC (copy b 32 auth o 32) : K Bytes)
  let (buffer, li, off, addr) ← loopH (fun i s => do
    let (buffer, li, off, addr) := (s : Bytes × Nat × Nat × Bytes)
    let li := li >>> 1
    let off := off >>> 1
    let addr ← onC (setTreeHeight addr (i + 1))
    let addr ← onC (setTreeIndex addr ((li + off) % 2 ^ 32))
    let t ← thashH buffer 0 2 ctx addr
    let buffer ←
      (if li &&& 1 ≠ 0 then do
        let b ← onC (copy buffer 32 t 0 32)
        onC (copy b 0 auth (o + 32 * (i + 1)) 32)
      else do
        let b ← onC (copy buffer 0 t 0 32)
        onC (copy b 32 auth (o + 32 * (i + 1)) 32) : K Bytes)
    pure (buffer, li, off, addr)) 0 (treeHeight - 1) (buffer, leafIdx, idxOffset, addr)
  let li := li >>> 1
  let off := off >>> 1
  let addr ← onC (setTreeHeight addr treeHeight)
  let addr ← onC (setTreeIndex addr ((li + off) % 2 ^ 32))
  let root ← thashH buffer 0 2 ctx addr
  pure (root, addr)

/-! ### utilsx1.c -/

/-- sphincs/utilsx1.c:52-98, the inner loop of `treehashx1` and the copy to the stack after it.  First result: `some root` when the
function returns, `none` when the outer loop goes on.  `fuel` bounds the loop `for (h = 0;; ...)`. -/
def treehashInnerH (ctx : Ctx) (treeHeight idx : Nat) : (fuel h internalIdx internalLeaf internalOff : Nat) →
    (auth stack current addr : Bytes) → K (Option Bytes × Bytes × Bytes × Bytes)
  | 0, _, _, _, _, _, _, _, _ => onC (.error .diverge)
  | fuel + 1, h, iIdx, iLeaf, iOff, auth, stack, current, addr =>
    if h = treeHeight then do
      let root ← onC (copy (zeroBytes 32) 0 current 32 32)
      pure (some root, auth, stack, addr)
    else do
      let auth ← (if iIdx ^^^ iLeaf = 1 then onC (copy auth (h * 32) current 32 32) else pure auth : K Bytes)
      if iIdx &&& 1 = 0 ∧ idx < 2 ^ treeHeight - 1 then do
        let stack ← onC (copy stack (h * 32) current 32 32)
        pure (none, auth, stack, addr)
      else do
        let iOff := iOff >>> 1
        let addr ← onC (setTreeHeight addr (h + 1))
        let addr ← onC (setTreeIndex addr ((iIdx / 2 + iOff) % 2 ^ 32))
        let current ← onC (copy current 0 stack (h * 32) 32)
        let t ← thashH current 0 2 ctx addr
        let current ← onC (copy current 32 t 0 32)
        treehashInnerH ctx treeHeight idx fuel (h + 1) (iIdx >>> 1) (iLeaf >>> 1) iOff auth stack current addr

/-- sphincs/utilsx1.c:39-99, the outer loop of `treehashx1`.  `genLeaf` is the callback with its mutable state `info`. -/
def treehashOuterH {ι : Type} (ctx : Ctx) (leafIdx idxOffset treeHeight : Nat) (genLeaf : Nat → ι → K (Bytes × ι)) :
    (fuel idx : Nat) → (auth stack addr : Bytes) → ι → K (Bytes × Bytes × Bytes × ι)
  | 0, _, _, _, _, _ => onC (.error .diverge)
  | fuel + 1, idx, auth, stack, addr, info => do
    let (leaf, info) ← genLeaf ((idx + idxOffset) % 2 ^ 32) info
    let current ← onC (copy (zeroBytes 64) 32 leaf 0 32)
    let (r, auth, stack, addr) ← treehashInnerH ctx treeHeight idx (treeHeight + 1) 0 idx leafIdx idxOffset auth stack current addr
    match r with
    | some root => pure (root, auth, addr, info)
    | none => treehashOuterH ctx leafIdx idxOffset treeHeight genLeaf fuel (idx + 1) auth stack addr info

/-- sphincs/utilsx1.c:24-100 `treehashx1`: root, auth_path, tree_addr, info.  `stack` is the uninitialised local array. -/
def treehashx1H {ι : Type} (ctx : Ctx) (leafIdx idxOffset treeHeight : Nat) (genLeaf : Nat → ι → K (Bytes × ι))
    (auth stack addr : Bytes) (info : ι) : K (Bytes × Bytes × Bytes × ι) :=
  treehashOuterH ctx leafIdx idxOffset treeHeight genLeaf (2 ^ treeHeight) 0 auth stack addr info

/-! ### wots.c -/

/-- sphincs/wots.c:25-38 `gen_chain(out, in + o, start, steps, ctx, addr)`: out, addr. -/
def genChainH (inp : Bytes) (o start steps : Nat) (ctx : Ctx) (addr : Bytes) : K (Bytes × Bytes) := do
  let out ← onC (copy (zeroBytes 32) 0 inp o 32)
  loopH (fun i s => do
    let addr ← onC (setHashAddr s.2 i)
    let out ← thashH s.1 0 1 ctx addr
    pure (out, addr)) start (min ((start + steps) % 2 ^ 32) 16 - start) (out, addr)

/-- sphincs/wots.c:95-108 `wots_pk_from_sig(pk, sig + o, msg, ctx, addr)`: pk, addr. -/
def wotsPkFromSigH (sig : Bytes) (o : Nat) (msg : Bytes) (ctx : Ctx) (addr : Bytes) : K (Bytes × Bytes) := do
  let lengths ← onC (chainLengths msg)
  loopH (fun i s => do
    let addr ← onC (setChainAddr s.2 i)
    let l ← onC (rd lengths i)
    let (c, addr) ← genChainH sig (o + i * 32) l ((2 ^ 32 + 15 - l) % 2 ^ 32) ctx addr
    let pk ← onC (copy s.1 (i * 32) c 0 32)
    pure (pk, addr)) 0 67 (zeroBytes 2144, addr)

/-! ### wotsx1.c -/

/-- sphincs/wotsx1.c:55-71, the chain loop `for (k = 0;; k++)` for chain `i`: buffer, wots_sig, leaf_addr. -/
def wotsChainLoopH (ctx : Ctx) (i wotsK : Nat) : (fuel k : Nat) → (buffer wotsSig leafAddr : Bytes) → K (Bytes × Bytes × Bytes)
  | 0, _, _, _, _ => onC (.error .diverge)
  | fuel + 1, k, buffer, wotsSig, leafAddr => do
    let wotsSig ← (if k = wotsK then onC (copy wotsSig (i * 32) buffer 0 32) else pure wotsSig : K Bytes)
    if k = 15 then pure (buffer, wotsSig, leafAddr) else do
    let leafAddr ← onC (setHashAddr leafAddr k)
    let buffer ← thashH buffer 0 1 ctx leafAddr
    wotsChainLoopH ctx i wotsK fuel (k + 1) buffer wotsSig leafAddr

/-- sphincs/wotsx1.c:18-76 `wots_gen_leafx1(dest, ctx, leaf_idx, info)`. -/
def wotsGenLeafH (ctx : Ctx) (leafIdx : Nat) (info : LeafInfo) : K (Bytes × LeafInfo) := do
  let mask := if leafIdx = info.wotsSignLeaf then 0 else 2 ^ 32 - 1
  let leafAddr ← onC (setKeypairAddr info.leafAddr leafIdx)
  let pkAddr ← onC (setKeypairAddr info.pkAddr leafIdx)
  let (pkBuffer, wotsSig, leafAddr) ← loopH (fun i s => do
    let (pkBuffer, wotsSig, leafAddr) := (s : Bytes × Bytes × Bytes)
    let step ← onC (rd info.wotsSteps i)
    let wotsK := step ||| mask
    let leafAddr ← onC (setChainAddr leafAddr i)
    let leafAddr ← onC (setHashAddr leafAddr 0)
    let leafAddr ← onC (setType leafAddr 5)
    let buffer ← prfAddrH ctx leafAddr
    let leafAddr ← onC (setType leafAddr 0)
    let (buffer, wotsSig, leafAddr) ← wotsChainLoopH ctx i wotsK 16 0 buffer wotsSig leafAddr
    let pkBuffer ← onC (copy pkBuffer (i * 32) buffer 0 32)
    pure (pkBuffer, wotsSig, leafAddr)) 0 67 (zeroBytes 2144, info.wotsSig, leafAddr)
  let dest ← thashH pkBuffer 0 67 ctx pkAddr
  pure (dest, { info with wotsSig := wotsSig, leafAddr := leafAddr, pkAddr := pkAddr })

/-! ### merkle.c -/

/-- sphincs/merkle.c:18-42 `merkle_sign(sig, root, ctx, wots_addr, tree_addr, idx_leaf)`: sig, root, tree_addr.  The two ranges
`sig[0..2143]` and `sig[2144..2271]` that `info.wots_sig` and `auth_path` point to are handled as two arrays. -/
def merkleSignH (sig : Bytes) (o : Nat) (root : Bytes) (ctx : Ctx) (wotsAddr treeAddr : Bytes) (idxLeaf : Nat) : K (Bytes × Bytes × Bytes) := do
  let wotsPart ← onC (copy (zeroBytes 2144) 0 sig o 2144)
  let authPart ← onC (copy (zeroBytes 128) 0 sig (o + 2144) 128)
  let steps ← onC (chainLengths root)
  let treeAddr ← onC (setType treeAddr 2)
  let pkAddr ← onC (setType (zeroBytes 32) 1)
  let leafAddr ← onC (copySubtreeAddr (zeroBytes 32) wotsAddr)
  let pkAddr ← onC (copySubtreeAddr pkAddr wotsAddr)
  let info : LeafInfo := ⟨wotsPart, idxLeaf, steps, leafAddr, pkAddr⟩
  let (root, authPart, treeAddr, info) ←
    treehashx1H ctx idxLeaf 0 4 (wotsGenLeafH ctx) authPart (zeroBytes 128) treeAddr info
  let sig ← onC (copy sig o info.wotsSig 0 2144)
  let sig ← onC (copy sig (o + 2144) authPart 0 128)
  pure (sig, root, treeAddr)

/-- sphincs/merkle.c:45-59 `merkle_gen_root(root, ctx)`; `root` is the old content of the output, which is read. -/
def merkleGenRootH (root : Bytes) (ctx : Ctx) : K Bytes := do
  let topTreeAddr ← onC (setLayerAddr (zeroBytes 32) 16)
  let wotsAddr ← onC (setLayerAddr (zeroBytes 32) 16)
  let (_, root, _) ← merkleSignH (zeroBytes 2272) 0 root ctx wotsAddr topTreeAddr (2 ^ 32 - 1)
  pure root

/-! ### fors.c -/

/-- sphincs/fors.c:28-42 `fors_gen_leafx1`; the state is `leaf_addrx`. -/
def forsGenLeafH (ctx : Ctx) (addrIdx : Nat) (leafAddr : Bytes) : K (Bytes × Bytes) := do
  let leafAddr ← onC (setTreeIndex leafAddr addrIdx)
  let leafAddr ← onC (setType leafAddr 6)
  let leaf ← prfAddrH ctx leafAddr
  let leafAddr ← onC (setType leafAddr 3)
  let leaf ← thashH leaf 0 1 ctx leafAddr
  pure (leaf, leafAddr)

/-- sphincs/fors.c:66-109 `fors_sign(sig + o, pk, m, ctx, fors_addr)`: sig, pk.  The auth path range of `sig` that is passed to
`treehashx1` is handled as an array of its own. -/
def forsSignH (sig : Bytes) (o : Nat) (m : Bytes) (ctx : Ctx) (forsAddr : Bytes) : K (Bytes × Bytes) := do
  let treeAddr ← onC (copyKeypairAddr (zeroBytes 32) forsAddr)
  let leafAddr ← onC (copyKeypairAddr (zeroBytes 32) forsAddr)
  let pkAddr ← onC (copyKeypairAddr (zeroBytes 32) forsAddr)
  let pkAddr ← onC (setType pkAddr 4)
  let indices ← onC (messageToIndices m)
  let (sig, roots, _, _) ← loopH (fun i s => do
    let (sig, roots, treeAddr, leafAddr) := (s : Bytes × Bytes × Bytes × Bytes)
    let idxOffset := i * 2 ^ 9
    let idx ← onC (rd indices i)
    let treeAddr ← onC (setTreeHeight treeAddr 0)
    let treeAddr ← onC (setTreeIndex treeAddr ((idx + idxOffset) % 2 ^ 32))
    let treeAddr ← onC (setType treeAddr 6)
    let sk ← prfAddrH ctx treeAddr
    let sig ← onC (copy sig (o + i * 320) sk 0 32)
    let treeAddr ← onC (setType treeAddr 3)
    let auth ← onC (copy (zeroBytes 288) 0 sig (o + i * 320 + 32) 288)
    let (root, auth, treeAddr, leafAddr) ←
      treehashx1H ctx idx idxOffset 9 (forsGenLeafH ctx) auth (zeroBytes 288) treeAddr leafAddr
    let sig ← onC (copy sig (o + i * 320 + 32) auth 0 288)
    let roots ← onC (copy roots (i * 32) root 0 32)
    pure (sig, roots, treeAddr, leafAddr)) 0 35 (sig, zeroBytes 1120, treeAddr, leafAddr)
  let pk ← thashH roots 0 35 ctx pkAddr
  pure (sig, pk)

/-- sphincs/fors.c:118-156 `fors_pk_from_sig(pk, sig + o, m, ctx, fors_addr)`. -/
def forsPkFromSigH (sig : Bytes) (o : Nat) (m : Bytes) (ctx : Ctx) (forsAddr : Bytes) : K Bytes := do
  let treeAddr ← onC (copyKeypairAddr (zeroBytes 32) forsAddr)
  let pkAddr ← onC (copyKeypairAddr (zeroBytes 32) forsAddr)
  let treeAddr ← onC (setType treeAddr 3)
  let pkAddr ← onC (setType pkAddr 4)
  let indices ← onC (messageToIndices m)
  let (roots, _) ← loopH (fun i s => do
    let (roots, treeAddr) := (s : Bytes × Bytes)
    let idxOffset := i * 2 ^ 9
    let idx ← onC (rd indices i)
    let treeAddr ← onC (setTreeHeight treeAddr 0)
    let treeAddr ← onC (setTreeIndex treeAddr ((idx + idxOffset) % 2 ^ 32))
    let leaf ← thashH sig (o + i * 320) 1 ctx treeAddr
    let (root, treeAddr) ← computeRootH leaf idx idxOffset sig (o + i * 320 + 32) 9 ctx treeAddr
    let roots ← onC (copy roots (i * 32) root 0 32)
    pure (roots, treeAddr)) 0 35 (zeroBytes 1120, treeAddr)
  thashH roots 0 35 ctx pkAddr

/-! ### sign.c -/

/-- sphincs/sign.c:50-75 `crypto_sign_seed_keypair(pk, sk, seed)`: code, pk, sk. -/
def seedKeypairH (pk sk seed : Bytes) : K (Int × Bytes × Bytes) := do
  let sk ← onC (copy sk 0 seed 0 96)
  let pk ← onC (copy pk 0 sk 64 32)
  let pub ← onC (copy (zeroBytes 32) 0 pk 0 32)
  let sec ← onC (copy (zeroBytes 32) 0 sk 0 32)
  let old ← onC (copy (zeroBytes 32) 0 sk 96 32)
  let root ← merkleGenRootH old ⟨pub, some sec⟩
  let sk ← onC (copy sk 96 root 0 32)
  let pk ← onC (copy pk 32 sk 96 32)
  pure (0, pk, sk)

/-- sphincs/sign.c:96-163 `crypto_sign_signature`, the part after the draw of `optrand`: the signature buffer. -/
def signBodyH (sig m sk optrand : Bytes) : K Bytes := do
  let skPrf ← onC (copy (zeroBytes 32) 0 sk 32 32)
  let pk ← onC (copy (zeroBytes 64) 0 sk 64 64)
  let sec ← onC (copy (zeroBytes 32) 0 sk 0 32)
  let pub ← onC (copy (zeroBytes 32) 0 pk 0 32)
  let ctx : Ctx := ⟨pub, some sec⟩
  let wotsAddr ← onC (setType (zeroBytes 32) 0)
  let treeAddr ← onC (setType (zeroBytes 32) 2)
  let R ← genMessageRandomH skPrf optrand m
  let sig ← onC (copy sig 0 R 0 32)
  let R ← onC (copy (zeroBytes 32) 0 sig 0 32)
  let (mhash, tree, idxLeaf) ← hashMessageH R pk m
  let wotsAddr ← onC (setTreeAddr wotsAddr tree)
  let wotsAddr ← onC (setKeypairAddr wotsAddr idxLeaf)
  let (sig, root) ← forsSignH sig 32 mhash ctx wotsAddr
  let s ← loopH (fun i s => do
    let (sig, root, wotsAddr, treeAddr, tree, idxLeaf) := (s : Bytes × Bytes × Bytes × Bytes × Nat × Nat)
    let treeAddr ← onC (setLayerAddr treeAddr i)
    let treeAddr ← onC (setTreeAddr treeAddr tree)
    let wotsAddr ← onC (copySubtreeAddr wotsAddr treeAddr)
    let wotsAddr ← onC (setKeypairAddr wotsAddr idxLeaf)
    let (sig, root, treeAddr) ← merkleSignH sig (11232 + i * 2272) root ctx wotsAddr treeAddr idxLeaf
    let idxLeaf := tree &&& (2 ^ 4 - 1)
    let tree := tree >>> 4
    pure (sig, root, wotsAddr, treeAddr, tree, idxLeaf)) 0 17 (sig, root, wotsAddr, treeAddr, tree, idxLeaf)
  pure s.1

/-- sphincs/sign.c:168-247 `crypto_sign_verify(sig, siglen, m, mlen, pk)`; `siglen` is the length passed, which may differ from the size of
the array. -/
def verifyH (sig : Bytes) (siglen : Nat) (m pk : Bytes) : K Int := do
  if siglen ≠ 49856 then pure (-1) else
  let pub ← onC (copy (zeroBytes 32) 0 pk 0 32)
  let ctx : Ctx := ⟨pub, none⟩
  let wotsAddr ← onC (setType (zeroBytes 32) 0)
  let treeAddr ← onC (setType (zeroBytes 32) 2)
  let wotsPkAddr ← onC (setType (zeroBytes 32) 1)
  let R ← onC (copy (zeroBytes 32) 0 sig 0 32)
  let pkb ← onC (copy (zeroBytes 64) 0 pk 0 64)
  let (mhash, tree, idxLeaf) ← hashMessageH R pkb m
  let wotsAddr ← onC (setTreeAddr wotsAddr tree)
  let wotsAddr ← onC (setKeypairAddr wotsAddr idxLeaf)
  let root ← forsPkFromSigH sig 32 mhash ctx wotsAddr
  let s ← loopH (fun i s => do
    let (root, wotsAddr, treeAddr, wotsPkAddr, tree, idxLeaf) := (s : Bytes × Bytes × Bytes × Bytes × Nat × Nat)
    let treeAddr ← onC (setLayerAddr treeAddr i)
    let treeAddr ← onC (setTreeAddr treeAddr tree)
    let wotsAddr ← onC (copySubtreeAddr wotsAddr treeAddr)
    let wotsAddr ← onC (setKeypairAddr wotsAddr idxLeaf)
    let wotsPkAddr ← onC (copyKeypairAddr wotsPkAddr wotsAddr)
    let (wotsPk, wotsAddr) ← wotsPkFromSigH sig (11232 + i * 2272) root ctx wotsAddr
    let leaf ← thashH wotsPk 0 67 ctx wotsPkAddr
    let (root, treeAddr) ← computeRootH leaf idxLeaf 0 sig (11232 + i * 2272 + 2144) 4 ctx treeAddr
    let idxLeaf := tree &&& (2 ^ 4 - 1)
    let tree := tree >>> 4
    pure (root, wotsAddr, treeAddr, wotsPkAddr, tree, idxLeaf)) 0 17 (root, wotsAddr, treeAddr, wotsPkAddr, tree, idxLeaf)
  let pubRoot ← onC (copy (zeroBytes 32) 0 pk 32 32)
  if s.1 ≠ pubRoot then pure (-1) else pure 0

/-- sphincs/sign.c:268-289 `crypto_sign_open(m, &mlen, sm, smlen, pk)`: code, m, mlen.  `m` and `sm` are separate arrays here. -/
def cryptoSignOpenH (m sm : Bytes) (smlen : Nat) (pk : Bytes) : K (Int × Bytes × Nat) := do
  if smlen < 49856 then pure (-1, m, 0) else
  let mlen := smlen - 49856
  let msg ← onC (copy (zeroBytes mlen) 0 sm 49856 mlen)
  let r ← verifyH sm 49856 msg pk
  if r ≠ 0 then pure (-1, m, 0) else
  let m ← onC (copy m 0 sm 49856 mlen)
  pure (0, m, mlen)

end Verif.Sphincs.Heap
