import Verif.Base

/-!
SPHINCS+-SHAKE-256f-simple as a mathematical scheme, written from the SPHINCS+ round 3.1 submission (sections 2.7.3, 3, 4, 5, 6),
not from the C code.  Everything is a plain function over byte strings; `H m n` stands for the first `n` bytes of
SHAKE256(m).
-/

namespace Verif.Sphincs.Spec
open Verif

/-- Big-endian encoding of a number in `n` bytes. -/
def be : Nat → Nat → Bytes
  | 0, _ => []
  | n + 1, v => be n (v / 256) ++ [BitVec.ofNat 8 v]

/-- Big-endian value of a byte string. -/
def ofBe (b : Bytes) : Nat := b.foldl (fun a x => 256 * a + x.toNat) 0

/-- A hash address (section 2.7.3): layer, tree, type and three words whose meaning depends on the type. -/
structure Adrs where
  layer : Nat
  tree : Nat
  type : Nat
  w1 : Nat
  w2 : Nat
  w3 : Nat

/-- The 32 bytes of an address: fields of 4, 12, 4, 4, 4 and 4 bytes. -/
def Adrs.bytes (a : Adrs) : Bytes := be 4 a.layer ++ be 12 a.tree ++ be 4 a.type ++ be 4 a.w1 ++ be 4 a.w2 ++ be 4 a.w3

/-- The public seed and the secret seed that all hash calls are keyed with. -/
structure Seeds where
  pub : Bytes
  sec : Bytes

variable (H : Bytes → Nat → Bytes)

/-- The tweakable hash functions F, H and T_l of the simple SHAKE instantiation (section 7.2.1). -/
def T (pub : Bytes) (a : Adrs) (m : Bytes) : Bytes := H (pub ++ a.bytes ++ m) 32

/-- PRF (section 7.2.1). -/
def prf (s : Seeds) (a : Adrs) : Bytes := H (s.pub ++ a.bytes ++ s.sec) 32

/-! ### WOTS+ (section 3); types: 0 WOTS_HASH, 1 WOTS_PK, 5 WOTS_PRF -/

/-- The 64 base-16 digits of a 32-byte message followed by the 3 digits of the checksum. -/
def msgDigit (m : Bytes) (i : Nat) : Nat := ofBe m / 16 ^ (63 - i) % 16
/-- The checksum of the digits (compare sphincs/wots.c:66-82). -/
def checksum (m : Bytes) : Nat := ((List.range 64).map fun i => 15 - msgDigit m i).sum
/-- The digits of message and checksum (compare sphincs/wots.c:85-88). -/
def digit (m : Bytes) (i : Nat) : Nat := if i < 64 then msgDigit m i else checksum m / 16 ^ (66 - i) % 16

/-- `steps` applications of F from position `start` of the chain. -/
def chain (pub : Bytes) (a : Adrs) (x : Bytes) (start : Nat) : Nat → Bytes
  | 0 => x
  | k + 1 => T H pub { a with w3 := start + k } (chain pub a x start k)

/-- Which one-time key: layer, tree and leaf number. -/
structure Loc where
  layer : Nat
  tree : Nat
  leaf : Nat

/-- Address of chain i. -/
def wotsAdrs (l : Loc) (i : Nat) : Adrs := ⟨l.layer, l.tree, 0, l.leaf, i, 0⟩
/-- Secret value of chain i (compare sphincs/wotsx1.c:18-76). -/
def wotsSk (s : Seeds) (l : Loc) (i : Nat) : Bytes := prf H s ⟨l.layer, l.tree, 5, l.leaf, i, 0⟩
/-- The compressed one-time public key, from the 67 chain ends. -/
def wotsCompress (pub : Bytes) (l : Loc) (ends : Nat → Bytes) : Bytes :=
  T H pub ⟨l.layer, l.tree, 1, l.leaf, 0, 0⟩ ((List.range 67).flatMap ends)
/-- The compressed WOTS+ public key. -/
def wotsPk (s : Seeds) (l : Loc) : Bytes :=
  wotsCompress H s.pub l fun i => chain H s.pub (wotsAdrs l i) (wotsSk H s l i) 0 15
/-- The WOTS+ signature. -/
def wotsSig (s : Seeds) (l : Loc) (m : Bytes) : Bytes :=
  (List.range 67).flatMap fun i => chain H s.pub (wotsAdrs l i) (wotsSk H s l i) 0 (digit m i)
/-- The compressed public key that a one-time signature leads to. -/
def wotsPkFromSig (pub : Bytes) (l : Loc) (sig m : Bytes) : Bytes :=
  wotsCompress H pub l fun i => chain H pub (wotsAdrs l i) (slice sig (32 * i) 32) (digit m i) (15 - digit m i)

/-! ### Binary hash trees (sections 4.1.3 and 5.3) -/

/-- Node number `i` at height `h` of the binary tree over the leaves `leaf 0, leaf 1, ...`; `adrs h i` is its address. -/
def node (pub : Bytes) (adrs : Nat → Nat → Adrs) (leaf : Nat → Bytes) : Nat → Nat → Bytes
  | 0, i => leaf i
  | h + 1, i => T H pub (adrs (h + 1) i) (node pub adrs leaf h (2 * i) ++ node pub adrs leaf h (2 * i + 1))

/-- The other child of the same parent. -/
def sibling (i : Nat) : Nat := if i % 2 = 0 then i + 1 else i - 1

/-- Authentication path of leaf `i`: the siblings of the nodes on the way up. -/
def authPath (pub : Bytes) (adrs : Nat → Nat → Adrs) (leaf : Nat → Bytes) (height i : Nat) : Bytes :=
  (List.range height).flatMap fun h => node H pub adrs leaf h (sibling (i / 2 ^ h))

/-- The node at height `h` above leaf `i` that a leaf value and an authentication path lead to. -/
def climb (pub : Bytes) (adrs : Nat → Nat → Adrs) (leaf auth : Bytes) (i : Nat) : Nat → Bytes
  | 0 => leaf
  | h + 1 =>
    let x := climb pub adrs leaf auth i h
    let y := slice auth (32 * h) 32
    T H pub (adrs (h + 1) (i / 2 ^ (h + 1))) (if i / 2 ^ h % 2 = 0 then x ++ y else y ++ x)

/-! ### XMSS trees and the hypertree (section 4): 17 layers of trees of height 4; type 2 TREE -/

/-- Address of a node of a Merkle tree. -/
def xmssAdrs (layer tree h i : Nat) : Adrs := ⟨layer, tree, 2, 0, h, i⟩
/-- Root of a Merkle tree (compare sphincs/merkle.c:45-59). -/
def xmssRoot (s : Seeds) (layer tree : Nat) : Bytes :=
  node H s.pub (xmssAdrs layer tree) (fun i => wotsPk H s ⟨layer, tree, i⟩) 4 0
/-- WOTS+ signature and authentication path (compare sphincs/merkle.c:18-42). -/
def xmssSign (s : Seeds) (layer tree leaf : Nat) (m : Bytes) : Bytes :=
  wotsSig H s ⟨layer, tree, leaf⟩ m ++ authPath H s.pub (xmssAdrs layer tree) (fun i => wotsPk H s ⟨layer, tree, i⟩) 4 leaf
/-- The root that a signature leads to (compare sphincs/utils.c:48-90). -/
def xmssRootFromSig (pub : Bytes) (layer tree leaf : Nat) (sig m : Bytes) : Bytes :=
  climb H pub (xmssAdrs layer tree) (wotsPkFromSig H pub ⟨layer, tree, leaf⟩ (sig.take 2144) m) (sig.drop 2144) leaf 4

/-- Hypertree signature of `m`: `n` layers from `layer` upwards; each layer signs the root of the tree below, the next leaf number is
the last hex digit of the tree number. -/
def htSign (s : Seeds) : (n layer tree leaf : Nat) → (m : Bytes) → Bytes
  | 0, _, _, _, _ => []
  | n + 1, layer, tree, leaf, m =>
    xmssSign H s layer tree leaf m ++ htSign s n (layer + 1) (tree / 16) (tree % 16) (xmssRoot H s layer tree)
/-- The top root that a hypertree signature leads to; 2272 bytes per layer. -/
def htRootFromSig (pub : Bytes) : (n layer tree leaf : Nat) → (sig m : Bytes) → Bytes
  | 0, _, _, _, _, m => m
  | n + 1, layer, tree, leaf, sig, m =>
    htRootFromSig pub n (layer + 1) (tree / 16) (tree % 16) (sig.drop 2272)
      (xmssRootFromSig H pub layer tree leaf (sig.take 2272) m)

/-! ### FORS (section 5): 35 trees of height 9; types 3 FORS_TREE, 4 FORS_ROOTS, 6 FORS_PRF -/

/-- The 35 indices of 9 bits in a 40-byte digest, most significant bit first. -/
def forsIndex (md : Bytes) (i : Nat) : Nat := ofBe md / 2 ^ (320 - 9 * (i + 1)) % 512

/-- Address of a node of FORS tree t. -/
def forsAdrs (l : Loc) (t h i : Nat) : Adrs := ⟨l.layer, l.tree, 3, l.leaf, h, t * 2 ^ (9 - h) + i⟩
/-- Secret value of a FORS leaf (compare sphincs/fors.c:13-16). -/
def forsSk (s : Seeds) (l : Loc) (t i : Nat) : Bytes := prf H s ⟨l.layer, l.tree, 6, l.leaf, 0, t * 512 + i⟩
/-- A FORS leaf (compare sphincs/fors.c:18-22). -/
def forsLeaf (s : Seeds) (l : Loc) (t i : Nat) : Bytes := T H s.pub (forsAdrs l t 0 i) (forsSk H s l t i)
/-- The FORS public key from the roots. -/
def forsCompress (pub : Bytes) (l : Loc) (roots : Nat → Bytes) : Bytes :=
  T H pub ⟨l.layer, l.tree, 4, l.leaf, 0, 0⟩ ((List.range 35).flatMap roots)
/-- The FORS public key. -/
def forsPk (s : Seeds) (l : Loc) : Bytes :=
  forsCompress H s.pub l fun t => node H s.pub (forsAdrs l t) (forsLeaf H s l t) 9 0
/-- The FORS signature (compare sphincs/fors.c:66-109). -/
def forsSign (s : Seeds) (l : Loc) (md : Bytes) : Bytes :=
  (List.range 35).flatMap fun t =>
    forsSk H s l t (forsIndex md t) ++ authPath H s.pub (forsAdrs l t) (forsLeaf H s l t) 9 (forsIndex md t)
/-- The FORS public key that a signature leads to (compare sphincs/fors.c:118-156). -/
def forsPkFromSig (pub : Bytes) (l : Loc) (sig md : Bytes) : Bytes :=
  forsCompress H pub l fun t =>
    climb H pub (forsAdrs l t) (T H pub (forsAdrs l t 0 (forsIndex md t)) (slice sig (320 * t) 32))
      (slice sig (320 * t + 32) 288) (forsIndex md t) 9

/-! ### SPHINCS+ (section 6) -/

/-- Message digest, tree index and leaf index. -/
def digest (R pk m : Bytes) : Bytes := H (R ++ pk ++ m) 49
/-- The part of the digest that FORS signs (compare sphincs/hash_shake.c:50-82). -/
def mdOf (d : Bytes) : Bytes := d.take 40
/-- The tree index in the digest. -/
def treeOf (d : Bytes) : Nat := ofBe (slice d 40 8)
/-- The leaf index in the digest. -/
def leafOf (d : Bytes) : Nat := ofBe (slice d 48 1) % 16

/-- Public key: public seed and root of the single tree of the top layer. -/
def publicKey (s : Seeds) : Bytes := s.pub ++ xmssRoot H s 16 0

/-- Signature for secret key (seeds, prf key), public key bytes `pk` and the randomiser `opt`. -/
def sign (s : Seeds) (skPrf pk opt m : Bytes) : Bytes :=
  let R := H (skPrf ++ opt ++ m) 32
  let d := digest H R pk m
  let l : Loc := ⟨0, treeOf d, leafOf d⟩
  R ++ forsSign H s l (mdOf d) ++ htSign H s 17 0 (treeOf d) (leafOf d) (forsPk H s l)

/-- The root that a signature leads to; the signature is valid when this is the root in the public key. -/
def rootFromSig (pk sig m : Bytes) : Bytes :=
  let d := digest H (sig.take 32) pk m
  let l : Loc := ⟨0, treeOf d, leafOf d⟩
  htRootFromSig H (pk.take 32) 17 0 (treeOf d) (leafOf d) (sig.drop 11232)
    (forsPkFromSig H (pk.take 32) l (slice sig 32 11200) (mdOf d))

/-- Validity of a signature. -/
def Valid (pk sig m : Bytes) : Prop := sig.length = 49856 ∧ rootFromSig H pk sig m = pk.drop 32

end Verif.Sphincs.Spec
