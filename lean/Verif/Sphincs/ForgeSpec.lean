import Verif.Sphincs.Spec

/-!
What a signature that was not made with the secret key must contain, in terms of the specification alone (used by C96).
-/

namespace Verif.Sphincs.Spec
open Verif

/-- The one-time keys that a key pair has: 17 layers, on layer k the tree number has 16 - k hex digits (compare sphincs/sign.c:133-155). -/
structure Loc.In (l : Loc) : Prop where
  layer : l.layer < 17
  tree : l.tree < 16 ^ (16 - l.layer)
  leaf : l.leaf < 16

variable (H : Bytes → Nat → Bytes)

/-- What the one-time key at a place signs, in every signature that uses it: on layer 0 the FORS public key of this place, above the root of the tree below
(compare sphincs/sign.c:133-155). -/
def signed (s : Seeds) (l : Loc) : Bytes :=
  match l.layer with
  | 0 => forsPk H s l
  | k + 1 => xmssRoot H s k (16 * l.tree + l.leaf)

/-- `Hashes s a x`: in the trees of the key pair the tweakable hash function is applied to `x` at address `a` (compare sphincs/wotsx1.c:18-76, sphincs/utilsx1.c:24-100,
sphincs/fors.c:13-61). -/
inductive Hashes (s : Seeds) : Adrs → Bytes → Prop
  | chain (l : Loc) (i k : Nat) : l.In → i < 67 → k < 15 → Hashes s { wotsAdrs l i with w3 := k } (chain H s.pub (wotsAdrs l i) (wotsSk H s l i) 0 k)
  | ends (l : Loc) : l.In → Hashes s ⟨l.layer, l.tree, 1, l.leaf, 0, 0⟩ ((List.range 67).flatMap fun i => Spec.chain H s.pub (wotsAdrs l i) (wotsSk H s l i) 0 15)
  | node (layer tree h i : Nat) : layer < 17 → tree < 16 ^ (16 - layer) → h < 4 → i < 2 ^ (3 - h) →
      Hashes s (xmssAdrs layer tree (h + 1) i) (node H s.pub (xmssAdrs layer tree) (fun i => wotsPk H s ⟨layer, tree, i⟩) h (2 * i) ++
        Spec.node H s.pub (xmssAdrs layer tree) (fun i => wotsPk H s ⟨layer, tree, i⟩) h (2 * i + 1))
  | forsLeaf (l : Loc) (t i : Nat) : l.In → l.layer = 0 → t < 35 → i < 512 → Hashes s (forsAdrs l t 0 i) (forsSk H s l t i)
  | forsNode (l : Loc) (t h i : Nat) : l.In → l.layer = 0 → t < 35 → h < 9 → i < 2 ^ (8 - h) →
      Hashes s (forsAdrs l t (h + 1) i) (Spec.node H s.pub (forsAdrs l t) (Spec.forsLeaf H s l t) h (2 * i) ++ Spec.node H s.pub (forsAdrs l t) (Spec.forsLeaf H s l t) h (2 * i + 1))
  | forsRoots (l : Loc) : l.In → l.layer = 0 → Hashes s ⟨l.layer, l.tree, 4, l.leaf, 0, 0⟩ ((List.range 35).flatMap fun t => Spec.node H s.pub (forsAdrs l t) (Spec.forsLeaf H s l t) 9 0)

/-! The applications of the tweakable hash function in verification: addresses and strings, in the order of the code. -/

/-- An application of the tweakable hash function: address and string (compare sphincs/thash_shake_simple.c:15-24). -/
abbrev Call := Adrs × Bytes

/-- `n` steps of a chain from position `k` with value `x` (compare sphincs/wots.c:31-43). -/
def chainCalls (pub : Bytes) (a : Adrs) (x : Bytes) (k n : Nat) : List Call := (List.range n).map fun j => ({ a with w3 := k + j }, chain H pub a x k j)

/-- The way from a leaf to height `D` (compare sphincs/utils.c:64-98). -/
def climbCalls (pub : Bytes) (adrs : Nat → Nat → Adrs) (leaf auth : Bytes) (i D : Nat) : List Call :=
  (List.range D).map fun h => (adrs (h + 1) (i / 2 ^ (h + 1)),
    if i / 2 ^ h % 2 = 0 then climb H pub adrs leaf auth i h ++ slice auth (32 * h) 32 else slice auth (32 * h) 32 ++ climb H pub adrs leaf auth i h)

/-- The public key from a one-time signature (compare sphincs/wots.c:95-108 and the compression in sphincs/sign.c:225-227). -/
def wotsCalls (pub : Bytes) (l : Loc) (sig m : Bytes) : List Call :=
  ((List.range 67).flatMap fun i => chainCalls H pub (wotsAdrs l i) (slice sig (32 * i) 32) (digit m i) (15 - digit m i)) ++
    [(⟨l.layer, l.tree, 1, l.leaf, 0, 0⟩, (List.range 67).flatMap fun i => chain H pub (wotsAdrs l i) (slice sig (32 * i) 32) (digit m i) (15 - digit m i))]

/-- One layer (compare sphincs/sign.c:211-236). -/
def xmssCalls (pub : Bytes) (layer tree leaf : Nat) (sig m : Bytes) : List Call :=
  wotsCalls H pub ⟨layer, tree, leaf⟩ (sig.take 2144) m ++
    climbCalls H pub (xmssAdrs layer tree) (wotsPkFromSig H pub ⟨layer, tree, leaf⟩ (sig.take 2144) m) (sig.drop 2144) leaf 4

/-- The layers (compare sphincs/sign.c:211-236). -/
def htCalls (pub : Bytes) : (n layer tree leaf : Nat) → (sig m : Bytes) → List Call
  | 0, _, _, _, _, _ => []
  | n + 1, layer, tree, leaf, sig, m =>
    xmssCalls H pub layer tree leaf (sig.take 2272) m ++
      htCalls pub n (layer + 1) (tree / 16) (tree % 16) (sig.drop 2272) (xmssRootFromSig H pub layer tree leaf (sig.take 2272) m)

/-- The FORS root of tree `t` that the signature leads to (compare sphincs/fors.c:118-156). -/
def forsRootFromSig (pub : Bytes) (l : Loc) (sig md : Bytes) (t : Nat) : Bytes :=
  climb H pub (forsAdrs l t) (T H pub (forsAdrs l t 0 (forsIndex md t)) (slice sig (320 * t) 32)) (slice sig (320 * t + 32) 288) (forsIndex md t) 9

/-- The FORS public key (compare sphincs/fors.c:118-156). -/
def forsCalls (pub : Bytes) (l : Loc) (sig md : Bytes) : List Call :=
  ((List.range 35).flatMap fun t => (forsAdrs l t 0 (forsIndex md t), slice sig (320 * t) 32) ::
    climbCalls H pub (forsAdrs l t) (T H pub (forsAdrs l t 0 (forsIndex md t)) (slice sig (320 * t) 32)) (slice sig (320 * t + 32) 288) (forsIndex md t) 9) ++
    [(⟨l.layer, l.tree, 4, l.leaf, 0, 0⟩, (List.range 35).flatMap (forsRootFromSig H pub l sig md))]

/-- All of verification (compare sphincs/sign.c:169-240). -/
def verifyCalls (pk sig m : Bytes) : List Call :=
  let d := digest H (sig.take 32) pk m
  let l : Loc := ⟨0, treeOf d, leafOf d⟩
  forsCalls H (pk.take 32) l (slice sig 32 11200) (mdOf d) ++
    htCalls H (pk.take 32) 17 0 (treeOf d) (leafOf d) (sig.drop 11232) (forsPkFromSig H (pk.take 32) l (slice sig 32 11200) (mdOf d))

/-- One of the given applications of the hash function is to another string, of the same length and with the same hash value, than the string that is hashed at the same
address in the trees of the key pair (compare sphincs/thash_shake_simple.c:15-24).  Second preimages exist for almost every hash function; the point is that one of the at
most some thousand strings that verification of a given signature hashes is one. -/
def SecondPreimage (s : Seeds) (C : List Call) : Prop := ∃ a x y, Hashes H s a x ∧ (a, y) ∈ C ∧ y ≠ x ∧ y.length = x.length ∧ T H s.pub a y = T H s.pub a x

/-- The one-time keys on the way from leaf `lf` of tree `tr` on layer `la` to the root: on each layer the lowest hex digit of the tree number below gives the leaf
(compare sphincs/sign.c:146-155). -/
def Loc.way (la tr lf k : Nat) : Loc := ⟨la + k, tr / 16 ^ k, if k = 0 then lf else tr / 16 ^ (k - 1) % 16⟩

/-- The one-time key on layer `k` that verification of a signature with digest `d` uses (compare sphincs/sign.c:192-236). -/
def Loc.used (d : Bytes) (k : Nat) : Loc := Loc.way 0 (treeOf d) (leafOf d) k

/-- On one of the 17 layers the part of `sig` for a chain of the one-time key that verification uses is a value of this chain before the one that signing with this one-time
key gives out; `d` is the digest (compare sphincs/wots.c:31-43, sphincs/sign.c:192-236). -/
def RevealsWots (s : Seeds) (d sig : Bytes) : Prop :=
  ∃ k i j, k < 17 ∧ i < 67 ∧ j < digit (signed H s (Loc.used d k)) i ∧
    slice sig (11232 + 2272 * k + 32 * i) 32 = chain H s.pub (wotsAdrs (Loc.used d k) i) (wotsSk H s (Loc.used d k) i) 0 j

/-- The signature with randomiser `R`: `sign` with the first 32 bytes given (compare sphincs/sign.c:114-157). -/
def signWith (s : Seeds) (R pk m : Bytes) : Bytes :=
  R ++ forsSign H s ⟨0, treeOf (digest H R pk m), leafOf (digest H R pk m)⟩ (mdOf (digest H R pk m)) ++
    htSign H s 17 0 (treeOf (digest H R pk m)) (leafOf (digest H R pk m)) (forsPk H s ⟨0, treeOf (digest H R pk m), leafOf (digest H R pk m)⟩)

end Verif.Sphincs.Spec
