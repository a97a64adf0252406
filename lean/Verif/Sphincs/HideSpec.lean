import Verif.Sphincs.ForgeSpec

/-!
The strings whose hash values may be replaced without a trace in the signatures (used by C121), in terms of the specification alone.
-/

namespace Verif.Sphincs.Spec
open Verif

variable (H : Bytes → Nat → Bytes)

/-- How far chain `i` of the one-time key at place `l` is secret: the digit of the string that this key signs (compare sphincs/wots.c:85-88, sphincs/sign.c:133-155). -/
def depth (s : Seeds) (l : Loc) (i : Nat) : Nat := digit (signed H s l) i

/-- The FORS leaves that the signature of `m` with randomiser `opt` opens: leaf `j` of tree `t` of the FORS key at place `l` (compare sphincs/sign.c:121-134, sphincs/fors.c:66-109). -/
def opens (skPrf pk opt m : Bytes) (l : Loc) (t j : Nat) : Prop :=
  let d := digest H (H (skPrf ++ opt ++ m) 32) pk m
  l = ⟨0, treeOf d, leafOf d⟩ ∧ t < 35 ∧ j = forsIndex (mdOf d) t

/-- `Replaced s w u O x v`: the hash value of the string `x` becomes `v` when the chain values below the depth become `w l i k` and the secrets of the FORS leaves outside `O` become `u l t j`
(compare sphincs/hash_shake.c:14-23, sphincs/thash_shake_simple.c:15-24): the secret values themselves, the steps between the new values, and from the last new value back to the old one. -/
inductive Replaced (s : Seeds) (w u : Loc → Nat → Nat → Bytes) (O : Loc → Nat → Nat → Prop) : Bytes → Bytes → Prop
  | start {l : Loc} {i : Nat} : l.In → i < 67 → 0 < depth H s l i → Replaced s w u O (s.pub ++ (⟨l.layer, l.tree, 5, l.leaf, i, 0⟩ : Adrs).bytes ++ s.sec) (w l i 0)
  | step {l : Loc} {i k : Nat} : l.In → i < 67 → k + 1 < depth H s l i → Replaced s w u O (s.pub ++ (⟨l.layer, l.tree, 0, l.leaf, i, k⟩ : Adrs).bytes ++ w l i k) (w l i (k + 1))
  | last {l : Loc} {i k : Nat} : l.In → i < 67 → k + 1 = depth H s l i →
      Replaced s w u O (s.pub ++ (⟨l.layer, l.tree, 0, l.leaf, i, k⟩ : Adrs).bytes ++ w l i k) (chain H s.pub (wotsAdrs l i) (wotsSk H s l i) 0 (k + 1))
  | fors {l : Loc} {t j : Nat} : l.In → l.layer = 0 → t < 35 → j < 512 → ¬O l t j → Replaced s w u O (s.pub ++ (⟨l.layer, l.tree, 6, l.leaf, 0, t * 512 + j⟩ : Adrs).bytes ++ s.sec) (u l t j)
  | leaf {l : Loc} {t j : Nat} : l.In → l.layer = 0 → t < 35 → j < 512 → ¬O l t j →
      Replaced s w u O (s.pub ++ (⟨l.layer, l.tree, 3, l.leaf, 0, t * 512 + j⟩ : Adrs).bytes ++ u l t j) (forsLeaf H s l t j)

end Verif.Sphincs.Spec
