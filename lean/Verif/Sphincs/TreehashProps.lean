import Verif.Sphincs.Treehash
import Verif.Sphincs.Props2

/-!
The property C99: the unused `treehash` computes the same tree as `treehashx1`, and writes behind the path for an index in the range of one further tree.
-/

namespace Verif.Sphincs
open Verif Spec

variable {H : Bytes → Nat → Bytes} (hH : ∀ m n, (H m n).length = n)
include hH

/-- C99: `treehash` over the leaves `leaf 0, ..., leaf (2^height - 1)`, delivered by a callback that may look at the address (whose height and index words change), returns the root of
the tree of the specification and the authentication path; `treehashx1` over the same leaves gives the same root and path, and `compute_root` along the path gives the root. -/
theorem treehash_spec {ι : Type} {pub : Bytes} (hpub : pub.length = 32) {sec : Option Bytes} (base : Adrs) (off leafIdx height : Nat) (leaf : Nat → Bytes)
    (hbase : base.layer < 256 ∧ base.tree < 2 ^ 64 ∧ base.type < 256 ∧ base.w1 < 256 ∧ base.w2 < 256 ∧ base.w3 < 2 ^ 32)
    (hleaf : ∀ i, (leaf i).length = 32) (hpos : 0 < height) (hh : height < 31) (hoff : off + 2 ^ height < 2 ^ 32) (hidx : leafIdx < 2 ^ height)
    (genLeaf : Nat → Bytes → C Bytes) (hgen : ∀ i h j, i < 2 ^ height → genLeaf (i + off) { base with w2 := h, w3 := j }.bytes = .ok (leaf i))
    (auth stack : Bytes) (heights : List Nat) (hau : auth.length = height * 32) (hst : stack.length = (height + 1) * 32) (hht : heights.length = height + 1)
    (J : Nat → ι → Prop) (genLeaf' : Nat → ι → C (Bytes × ι)) (info : ι) (hJ : J 0 info)
    (hgen' : ∀ i info, i < 2 ^ height → J i info → ∃ info', genLeaf' (i + off) info = .ok (leaf i, info') ∧ J (i + 1) info')
    (auth' stack' : Bytes) (hau' : auth'.length = height * 32) (hst' : stack'.length = height * 32) :
    ∃ root path addr, treehash H ⟨pub, sec⟩ leafIdx off height genLeaf auth stack heights base.bytes = .ok (root, path, addr) ∧
      root = node H pub (fun h i => { base with w2 := h, w3 := i + off / 2 ^ h }) leaf height 0 ∧
      path.length = 32 * height ∧
      (∀ h, h < height → slice path (32 * h) 32 =
        node H pub (fun h i => { base with w2 := h, w3 := i + off / 2 ^ h }) leaf h
          (if leafIdx / 2 ^ h % 2 = 0 then leafIdx / 2 ^ h + 1 else leafIdx / 2 ^ h - 1)) ∧
      (∃ addr' info', treehashx1 H ⟨pub, sec⟩ leafIdx off height genLeaf' auth' stack' base.bytes info = .ok (root, path, addr', info')) ∧
      ∃ addr', computeRoot H (leaf leafIdx) leafIdx off path 0 height ⟨pub, sec⟩ base.bytes = .ok (root, addr') := by
  obtain ⟨h1, h2, h3, h4, h5, h6⟩ := id hbase
  have had : AddrOk base base.bytes := ⟨base.w2, base.w3, ⟨h1, h2, h3, h4, h5, h6⟩, rfl⟩
  have hg : ∀ i addr, i < 2 ^ height → AddrOk base addr → genLeaf (i + off) addr = .ok (leaf i) := by
    rintro i _ hi ⟨h, j, -, rfl⟩
    exact hgen i h j hi
  obtain ⟨path, addr, e, hl, hp, -⟩ := (treehash_run hH hpub (sec := sec) (base := base) (off := off) (leafIdx := leafIdx) hleaf hh hoff genLeaf hg hau hst hht had).1
    (by rw [Nat.div_eq_of_lt hidx]; omega)
  obtain ⟨path2, addr2, info2, e2, hl2, hp2, -, -⟩ := treehashx1_run hH hpub (sec := sec) (base := base) (off := off) (leafIdx := leafIdx) hleaf (by omega) hoff J genLeaf' hgen' hau' hst' had hJ
  obtain ⟨root3, path3, addr3, info3, e3, r3, l3, b3, -, c3⟩ := treehash_merkle hH hpub (sec := sec) base off leafIdx height leaf hbase hleaf hpos (by omega) hoff hidx J genLeaf' info hJ hgen' auth' stack' hau' hst'
  rw [e2] at e3
  simp only [Except.ok.injEq, Prod.mk.injEq] at e3
  obtain ⟨rfl, rfl, -, -⟩ := e3
  have : path = path2 := (hp hidx).trans (hp2 hidx).symm
  subst this
  exact ⟨_, _, _, e, r3, l3, b3, ⟨_, _, e2⟩, c3⟩

/-- C99, the other indices: for an index from 2^height below 2 * 2^height `treehash` copies the root to the place behind the authentication path (a fault, as the path has `height` nodes), while
`treehashx1` ends with the root for every index. -/
theorem treehash_index {ι : Type} {pub : Bytes} (hpub : pub.length = 32) {sec : Option Bytes} (base : Adrs) (off leafIdx height : Nat) (leaf : Nat → Bytes)
    (hbase : base.layer < 256 ∧ base.tree < 2 ^ 64 ∧ base.type < 256 ∧ base.w1 < 256 ∧ base.w2 < 256 ∧ base.w3 < 2 ^ 32)
    (hleaf : ∀ i, (leaf i).length = 32) (hh : height < 31) (hoff : off + 2 ^ height < 2 ^ 32) (hidx : 2 ^ height ≤ leafIdx ∧ leafIdx < 2 * 2 ^ height)
    (genLeaf : Nat → Bytes → C Bytes) (hgen : ∀ i h j, i < 2 ^ height → genLeaf (i + off) { base with w2 := h, w3 := j }.bytes = .ok (leaf i))
    (auth stack : Bytes) (heights : List Nat) (hau : auth.length = height * 32) (hst : stack.length = (height + 1) * 32) (hht : heights.length = height + 1)
    (J : Nat → ι → Prop) (genLeaf' : Nat → ι → C (Bytes × ι)) (info : ι) (hJ : J 0 info)
    (hgen' : ∀ i info, i < 2 ^ height → J i info → ∃ info', genLeaf' (i + off) info = .ok (leaf i, info') ∧ J (i + 1) info')
    (auth' stack' : Bytes) (hau' : auth'.length = height * 32) (hst' : stack'.length = height * 32) :
    treehash H ⟨pub, sec⟩ leafIdx off height genLeaf auth stack heights base.bytes = .error .ub ∧
      ∃ path addr info', treehashx1 H ⟨pub, sec⟩ leafIdx off height genLeaf' auth' stack' base.bytes info =
        .ok (node H pub (fun h i => { base with w2 := h, w3 := i + off / 2 ^ h }) leaf height 0, path, addr, info') := by
  obtain ⟨h1, h2, h3, h4, h5, h6⟩ := hbase
  have had : AddrOk base base.bytes := ⟨base.w2, base.w3, ⟨h1, h2, h3, h4, h5, h6⟩, rfl⟩
  have hg : ∀ i addr, i < 2 ^ height → AddrOk base addr → genLeaf (i + off) addr = .ok (leaf i) := by
    rintro i _ hi ⟨h, j, -, rfl⟩
    exact hgen i h j hi
  refine ⟨(treehash_run hH hpub (sec := sec) (base := base) (off := off) (leafIdx := leafIdx) hleaf hh hoff genLeaf hg hau hst hht had).2 ?_, ?_⟩
  · rw [Nat.div_eq_iff (Nat.two_pow_pos _)]
    omega
  · obtain ⟨path2, addr2, info2, e2, -⟩ := treehashx1_run hH hpub (sec := sec) (base := base) (off := off) (leafIdx := leafIdx) hleaf (by omega) hoff J genLeaf' hgen' hau' hst' had hJ
    exact ⟨_, _, _, e2⟩

omit hH in
/-- The hypotheses of C99 are met: a tree of eight leaves that depend on the index. -/
example : ∃ root path addr, treehash shake256F ⟨List.replicate 32 9, none⟩ 5 16 3 (fun i _ => .ok (List.replicate 32 (BitVec.ofNat 8 (i - 16)))) (List.replicate 96 0) (List.replicate 128 0)
    (List.replicate 4 0) (⟨0, 0, 3, 0, 0, 0⟩ : Adrs).bytes = .ok (root, path, addr) ∧ path.length = 96 := by
  obtain ⟨root, path, addr, e, -, hl, -⟩ := treehash_spec length_shake256F (pub := List.replicate 32 9) (by simp) (sec := none) ⟨0, 0, 3, 0, 0, 0⟩ 16 5 3 (fun i => List.replicate 32 (BitVec.ofNat 8 i))
    (by decide) (fun i => List.length_replicate) (by omega) (by omega) (by omega) (by omega) (fun i _ => .ok (List.replicate 32 (BitVec.ofNat 8 (i - 16)))) (fun i _ _ _ => by simp)
    (List.replicate 96 0) (List.replicate 128 0) (List.replicate 4 0) (by simp) (by simp) (by simp) (fun _ _ => True) (fun i (_ : Unit) => .ok (List.replicate 32 (BitVec.ofNat 8 (i - 16)), ())) () trivial
    (fun i _ _ _ => ⟨(), by simp, trivial⟩) (List.replicate 96 0) (List.replicate 96 0) (by simp) (by simp)
  exact ⟨root, path, addr, e, hl⟩

end Verif.Sphincs
