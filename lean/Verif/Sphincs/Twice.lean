import Verif.Sphincs.Top
import Verif.Sphincs.ForgeSpec

/-!
sign.c: SPHINCS+ signing when the message changes while it runs.
-/

namespace Verif.Sphincs
open Verif Spec

section
variable (shake : Bytes → Nat → Bytes)

/-- sphincs/sign.c:96-163 `crypto_sign_signature`, the part after the draw of `optrand`, when the message is `m` for `gen_message_random` (line 130) and `m'` for `hash_message` (line 133); `signBody` is the case
that they are equal. -/
def signTwice (sig m m' sk optrand : Bytes) : C Bytes := do
  let skPrf ← copy (zeroBytes 32) 0 sk 32 32
  let pk ← copy (zeroBytes 64) 0 sk 64 64
  let sec ← copy (zeroBytes 32) 0 sk 0 32
  let pub ← copy (zeroBytes 32) 0 pk 0 32
  let ctx : Ctx := ⟨pub, some sec⟩
  let wotsAddr ← setType (zeroBytes 32) 0
  let treeAddr ← setType (zeroBytes 32) 2
  let R := genMessageRandom shake skPrf optrand m
  let sig ← copy sig 0 R 0 32
  let R ← copy (zeroBytes 32) 0 sig 0 32
  let (mhash, tree, idxLeaf) ← hashMessage shake R pk m'
  let wotsAddr ← setTreeAddr wotsAddr tree
  let wotsAddr ← setKeypairAddr wotsAddr idxLeaf
  let (sig, root) ← forsSign shake sig 32 mhash ctx wotsAddr
  let s ← loop (fun i s => do
    let (sig, root, wotsAddr, treeAddr, tree, idxLeaf) := (s : Bytes × Bytes × Bytes × Bytes × Nat × Nat)
    let treeAddr ← setLayerAddr treeAddr i
    let treeAddr ← setTreeAddr treeAddr tree
    let wotsAddr ← copySubtreeAddr wotsAddr treeAddr
    let wotsAddr ← setKeypairAddr wotsAddr idxLeaf
    let (sig, root, treeAddr) ← merkleSign shake sig (11232 + i * 2272) root ctx wotsAddr treeAddr idxLeaf
    let idxLeaf := tree &&& (2 ^ 4 - 1)
    let tree := tree >>> 4
    pure (sig, root, wotsAddr, treeAddr, tree, idxLeaf)) 0 17 (sig, root, wotsAddr, treeAddr, tree, idxLeaf)
  pure s.1

theorem signTwice_same (sig m sk optrand : Bytes) : signTwice shake sig m m sk optrand = signBody shake sig m sk optrand := rfl

end

section
variable {shake : Bytes → Nat → Bytes} (hsh : ∀ m n, (shake m n).length = n)
include hsh
variable {s : Seeds} (hpub : s.pub.length = 32) (hsec : s.sec.length = 32)
include hpub hsec

theorem signTwice_run {prfKey root : Bytes} (hprf : prfKey.length = 32) (hroot : root.length = 32) {sig : Bytes} (hsig : 49856 ≤ sig.length) (m m' opt : Bytes) :
    signTwice shake sig m m' (s.sec ++ prfKey ++ (s.pub ++ root)) opt = .ok (splice sig 0 (signWith shake s (shake (prfKey ++ opt ++ m) 32) (s.pub ++ root) m')) := by
  obtain ⟨pk, hpk⟩ : ∃ pk, pk = s.pub ++ root := ⟨_, rfl⟩
  obtain ⟨sk, hsk⟩ : ∃ sk, sk = s.sec ++ prfKey ++ pk := ⟨_, rfl⟩
  have hpkl : pk.length = 64 := by rw [hpk, List.length_append]; omega
  have hskl : sk.length = 128 := by rw [hsk, List.length_append, List.length_append]; omega
  have c1 : slice sk 32 32 = prfKey := by
    rw [hsk, List.append_assoc, slice, List.drop_left' hsec, List.take_left' hprf]
  have c2 : slice sk 64 64 = pk := by
    rw [hsk]; exact slice_append_right (by rw [List.length_append]; omega) hpkl
  have c3 : slice sk 0 32 = s.sec := by
    rw [hsk, List.append_assoc]; exact slice_append_left hsec
  have c4 : slice pk 0 32 = s.pub := by rw [hpk]; exact slice_append_left hpub
  have t1 := setType0 (v := 0) (by omega)
  have t2 := setType0 (v := 2) (by omega)
  rw [← hpk, ← hsk, signTwice, copy_fresh (by omega), ok_bind, c1, copy_fresh (by omega), ok_bind, c2, copy_fresh (by omega), ok_bind, c3,
    copy_fresh (by omega), ok_bind, c4, t1.1, ok_bind, t2.1, ok_bind]
  obtain ⟨R, hR⟩ : ∃ R, R = shake (prfKey ++ opt ++ m) 32 := ⟨_, rfl⟩
  have hRl : R.length = 32 := by rw [hR]; exact hsh _ _
  simp only
  rw [show genMessageRandom shake prfKey opt m = R from hR.symm, copy_all hRl (by omega), ok_bind]
  have l1 : 49856 ≤ (splice sig 0 R).length := by rw [length_splice (by omega)]; exact hsig
  have c5 : slice (splice sig 0 R) 0 32 = R := by
    rw [slice_splice_in (by omega) (by omega), Nat.sub_zero]; exact slice_all hRl
  rw [copy_fresh (by omega), ok_bind, c5, hashMessage_run hsh, ok_bind]
  obtain ⟨d, hd⟩ : ∃ d, d = digest shake R pk m' := ⟨_, rfl⟩
  rw [← hd]
  have htr := treeOf_lt d
  have hlf := leafOf_lt d
  obtain ⟨tr, htr'⟩ : ∃ x, x = treeOf d := ⟨_, rfl⟩
  obtain ⟨lf, hlf'⟩ : ∃ x, x = leafOf d := ⟨_, rfl⟩
  have hmd : (mdOf d).length = 40 := by
    rw [mdOf, List.length_take, hd, digest, hsh]; rfl
  rw [← htr'] at htr ⊢
  rw [← hlf'] at hlf ⊢
  simp only
  have t3 := setTree' t1.2 (v := tr) htr
  have t4 := setKeypair' t3.2 (v := lf) (by omega)
  have hl : LocOk ⟨0, tr, lf⟩ := ⟨Nat.zero_lt_succ _, htr, by simp only; omega⟩
  have hfs := forsSign_run hsh hpub hsec hl t4.2 (sig := splice sig 0 R) (m := mdOf d) (o := 32) (by omega) hmd
  rw [t3.1, ok_bind, t4.1, ok_bind, hfs, ok_bind]
  simp only
  obtain ⟨F, hF⟩ : ∃ F, F = Spec.forsSign shake s ⟨0, tr, lf⟩ (mdOf d) := ⟨_, rfl⟩
  have hFl : F.length = 11200 := by rw [hF]; exact length_forsSign hsh _ _ _
  have c6 := splice_append (h := sig) (x := R) (y := F) (o := 0) (by omega)
  rw [hRl, Nat.zero_add] at c6
  rw [← hF, c6]
  obtain ⟨st, e, pre, la, tr', lf', root', h1, h2, h3, _⟩ := loop_inv (fun i (t : Bytes × Bytes × Bytes × Bytes × Nat × Nat) =>
      ∃ pre la tr' lf' root', pre.length = i * 2272 ∧ t.1 = splice sig 0 (R ++ F ++ pre) ∧
        pre ++ htSign shake s (17 - i) i tr' lf' root' = htSign shake s 17 0 tr lf (forsPk shake s ⟨0, tr, lf⟩) ∧
        root'.length = 32 ∧ tr' < 2 ^ 64 ∧ lf' < 16 ∧ t.2.1 = root' ∧ t.2.2.2.2.1 = tr' ∧ t.2.2.2.2.2 = lf' ∧
        (∃ tt x y z, Small ⟨la, tt, 0, x, y, z⟩ ∧ t.2.2.1 = (⟨la, tt, 0, x, y, z⟩ : Adrs).bytes) ∧
        (∃ la tt y z, Small ⟨la, tt, 2, 0, y, z⟩ ∧ t.2.2.2.1 = (⟨la, tt, 2, 0, y, z⟩ : Adrs).bytes))
    (fun i t => do
      let (sig, root, wotsAddr, treeAddr, tree, idxLeaf) := (t : Bytes × Bytes × Bytes × Bytes × Nat × Nat)
      let treeAddr ← setLayerAddr treeAddr i
      let treeAddr ← setTreeAddr treeAddr tree
      let wotsAddr ← copySubtreeAddr wotsAddr treeAddr
      let wotsAddr ← setKeypairAddr wotsAddr idxLeaf
      let (sig, root, treeAddr) ← merkleSign shake sig (11232 + i * 2272) root ⟨s.pub, some s.sec⟩ wotsAddr treeAddr idxLeaf
      let idxLeaf := tree &&& (2 ^ 4 - 1)
      let tree := tree >>> 4
      pure (sig, root, wotsAddr, treeAddr, tree, idxLeaf)) 0 17
    (splice sig 0 (R ++ F), forsPk shake s ⟨0, tr, lf⟩, (⟨0, tr, 0, lf, 0, 0⟩ : Adrs).bytes, (⟨0, 0, 2, 0, 0, 0⟩ : Adrs).bytes, tr, lf)
    ⟨[], 0, tr, lf, forsPk shake s ⟨0, tr, lf⟩, rfl, by rw [List.append_nil], by rw [Nat.sub_zero, List.nil_append], length_forsPk hsh _ _, htr, hlf, rfl, rfl, rfl,
      ⟨tr, lf, 0, 0, t4.2, rfl⟩, ⟨0, 0, 0, 0, t2.2, rfl⟩⟩ (by
      rintro i ⟨sg, rt, wa, ta, tree, lfi⟩ _ hi ⟨pre, la, tr', lf', root', h1, h2, h3, hrt, htr', hlf', e1, e2, e3, ⟨tt, x, y, z, hs1, e4⟩, ⟨la2, tt2, y2, z2, hs2, e5⟩⟩
      simp only at h2 e1 e2 e3 e4 e5
      subst e1 e2 e3 e4 e5
      have g1 := setLayer' hs2 (v := i) (by omega)
      have g2 := setTree' g1.2 (v := tree) htr'
      have g3 := copySubtree' hs1 g2.2
      have g4 := setKeypair' g3.2 (v := lfi) (by omega)
      have hpl : (R ++ F ++ pre).length = 11232 + i * 2272 := by rw [List.length_append, List.length_append]; omega
      have hsgl : 49856 ≤ sg.length := by rw [h2, length_splice (by omega)]; exact hsig
      obtain ⟨X, yy, zz, hXl, hsm, hX, e⟩ := merkleSign_run hsh hpub hsec g4.2 g2.2 (lf := lfi) (sig := sg) (root := rt) (o := 11232 + i * 2272) (by omega) hrt
      simp only
      rw [g1.1, ok_bind, g2.1, ok_bind, g3.1, ok_bind, g4.1, ok_bind, e, ok_bind]
      have c7 := splice_append (h := sig) (x := R ++ F ++ pre) (y := X) (o := 0) (by omega)
      rw [hpl, Nat.zero_add] at c7
      refine ⟨(splice sg (11232 + i * 2272) X, xmssRoot shake s i tree, (⟨i, tree, 0, lfi, y, z⟩ : Adrs).bytes, (⟨i, tree, 2, 0, yy, zz⟩ : Adrs).bytes,
        tree / 16, tree % 16), ?_, pre ++ X, i, tree / 16, tree % 16, xmssRoot shake s i tree, ?_, ?_, ?_, length_xmssRoot hsh _ _ _, by omega, by omega,
        rfl, rfl, rfl, ⟨tree, lfi, y, z, g4.2, rfl⟩, ⟨i, tree, yy, zz, hsm, rfl⟩⟩
      · simp only
        rw [show (2:Nat) ^ 4 - 1 = 15 from rfl, and_15, Nat.shiftRight_eq_div_pow, show (2:Nat) ^ 4 = 16 from rfl, pure_eq_ok]
      · rw [List.length_append, h1, hXl]; omega
      · simp only
        rw [h2, c7, List.append_assoc (R ++ F)]
      · rw [← h3, show 17 - i = (17 - (i + 1)) + 1 by omega, htSign, hX (by omega), List.append_assoc])
  rw [Nat.zero_add] at h1 h3
  rw [Nat.sub_self, htSign, List.append_nil] at h3
  simp only at e
  rw [e, ok_bind, pure_eq_ok, h2, h3, signWith]
  rw [← hR, ← hd, ← htr', ← hlf', ← hF]

end

end Verif.Sphincs
