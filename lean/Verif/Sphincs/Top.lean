import Verif.Sphincs.Exec
import Mathlib.Tactic.NormNum

/-! sign.c: signing and verification compute what the specification says; signatures of the specification are valid. -/

namespace Verif.Sphincs
open Verif Spec

theorem setType0 {v : Nat} (hv : v < 256) : setType (zeroBytes 32) v = .ok (⟨0, 0, v, 0, 0, 0⟩ : Adrs).bytes ∧ Small ⟨0, 0, v, 0, 0, 0⟩ := by
  rw [zero_adrs]; exact setType' zero_small hv

section
variable {shake : Bytes → Nat → Bytes} (hsh : ∀ m n, (shake m n).length = n)
include hsh

theorem hashMessage_run (R pk m : Bytes) :
    hashMessage shake R pk m = .ok (mdOf (digest shake R pk m), treeOf (digest shake R pk m), leafOf (digest shake R pk m)) := by
  obtain ⟨d, hd⟩ : ∃ d, d = digest shake R pk m := ⟨_, rfl⟩
  have hl : d.length = 49 := by rw [hd]; exact hsh _ _
  have h8 : ofBe (slice d 40 8) < 2 ^ 64 := by
    have := ofBe_lt (slice d 40 8); rw [length_slice (by omega)] at this; exact this
  have h1 : ofBe (slice d 48 1) < 256 := by
    have := ofBe_lt (slice d 48 1); rw [length_slice (by omega)] at this; exact this
  rw [hashMessage, show shake (R ++ pk ++ m) 49 = d from hd.symm, copy_fresh (by omega), ok_bind, bytesToUll_run (by omega) (by omega), ok_bind,
    bytesToUll_run (by omega) (by omega), ok_bind, ← hd, pure_eq_ok, mdOf, treeOf, leafOf]
  have e1 : ofBe (slice d 40 8) &&& ((2 ^ 64 - 1) >>> (64 - 64)) = ofBe (slice d 40 8) := by
    rw [Nat.sub_self, Nat.shiftRight_zero, Nat.and_two_pow_sub_one_eq_mod, Nat.mod_eq_of_lt h8]
  have e2 : (ofBe (slice d 48 1) % 2 ^ 32) &&& ((2 ^ 32 - 1) >>> (32 - 4)) = ofBe (slice d 48 1) % 16 := by
    rw [show (2 ^ 32 - 1) >>> (32 - 4) = 15 from rfl, and_15]; omega
  rw [e1, e2, slice, List.drop_zero]

omit hsh in
theorem treeOf_lt (d : Bytes) : treeOf d < 2 ^ 64 := by
  have := ofBe_lt (slice d 40 8)
  have h2 : (slice d 40 8).length ≤ 8 := by simp only [slice, List.length_take]; omega
  exact Nat.lt_of_lt_of_le this (Nat.le_trans (Nat.pow_le_pow_right (by decide) h2) (by decide))

omit hsh in
theorem leafOf_lt (d : Bytes) : leafOf d < 16 := Nat.mod_lt _ (by decide)

theorem length_forsPk (s : Seeds) (l : Loc) : (forsPk shake s l).length = 32 := length_T hsh _ _ _

theorem length_htSign (s : Seeds) : ∀ n la tr lf m, (htSign shake s n la tr lf m).length = n * 2272 := by
  intro n
  induction n with
  | zero => intros; rw [htSign, Nat.zero_mul]; rfl
  | succ n ih => intros; rw [htSign, List.length_append, length_xmssSign hsh, ih, Nat.add_mul, Nat.add_comm, Nat.one_mul]

theorem length_sign (s : Seeds) (p pk opt m : Bytes) : (sign shake s p pk opt m).length = 49856 := by
  rw [sign]
  simp only [List.length_append, length_forsSign hsh, length_htSign hsh, hsh]

/-! ### signing -/

section
variable {s : Seeds} (hpub : s.pub.length = 32) (hsec : s.sec.length = 32)
include hpub hsec

theorem signBody_run' {prfKey root : Bytes} (hprf : prfKey.length = 32) (hroot : root.length = 32) {sig : Bytes} (hsig : 49856 ≤ sig.length) (m opt : Bytes) :
    signBody shake sig m (s.sec ++ prfKey ++ (s.pub ++ root)) opt = .ok (splice sig 0 (sign shake s prfKey (s.pub ++ root) opt m)) := by
  obtain ⟨pk, hpk⟩ : ∃ pk, pk = s.pub ++ root := ⟨_, rfl⟩
  obtain ⟨sk, hsk⟩ : ∃ sk, sk = s.sec ++ prfKey ++ pk := ⟨_, rfl⟩
  have hpkl : pk.length = 64 := by rw [hpk, List.length_append]; omega
  have hskl : sk.length = 128 := by rw [hsk, List.length_append, List.length_append]; omega
  have c1 : slice sk 32 32 = prfKey := by
    rw [hsk, List.append_assoc, slice, List.drop_left' hsec, List.take_left' hprf]
  have c2 : slice sk 64 64 = pk := by
    rw [hsk]; exact slice_append_right (by rw [List.length_append]; omega) hpkl
  have c3 : slice sk 0 32 = s.sec := by
    rw [hsk, List.append_assoc]; exact slice_append_left hsec
  have c4 : slice pk 0 32 = s.pub := by rw [hpk]; exact slice_append_left hpub
  have t1 := setType0 (v := 0) (by omega)
  have t2 := setType0 (v := 2) (by omega)
  rw [← hpk, ← hsk, signBody, copy_fresh (by omega), ok_bind, c1, copy_fresh (by omega), ok_bind, c2, copy_fresh (by omega), ok_bind, c3,
    copy_fresh (by omega), ok_bind, c4, t1.1, ok_bind, t2.1, ok_bind]
  obtain ⟨R, hR⟩ : ∃ R, R = shake (prfKey ++ opt ++ m) 32 := ⟨_, rfl⟩
  have hRl : R.length = 32 := by rw [hR]; exact hsh _ _
  simp only
  rw [show genMessageRandom shake prfKey opt m = R from hR.symm, copy_all hRl (by omega), ok_bind]
  have l1 : 49856 ≤ (splice sig 0 R).length := by rw [length_splice (by omega)]; exact hsig
  have c5 : slice (splice sig 0 R) 0 32 = R := by
    rw [slice_splice_in (by omega) (by omega), Nat.sub_zero]; exact slice_all hRl
  rw [copy_fresh (by omega), ok_bind, c5, hashMessage_run hsh, ok_bind]
  obtain ⟨d, hd⟩ : ∃ d, d = digest shake R pk m := ⟨_, rfl⟩
  rw [← hd]
  have htr := treeOf_lt d
  have hlf := leafOf_lt d
  obtain ⟨tr, htr'⟩ : ∃ x, x = treeOf d := ⟨_, rfl⟩
  obtain ⟨lf, hlf'⟩ : ∃ x, x = leafOf d := ⟨_, rfl⟩
  have hmd : (mdOf d).length = 40 := by
    rw [mdOf, List.length_take, hd, digest, hsh]; rfl
  rw [← htr'] at htr ⊢
  rw [← hlf'] at hlf ⊢
  simp only
  have t3 := setTree' t1.2 (v := tr) htr
  have t4 := setKeypair' t3.2 (v := lf) (by omega)
  have hl : LocOk ⟨0, tr, lf⟩ := ⟨Nat.zero_lt_succ _, htr, by simp only; omega⟩
  have hfs := forsSign_run hsh hpub hsec hl t4.2 (sig := splice sig 0 R) (m := mdOf d) (o := 32) (by omega) hmd
  rw [t3.1, ok_bind, t4.1, ok_bind, hfs, ok_bind]
  simp only
  obtain ⟨F, hF⟩ : ∃ F, F = Spec.forsSign shake s ⟨0, tr, lf⟩ (mdOf d) := ⟨_, rfl⟩
  have hFl : F.length = 11200 := by rw [hF]; exact length_forsSign hsh _ _ _
  have c6 := splice_append (h := sig) (x := R) (y := F) (o := 0) (by omega)
  rw [hRl, Nat.zero_add] at c6
  rw [← hF, c6]
  obtain ⟨st, e, pre, la, tr', lf', root', h1, h2, h3, _⟩ := loop_inv (fun i (t : Bytes × Bytes × Bytes × Bytes × Nat × Nat) =>
      ∃ pre la tr' lf' root', pre.length = i * 2272 ∧ t.1 = splice sig 0 (R ++ F ++ pre) ∧
        pre ++ htSign shake s (17 - i) i tr' lf' root' = htSign shake s 17 0 tr lf (forsPk shake s ⟨0, tr, lf⟩) ∧
        root'.length = 32 ∧ tr' < 2 ^ 64 ∧ lf' < 16 ∧ t.2.1 = root' ∧ t.2.2.2.2.1 = tr' ∧ t.2.2.2.2.2 = lf' ∧
        (∃ tt x y z, Small ⟨la, tt, 0, x, y, z⟩ ∧ t.2.2.1 = (⟨la, tt, 0, x, y, z⟩ : Adrs).bytes) ∧
        (∃ la tt y z, Small ⟨la, tt, 2, 0, y, z⟩ ∧ t.2.2.2.1 = (⟨la, tt, 2, 0, y, z⟩ : Adrs).bytes))
    (fun i t => do
      let (sig, root, wotsAddr, treeAddr, tree, idxLeaf) := (t : Bytes × Bytes × Bytes × Bytes × Nat × Nat)
      let treeAddr ← setLayerAddr treeAddr i
      let treeAddr ← setTreeAddr treeAddr tree
      let wotsAddr ← copySubtreeAddr wotsAddr treeAddr
      let wotsAddr ← setKeypairAddr wotsAddr idxLeaf
      let (sig, root, treeAddr) ← merkleSign shake sig (11232 + i * 2272) root ⟨s.pub, some s.sec⟩ wotsAddr treeAddr idxLeaf
      let idxLeaf := tree &&& (2 ^ 4 - 1)
      let tree := tree >>> 4
      pure (sig, root, wotsAddr, treeAddr, tree, idxLeaf)) 0 17
    (splice sig 0 (R ++ F), forsPk shake s ⟨0, tr, lf⟩, (⟨0, tr, 0, lf, 0, 0⟩ : Adrs).bytes, (⟨0, 0, 2, 0, 0, 0⟩ : Adrs).bytes, tr, lf)
    ⟨[], 0, tr, lf, forsPk shake s ⟨0, tr, lf⟩, rfl, by rw [List.append_nil], by rw [Nat.sub_zero, List.nil_append], length_forsPk hsh _ _, htr, hlf, rfl, rfl, rfl,
      ⟨tr, lf, 0, 0, t4.2, rfl⟩, ⟨0, 0, 0, 0, t2.2, rfl⟩⟩ (by
      rintro i ⟨sg, rt, wa, ta, tree, lfi⟩ _ hi ⟨pre, la, tr', lf', root', h1, h2, h3, hrt, htr', hlf', e1, e2, e3, ⟨tt, x, y, z, hs1, e4⟩, ⟨la2, tt2, y2, z2, hs2, e5⟩⟩
      simp only at h2 e1 e2 e3 e4 e5
      subst e1 e2 e3 e4 e5
      have g1 := setLayer' hs2 (v := i) (by omega)
      have g2 := setTree' g1.2 (v := tree) htr'
      have g3 := copySubtree' hs1 g2.2
      have g4 := setKeypair' g3.2 (v := lfi) (by omega)
      have hpl : (R ++ F ++ pre).length = 11232 + i * 2272 := by rw [List.length_append, List.length_append]; omega
      have hsgl : 49856 ≤ sg.length := by rw [h2, length_splice (by omega)]; exact hsig
      obtain ⟨X, yy, zz, hXl, hsm, hX, e⟩ := merkleSign_run hsh hpub hsec g4.2 g2.2 (lf := lfi) (sig := sg) (root := rt) (o := 11232 + i * 2272) (by omega) hrt
      simp only
      rw [g1.1, ok_bind, g2.1, ok_bind, g3.1, ok_bind, g4.1, ok_bind, e, ok_bind]
      have c7 := splice_append (h := sig) (x := R ++ F ++ pre) (y := X) (o := 0) (by omega)
      rw [hpl, Nat.zero_add] at c7
      refine ⟨(splice sg (11232 + i * 2272) X, xmssRoot shake s i tree, (⟨i, tree, 0, lfi, y, z⟩ : Adrs).bytes, (⟨i, tree, 2, 0, yy, zz⟩ : Adrs).bytes,
        tree / 16, tree % 16), ?_, pre ++ X, i, tree / 16, tree % 16, xmssRoot shake s i tree, ?_, ?_, ?_, length_xmssRoot hsh _ _ _, by omega, by omega,
        rfl, rfl, rfl, ⟨tree, lfi, y, z, g4.2, rfl⟩, ⟨i, tree, yy, zz, hsm, rfl⟩⟩
      · simp only
        rw [show (2:Nat) ^ 4 - 1 = 15 from rfl, and_15, Nat.shiftRight_eq_div_pow, show (2:Nat) ^ 4 = 16 from rfl, pure_eq_ok]
      · rw [List.length_append, h1, hXl]; omega
      · simp only
        rw [h2, c7, List.append_assoc (R ++ F)]
      · rw [← h3, show 17 - i = (17 - (i + 1)) + 1 by omega, htSign, hX (by omega), List.append_assoc])
  rw [Nat.zero_add] at h1 h3
  rw [Nat.sub_self, htSign, List.append_nil] at h3
  simp only at e
  rw [e, ok_bind, pure_eq_ok, h2, h3, sign]
  rw [← hR, ← hd, ← htr', ← hlf', ← hF]

end

/-! ### verification -/

theorem length_htRootFromSig {pub : Bytes} : ∀ n la tr lf sig m, m.length = 32 → (htRootFromSig shake pub n la tr lf sig m).length = 32 := by
  intro n
  induction n with
  | zero => intro _ _ _ _ m h; rw [htRootFromSig]; exact h
  | succ n ih =>
    intro la tr lf sig m _
    rw [htRootFromSig]
    apply ih
    rw [xmssRootFromSig]
    exact length_climb hsh (length_T hsh _ _ _) _ _

omit hsh in
theorem take_slice {b : Bytes} {a n o k : Nat} (h : o + k ≤ n) : slice ((b.drop a).take n) o k = slice b (a + o) k :=
  slice_slice (b := b) (o := a) (n := n) h

omit hsh in
theorem take_slice' {b : Bytes} {n o k : Nat} (h : o + k ≤ n) : slice (b.take n) o k = slice b o k := by
  rw [slice, slice, List.drop_take, List.take_take, Nat.min_eq_left (by omega)]

/-- The body of the loop over the layers in `crypto_sign_verify` (sphincs/sign.c:209-236). -/
def verifyLayer (shake : Bytes → Nat → Bytes) (sig pub : Bytes) (i : Nat) (t : Bytes × Bytes × Bytes × Bytes × Nat × Nat) : C (Bytes × Bytes × Bytes × Bytes × Nat × Nat) := do
  let (root, wotsAddr, treeAddr, wotsPkAddr, tree, idxLeaf) := (t : Bytes × Bytes × Bytes × Bytes × Nat × Nat)
  let treeAddr ← setLayerAddr treeAddr i
  let treeAddr ← setTreeAddr treeAddr tree
  let wotsAddr ← copySubtreeAddr wotsAddr treeAddr
  let wotsAddr ← setKeypairAddr wotsAddr idxLeaf
  let wotsPkAddr ← copyKeypairAddr wotsPkAddr wotsAddr
  let (wotsPk, wotsAddr) ← wotsPkFromSig shake sig (11232 + i * 2272) root ⟨pub, none⟩ wotsAddr
  let leaf ← thash shake wotsPk 0 67 ⟨pub, none⟩ wotsPkAddr
  let (root, treeAddr) ← computeRoot shake leaf idxLeaf 0 sig (11232 + i * 2272 + 2144) 4 ⟨pub, none⟩ treeAddr
  let idxLeaf := tree &&& (2 ^ 4 - 1)
  let tree := tree >>> 4
  pure (root, wotsAddr, treeAddr, wotsPkAddr, tree, idxLeaf)

/-- What holds before every layer: the node has 32 bytes, tree and leaf are in range, the three addresses are of their types (no line of its own). -/
def LayerInv (t : Bytes × Bytes × Bytes × Bytes × Nat × Nat) : Prop :=
  t.1.length = 32 ∧ t.2.2.2.2.1 < 2 ^ 64 ∧ t.2.2.2.2.2 < 16 ∧
    (∃ la tt x y z, Small ⟨la, tt, 0, x, y, z⟩ ∧ z < 256 ∧ t.2.1 = (⟨la, tt, 0, x, y, z⟩ : Adrs).bytes) ∧
    (∃ la tt y z, Small ⟨la, tt, 2, 0, y, z⟩ ∧ t.2.2.1 = (⟨la, tt, 2, 0, y, z⟩ : Adrs).bytes) ∧
    (∃ la tt x, Small ⟨la, tt, 1, x, 0, 0⟩ ∧ t.2.2.2.1 = (⟨la, tt, 1, x, 0, 0⟩ : Adrs).bytes)

theorem verifyLayer_run {pub : Bytes} (hpub : pub.length = 32) {sig : Bytes} (hsig : 49856 ≤ sig.length) {i : Nat} (hi : i < 17) {t : Bytes × Bytes × Bytes × Bytes × Nat × Nat} (ht : LayerInv t) :
    ∃ t', verifyLayer shake sig pub i t = .ok t' ∧ LayerInv t' ∧ t'.1 = xmssRootFromSig shake pub i t.2.2.2.2.1 t.2.2.2.2.2 ((sig.drop (11232 + i * 2272)).take 2272) t.1 ∧
      t'.2.2.2.2.1 = t.2.2.2.2.1 / 16 ∧ t'.2.2.2.2.2 = t.2.2.2.2.1 % 16 := by
  obtain ⟨rt, wa, ta, pa, tree, lfi⟩ := t
  obtain ⟨hrt, htr', hlf', ⟨la1, tt, x, y, z, hs1, hz, e4⟩, ⟨la2, tt2, y2, z2, hs2, e5⟩, ⟨la3, tt3, x3, hs3, e6⟩⟩ := ht
  simp only at hrt htr' hlf' e4 e5 e6
  subst e4 e5 e6
  unfold verifyLayer
  have g1 := setLayer' hs2 (v := i) (by omega)
  have g2 := setTree' g1.2 (v := tree) htr'
  have g3 := copySubtree' hs1 g2.2
  have g4 := setKeypair' g3.2 (v := lfi) (by omega)
  have g5 := copyKeypair' hs3 g4.2
  have hl : LocOk ⟨i, tree, lfi⟩ := ⟨by simp only; omega, htr', by simp only; omega⟩
  obtain ⟨ad1, ew, c, h, hc, hh, eA⟩ := wotsPkFromSig_run hsh hpub (sec := none) hl (sig := sig) (m := rt) (o := 11232 + i * 2272) hrt (by omega) ⟨y, z, hs1.w2, hz, rfl⟩
  subst eA
  have hends : ∀ j, j < 67 → (chain shake pub (wotsAdrs ⟨i, tree, lfi⟩ j) (slice sig (11232 + i * 2272 + 32 * j) 32) (digit rt j) (15 - digit rt j)).length = 32 :=
    fun j hj => length_chain hsh (length_slice (by omega)) _ _
  have hendl := length_flatMap_const hends
  simp only
  rw [g1.1, ok_bind, g2.1, ok_bind, g3.1, ok_bind, g4.1, ok_bind, g5.1, ok_bind, ew, ok_bind]
  simp only
  rw [thash_T hpub (by omega), ok_bind, slice_all hendl]
  obtain ⟨lfv, hlfv⟩ : ∃ x, x = T shake pub ⟨i, tree, 1, lfi, 0, 0⟩ ((List.range 67).flatMap fun j =>
    chain shake pub (wotsAdrs ⟨i, tree, lfi⟩ j) (slice sig (11232 + i * 2272 + 32 * j) 32) (digit rt j) (15 - digit rt j)) := ⟨_, rfl⟩
  have hlfl : lfv.length = 32 := by rw [hlfv]; exact length_T hsh _ _ _
  obtain ⟨ad2, ec, yy, zz, had1, had2⟩ := computeRoot_run hsh hpub (sec := none) (base := ⟨i, tree, 2, 0, 0, 0⟩) (off := 0) (leafIdx := lfi) (height := 3)
    (o := 11232 + i * 2272 + 2144) (leaf := lfv) (auth := sig) (addr := (⟨i, tree, 2, 0, y2, z2⟩ : Adrs).bytes) hlfl (by omega) (by omega) (by omega) ⟨y2, z2, g2.2, rfl⟩
  rw [treeAdrs_xmss] at ec
  subst had2
  have hroot : climb shake pub (xmssAdrs i tree) lfv (slice sig (11232 + i * 2272 + 2144) ((3 + 1) * 32)) lfi (3 + 1) =
      xmssRootFromSig shake pub i tree lfi ((sig.drop (11232 + i * 2272)).take 2272) rt := by
    rw [xmssRootFromSig, List.drop_take, List.drop_drop, hlfv]
    congr 1
    rw [Spec.wotsPkFromSig, wotsCompress]
    congr 1
    rw [List.flatMap_def, List.flatMap_def]
    congr 1
    apply List.map_congr_left
    intro j hj
    rw [List.mem_range] at hj
    rw [List.take_take, take_slice (by omega)]
  rw [← hlfv, ec, ok_bind]
  refine ⟨(xmssRootFromSig shake pub i tree lfi ((sig.drop (11232 + i * 2272)).take 2272) rt, (⟨i, tree, 0, lfi, c, h⟩ : Adrs).bytes, (⟨i, tree, 2, 0, yy, zz⟩ : Adrs).bytes,
    (⟨i, tree, 1, lfi, 0, 0⟩ : Adrs).bytes, tree / 16, tree % 16), ?_, ⟨?_, by simp only; omega, by simp only; omega,
    ⟨i, tree, lfi, c, h, ⟨hl.layer, hl.tree, Nat.zero_lt_succ _, hl.leaf, hc, by simp only; omega⟩, hh, rfl⟩, ⟨i, tree, yy, zz, had1, rfl⟩, ⟨i, tree, lfi, g5.2, rfl⟩⟩, rfl, rfl, rfl⟩
  · simp only
    rw [show (2:Nat) ^ 4 - 1 = 15 from rfl, and_15, Nat.shiftRight_eq_div_pow, show (2:Nat) ^ 4 = 16 from rfl, pure_eq_ok, hroot]
  · simp only; rw [xmssRootFromSig]; exact length_climb hsh (length_T hsh _ _ _) _ _

theorem verify_run {pk : Bytes} (hpk : pk.length = 64) {sig : Bytes} (hsig : 49856 ≤ sig.length) (m : Bytes) :
    verify shake sig 49856 m pk = .ok (if rootFromSig shake pk sig m = pk.drop 32 then 0 else -1) := by
  obtain ⟨pub, hpub'⟩ : ∃ x, x = slice pk 0 32 := ⟨_, rfl⟩
  have hpub : pub.length = 32 := by rw [hpub', length_slice (by omega)]
  have t1 := setType0 (v := 0) (by omega)
  have t2 := setType0 (v := 2) (by omega)
  have t3 := setType0 (v := 1) (by omega)
  rw [verify, if_neg (by simp), copy_fresh (by omega), ok_bind]
  rw [t1.1, ok_bind, t2.1, ok_bind, t3.1, ok_bind, copy_fresh (by omega), ok_bind, copy_fresh (by omega), ok_bind, slice_all hpk, hashMessage_run hsh, ok_bind]
  obtain ⟨d, hd⟩ : ∃ d, d = digest shake (slice sig 0 32) pk m := ⟨_, rfl⟩
  rw [← hd, ← hpub']
  have htr := treeOf_lt d
  have hlf := leafOf_lt d
  obtain ⟨tr, htr'⟩ : ∃ x, x = treeOf d := ⟨_, rfl⟩
  obtain ⟨lf, hlf'⟩ : ∃ x, x = leafOf d := ⟨_, rfl⟩
  have hmd : (mdOf d).length = 40 := by
    rw [mdOf, List.length_take, hd, digest, hsh]; rfl
  rw [← htr'] at htr ⊢
  rw [← hlf'] at hlf ⊢
  simp only
  have t4 := setTree' t1.2 (v := tr) htr
  have t5 := setKeypair' t4.2 (v := lf) (by omega)
  rw [t4.1, ok_bind, t5.1, ok_bind, forsPkFromSig_run hsh hpub (l := ⟨0, tr, lf⟩) t5.2 (sig := sig) (by omega) hmd, ok_bind]
  obtain ⟨r0, hr0⟩ : ∃ x, x = Spec.forsPkFromSig shake pub ⟨0, tr, lf⟩ (slice sig 32 11200) (mdOf d) := ⟨_, rfl⟩
  have hr0l : r0.length = 32 := by rw [hr0]; exact length_T hsh _ _ _
  rw [← hr0]
  obtain ⟨st, e, h3, -⟩ := loop_inv (fun i (t : Bytes × Bytes × Bytes × Bytes × Nat × Nat) =>
      htRootFromSig shake pub (17 - i) i t.2.2.2.2.1 t.2.2.2.2.2 (sig.drop (11232 + i * 2272)) t.1 = htRootFromSig shake pub 17 0 tr lf (sig.drop 11232) r0 ∧ LayerInv t)
    (verifyLayer shake sig pub) 0 17
    (r0, (⟨0, tr, 0, lf, 0, 0⟩ : Adrs).bytes, (⟨0, 0, 2, 0, 0, 0⟩ : Adrs).bytes, (⟨0, 0, 1, 0, 0, 0⟩ : Adrs).bytes, tr, lf)
    ⟨by rw [Nat.sub_zero, Nat.zero_mul, Nat.add_zero], hr0l, htr, hlf, ⟨0, tr, lf, 0, 0, t5.2, by omega, rfl⟩, ⟨0, 0, 0, 0, t2.2, rfl⟩, ⟨0, 0, 0, t3.2, rfl⟩⟩ (by
      intro i t _ hi ⟨h3, ht⟩
      obtain ⟨t', e1, ht', e2, e3, e4⟩ := verifyLayer_run hsh hpub hsig (by omega) ht
      refine ⟨t', e1, ?_, ht'⟩
      rw [← h3, show 17 - i = (17 - (i + 1)) + 1 by omega, htRootFromSig, List.drop_drop, show 11232 + (i + 1) * 2272 = 11232 + i * 2272 + 2272 by omega, e2, e3, e4])
  rw [Nat.zero_add, Nat.sub_self, htRootFromSig] at h3
  unfold verifyLayer at e
  simp only at e
  rw [e, ok_bind, copy_fresh (by omega), ok_bind, h3]
  have hfin : htRootFromSig shake pub 17 0 tr lf (sig.drop 11232) r0 = rootFromSig shake pk sig m := by
    rw [rootFromSig]
    rw [show sig.take 32 = slice sig 0 32 from rfl, show pk.take 32 = slice pk 0 32 from rfl, ← hd, ← hpub', ← htr', ← hlf', ← hr0]
  have hdr : slice pk 32 32 = pk.drop 32 := by rw [slice, List.take_of_length_le (by rw [List.length_drop]; omega)]
  rw [hfin, hdr]
  by_cases c : rootFromSig shake pk sig m = pk.drop 32
  · rw [if_pos c, if_neg (by simpa using c)]; rfl
  · rw [if_neg c, if_pos (by simpa using c)]; rfl

omit hsh in
theorem verify_wrong_length {sig m pk : Bytes} {n : Nat} (h : n ≠ 49856) : verify shake sig n m pk = .ok (-1) := by
  rw [verify, if_pos h]; rfl

omit hsh in
/-- Bytes after the signature do not matter. -/
theorem htRootFromSig_take {pub : Bytes} : ∀ n la tr lf sig m k, n * 2272 ≤ k →
    htRootFromSig shake pub n la tr lf (sig.take k) m = htRootFromSig shake pub n la tr lf sig m := by
  intro n
  induction n with
  | zero => intros; rw [htRootFromSig, htRootFromSig]
  | succ n ih =>
    intro la tr lf sig m k hk
    rw [Nat.add_mul, Nat.one_mul] at hk
    rw [htRootFromSig, htRootFromSig, List.take_take, Nat.min_eq_left (by omega), List.drop_take]
    exact ih (la + 1) (tr / 16) (tr % 16) (sig.drop 2272) _ (k - 2272) (Nat.le_sub_of_add_le hk)

omit hsh in
theorem rootFromSig_take (pk sig m : Bytes) : rootFromSig shake pk (sig.take 49856) m = rootFromSig shake pk sig m := by
  have h1 : (sig.take 49856).take 32 = sig.take 32 := by rw [List.take_take, Nat.min_eq_left (by norm_num)]
  have h2 : slice (sig.take 49856) 32 11200 = slice sig 32 11200 := take_slice' (by norm_num)
  have h3 : (sig.take 49856).drop 11232 = (sig.drop 11232).take 38624 := by rw [List.drop_take]
  rw [rootFromSig, rootFromSig, h1, h2, h3]
  exact htRootFromSig_take 17 0 _ _ (sig.drop 11232) _ 38624 (by norm_num)

/-! ### signatures of the specification are valid -/

theorem wots_roundtrip (s : Seeds) (l : Loc) (m : Bytes) : Spec.wotsPkFromSig shake s.pub l (Spec.wotsSig shake s l m) m = wotsPk shake s l := by
  rw [Spec.wotsPkFromSig, wotsPk, wotsCompress, wotsCompress, List.flatMap_def, List.flatMap_def]
  refine congrArg (T shake s.pub _) (congrArg List.flatten ?_)
  apply List.map_congr_left
  intro i hi
  rw [List.mem_range] at hi
  rw [Spec.wotsSig, Nat.mul_comm 32, slice_flatMap (f := fun i => chain shake s.pub (wotsAdrs l i) (wotsSk shake s l i) 0 (digit m i)) (k := 32)
    (fun j _ => length_chain hsh (length_prf hsh _ _) _ _) hi]
  have := digit_lt m i
  have h2 := chain_chain (shake := shake) (pub := s.pub) (a := wotsAdrs l i) (x := wotsSk shake s l i) (i := 0) (j := digit m i) (k := 15 - digit m i)
  rw [Nat.zero_add, show digit m i + (15 - digit m i) = 15 by omega] at h2
  exact h2

theorem xmss_roundtrip {s : Seeds} {la tr lf : Nat} (hlf : lf < 16) (m : Bytes) :
    xmssRootFromSig shake s.pub la tr lf (xmssSign shake s la tr lf m) m = xmssRoot shake s la tr := by
  have hl := length_wotsSig hsh s ⟨la, tr, lf⟩ m
  rw [xmssRootFromSig, xmssSign, List.take_left' hl, List.drop_left' hl, wots_roundtrip hsh]
  rw [climb_authPath hsh (leaf := fun i => wotsPk shake s ⟨la, tr, i⟩) (fun _ => length_wotsPk hsh _ _) 4 (by omega), xmssRoot,
    show lf / 2 ^ 4 = 0 by omega]

theorem ht_roundtrip {s : Seeds} : ∀ n la tr lf m, lf < 16 →
    htRootFromSig shake s.pub (n + 1) la tr lf (htSign shake s (n + 1) la tr lf m) m = xmssRoot shake s (la + n) (tr / 16 ^ n) := by
  intro n
  induction n with
  | zero =>
    intro la tr lf m hlf
    have hl := length_xmssSign hsh s la tr lf m
    rw [htRootFromSig, htSign, List.take_left' hl, xmss_roundtrip hsh hlf, htRootFromSig, Nat.pow_zero, Nat.div_one, Nat.add_zero]
  | succ n ih =>
    intro la tr lf m hlf
    have hl := length_xmssSign hsh s la tr lf m
    rw [htRootFromSig, htSign, List.take_left' hl, List.drop_left' hl, xmss_roundtrip hsh hlf, ih _ _ _ _ (by omega), Nat.div_div_eq_div_mul,
      show la + 1 + n = la + (n + 1) by omega, Nat.pow_succ, Nat.mul_comm 16]

theorem fors_roundtrip (s : Seeds) (l : Loc) (md : Bytes) : Spec.forsPkFromSig shake s.pub l (Spec.forsSign shake s l md) md = forsPk shake s l := by
  rw [Spec.forsPkFromSig, forsPk, forsCompress, forsCompress, List.flatMap_def, List.flatMap_def]
  refine congrArg (T shake s.pub _) (congrArg List.flatten ?_)
  apply List.map_congr_left
  intro t ht
  rw [List.mem_range] at ht
  have hsk := length_forsSk hsh s l t (forsIndex md t)
  have hau := length_authPath hsh (pub := s.pub) (adrs := forsAdrs l t) (leaf := forsLeaf shake s l t) (fun _ => length_forsLeaf hsh _ _ _ _) 9 (forsIndex md t)
  have hblk : slice (Spec.forsSign shake s l md) (t * 320) 320 = forsSk shake s l t (forsIndex md t) ++ authPath shake s.pub (forsAdrs l t) (forsLeaf shake s l t) 9 (forsIndex md t) :=
    slice_flatMap (k := 320) (fun j _ => by rw [List.length_append, length_forsSk hsh, length_authPath hsh (fun _ => length_forsLeaf hsh _ _ _ _)]) ht
  have h1 : slice (Spec.forsSign shake s l md) (320 * t) 32 = forsSk shake s l t (forsIndex md t) := by
    have := slice_slice (b := Spec.forsSign shake s l md) (o := t * 320) (n := 320) (o' := 0) (n' := 32) (by omega)
    rw [Nat.add_zero, hblk] at this
    rw [Nat.mul_comm, ← this]; exact slice_append_left hsk
  have h2 : slice (Spec.forsSign shake s l md) (320 * t + 32) 288 = authPath shake s.pub (forsAdrs l t) (forsLeaf shake s l t) 9 (forsIndex md t) := by
    have := slice_slice (b := Spec.forsSign shake s l md) (o := t * 320) (n := 320) (o' := 32) (n' := 288) (by omega)
    rw [hblk] at this
    rw [Nat.mul_comm, ← this]; exact slice_append_right hsk hau
  rw [h1, h2]
  have := forsIndex_lt md t
  have h3 := climb_authPath hsh (pub := s.pub) (adrs := forsAdrs l t) (leaf := forsLeaf shake s l t) (fun _ => length_forsLeaf hsh _ _ _ _) (height := 9) (i := forsIndex md t) 9 (by omega)
  rw [forsLeaf] at h3
  rw [h3, show forsIndex md t / 2 ^ 9 = 0 by omega]

theorem sign_valid {s : Seeds} (hpub : s.pub.length = 32) (prfKey opt m : Bytes) :
    Valid shake (publicKey shake s) (sign shake s prfKey (publicKey shake s) opt m) m := by
  refine ⟨length_sign hsh _ _ _ _ _, ?_⟩
  obtain ⟨pk, hpk⟩ : ∃ x, x = publicKey shake s := ⟨_, rfl⟩
  have e1 : pk.take 32 = s.pub := by rw [hpk, publicKey, List.take_left' hpub]
  have e2 : pk.drop 32 = xmssRoot shake s 16 0 := by rw [hpk, publicKey, List.drop_left' hpub]
  rw [← hpk, e2, sign, rootFromSig, e1]
  obtain ⟨R, hR⟩ : ∃ x, x = shake (prfKey ++ opt ++ m) 32 := ⟨_, rfl⟩
  have hRl : R.length = 32 := by rw [hR]; exact hsh _ _
  rw [← hR, List.append_assoc, List.take_left' hRl]
  obtain ⟨d, hd⟩ : ∃ d, d = digest shake R pk m := ⟨_, rfl⟩
  have hFl := length_forsSign hsh s ⟨0, treeOf d, leafOf d⟩ (mdOf d)
  rw [← hd]
  have h1 : slice (R ++ (Spec.forsSign shake s ⟨0, treeOf d, leafOf d⟩ (mdOf d) ++ htSign shake s 17 0 (treeOf d) (leafOf d) (forsPk shake s ⟨0, treeOf d, leafOf d⟩))) 32 11200 =
      Spec.forsSign shake s ⟨0, treeOf d, leafOf d⟩ (mdOf d) := by
    rw [slice, List.drop_left' hRl, List.take_left' hFl]
  have h2 : (R ++ (Spec.forsSign shake s ⟨0, treeOf d, leafOf d⟩ (mdOf d) ++ htSign shake s 17 0 (treeOf d) (leafOf d) (forsPk shake s ⟨0, treeOf d, leafOf d⟩))).drop 11232 =
      htSign shake s 17 0 (treeOf d) (leafOf d) (forsPk shake s ⟨0, treeOf d, leafOf d⟩) := by
    rw [← List.append_assoc, List.drop_left' (by rw [List.length_append]; omega)]
  rw [h1, h2, fors_roundtrip hsh, ht_roundtrip hsh 16 _ _ _ _ (leafOf_lt d)]
  have := treeOf_lt d
  rw [show treeOf d / 16 ^ 16 = 0 from Nat.div_eq_of_lt (by omega)]
end
end Verif.Sphincs
