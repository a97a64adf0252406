import Verif.Sphincs.Wots

/-! The tree, FORS and top-level functions of the model compute what the specification says. -/

namespace Verif.Sphincs
open Verif Spec

theorem length_authPath {shake : Bytes → Nat → Bytes} (hsh : ∀ m n, (shake m n).length = n) {pub : Bytes} {adrs : Nat → Nat → Adrs}
    {leaf : Nat → Bytes} (hleaf : ∀ i, (leaf i).length = 32) (height i : Nat) : (authPath shake pub adrs leaf height i).length = height * 32 := by
  rw [authPath, length_flatMap_const (k := 32)]
  intro j _; exact length_node hsh hleaf _ _

theorem slice_all {x : Bytes} {n : Nat} (hx : x.length = n) : slice x 0 n = x := by
  rw [← hx]; exact slice_zero_length _

theorem slice_append_left {x y : Bytes} {n : Nat} (hx : x.length = n) : slice (x ++ y) 0 n = x := by
  rw [slice, List.drop_zero, List.take_left' hx]

theorem slice_append_right {x y : Bytes} {n k : Nat} (hx : x.length = n) (hy : y.length = k) : slice (x ++ y) n k = y := by
  rw [slice, List.drop_left' hx, List.take_of_length_le (by omega)]

/-- A copy of a whole array of known length into a fresh local array. -/
theorem copy_fresh {src : Bytes} {o n : Nat} (h : o + n ≤ src.length) : copy (zeroBytes n) 0 src o n = .ok (slice src o n) := by
  rw [copy_ok h (by rw [length_zeroBytes]; omega), splice_all (by rw [length_slice h, length_zeroBytes])]

theorem copy_all {dst src : Bytes} {d n : Nat} (h : src.length = n) (hd : d + n ≤ dst.length) : copy dst d src 0 n = .ok (splice dst d src) := by
  rw [copy_ok (by omega) hd, slice_all h]

theorem length_wotsSig {shake : Bytes → Nat → Bytes} (hsh : ∀ m n, (shake m n).length = n) (s : Seeds) (l : Loc) (m : Bytes) :
    (Spec.wotsSig shake s l m).length = 2144 := by
  rw [Spec.wotsSig, length_flatMap_const (k := 32)]
  intro i _
  exact length_chain hsh (length_prf hsh _ _) _ _

theorem length_wotsPk {shake : Bytes → Nat → Bytes} (hsh : ∀ m n, (shake m n).length = n) (s : Seeds) (l : Loc) : (wotsPk shake s l).length = 32 :=
  length_T hsh _ _ _

theorem length_xmssRoot {shake : Bytes → Nat → Bytes} (hsh : ∀ m n, (shake m n).length = n) (s : Seeds) (la tr : Nat) : (xmssRoot shake s la tr).length = 32 :=
  length_node hsh (fun _ => length_wotsPk hsh _ _) _ _

theorem length_xmssSign {shake : Bytes → Nat → Bytes} (hsh : ∀ m n, (shake m n).length = n) (s : Seeds) (la tr lf : Nat) (m : Bytes) :
    (xmssSign shake s la tr lf m).length = 2272 := by
  rw [xmssSign, List.length_append, length_wotsSig hsh, length_authPath hsh (fun _ => length_wotsPk hsh _ _)]

theorem treeAdrs_xmss {la tr : Nat} : treeAdrs ⟨la, tr, 2, 0, 0, 0⟩ 0 = xmssAdrs la tr := by
  funext h i
  simp [treeAdrs, xmssAdrs]

section
variable {shake : Bytes → Nat → Bytes} (hsh : ∀ m n, (shake m n).length = n)
variable {s : Seeds} (hpub : s.pub.length = 32) (hsec : s.sec.length = 32)
include hsh hpub hsec

/-! ### merkle.c -/

theorem merkleSign_run {la tr ty y z ty' x' y' z' lf : Nat} (hw : Small ⟨la, tr, ty', x', y', z'⟩) (ht : Small ⟨la, tr, ty, 0, y, z⟩)
    {sig root : Bytes} {o : Nat} (ho : o + 2272 ≤ sig.length) (hr : root.length = 32) :
    ∃ x yy zz, x.length = 2272 ∧ Small ⟨la, tr, 2, 0, yy, zz⟩ ∧ (lf < 16 → x = xmssSign shake s la tr lf root) ∧
      merkleSign shake sig o root ⟨s.pub, some s.sec⟩ (⟨la, tr, ty', x', y', z'⟩ : Adrs).bytes (⟨la, tr, ty, 0, y, z⟩ : Adrs).bytes lf =
        .ok (splice sig o x, xmssRoot shake s la tr, (⟨la, tr, 2, 0, yy, zz⟩ : Adrs).bytes) := by
  have h1 := setType' ht (v := 2) (by omega)
  have h2 := setType' zero_small (v := 1) (by omega)
  have h3 := copySubtree' zero_small hw
  have h4 := copySubtree' h2.2 hw
  rw [merkleSign, copy_fresh (by omega), ok_bind, copy_fresh (by omega), ok_bind, chainLengths_run hr, ok_bind, h1.1, ok_bind,
    zero_adrs, h2.1, ok_bind, h3.1, ok_bind, h4.1, ok_bind]
  simp only
  obtain ⟨auth, ad, info, e, ha, hauth, ⟨yy, zz, had1, had2⟩, hJ⟩ := treehashx1_run hsh hpub (sec := some s.sec) (base := ⟨la, tr, 2, 0, 0, 0⟩) (off := 0) (leafIdx := lf)
    (height := 4) (leaf := fun i => wotsPk shake s ⟨la, tr, i⟩) (fun _ => length_wotsPk hsh _ _) (by omega) (by omega)
    (InfoOk (shake := shake) s la tr lf root) (wotsGenLeaf shake ⟨s.pub, some s.sec⟩)
    (fun i info hi hJ => wotsGenLeaf_run hsh hpub hsec ht.layer ht.tree (by omega) hJ)
    (auth := slice sig (o + 2144) 128) (stack := zeroBytes 128) (addr := (⟨la, tr, 2, 0, y, z⟩ : Adrs).bytes)
    (info := ⟨slice sig o 2144, lf, (List.range 67).map (digit root), (⟨la, tr, 0, 0, 0, 0⟩ : Adrs).bytes, (⟨la, tr, 1, 0, 0, 0⟩ : Adrs).bytes⟩)
    (length_slice (by omega)) (length_zeroBytes _) ⟨y, z, h1.2, rfl⟩
    ⟨length_slice (by omega), rfl, rfl, fun h => by omega, ⟨0, by omega, 0, 0, by omega, by omega, rfl⟩, ⟨0, by omega, rfl⟩⟩
  rw [e, ok_bind]
  simp only
  rw [copy_all hJ.sigLen (by omega), ok_bind]
  have hsl : (splice sig o info.wotsSig).length = sig.length := length_splice (by rw [hJ.sigLen]; omega)
  rw [copy_all ha (by omega), ok_bind, treeAdrs_xmss]
  have hsp := splice_append (h := sig) (x := info.wotsSig) (y := auth) (o := o) (by rw [hJ.sigLen, ha]; omega)
  rw [hJ.sigLen] at hsp
  rw [hsp]
  subst had2
  refine ⟨info.wotsSig ++ auth, yy, zz, by rw [List.length_append, hJ.sigLen, ha], had1, fun hlt => ?_, rfl⟩
  rw [hJ.sig (by omega), hauth (by omega), treeAdrs_xmss, xmssSign]

theorem merkleGenRoot_run {root : Bytes} (hr : root.length = 32) :
    merkleGenRoot shake root ⟨s.pub, some s.sec⟩ = .ok (xmssRoot shake s 16 0) := by
  have h1 := setLayer' zero_small (v := 16) (by omega)
  rw [merkleGenRoot, zero_adrs, h1.1, ok_bind, ok_bind]
  obtain ⟨x, yy, zz, _, _, _, e⟩ := merkleSign_run hsh hpub hsec h1.2 h1.2 (lf := 2 ^ 32 - 1) (sig := zeroBytes 2272) (root := root) (o := 0)
    (by rw [length_zeroBytes]) hr
  rw [e, ok_bind]; rfl

/-- Key generation from a seed. -/
theorem seedKeypair_run' {pk sk : Bytes} (hpk : pk.length = 64) (hsk : sk.length = 128) {prfKey : Bytes} (hprf : prfKey.length = 32) :
    seedKeypair shake pk sk (s.sec ++ prfKey ++ s.pub) = .ok (0, publicKey shake s, s.sec ++ prfKey ++ publicKey shake s) := by
  obtain ⟨seed, hseed⟩ : ∃ x, x = s.sec ++ prfKey ++ s.pub := ⟨_, rfl⟩
  have hsl : seed.length = 96 := by rw [hseed]; simp [hpub, hsec, hprf]
  have hr := length_xmssRoot hsh s 16 0
  rw [seedKeypair, ← hseed, copy_all hsl (by omega), ok_bind]
  have l1 : (splice sk 0 seed).length = 128 := by rw [length_splice (by omega), hsk]
  rw [copy_ok (by omega) (by omega), ok_bind]
  have e1 : slice (splice sk 0 seed) 64 32 = s.pub := by
    rw [slice_splice_in (by omega) (by omega), hseed, Nat.sub_zero]
    exact slice_append_right (by simp [hsec, hprf]) hpub
  have e2 : slice (splice sk 0 seed) 0 32 = s.sec := by
    rw [slice_splice_in (by omega) (by omega), hseed, Nat.sub_zero, List.append_assoc]
    exact slice_append_left hsec
  have l2 : (splice pk 0 s.pub).length = 64 := by rw [length_splice (by omega), hpk]
  have e3 : slice (splice pk 0 s.pub) 0 32 = s.pub := by
    rw [slice_splice_in (by omega) (by omega), Nat.sub_zero]; exact slice_all hpub
  rw [e1, copy_fresh (by omega), ok_bind, copy_fresh (by omega), ok_bind, copy_fresh (by omega), ok_bind, e2, e3,
    merkleGenRoot_run hsh hpub hsec (length_slice (by omega)), ok_bind, copy_all hr (by omega), ok_bind]
  have e4 : splice (splice sk 0 seed) 96 (xmssRoot shake s 16 0) = seed ++ xmssRoot shake s 16 0 := by
    have := splice_append (h := sk) (x := seed) (y := xmssRoot shake s 16 0) (o := 0) (by omega)
    rw [hsl, Nat.zero_add] at this
    rw [this, splice_all (by rw [List.length_append]; omega)]
  rw [e4, copy_ok (by rw [List.length_append]; omega) (by omega), ok_bind, slice_append_right hsl hr]
  have e5 := splice_append (h := pk) (x := s.pub) (y := xmssRoot shake s 16 0) (o := 0) (by omega)
  rw [hpub, Nat.zero_add] at e5
  rw [e5, splice_all (by rw [List.length_append]; omega), hseed, publicKey, List.append_assoc (s.sec ++ prfKey)]
  rfl

end

/-! ### fors.c -/

theorem xor_add {a b k : Nat} (ha : a % 2 ^ k = 0) (hb : b < 2 ^ k) : a ^^^ b = a + b := by
  rw [← or_shift_add ha hb]
  obtain ⟨q, rfl⟩ := Nat.dvd_of_mod_eq_zero ha
  apply Nat.eq_of_testBit_eq
  intro i
  rw [Nat.testBit_xor, Nat.testBit_or]
  by_cases c : i < k
  · rw [Nat.testBit_two_pow_mul]
    simp [show ¬ k ≤ i by omega]
  · rw [Nat.testBit_lt_two_pow (x := b) (Nat.lt_of_lt_of_le hb (Nat.pow_le_pow_right (by decide) (by omega)))]
    simp

theorem bit_of_ofBe {b : Bytes} {t : Nat} (h : t < 8 * b.length) :
    (b[t / 8]'(by omega)).toNat / 2 ^ (7 - t % 8) % 2 = ofBe b / 2 ^ (8 * b.length - 1 - t) % 2 := by
  rw [byte_of_ofBe (by omega)]
  have e : 8 * b.length - 1 - t = 8 * (b.length - 1 - t / 8) + (7 - t % 8) := by omega
  have e2 : (2:Nat) ^ (8 * (b.length - 1 - t / 8)) = 256 ^ (b.length - 1 - t / 8) := by rw [Nat.pow_mul]
  rw [e, Nat.pow_add, e2, ← Nat.div_div_eq_div_mul]
  generalize ofBe b / 256 ^ (b.length - 1 - t / 8) = z
  rcases (by omega : t % 8 = 0 ∨ t % 8 = 1 ∨ t % 8 = 2 ∨ t % 8 = 3 ∨ t % 8 = 4 ∨ t % 8 = 5 ∨ t % 8 = 6 ∨ t % 8 = 7) with c | c | c | c | c | c | c | c <;>
    rw [c] <;> norm_num <;> omega

/-- `message_to_indices` gives the 9-bit indices, most significant bit first. -/
theorem messageToIndices_run {m : Bytes} (hm : m.length = 40) : messageToIndices m = .ok ((List.range 35).map (forsIndex m)) := by
  rw [messageToIndices]
  obtain ⟨⟨ind, off⟩, e, h1, h2⟩ := loop_inv (fun i (s : List Nat × Nat) => s.1 = splice (List.replicate 35 0) 0 ((List.range i).map (forsIndex m)) ∧ s.2 = 9 * i)
    (fun i s => do
      let (ind, offset) := (s : List Nat × Nat)
      let t ← loop (fun j t => do
        let b ← rd m (t.2 >>> 3)
        pure (t.1 ^^^ (((b.toNat >>> ((2 ^ 32 - 1 - t.2) &&& 7)) &&& 1) <<< (9 - 1 - j)), t.2 + 1)) 0 9 (0, offset)
      let ind ← wr ind i t.1
      pure (ind, t.2)) 0 35 (List.replicate 35 0, 0) ⟨by rw [List.range_zero, List.map_nil, splice_nil], rfl⟩ (by
      rintro i ⟨ind, off⟩ _ hi ⟨h1, h2⟩
      simp only at h1 h2
      subst h2
      obtain ⟨⟨v, o2⟩, e, h3, h4⟩ := loop_inv (fun j (t : Nat × Nat) => t.1 = ofBe m / 2 ^ (320 - 9 * i - j) % 2 ^ j * 2 ^ (9 - j) ∧ t.2 = 9 * i + j)
        (fun j t => do
          let b ← rd m (t.2 >>> 3)
          pure (t.1 ^^^ (((b.toNat >>> ((2 ^ 32 - 1 - t.2) &&& 7)) &&& 1) <<< (9 - 1 - j)), t.2 + 1)) 0 9 (0, 9 * i) ⟨by simp [Nat.mod_one], rfl⟩ (by
          rintro j ⟨v, o2⟩ _ hj ⟨h3, h4⟩
          simp only at h3 h4
          subst h4
          refine ⟨(ofBe m / 2 ^ (320 - 9 * i - (j + 1)) % 2 ^ (j + 1) * 2 ^ (9 - (j + 1)), 9 * i + j + 1), ?_, rfl, by simp only; omega⟩
          simp only
          have hbit := bit_of_ofBe (b := m) (t := 9 * i + j) (by omega)
          have hand : (2 ^ 32 - 1 - (9 * i + j)) &&& 7 = 7 - (9 * i + j) % 8 := by
            rw [show (7 : Nat) = 2 ^ 3 - 1 from rfl, Nat.and_two_pow_sub_one_eq_mod]; omega
          rw [Nat.shiftRight_eq_div_pow, show (2:Nat) ^ 3 = 8 from rfl, rd_ok (by omega), ok_bind, hand, Nat.shiftRight_eq_div_pow, Nat.and_one_is_mod, hbit, Nat.shiftLeft_eq, hm,
            show 8 * 40 - 1 - (9 * i + j) = 320 - 9 * i - (j + 1) by omega]
          have e1 : ofBe m / 2 ^ (320 - 9 * i - j) = ofBe m / 2 ^ (320 - 9 * i - (j + 1)) / 2 := by
            rw [Nat.div_div_eq_div_mul, ← Nat.pow_succ]; congr 2; omega
          rw [e1] at h3
          rw [h3]
          generalize ofBe m / 2 ^ (320 - 9 * i - (j + 1)) = M
          have e9 : 9 - j = (9 - 1 - j) + 1 := by omega
          have e8 : 9 - (j + 1) = 9 - 1 - j := by omega
          have hm2 : M % 2 ^ (j + 1) = 2 * (M / 2 % 2 ^ j) + M % 2 := by
            rw [Nat.pow_succ, Nat.mul_comm, Nat.mod_mul]; omega
          have hlt : M % 2 * 2 ^ (9 - 1 - j) < 2 ^ (9 - j) := by
            rw [e9, Nat.pow_succ, Nat.mul_comm]
            exact Nat.mul_lt_mul_of_pos_left (Nat.mod_lt _ (by decide)) (Nat.two_pow_pos _)
          rw [pure_eq_ok, xor_add (k := 9 - j) (by simp) hlt, hm2, e8, e9, Nat.pow_succ]
          congr 2
          ring)
      rw [Nat.zero_add] at h3 h4
      simp only at h3 h4
      have hv : v = forsIndex m i := by
        rw [h3, forsIndex, show 320 - 9 * (i + 1) = 320 - 9 * i - 9 by omega]; simp
      have hl : ((List.range i).map (forsIndex m)).length = i := by rw [List.length_map, List.length_range]
      have hr : (List.replicate 35 0 : List Nat).length = 35 := List.length_replicate
      refine ⟨(splice (List.replicate 35 0) 0 ((List.range (i + 1)).map (forsIndex m)), 9 * (i + 1)), ?_, rfl, rfl⟩
      have h5 := splice_snoc (b := (List.replicate 35 0 : List Nat)) (x := (List.range i).map (forsIndex m)) (o := 0) (v := v) (by omega)
      rw [hl, Nat.zero_add] at h5
      simp only
      rw [e, ok_bind, h1, wr_ok (by rw [length_splice (by omega)]; omega), ok_bind, h5, List.range_succ, List.map_append, hv, h4, pure_eq_ok]
      rfl)
  rw [Nat.zero_add] at h1
  simp only at h1
  rw [e, ok_bind, h1, splice_all (by rw [List.length_map, List.length_range, List.length_replicate]), pure_eq_ok]

theorem forsIndex_lt (m : Bytes) (i : Nat) : forsIndex m i < 512 := Nat.mod_lt _ (by decide)

theorem node_congr {H : Bytes → Nat → Bytes} {pub : Bytes} {a a' : Nat → Nat → Adrs} {leaf : Nat → Bytes} {n : Nat}
    (h : ∀ k, k ≤ n → ∀ i, a k i = a' k i) : ∀ k, k ≤ n → ∀ i, node H pub a leaf k i = node H pub a' leaf k i := by
  intro k
  induction k with
  | zero => intro _ _; rfl
  | succ k ih => intro hk i; rw [node, node, h _ hk, ih (by omega), ih (by omega)]

theorem authPath_congr {H : Bytes → Nat → Bytes} {pub : Bytes} {a a' : Nat → Nat → Adrs} {leaf : Nat → Bytes} {n i : Nat}
    (h : ∀ k, k ≤ n → ∀ i, a k i = a' k i) : authPath H pub a leaf n i = authPath H pub a' leaf n i := by
  rw [authPath, authPath, List.flatMap_def, List.flatMap_def]
  congr 1
  apply List.map_congr_left
  intro k hk
  rw [List.mem_range] at hk
  exact node_congr h k (by omega) _

theorem climb_congr {H : Bytes → Nat → Bytes} {pub : Bytes} {a a' : Nat → Nat → Adrs} {leaf auth : Bytes} {i n : Nat}
    (h : ∀ k, k ≤ n → ∀ i, a k i = a' k i) : ∀ k, k ≤ n → climb H pub a leaf auth i k = climb H pub a' leaf auth i k := by
  intro k
  induction k with
  | zero => intro _; rfl
  | succ k ih => intro hk; rw [climb, climb, h _ hk, ih (by omega)]

theorem treeAdrs_fors {l : Loc} {t h i : Nat} (hh : h ≤ 9) : treeAdrs ⟨l.layer, l.tree, 3, l.leaf, 0, 0⟩ (t * 512) h i = forsAdrs l t h i := by
  rw [treeAdrs, forsAdrs]
  have : t * 512 / 2 ^ h = t * 2 ^ (9 - h) := by
    rw [show 512 = 2 ^ (9 - h) * 2 ^ h by rw [← Nat.pow_add]; norm_num [Nat.sub_add_cancel hh], ← Nat.mul_assoc, Nat.mul_div_cancel _ (Nat.two_pow_pos h)]
  rw [this, Nat.add_comm]

section
variable {shake : Bytes → Nat → Bytes} (hsh : ∀ m n, (shake m n).length = n)
include hsh

theorem length_forsLeaf (s : Seeds) (l : Loc) (t i : Nat) : (forsLeaf shake s l t i).length = 32 := length_T hsh _ _ _
theorem length_forsSk (s : Seeds) (l : Loc) (t i : Nat) : (forsSk shake s l t i).length = 32 := length_prf hsh _ _

theorem length_forsSign (s : Seeds) (l : Loc) (md : Bytes) : (Spec.forsSign shake s l md).length = 11200 := by
  rw [Spec.forsSign, length_flatMap_const (k := 320)]
  intro t _
  rw [List.length_append, length_forsSk hsh, length_authPath hsh (fun _ => length_forsLeaf hsh _ _ _ _)]

section
variable {s : Seeds} (hpub : s.pub.length = 32) (hsec : s.sec.length = 32)
include hpub hsec

/-- `fors_gen_leafx1` computes a FORS leaf. -/
theorem forsGenLeaf_run {l : Loc} (hl : LocOk l) {t i ty z : Nat} (ht : t < 35) (hi : i < 512) (hty : ty < 256) (hz : z < 2 ^ 32) :
    forsGenLeaf shake ⟨s.pub, some s.sec⟩ (i + t * 512) (⟨l.layer, l.tree, ty, l.leaf, 0, z⟩ : Adrs).bytes =
      .ok (forsLeaf shake s l t i, (⟨l.layer, l.tree, 3, l.leaf, 0, i + t * 512⟩ : Adrs).bytes) := by
  have h0 : Small ⟨l.layer, l.tree, ty, l.leaf, 0, z⟩ := ⟨hl.layer, hl.tree, hty, hl.leaf, Nat.zero_lt_succ _, hz⟩
  have h1 := setIndex' h0 (v := i + t * 512) (by omega)
  have h2 := setType' h1.2 (v := 6) (by omega)
  have h3 := setType' h2.2 (v := 3) (by omega)
  have hlen := length_forsSk hsh s l t i
  have hsk : prf shake s ⟨l.layer, l.tree, 6, l.leaf, 0, i + t * 512⟩ = forsSk shake s l t i := by rw [forsSk, Nat.add_comm]
  rw [forsGenLeaf, h1.1, ok_bind, h2.1, ok_bind, prfAddr_run hpub hsec, ok_bind, h3.1, ok_bind, hsk, thash_T hpub (by omega), ok_bind,
    slice_self hlen, pure_eq_ok, forsLeaf, forsAdrs, Nat.add_comm i, Nat.sub_zero]

theorem forsSign_run {l : Loc} (hl : LocOk l) {y z : Nat} (hfa : Small ⟨l.layer, l.tree, 0, l.leaf, y, z⟩) {sig m : Bytes} {o : Nat} (ho : o + 11200 ≤ sig.length) (hm : m.length = 40) :
    forsSign shake sig o m ⟨s.pub, some s.sec⟩ (⟨l.layer, l.tree, 0, l.leaf, y, z⟩ : Adrs).bytes =
      .ok (splice sig o (Spec.forsSign shake s l m), forsPk shake s l) := by
  obtain ⟨F, hF⟩ : ∃ F : Nat → Bytes, ∀ t, F t = forsSk shake s l t (forsIndex m t) ++ authPath shake s.pub (forsAdrs l t) (forsLeaf shake s l t) 9 (forsIndex m t) :=
    ⟨_, fun _ => rfl⟩
  obtain ⟨R, hR⟩ : ∃ R : Nat → Bytes, ∀ t, R t = node shake s.pub (forsAdrs l t) (forsLeaf shake s l t) 9 0 := ⟨_, fun _ => rfl⟩
  have hFl : ∀ t, (F t).length = 320 := fun t => by
    rw [hF, List.length_append, length_forsSk hsh, length_authPath hsh (fun _ => length_forsLeaf hsh _ _ _ _)]
  have hRl : ∀ t, (R t).length = 32 := fun t => by rw [hR]; exact length_node hsh (fun _ => length_forsLeaf hsh _ _ _ _) _ _
  have hz : (zeroBytes 1120).length = 1120 := length_zeroBytes _
  have k1 := copyKeypair' zero_small hfa
  have k2 := setType' k1.2 (v := 4) (by omega)
  rw [forsSign, zero_adrs, k1.1, ok_bind, ok_bind, ok_bind, k2.1, ok_bind, messageToIndices_run hm, ok_bind]
  obtain ⟨⟨sg, roots, ta, la⟩, e, h1, h2, _⟩ := loop_inv (fun i (t : Bytes × Bytes × Bytes × Bytes) =>
      t.1 = splice sig o ((List.range i).flatMap F) ∧ t.2.1 = splice (zeroBytes 1120) 0 ((List.range i).flatMap R) ∧
      (∃ ty y z, Small ⟨l.layer, l.tree, ty, l.leaf, y, z⟩ ∧ t.2.2.1 = (⟨l.layer, l.tree, ty, l.leaf, y, z⟩ : Adrs).bytes) ∧
      (∃ ty z, Small ⟨l.layer, l.tree, ty, l.leaf, 0, z⟩ ∧ t.2.2.2 = (⟨l.layer, l.tree, ty, l.leaf, 0, z⟩ : Adrs).bytes))
    (fun i t => do
      let (sig, roots, treeAddr, leafAddr) := (t : Bytes × Bytes × Bytes × Bytes)
      let idxOffset := i * 2 ^ 9
      let idx ← rd ((List.range 35).map (forsIndex m)) i
      let treeAddr ← setTreeHeight treeAddr 0
      let treeAddr ← setTreeIndex treeAddr ((idx + idxOffset) % 2 ^ 32)
      let treeAddr ← setType treeAddr 6
      let sk ← prfAddr shake ⟨s.pub, some s.sec⟩ treeAddr
      let sig ← copy sig (o + i * 320) sk 0 32
      let treeAddr ← setType treeAddr 3
      let auth ← copy (zeroBytes 288) 0 sig (o + i * 320 + 32) 288
      let (root, auth, treeAddr, leafAddr) ←
        treehashx1 shake ⟨s.pub, some s.sec⟩ idx idxOffset 9 (forsGenLeaf shake ⟨s.pub, some s.sec⟩) auth (zeroBytes 288) treeAddr leafAddr
      let sig ← copy sig (o + i * 320 + 32) auth 0 288
      let roots ← copy roots (i * 32) root 0 32
      pure (sig, roots, treeAddr, leafAddr)) 0 35
    (sig, zeroBytes 1120, (⟨l.layer, l.tree, 0, l.leaf, 0, 0⟩ : Adrs).bytes, (⟨l.layer, l.tree, 0, l.leaf, 0, 0⟩ : Adrs).bytes)
    ⟨by simp, by simp, ⟨0, 0, 0, k1.2, rfl⟩, ⟨0, 0, k1.2, rfl⟩⟩ (by
      rintro i ⟨sg, roots, ta, la⟩ _ hi ⟨h1, h2, ⟨ty, y, z, hs1, h3⟩, ⟨ty', z', hs2, h4⟩⟩
      simp only at h1 h2 h3 h4
      subst h3 h4
      have hix := forsIndex_lt m i
      have hfF := length_flatMap_const (f := F) (k := 320) (n := i) (fun j _ => hFl j)
      have hfR := length_flatMap_const (f := R) (k := 32) (n := i) (fun j _ => hRl j)
      have hsgl : sg.length = sig.length := by rw [h1, length_splice (by rw [hfF]; omega)]
      have hrl : roots.length = 1120 := by rw [h2, length_splice (by rw [hfR, hz]; omega), hz]
      have g1 := setHeight' hs1 (v := 0) (by omega)
      have g2 := setIndex' g1.2 (v := forsIndex m i + i * 512) (by omega)
      have g3 := setType' g2.2 (v := 6) (by omega)
      have g4 := setType' g3.2 (v := 3) (by omega)
      have hskl := length_forsSk hsh s l i (forsIndex m i)
      have hsk : prf shake s ⟨l.layer, l.tree, 6, l.leaf, 0, forsIndex m i + i * 512⟩ = forsSk shake s l i (forsIndex m i) := by rw [forsSk, Nat.add_comm]
      simp only
      rw [show (2:Nat) ^ 9 = 512 from rfl, rd_map_range (by omega), ok_bind, g1.1, ok_bind, Nat.mod_eq_of_lt (by omega), g2.1, ok_bind, g3.1, ok_bind,
        prfAddr_run hpub hsec, ok_bind, hsk, copy_all hskl (by omega), ok_bind, g4.1, ok_bind]
      have hs5 : (splice sg (o + i * 320) (forsSk shake s l i (forsIndex m i))).length = sig.length := by rw [length_splice (by omega), hsgl]
      rw [copy_fresh (by omega), ok_bind]
      obtain ⟨auth, ad, la2, e, ha, hauth, ⟨yy, zz, had1, had2⟩, ty2, z2, hs6, h6⟩ := treehashx1_run hsh hpub (sec := some s.sec) (base := ⟨l.layer, l.tree, 3, l.leaf, 0, 0⟩)
        (off := i * 512) (leafIdx := forsIndex m i) (height := 9) (leaf := forsLeaf shake s l i) (fun _ => length_forsLeaf hsh _ _ _ _) (by omega) (by omega)
        (fun _ (a : Bytes) => ∃ ty z, Small ⟨l.layer, l.tree, ty, l.leaf, 0, z⟩ ∧ a = (⟨l.layer, l.tree, ty, l.leaf, 0, z⟩ : Adrs).bytes)
        (forsGenLeaf shake ⟨s.pub, some s.sec⟩)
        (by
          rintro j a hj ⟨ty, z, hs, rfl⟩
          refine ⟨_, forsGenLeaf_run hsh hpub hsec hl (t := i) (i := j) (by omega) (by omega) hs.type hs.w3, 3, j + i * 512, ?_, rfl⟩
          exact ⟨hl.layer, hl.tree, by simp only; omega, hl.leaf, Nat.zero_lt_succ _, by simp only; omega⟩)
        (auth := slice (splice sg (o + i * 320) (forsSk shake s l i (forsIndex m i))) (o + i * 320 + 32) 288) (stack := zeroBytes 288)
        (length_slice (by omega)) (length_zeroBytes _) ⟨0, forsIndex m i + i * 512, g4.2, rfl⟩ ⟨ty', z', hs2, rfl⟩
      rw [node_congr (a' := forsAdrs l i) (n := 9) (fun k hk j => treeAdrs_fors hk) 9 (by omega), ← hR] at e
      rw [authPath_congr (a' := forsAdrs l i) (fun k hk j => treeAdrs_fors hk)] at hauth
      rw [e, ok_bind]
      simp only
      rw [copy_all ha (by omega), ok_bind, copy_all (hRl i) (by omega), ok_bind, pure_eq_ok]
      have hsp := splice_append (h := sg) (x := forsSk shake s l i (forsIndex m i)) (y := auth) (o := o + i * 320) (by omega)
      rw [hskl] at hsp
      rw [hsp, hauth (by omega), ← hF, h1, h2]
      have f1 := fill_step (b := sig) (f := F) (o := o) (k := 320) (i := i) (n := 35) (fun j _ => hFl j) (by omega) (by omega)
      have f2 := fill_step (b := zeroBytes 1120) (f := R) (o := 0) (k := 32) (i := i) (n := 35) (fun j _ => hRl j) (by omega) (by omega)
      rw [Nat.zero_add] at f2
      rw [f1, f2]
      exact ⟨_, rfl, rfl, rfl, ⟨3, yy, zz, had1, had2⟩, ⟨ty2, z2, hs6, h6⟩⟩)
  rw [Nat.zero_add] at h1 h2
  simp only at h1 h2
  have hfR := length_flatMap_const (f := R) (k := 32) (n := 35) (fun j _ => hRl j)
  rw [splice_all (by rw [hfR, hz])] at h2
  rw [e, ok_bind]
  simp only
  have hrl : roots.length = 1120 := by rw [h2, hfR]
  rw [thash_T hpub (by omega), ok_bind, pure_eq_ok, h1, slice_all (by omega), h2, Spec.forsSign, forsPk, forsCompress, show F = _ from funext hF, show R = _ from funext hR]
end

variable {pub : Bytes} (hpub : pub.length = 32) {sec : Option Bytes}
include hpub

theorem forsPkFromSig_run {l : Loc} {y z : Nat} (hfa : Small ⟨l.layer, l.tree, 0, l.leaf, y, z⟩) {sig m : Bytes} {o : Nat} (ho : o + 11200 ≤ sig.length) (hm : m.length = 40) :
    forsPkFromSig shake sig o m ⟨pub, sec⟩ (⟨l.layer, l.tree, 0, l.leaf, y, z⟩ : Adrs).bytes =
      .ok (Spec.forsPkFromSig shake pub l (slice sig o 11200) m) := by
  obtain ⟨R, hR⟩ : ∃ R : Nat → Bytes, ∀ t, R t = climb shake pub (forsAdrs l t) (T shake pub (forsAdrs l t 0 (forsIndex m t)) (slice (slice sig o 11200) (320 * t) 32))
      (slice (slice sig o 11200) (320 * t + 32) 288) (forsIndex m t) 9 := ⟨_, fun _ => rfl⟩
  have hRl : ∀ t, (R t).length = 32 := fun t => by rw [hR]; exact length_climb hsh (length_T hsh _ _ _) _ _
  have hz : (zeroBytes 1120).length = 1120 := length_zeroBytes _
  have k1 := copyKeypair' zero_small hfa
  have k2 := setType' k1.2 (v := 3) (by omega)
  have k3 := setType' k1.2 (v := 4) (by omega)
  rw [forsPkFromSig, zero_adrs, k1.1, ok_bind, ok_bind, k2.1, ok_bind, k3.1, ok_bind, messageToIndices_run hm, ok_bind]
  obtain ⟨⟨roots, ta⟩, e, h2, _⟩ := loop_inv (fun i (t : Bytes × Bytes) =>
      t.1 = splice (zeroBytes 1120) 0 ((List.range i).flatMap R) ∧
      (∃ y z, Small ⟨l.layer, l.tree, 3, l.leaf, y, z⟩ ∧ t.2 = (⟨l.layer, l.tree, 3, l.leaf, y, z⟩ : Adrs).bytes))
    (fun i t => do
      let (roots, treeAddr) := (t : Bytes × Bytes)
      let idxOffset := i * 2 ^ 9
      let idx ← rd ((List.range 35).map (forsIndex m)) i
      let treeAddr ← setTreeHeight treeAddr 0
      let treeAddr ← setTreeIndex treeAddr ((idx + idxOffset) % 2 ^ 32)
      let leaf ← thash shake sig (o + i * 320) 1 ⟨pub, sec⟩ treeAddr
      let (root, treeAddr) ← computeRoot shake leaf idx idxOffset sig (o + i * 320 + 32) 9 ⟨pub, sec⟩ treeAddr
      let roots ← copy roots (i * 32) root 0 32
      pure (roots, treeAddr)) 0 35 (zeroBytes 1120, (⟨l.layer, l.tree, 3, l.leaf, 0, 0⟩ : Adrs).bytes)
    ⟨by simp, ⟨0, 0, k2.2, rfl⟩⟩ (by
      rintro i ⟨roots, ta⟩ _ hi ⟨h2, ⟨y, z, hs1, h3⟩⟩
      simp only at h2 h3
      subst h3
      have hix := forsIndex_lt m i
      have hfR := length_flatMap_const (f := R) (k := 32) (n := i) (fun j _ => hRl j)
      have hrl : roots.length = 1120 := by rw [h2, length_splice (by rw [hfR, hz]; omega), hz]
      have g1 := setHeight' hs1 (v := 0) (by omega)
      have g2 := setIndex' g1.2 (v := forsIndex m i + i * 512) (by omega)
      simp only
      rw [show (2:Nat) ^ 9 = 512 from rfl, rd_map_range (by omega), ok_bind, g1.1, ok_bind, Nat.mod_eq_of_lt (by omega), g2.1, ok_bind, thash_T hpub (by omega), ok_bind]
      obtain ⟨ad, e, yy, zz, had1, had2⟩ := computeRoot_run hsh hpub (sec := sec) (base := ⟨l.layer, l.tree, 3, l.leaf, 0, 0⟩) (off := i * 512) (leafIdx := forsIndex m i)
        (height := 8) (o := o + i * 320 + 32) (auth := sig) (addr := (⟨l.layer, l.tree, 3, l.leaf, 0, forsIndex m i + i * 512⟩ : Adrs).bytes)
        (length_T hsh pub ⟨l.layer, l.tree, 3, l.leaf, 0, forsIndex m i + i * 512⟩ (slice sig (o + i * 320) (1 * 32))) (by omega) (by omega) (by omega)
        ⟨0, _, g2.2, rfl⟩
      have hRi : climb shake pub (treeAdrs ⟨l.layer, l.tree, 3, l.leaf, 0, 0⟩ (i * 512))
          (T shake pub ⟨l.layer, l.tree, 3, l.leaf, 0, forsIndex m i + i * 512⟩ (slice sig (o + i * 320) (1 * 32)))
          (slice sig (o + i * 320 + 32) ((8 + 1) * 32)) (forsIndex m i) (8 + 1) = R i := by
        rw [climb_congr (a' := forsAdrs l i) (n := 9) (fun k hk j => treeAdrs_fors hk) 9 (by omega), hR, slice_slice (by omega), slice_slice (by omega),
          forsAdrs, Nat.add_comm (forsIndex m i), Nat.mul_comm 320, Nat.add_assoc]
      rw [hRi] at e
      rw [e, ok_bind]
      simp only
      rw [copy_all (hRl i) (by omega), ok_bind, pure_eq_ok, h2]
      have f2 := fill_step (b := zeroBytes 1120) (f := R) (o := 0) (k := 32) (i := i) (n := 35) (fun j _ => hRl j) (by omega) (by omega)
      rw [Nat.zero_add] at f2
      rw [f2]
      exact ⟨_, rfl, rfl, ⟨yy, zz, had1, had2⟩⟩)
  rw [Nat.zero_add] at h2
  simp only at h2
  have hfR := length_flatMap_const (f := R) (k := 32) (n := 35) (fun j _ => hRl j)
  rw [splice_all (by rw [hfR, hz])] at h2
  rw [e, ok_bind]
  simp only
  have hrl : roots.length = 1120 := by rw [h2, hfR]
  rw [thash_T hpub (by omega), slice_all (by omega), h2, Spec.forsPkFromSig, forsCompress, show R = _ from funext hR]
end

end Verif.Sphincs
