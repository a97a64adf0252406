import Verif.Sphincs.Props

/-! Properties C44, C45, C46, and concrete cases for the theorems of Props.lean. -/

namespace Verif.Sphincs
open Verif Spec

/-! ### C44 -/

theorem sum_le_sum (f g : Nat → Nat) (k : Nat) (h : ∀ i, i < k → f i ≤ g i) : ((List.range k).map f).sum ≤ ((List.range k).map g).sum := by
  induction k with
  | zero => simp
  | succ k ih =>
    have := ih (fun i hi => h i (by omega))
    have := h k (by omega)
    simp only [List.range_succ, List.map_append, List.sum_append, List.map_cons, List.map_nil, List.sum_singleton]
    omega

theorem eq_of_sum_eq (f g : Nat → Nat) (k : Nat) (h : ∀ i, i < k → f i ≤ g i) (e : ((List.range k).map f).sum = ((List.range k).map g).sum) :
    ∀ i, i < k → f i = g i := by
  induction k with
  | zero => intro i hi; omega
  | succ k ih =>
    simp only [List.range_succ, List.map_append, List.sum_append, List.map_cons, List.map_nil, List.sum_singleton] at e
    have h1 := sum_le_sum f g k (fun i hi => h i (by omega))
    have h2 := h k (by omega)
    intro i hi
    rcases Nat.lt_succ_iff_lt_or_eq.1 hi with h3 | h3
    · exact ih (fun i hi => h i (by omega)) (by omega) i h3
    · subst h3; omega

theorem msgDigit_inj {m m' : Bytes} (h : m.length = 32) (h' : m'.length = 32) (e : ∀ i, i < 64 → msgDigit m i = msgDigit m' i) : m = m' := by
  apply List.ext_getElem (by omega)
  intro j hj hj'
  apply BitVec.eq_of_toNat_eq
  have e1 := e (2 * j) (by omega)
  have e2 := e (2 * j + 1) (by omega)
  have n1 := nibble_of_ofBe (b := m) (i := 2 * j) (by omega)
  have n2 := nibble_of_ofBe (b := m) (i := 2 * j + 1) (by omega)
  have n3 := nibble_of_ofBe (b := m') (i := 2 * j) (by omega)
  have n4 := nibble_of_ofBe (b := m') (i := 2 * j + 1) (by omega)
  simp only [h, h', show 2 * j % 2 = 0 by omega, show (2 * j + 1) % 2 = 1 by omega, show 2 * j / 2 = j by omega, show (2 * j + 1) / 2 = j by omega] at n1 n2 n3 n4
  rw [msgDigit, msgDigit, n1, n3] at e1
  rw [msgDigit, msgDigit, n2, n4] at e2
  simp at e1 e2
  have b1 := m[j].isLt
  have b2 := m'[j].isLt
  omega

/-- C44: the chain positions of a 32-byte message are 67 numbers below 16, and for two different messages some position for
the second is below the one for the first. -/
theorem wots_domination_free (m m' : Bytes) (h : m.length = 32) (h' : m'.length = 32) (hne : m ≠ m') :
    ∃ l l', chainLengths m = .ok l ∧ chainLengths m' = .ok l' ∧ l.length = 67 ∧ l'.length = 67 ∧
      (∀ x ∈ l, x < 16) ∧ (∀ x ∈ l', x < 16) ∧ ∃ i : Nat, ∃ x y, l[i]? = some x ∧ l'[i]? = some y ∧ y < x := by
  refine ⟨_, _, chainLengths_run h, chainLengths_run h', by simp, by simp, ?_, ?_, ?_⟩
  · intro x hx; obtain ⟨i, _, rfl⟩ := List.mem_map.1 hx; exact digit_lt _ _
  · intro x hx; obtain ⟨i, _, rfl⟩ := List.mem_map.1 hx; exact digit_lt _ _
  · by_contra hcon
    have hall : ∀ i, i < 67 → digit m i ≤ digit m' i := by
      intro i hi
      by_contra hlt
      exact hcon ⟨i, digit m i, digit m' i, by simp [hi], by simp [hi], by omega⟩
    have hmsg : ∀ i, i < 64 → msgDigit m i ≤ msgDigit m' i := by
      intro i hi
      have := hall i (by omega)
      rwa [digit, digit, if_pos hi, if_pos hi] at this
    have d15 : ∀ (b : Bytes) i, msgDigit b i < 16 := fun b i => Nat.mod_lt _ (by decide)
    have hterm : ∀ i, i < 64 → 15 - msgDigit m' i ≤ 15 - msgDigit m i := fun i hi => by have := hmsg i hi; omega
    have c1 : checksum m' ≤ checksum m := sum_le_sum _ _ 64 hterm
    have c2 : checksum m ≤ checksum m' := by
      have k1 := checksum_le m
      have k2 := checksum_le m'
      have a1 := hall 64 (by omega)
      have a2 := hall 65 (by omega)
      have a3 := hall 66 (by omega)
      simp [digit] at a1 a2 a3
      omega
    have heq := eq_of_sum_eq _ _ 64 hterm (by show checksum m' = checksum m; omega)
    refine hne (msgDigit_inj h h' fun i hi => ?_)
    have := heq i hi
    have := d15 m i
    have := d15 m' i
    omega

/-- Two messages that differ in the last bit: the theorem applies, and the position that goes down is in the checksum. -/
example : (List.replicate 31 0 ++ [(0 : Byte)]).length = 32 ∧ (List.replicate 31 0 ++ [(1 : Byte)]).length = 32 ∧
    (chainLengths (List.replicate 31 0 ++ [(0 : Byte)]) = .ok (List.replicate 64 0 ++ [3, 12, 0])) ∧
    (chainLengths (List.replicate 31 0 ++ [(1 : Byte)]) = .ok (List.replicate 63 0 ++ [1, 3, 11, 15])) := by decide +kernel

/-! ### C45 -/

/-- C45, indices: 35 numbers below 512; bit 8 - j of number i is bit 9 i + j of the digest, counted from the most significant bit of
the first byte. -/
theorem fors_indices (m : Bytes) (h : m.length = 40) :
    ∃ l, messageToIndices m = .ok l ∧ l.length = 35 ∧
      ∀ i, i < 35 → ∃ x, l[i]? = some x ∧ x < 512 ∧
        ∀ j, j < 9 → x.testBit (8 - j) = (m.getD ((9 * i + j) / 8) 0).getMsbD ((9 * i + j) % 8) := by
  refine ⟨_, messageToIndices_run h, by simp, ?_⟩
  intro i hi
  refine ⟨forsIndex m i, by simp [hi], forsIndex_lt _ _, ?_⟩
  intro j hj
  have hb := bit_of_ofBe (b := m) (t := 9 * i + j) (by omega)
  have hlt : (9 * i + j) / 8 < m.length := by omega
  have hmod : (9 * i + j) % 8 < 8 := Nat.mod_lt _ (by decide)
  rw [List.getD_eq_getElem?_getD, List.getElem?_eq_getElem hlt, Option.getD_some]
  have e1 : (forsIndex m i).testBit (8 - j) = decide (ofBe m / 2 ^ (8 * m.length - 1 - (9 * i + j)) % 2 = 1) := by
    rw [forsIndex, show 512 = 2 ^ 9 from rfl, Nat.testBit_mod_two_pow, Nat.testBit_eq_decide_div_mod_eq, Nat.div_div_eq_div_mul, ← Nat.pow_add,
      show 320 - 9 * (i + 1) + (8 - j) = 8 * m.length - 1 - (9 * i + j) by omega]
    simp; omega
  have e2 : (m[(9 * i + j) / 8]'hlt).getMsbD ((9 * i + j) % 8) = decide ((m[(9 * i + j) / 8]'hlt).toNat / 2 ^ (7 - (9 * i + j) % 8) % 2 = 1) := by
    rw [BitVec.getMsbD, BitVec.getLsbD, Nat.testBit_eq_decide_div_mod_eq]
    simp [hmod]
  rw [e1, e2, hb]

example : (List.replicate 40 (0xA5 : Byte)).length = 40 := by decide
example : (match messageToIndices (List.replicate 40 (0xA5 : Byte)) with | .ok l => l.take 3 | .error _ => []) = [0x14B, 0x96, 0x12D] := by decide +kernel

/-- C45, digest split: `hash_message` returns the first 40 bytes of the 49-byte hash, a tree index below 2^64 which is the big-endian value of
the next 8 bytes, and a leaf index below 16, the low 4 bits of the last byte. -/
theorem hash_message_split {H : Bytes → Nat → Bytes} (hH : ∀ m n, (H m n).length = n) (R pk m : Bytes) :
    ∃ tree leaf, hashMessage H R pk m = .ok ((H (R ++ pk ++ m) 49).take 40, tree, leaf) ∧ tree < 2 ^ 64 ∧ leaf < 16 ∧
      be 8 tree = slice (H (R ++ pk ++ m) 49) 40 8 ∧
      leaf = ((H (R ++ pk ++ m) 49).getD 48 0).toNat % 16 := by
  refine ⟨_, _, hashMessage_run hH R pk m, treeOf_lt _, leafOf_lt _, ?_, ?_⟩
  · rw [digest, treeOf]
    have hl : (slice (H (R ++ pk ++ m) 49) 40 8).length = 8 := length_slice (by rw [hH]; decide)
    obtain ⟨b, hb⟩ : ∃ b, b = slice (H (R ++ pk ++ m) 49) 40 8 := ⟨_, rfl⟩
    rw [← hb] at hl ⊢
    have h1 : ofBe (be 8 (ofBe b)) = ofBe b := by
      rw [ofBe_be, Nat.mod_eq_of_lt]; have := ofBe_lt b; rwa [hl] at this
    apply List.ext_getElem (by rw [length_be, hl])
    intro j hj hj'
    apply BitVec.eq_of_toNat_eq
    rw [byte_of_ofBe, byte_of_ofBe, h1, length_be, hl]
  · rw [digest, leafOf]
    obtain ⟨d, hd⟩ : ∃ d, d = H (R ++ pk ++ m) 49 := ⟨_, rfl⟩
    have hl : d.length = 49 := by rw [hd, hH]
    rw [← hd, List.getD_eq_getElem?_getD, List.getElem?_eq_getElem (by omega), Option.getD_some]
    have : slice d 48 1 = [d[48]] := by
      rw [slice_snoc (n := 0) (by omega)]; simp [slice]
    rw [this]; simp [ofBe]

/-! ### C46 -/

theorem be_inj {n v w : Nat} (hv : v < 256 ^ n) (hw : w < 256 ^ n) (e : be n v = be n w) : v = w := by
  have h := congrArg ofBe e
  rwa [ofBe_be, ofBe_be, Nat.mod_eq_of_lt hv, Nat.mod_eq_of_lt hw] at h

/-- C46, injectivity: the 32 bytes determine all fields.  The ranges are those of the field widths, larger than those of the
parameter set (layer < 17, tree < 2^64, type < 7, key pair < 16, chain < 67 or height < 10, hash < 16 or index < 17920). -/
theorem address_injective (a b : Adrs) (hl : a.layer < 2 ^ 32) (hl' : b.layer < 2 ^ 32) (ht : a.tree < 2 ^ 96) (ht' : b.tree < 2 ^ 96)
    (hy : a.type < 2 ^ 32) (hy' : b.type < 2 ^ 32) (h1 : a.w1 < 2 ^ 32) (h1' : b.w1 < 2 ^ 32) (h2 : a.w2 < 2 ^ 32) (h2' : b.w2 < 2 ^ 32)
    (h3 : a.w3 < 2 ^ 32) (h3' : b.w3 < 2 ^ 32) (e : a.bytes = b.bytes) : a = b := by
  unfold Adrs.bytes at e
  simp only [List.append_assoc] at e
  obtain ⟨e1, e⟩ := List.append_inj e (by rw [length_be, length_be])
  obtain ⟨e2, e⟩ := List.append_inj e (by rw [length_be, length_be])
  obtain ⟨e3, e⟩ := List.append_inj e (by rw [length_be, length_be])
  obtain ⟨e4, e⟩ := List.append_inj e (by rw [length_be, length_be])
  obtain ⟨e5, e6⟩ := List.append_inj e (by rw [length_be, length_be])
  have f1 := be_inj (by omega) (by omega) e1
  have f2 := be_inj (by omega) (by omega) e2
  have f3 := be_inj (by omega) (by omega) e3
  have f4 := be_inj (by omega) (by omega) e4
  have f5 := be_inj (by omega) (by omega) e5
  have f6 := be_inj (by omega) (by omega) e6
  cases a; cases b; simp_all

/-- C46, setters: on the bytes of an address within range, every setter of address.c changes its own field and no other; the copy
functions copy layer and tree (and the key pair). -/
theorem address_setters (la tr ty x y z v : Nat) (h : la < 256 ∧ tr < 2 ^ 64 ∧ ty < 256 ∧ x < 256 ∧ y < 256 ∧ z < 2 ^ 32) (hv : v < 256)
    (la' tr' ty' x' y' z' : Nat) (h' : la' < 256 ∧ tr' < 2 ^ 64 ∧ ty' < 256 ∧ x' < 256 ∧ y' < 256 ∧ z' < 2 ^ 32) :
    let a : Adrs := ⟨la, tr, ty, x, y, z⟩
    let b : Adrs := ⟨la', tr', ty', x', y', z'⟩
    setLayerAddr a.bytes v = .ok (⟨v, tr, ty, x, y, z⟩ : Adrs).bytes ∧
    setTreeAddr a.bytes tr' = .ok (⟨la, tr', ty, x, y, z⟩ : Adrs).bytes ∧
    setType a.bytes v = .ok (⟨la, tr, v, x, y, z⟩ : Adrs).bytes ∧
    setKeypairAddr a.bytes v = .ok (⟨la, tr, ty, v, y, z⟩ : Adrs).bytes ∧
    setChainAddr a.bytes v = .ok (⟨la, tr, ty, x, v, z⟩ : Adrs).bytes ∧
    setTreeHeight a.bytes v = .ok (⟨la, tr, ty, x, v, z⟩ : Adrs).bytes ∧
    (z < 256 → setHashAddr a.bytes v = .ok (⟨la, tr, ty, x, y, v⟩ : Adrs).bytes) ∧
    setTreeIndex a.bytes z' = .ok (⟨la, tr, ty, x, y, z'⟩ : Adrs).bytes ∧
    copySubtreeAddr a.bytes b.bytes = .ok (⟨la', tr', ty, x, y, z⟩ : Adrs).bytes ∧
    copyKeypairAddr a.bytes b.bytes = .ok (⟨la', tr', ty, x', y, z⟩ : Adrs).bytes := by
  obtain ⟨h1, h2, h3, h4, h5, h6⟩ := h
  obtain ⟨g1, g2, g3, g4, g5, g6⟩ := h'
  have hs : Small ⟨la, tr, ty, x, y, z⟩ := ⟨h1, h2, h3, h4, h5, h6⟩
  have gs : Small ⟨la', tr', ty', x', y', z'⟩ := ⟨g1, g2, g3, g4, g5, g6⟩
  exact ⟨(setLayer' hs hv).1, (setTree' hs g2).1, (setType' hs hv).1, (setKeypair' hs hv).1, (setChain' hs hv).1, (setHeight' hs hv).1,
    fun hz => (setHash' hs hz hv).1, (setIndex' hs g6).1, (copySubtree' hs gs).1, (copyKeypair' hs gs).1⟩

/-- The ranges are needed: `setHashAddr` writes one byte only, so on an address that held a larger index it leaves the upper bytes of it. -/
example : setHashAddr (⟨0, 0, 0, 0, 0, 256⟩ : Adrs).bytes 1 = .ok (⟨0, 0, 0, 0, 0, 257⟩ : Adrs).bytes := by decide
/-- Two addresses with the same chain and hash numbers but different types. -/
example : (⟨3, 7, 0, 5, 66, 15⟩ : Adrs).bytes ≠ (⟨3, 7, 5, 5, 66, 15⟩ : Adrs).bytes := by decide

/-! ### Concrete cases for Props.lean -/

/-- The hash function of the code meets the hypothesis on `H`. -/
example : ∀ m n, (shake256F m n).length = n := length_shake256F
/-- It is not a constant function. -/
example : shake256F [] 2 = [0x46, 0xb9] ∧ shake256F [1] 2 ≠ [0x46, 0xb9] := by decide +kernel
/-- A random source whose first draw succeeds and whose second draw fails. -/
def oneDraw : Rng where
  draw i n := if i = 0 then some (List.replicate n 7) else none
  len_draw := by intro i n b h; split at h <;> simp at h; rw [← h]; simp
  log := []
example : oneDraw.draw oneDraw.log.length 32 ≠ none ∧ (drawn oneDraw 32).draw (drawn oneDraw 32).log.length 32 = none := by decide +kernel
/-- Round trip with the seed 0, 1, ..., 95 and the SHAKE256 code. -/
example : ∃ pk sk, seedKeypair shake256F (List.replicate 64 1) (List.replicate 128 2) ((List.range 96).map (BitVec.ofNat 8)) = .ok (0, pk, sk) ∧
    ∃ sig, signature shake256F (List.replicate 49856 0) 0 [1, 2, 3] sk oneDraw = .ok ((0, sig, 49856), drawn oneDraw 32) ∧
      verify shake256F sig 49856 [1, 2, 3] pk = .ok 0 := by
  obtain ⟨pk, sk, e, _, _, h⟩ := spx_roundtrip length_shake256F (List.replicate 64 1) (List.replicate 128 2) ((List.range 96).map (BitVec.ofNat 8))
    (by simp) (by simp) (by simp)
  obtain ⟨c, sig, n, e2, h1, h2⟩ := h (List.replicate 49856 0) [1, 2, 3] 0 oneDraw (by rw [List.length_replicate])
  have hc : c = 0 := h1.2 (by decide +kernel)
  subst hc
  obtain ⟨rfl, _, hv⟩ := h2 rfl
  exact ⟨pk, sk, e, sig, e2, hv⟩
/-- The failing source makes the attached function return 0 with a junk length. -/
example : ∃ sm', cryptoSign shake256F 77 (List.replicate 49858 0) [1, 2] (List.replicate 128 0) (drawn oneDraw 32) =
    .ok ((0, sm', 79), drawn (drawn oneDraw 32) 32) :=
  spx_attached_sign_ignores_failure length_shake256F _ _ _ 77 _ (by rw [List.length_replicate]; decide) (by rw [List.length_replicate]) (by decide +kernel)
/-- Tree hashing: a tree with 8 different leaves, leaf 5 selected, index offset 16. -/
example : ∃ root path addr info', treehashx1 shake256F ⟨List.replicate 32 9, none⟩ 5 16 3 (fun i (_ : Unit) => .ok (List.replicate 32 (BitVec.ofNat 8 (i - 16)), ()))
      (List.replicate 96 0) (List.replicate 96 0) (⟨0, 0, 3, 0, 0, 0⟩ : Adrs).bytes () = .ok (root, path, addr, info') ∧ path.length = 96 := by
  obtain ⟨root, path, addr, info', e, _, hl, _⟩ := treehash_merkle length_shake256F (pub := List.replicate 32 9) (by simp) (sec := none) ⟨0, 0, 3, 0, 0, 0⟩ 16 5 3
    (fun i => List.replicate 32 (BitVec.ofNat 8 i)) (by decide) (by simp) (by decide) (by decide) (by decide) (by decide)
    (fun _ _ => True) (fun i (_ : Unit) => .ok (List.replicate 32 (BitVec.ofNat 8 (i - 16)), ())) () trivial
    (fun i _ _ _ => ⟨(), by simp, trivial⟩) (List.replicate 96 0) (List.replicate 96 0) (by simp) (by simp)
  exact ⟨root, path, addr, info', e, hl⟩

end Verif.Sphincs
