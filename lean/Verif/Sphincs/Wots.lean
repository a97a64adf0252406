import Verif.Sphincs.Tree

/-! The WOTS+ functions of the model compute what the specification says. -/

namespace Verif.Sphincs
open Verif Spec

@[simp] theorem length_zeroBytes (n : Nat) : (zeroBytes n).length = n := List.length_replicate

/-! ### address setters on explicit addresses -/

section
variable {la tr ty x y z v : Nat} (h : Small ⟨la, tr, ty, x, y, z⟩)
include h
theorem setLayer' (hv : v < 256) : setLayerAddr (⟨la, tr, ty, x, y, z⟩ : Adrs).bytes v = .ok (⟨v, tr, ty, x, y, z⟩ : Adrs).bytes ∧ Small ⟨v, tr, ty, x, y, z⟩ := setLayer_run h hv
theorem setTree' (hv : v < 2 ^ 64) : setTreeAddr (⟨la, tr, ty, x, y, z⟩ : Adrs).bytes v = .ok (⟨la, v, ty, x, y, z⟩ : Adrs).bytes ∧ Small ⟨la, v, ty, x, y, z⟩ := setTree_run h hv
theorem setType' (hv : v < 256) : setType (⟨la, tr, ty, x, y, z⟩ : Adrs).bytes v = .ok (⟨la, tr, v, x, y, z⟩ : Adrs).bytes ∧ Small ⟨la, tr, v, x, y, z⟩ := setType_run h hv
theorem setKeypair' (hv : v < 256) : setKeypairAddr (⟨la, tr, ty, x, y, z⟩ : Adrs).bytes v = .ok (⟨la, tr, ty, v, y, z⟩ : Adrs).bytes ∧ Small ⟨la, tr, ty, v, y, z⟩ := setKeypair_run h hv
theorem setChain' (hv : v < 256) : setChainAddr (⟨la, tr, ty, x, y, z⟩ : Adrs).bytes v = .ok (⟨la, tr, ty, x, v, z⟩ : Adrs).bytes ∧ Small ⟨la, tr, ty, x, v, z⟩ := setChain_run h hv
theorem setHeight' (hv : v < 256) : setTreeHeight (⟨la, tr, ty, x, y, z⟩ : Adrs).bytes v = .ok (⟨la, tr, ty, x, v, z⟩ : Adrs).bytes ∧ Small ⟨la, tr, ty, x, v, z⟩ := setHeight_run h hv
theorem setHash' (hz : z < 256) (hv : v < 256) : setHashAddr (⟨la, tr, ty, x, y, z⟩ : Adrs).bytes v = .ok (⟨la, tr, ty, x, y, v⟩ : Adrs).bytes ∧ Small ⟨la, tr, ty, x, y, v⟩ := setHash_run h hz hv
theorem setIndex' (hv : v < 2 ^ 32) : setTreeIndex (⟨la, tr, ty, x, y, z⟩ : Adrs).bytes v = .ok (⟨la, tr, ty, x, y, v⟩ : Adrs).bytes ∧ Small ⟨la, tr, ty, x, y, v⟩ := setIndex_run h hv
variable {la' tr' ty' x' y' z' : Nat} (h' : Small ⟨la', tr', ty', x', y', z'⟩)
include h'
theorem copySubtree' : copySubtreeAddr (⟨la, tr, ty, x, y, z⟩ : Adrs).bytes (⟨la', tr', ty', x', y', z'⟩ : Adrs).bytes =
    .ok (⟨la', tr', ty, x, y, z⟩ : Adrs).bytes ∧ Small ⟨la', tr', ty, x, y, z⟩ :=
  ⟨copySubtree_run _ _, ⟨h'.layer, h'.tree, h.type, h.w1, h.w2, h.w3⟩⟩
theorem copyKeypair' : copyKeypairAddr (⟨la, tr, ty, x, y, z⟩ : Adrs).bytes (⟨la', tr', ty', x', y', z'⟩ : Adrs).bytes =
    .ok (⟨la', tr', ty, x', y, z⟩ : Adrs).bytes ∧ Small ⟨la', tr', ty, x', y, z⟩ := copyKeypair_run h h'
end

/-! ### base_w and the checksum -/

theorem ofBe_be {n v : Nat} : ofBe (be n v) = v % 256 ^ n := by
  induction n generalizing v with
  | zero => simp [be, ofBe_nil, Nat.mod_one]
  | succ n ih =>
    rw [be, ofBe_concat, ih, BitVec.toNat_ofNat, Nat.pow_succ 256, Nat.mul_comm (256 ^ n), Nat.mod_mul]
    omega

theorem byte_of_ofBe {b : Bytes} {j : Nat} (h : j < b.length) : b[j].toNat = ofBe b / 256 ^ (b.length - 1 - j) % 256 := by
  induction b using List.reverseRecOn with
  | nil => simp at h
  | append_singleton b x ih =>
    have hx : x.toNat < 256 := x.isLt
    simp only [List.length_append, List.length_singleton] at h
    rw [ofBe_concat]
    by_cases c : j < b.length
    · rw [List.getElem_append_left c, ih c]
      have : (b ++ [x]).length - 1 - j = (b.length - 1 - j) + 1 := by simp; omega
      rw [this, Nat.pow_succ, Nat.mul_comm (256 ^ _), ← Nat.div_div_eq_div_mul]
      congr 2; omega
    · have : j = b.length := by omega
      subst this
      simp; omega

theorem nibble_of_ofBe {b : Bytes} {i : Nat} (h : i < 2 * b.length) :
    ofBe b / 16 ^ (2 * b.length - 1 - i) % 16 = (b[i / 2]'(by omega)).toNat / 2 ^ (if i % 2 = 0 then 4 else 0) % 16 := by
  rw [byte_of_ofBe (by omega)]
  by_cases c : i % 2 = 0
  · have : 2 * b.length - 1 - i = 2 * (b.length - 1 - i / 2) + 1 := by omega
    rw [if_pos c, this, Nat.pow_succ, Nat.pow_mul, ← Nat.div_div_eq_div_mul]
    generalize ofBe b / (16 ^ 2) ^ (b.length - 1 - i / 2) = z at *
    omega
  · have : 2 * b.length - 1 - i = 2 * (b.length - 1 - i / 2) := by omega
    rw [if_neg c, this, Nat.pow_mul]
    generalize ofBe b / (16 ^ 2) ^ (b.length - 1 - i / 2) = z
    simp only [Nat.pow_zero, Nat.div_one]
    omega

theorem and_15 (n : Nat) : n &&& 15 = n % 16 := Nat.and_two_pow_sub_one_eq_mod n 4

/-- `base_w` writes base-16 digits, most significant first. -/
theorem baseW_run {output : List Nat} {o n : Nat} {input : Bytes} (ho : o + n ≤ output.length) (hn : n ≤ 2 * input.length) :
    baseW output o n input = .ok (splice output o ((List.range n).map fun i => ofBe input / 16 ^ (2 * input.length - 1 - i) % 16)) := by
  obtain ⟨f, hf⟩ : ∃ f : Nat → Nat, ∀ i, f i = ofBe input / 16 ^ (2 * input.length - 1 - i) % 16 := ⟨_, fun _ => rfl⟩
  obtain ⟨s, e, h1, h2, h3, h4⟩ := loop_inv (fun k (s : List Nat × Nat × Byte × Nat) =>
      s.1 = splice output o ((List.range k).map f) ∧ s.2.1 = (k + 1) / 2 ∧ s.2.2.2 = (if k % 2 = 0 then 0 else 4) ∧
        (k % 2 = 1 → ∀ h : k / 2 < input.length, s.2.2.1 = input[k / 2]))
    (fun consumed s => do
      let (output, inPos, total, bits) := (s : List Nat × Nat × Byte × Nat)
      let (inPos, total, bits) ←
        (if bits = 0 then do
          let t ← rd input inPos
          pure (inPos + 1, t, 8)
        else pure (inPos, total, bits) : C (Nat × Byte × Nat))
      let bits := bits - 4
      let output ← wr output (o + consumed) ((total.toNat >>> bits) &&& 15)
      pure (output, inPos, total, bits)) 0 n (output, 0, (0 : Byte), 0) (by simp) (by
        rintro k ⟨out, pos, total, bits⟩ _ hk ⟨h1, h2, h3, h4⟩
        simp only at h1 h2 h3 h4
        have hl : ((List.range k).map f).length = k := by simp
        have hw : ∀ v : Nat, v = f k → wr out (o + k) v = .ok (splice output o ((List.range (k + 1)).map f)) := by
          intro v hv
          subst h1
          have h5 := splice_snoc (b := output) (x := (List.range k).map f) (o := o) (v := v) (by omega)
          rw [hl] at h5
          rw [wr_ok (by rw [length_splice (by omega)]; omega), h5, hv, List.range_succ, List.map_append]
          rfl
        have hnib := nibble_of_ofBe (b := input) (i := k) (by omega)
        rw [← hf] at hnib
        by_cases c : k % 2 = 0
        · rw [if_pos c] at h3 hnib
          subst h2 h3
          have hp : (k + 1) / 2 = k / 2 := by omega
          refine ⟨(splice output o ((List.range (k + 1)).map f), k / 2 + 1, input[k / 2]'(by omega), 4), ?_, rfl, ?_, ?_, ?_⟩
          · simp only [if_pos]
            rw [hp, rd_ok (by omega), ok_bind]
            simp only [pure_eq_ok, ok_bind]
            rw [hw _ (by rw [hnib, and_15, Nat.shiftRight_eq_div_pow]), ok_bind]
          · simp only; omega
          · simp only [if_neg (show ¬ (k + 1) % 2 = 0 by omega)]
          · intro _ h; simp only [hp]
        · rw [if_neg c] at h3 hnib
          subst h2 h3
          refine ⟨(splice output o ((List.range (k + 1)).map f), (k + 1) / 2, total, 0), ?_, rfl, ?_, ?_, ?_⟩
          · simp only [if_neg (show ¬ (4 = 0) by omega), pure_eq_ok, ok_bind]
            rw [hw _ (by rw [hnib, and_15, Nat.shiftRight_eq_div_pow, h4 (by omega) (by omega)]), ok_bind]
          · simp only; omega
          · simp only [if_pos (show (k + 1) % 2 = 0 by omega)]
          · intro h; omega)
  rw [Nat.zero_add] at h1
  rw [baseW, e, ok_bind, h1, pure_eq_ok]
  congr 3
  funext i
  exact hf i

theorem digit_lt (m : Bytes) (i : Nat) : digit m i < 16 := by
  rw [digit, msgDigit]; split <;> omega

theorem sum_map_range_succ (f : Nat → Nat) (k : Nat) : ((List.range (k + 1)).map f).sum = ((List.range k).map f).sum + f k := by
  rw [List.range_succ, List.map_append, List.sum_append]; simp

theorem sum_le {f : Nat → Nat} {c k : Nat} (h : ∀ i, f i ≤ c) : ((List.range k).map f).sum ≤ c * k := by
  induction k with
  | zero => simp
  | succ k ih => rw [sum_map_range_succ, Nat.mul_succ]; have := h k; omega

theorem checksum_le (m : Bytes) : checksum m ≤ 960 := by
  have := sum_le (f := fun i => 15 - msgDigit m i) (c := 15) (k := 64) (fun i => Nat.sub_le _ _)
  rw [checksum]; omega

theorem splice_replicate_zero {x : List Nat} {n : Nat} : splice (List.replicate n 0) 0 x = x ++ List.replicate (n - x.length) 0 := by
  simp [splice]

/-- `chain_lengths` gives the digits of the message and of its checksum. -/
theorem chainLengths_run {m : Bytes} (hm : m.length = 32) : chainLengths m = .ok ((List.range 67).map (digit m)) := by
  have h1 := baseW_run (output := List.replicate 67 0) (o := 0) (n := 64) (input := m) (by rw [List.length_replicate]; omega) (by omega)
  have hd : (List.range 64).map (fun i => ofBe m / 16 ^ (2 * m.length - 1 - i) % 16) = (List.range 64).map (digit m) := by
    apply List.map_congr_left
    intro i hi
    rw [List.mem_range] at hi
    rw [digit, if_pos hi, msgDigit, hm]
  have hl : ((List.range 64).map (digit m)).length = 64 := by simp
  rw [hd, splice_replicate_zero, hl] at h1
  rw [chainLengths, h1, ok_bind, wotsChecksum]
  obtain ⟨c, e, hc⟩ := loop_inv (fun k (c : Nat) => c = ((List.range k).map fun i => 15 - msgDigit m i).sum)
    (fun i csum => do
      let d ← rd ((List.range 64).map (digit m) ++ List.replicate (67 - 64) 0) i
      pure ((csum + (2 ^ 32 + 15 - d)) % 2 ^ 32)) 0 64 0 (by simp) (by
        intro k c _ hk hc
        refine ⟨_, ?_, rfl⟩
        have hg : rd ((List.range 64).map (digit m) ++ List.replicate (67 - 64) 0) k = .ok (digit m k) := by
          rw [rd_eq_ok_iff, List.getElem?_append_left (by rw [hl]; omega)]
          simp only [List.getElem?_map]
          rw [List.getElem?_range (by omega)]; rfl
        rw [hg, ok_bind, sum_map_range_succ, ← hc, digit, if_pos (by omega), pure_eq_ok]
        have h2 : c ≤ 15 * k := by rw [hc]; exact sum_le (fun i => Nat.sub_le _ _)
        have h3 : msgDigit m k < 16 := Nat.mod_lt _ (by decide)
        congr 1
        omega)
  rw [Nat.zero_add] at hc
  have hcs : c = checksum m := by rw [checksum, hc]
  have hle := checksum_le m
  rw [e, ok_bind, hcs]
  simp only [Nat.shiftLeft_eq]
  rw [ullToBytes_run (by rw [length_zeroBytes]), ok_bind, splice_all (by rw [length_be, length_zeroBytes]),
    baseW_run (by rw [List.length_append, hl, List.length_replicate]) (by rw [length_be]; omega), length_be, ofBe_be]
  refine congrArg Except.ok ?_
  have h67 : List.range 67 = List.range 64 ++ (List.range 3).map (64 + ·) := by rw [← List.range_add]
  rw [h67, List.map_append, splice, List.take_left' hl]
  rw [List.drop_of_length_le (by simp), List.append_nil]
  refine congrArg (fun x : List Nat => (List.range 64).map (digit m) ++ x) ?_
  rw [List.map_map]
  apply List.map_congr_left
  intro i hi
  rw [List.mem_range] at hi
  simp only [Function.comp]
  rw [digit, if_neg (by omega)]
  generalize checksum m = z at *
  rcases (by omega : i = 0 ∨ i = 1 ∨ i = 2) with rfl | rfl | rfl <;> norm_num <;> omega

/-! ### chains -/

section
variable {shake : Bytes → Nat → Bytes} (hsh : ∀ m n, (shake m n).length = n)
include hsh

theorem length_chain {pub : Bytes} {a : Adrs} {x : Bytes} (hx : x.length = 32) (start k : Nat) : (chain shake pub a x start k).length = 32 := by
  cases k with
  | zero => rw [chain, hx]
  | succ k => rw [chain]; exact length_T hsh _ _ _

omit hsh in
theorem chain_w3 {pub : Bytes} {a : Adrs} {j : Nat} {x : Bytes} {start k : Nat} :
    chain shake pub { a with w3 := j } x start k = chain shake pub a x start k := by
  induction k with
  | zero => rfl
  | succ k ih => rw [chain, chain, ih]

omit hsh in
/-- Two chain pieces compose. -/
theorem chain_chain {pub : Bytes} {a : Adrs} {x : Bytes} {i j k : Nat} :
    chain shake pub a (chain shake pub a x i j) (i + j) k = chain shake pub a x i (j + k) := by
  induction k with
  | zero => rfl
  | succ k ih => rw [chain, ih, ← Nat.add_assoc, chain, Nat.add_assoc]

variable {pub : Bytes} (hpub : pub.length = 32) {sec : Option Bytes}
include hpub

omit hsh hpub in
theorem slice_self {x : Bytes} (hx : x.length = 32) : slice x 0 (1 * 32) = x := by
  rw [Nat.one_mul, ← hx]; exact slice_zero_length _

theorem genChain_run {a : Adrs} (ha : Small a) (hw : a.w3 < 256) {inp : Bytes} {o start steps : Nat} (ho : o + 32 ≤ inp.length)
    (hst : start + steps = 15) :
    ∃ j, j < 256 ∧ genChain shake inp o start steps ⟨pub, sec⟩ a.bytes =
      .ok (chain shake pub a (slice inp o 32) start steps, { a with w3 := j }.bytes) := by
  have hl : (slice inp o 32).length = 32 := length_slice ho
  rw [genChain, copy_ok ho (by rw [length_zeroBytes]), ok_bind, splice_all (by rw [hl, length_zeroBytes])]
  rw [show min ((start + steps) % 2 ^ 32) 16 - start = steps by rw [hst]; simp; omega]
  obtain ⟨⟨x, ad⟩, e, h1, j, hj, h2⟩ := loop_inv (fun i (s : Bytes × Bytes) => s.1 = chain shake pub a (slice inp o 32) start (i - start) ∧
      ∃ j, j < 256 ∧ s.2 = { a with w3 := j }.bytes)
    (fun i s => do
      let addr ← setHashAddr s.2 i
      let out ← thash shake s.1 0 1 ⟨pub, sec⟩ addr
      pure (out, addr)) start steps (slice inp o 32, a.bytes) ⟨by rw [Nat.sub_self, chain], a.w3, hw, rfl⟩ (by
        rintro i ⟨x, ad⟩ hi1 hi2 ⟨h1, j, hj, h2⟩
        simp only at h1 h2
        subst h2
        have hs : Small { a with w3 := j } := ⟨ha.layer, ha.tree, ha.type, ha.w1, ha.w2, by simp only; omega⟩
        have hx : x.length = 32 := by rw [h1]; exact length_chain hsh hl _ _
        refine ⟨(chain shake pub a (slice inp o 32) start (i + 1 - start), { a with w3 := i }.bytes), ?_, rfl, i, by omega, rfl⟩
        · simp only
          rw [(setHash_run hs hj (l := i) (by omega)).1, ok_bind, thash_T hpub (by omega), ok_bind, slice_self hx, pure_eq_ok, h1]
          rw [show i + 1 - start = (i - start) + 1 by omega, chain, show start + (i - start) = i by omega])
  rw [Nat.add_sub_cancel_left] at h1
  simp only at h1 h2
  exact ⟨j, hj, by rw [e, h1, h2]⟩

/-- Ranges of the parts of a location that the address fields can hold. -/
structure LocOk (l : Loc) : Prop where
  layer : l.layer < 256
  tree : l.tree < 2 ^ 64
  leaf : l.leaf < 256

/-- A WOTS+ address of location `l` with type `t`, any chain and hash number. -/
def AddrW (l : Loc) (t : Nat) (addr : Bytes) : Prop := ∃ c h, c < 256 ∧ h < 256 ∧ addr = (⟨l.layer, l.tree, t, l.leaf, c, h⟩ : Adrs).bytes

omit hsh hpub in
theorem rd_map_range {f : Nat → Nat} {n i : Nat} (h : i < n) : rd ((List.range n).map f) i = .ok (f i) := by
  rw [rd_eq_ok_iff, List.getElem?_map, List.getElem?_range h]; rfl

theorem wotsPkFromSig_run {l : Loc} (hl : LocOk l) {sig m addr : Bytes} {o : Nat} (hm : m.length = 32) (ho : o + 2144 ≤ sig.length)
    (ha : AddrW l 0 addr) :
    ∃ addr', wotsPkFromSig shake sig o m ⟨pub, sec⟩ addr = .ok ((List.range 67).flatMap fun i =>
      chain shake pub (wotsAdrs l i) (slice sig (o + 32 * i) 32) (digit m i) (15 - digit m i), addr') ∧ AddrW l 0 addr' := by
  obtain ⟨f, hf⟩ : ∃ f : Nat → Bytes, ∀ i, f i = chain shake pub (wotsAdrs l i) (slice sig (o + 32 * i) 32) (digit m i) (15 - digit m i) :=
    ⟨_, fun _ => rfl⟩
  have hfl : ∀ i, i < 67 → (f i).length = 32 := fun i hi => by
    rw [hf]; exact length_chain hsh (length_slice (by omega)) _ _
  rw [wotsPkFromSig, chainLengths_run hm, ok_bind]
  obtain ⟨⟨pk, ad⟩, e, h1, h2⟩ := loop_inv (fun i (s : Bytes × Bytes) => s.1 = splice (zeroBytes 2144) 0 ((List.range i).flatMap f) ∧ AddrW l 0 s.2)
    (fun i s => do
      let addr ← setChainAddr s.2 i
      let l ← rd ((List.range 67).map (digit m)) i
      let (c, addr) ← genChain shake sig (o + i * 32) l ((2 ^ 32 + 15 - l) % 2 ^ 32) ⟨pub, sec⟩ addr
      let pk ← copy s.1 (i * 32) c 0 32
      pure (pk, addr)) 0 67 (zeroBytes 2144, addr) ⟨by simp, ha⟩ (by
        rintro i ⟨pk, ad⟩ _ hi ⟨h1, c, h, hc, hh, h2⟩
        simp only at h1 h2
        subst h1 h2
        have hs : Small ⟨l.layer, l.tree, 0, l.leaf, c, h⟩ := ⟨hl.layer, hl.tree, Nat.zero_lt_succ _, hl.leaf, hc, by simp only; omega⟩
        have hs2 := setChain' hs (v := i) (by omega)
        have hd := digit_lt m i
        obtain ⟨j, hj, e⟩ := genChain_run hsh hpub (sec := sec) hs2.2 hh (inp := sig) (o := o + i * 32) (start := digit m i)
          (steps := 15 - digit m i) (by omega) (by omega)
        refine ⟨(splice (zeroBytes 2144) 0 ((List.range (i + 1)).flatMap f), (⟨l.layer, l.tree, 0, l.leaf, i, j⟩ : Adrs).bytes), ?_, rfl, i, j, by omega, hj, rfl⟩
        simp only
        rw [hs2.1, ok_bind, rd_map_range (by omega), ok_bind, show (2 ^ 32 + 15 - digit m i) % 2 ^ 32 = 15 - digit m i by omega, e, ok_bind]
        simp only
        have hfi : chain shake pub { layer := l.layer, tree := l.tree, type := 0, w1 := l.leaf, w2 := i, w3 := h } (slice sig (o + i * 32) 32)
            (digit m i) (15 - digit m i) = f i := by
          rw [hf, Nat.mul_comm 32]
          exact chain_w3 (a := wotsAdrs l i)
        have hfll := length_flatMap_const (f := f) (k := 32) (n := i) (fun j hj => hfl j (by omega))
        have hz : (zeroBytes 2144).length = 2144 := length_zeroBytes _
        rw [hfi, copy_ok (by rw [hfl i (by omega)]) (by rw [length_splice (by rw [hfll, hz]; omega), hz]; omega), ok_bind, pure_eq_ok]
        have h3 := slice_self (hfl i (by omega))
        rw [Nat.one_mul] at h3
        have h4 := fill_step (b := zeroBytes 2144) (f := f) (o := 0) (k := 32) (i := i) (n := 67) hfl (by rw [hz]) (by omega)
        rw [Nat.zero_add] at h4
        rw [h3, h4])
  rw [Nat.zero_add] at h1
  refine ⟨ad, ?_, h2⟩
  have hz : (zeroBytes 2144).length = 2144 := length_zeroBytes _
  rw [e, show (pk, ad) = ((pk, ad) : Bytes × Bytes) from rfl]
  have h5 : pk = splice (zeroBytes 2144) 0 ((List.range 67).flatMap f) := h1
  rw [h5, splice_all (by rw [length_flatMap_const hfl, hz])]
  congr 3
  funext i
  exact hf i
end

/-! ### key generation and signing of one leaf -/

section
variable {shake : Bytes → Nat → Bytes} (hsh : ∀ m n, (shake m n).length = n)
variable {s : Seeds} (hpub : s.pub.length = 32) (hsec : s.sec.length = 32)
include hsh hpub

/-- The chain loop of `wots_gen_leafx1`: it ends with the last chain value and has copied the value at position `wotsK`, if there is
one, into the signature. -/
theorem wotsChainLoop_run {l : Loc} (hl : LocOk l) {sec : Option Bytes} {x : Bytes} (hx : x.length = 32) {i wotsK : Nat} (hi : i < 67) :
    ∀ fuel k, fuel + k = 16 → 0 < fuel → ∀ (sig : Bytes) (h : Nat), h < 256 → sig.length = 2144 →
      ∃ h', h' < 256 ∧ wotsChainLoop shake ⟨s.pub, sec⟩ i wotsK fuel k (chain shake s.pub (wotsAdrs l i) x 0 k) sig
          (⟨l.layer, l.tree, 0, l.leaf, i, h⟩ : Adrs).bytes =
        .ok (chain shake s.pub (wotsAdrs l i) x 0 15,
          (if k ≤ wotsK ∧ wotsK ≤ 15 then splice sig (i * 32) (chain shake s.pub (wotsAdrs l i) x 0 wotsK) else sig),
          (⟨l.layer, l.tree, 0, l.leaf, i, h'⟩ : Adrs).bytes) := by
  intro fuel
  induction fuel with
  | zero => intro _ _ h; omega
  | succ fuel ih =>
    intro k hk _ sig h hh hsl
    have hcl := fun k => length_chain hsh (pub := s.pub) (a := wotsAdrs l i) hx 0 k
    have hcs : ∀ k, slice (chain shake s.pub (wotsAdrs l i) x 0 k) 0 32 = chain shake s.pub (wotsAdrs l i) x 0 k := fun k => by
      have := slice_self (hcl k)
      rwa [Nat.one_mul] at this
    rw [wotsChainLoop]
    obtain ⟨sig1, hs1, e1⟩ : ∃ sig1, sig1.length = 2144 ∧ (if k = wotsK then copy sig (i * 32) (chain shake s.pub (wotsAdrs l i) x 0 k) 0 32 else pure sig : C Bytes) =
        .ok sig1 := by
      by_cases c : k = wotsK
      · rw [if_pos c, copy_ok (by rw [hcl]) (by omega)]
        exact ⟨_, by rw [length_splice (by rw [hcs, hcl]; omega), hsl], rfl⟩
      · rw [if_neg c]; exact ⟨_, hsl, rfl⟩
    have e1' : sig1 = if k = wotsK then splice sig (i * 32) (chain shake s.pub (wotsAdrs l i) x 0 k) else sig := by
      by_cases c : k = wotsK
      · rw [if_pos c, copy_ok (by rw [hcl]) (by omega), hcs] at e1
        rw [if_pos c]; exact (Except.ok.inj e1).symm
      · rw [if_neg c] at e1
        rw [if_neg c]; exact (Except.ok.inj e1).symm
    rw [e1, ok_bind]
    by_cases c15 : k = 15
    · rw [if_pos c15]
      refine ⟨h, hh, ?_⟩
      subst c15
      rw [e1', pure_eq_ok]
      by_cases c : 15 = wotsK
      · subst c; simp
      · rw [if_neg c, if_neg (by omega)]
    · rw [if_neg c15]
      have hs : Small ⟨l.layer, l.tree, 0, l.leaf, i, h⟩ := ⟨hl.layer, hl.tree, Nat.zero_lt_succ _, hl.leaf, by simp only; omega, by simp only; omega⟩
      have hset := setHash' hs hh (v := k) (by omega)
      rw [hset.1, ok_bind, thash_T hpub (by rw [hcl]), ok_bind, slice_self (hcl k)]
      obtain ⟨h', hh', e⟩ := ih (k + 1) (by omega) (by omega) sig1 k (by omega) hs1
      refine ⟨h', hh', ?_⟩
      have hch : T shake s.pub ⟨l.layer, l.tree, 0, l.leaf, i, k⟩ (chain shake s.pub (wotsAdrs l i) x 0 k) = chain shake s.pub (wotsAdrs l i) x 0 (k + 1) := by
        rw [chain, Nat.zero_add]; rfl
      rw [hch, e, e1']
      by_cases c : k = wotsK
      · rw [if_pos c, if_neg (by omega), if_pos (by omega), c]
      · rw [if_neg c]
        by_cases c2 : k ≤ wotsK ∧ wotsK ≤ 15
        · rw [if_pos c2, if_pos (by omega)]
        · rw [if_neg c2, if_neg (by omega)]

omit hsh hpub in
/-- State of the leaf generator before leaf `idx`: the steps are the digits of the message `m`; the signature is complete once the
leaf that signs has been passed. -/
structure InfoOk (s : Seeds) (layer tree signLeaf : Nat) (m : Bytes) (idx : Nat) (info : LeafInfo) : Prop where
  sigLen : info.wotsSig.length = 2144
  leaf : info.wotsSignLeaf = signLeaf
  steps : info.wotsSteps = (List.range 67).map (digit m)
  sig : signLeaf < idx → info.wotsSig = Spec.wotsSig shake s ⟨layer, tree, signLeaf⟩ m
  leafAddr : ∃ kp, kp < 256 ∧ AddrW ⟨layer, tree, kp⟩ 0 info.leafAddr
  pkAddr : ∃ kp, kp < 256 ∧ info.pkAddr = (⟨layer, tree, 1, kp, 0, 0⟩ : Adrs).bytes

include hsec in
/-- `wots_gen_leafx1` returns the compressed public key of the leaf and completes the signature at the signing leaf. -/
theorem wotsGenLeaf_run {layer tree signLeaf idx : Nat} {m : Bytes} (hla : layer < 256) (htr : tree < 2 ^ 64) (hidx : idx < 256) {info : LeafInfo}
    (hJ : InfoOk (shake := shake) s layer tree signLeaf m idx info) :
    ∃ info', wotsGenLeaf shake ⟨s.pub, some s.sec⟩ idx info = .ok (wotsPk shake s ⟨layer, tree, idx⟩, info') ∧
      InfoOk (shake := shake) s layer tree signLeaf m (idx + 1) info' := by
  obtain ⟨hsl, hlf, hst, hsg, ⟨kp, hkp, c0, h0, hc0, hh0, eL⟩, ⟨kp2, hkp2, eP⟩⟩ := hJ
  obtain ⟨sig, lf, st, la, pa⟩ := info
  simp only at hsl hlf hst hsg eL eP
  subst hlf hst eL eP
  have hl : LocOk ⟨layer, tree, idx⟩ := ⟨hla, htr, hidx⟩
  obtain ⟨l, hle⟩ : ∃ l : Loc, l = ⟨layer, tree, idx⟩ := ⟨_, rfl⟩
  obtain ⟨sk, hsk⟩ : ∃ sk : Nat → Bytes, ∀ i, sk i = wotsSk shake s l i := ⟨_, fun _ => rfl⟩
  have hskl : ∀ i, (sk i).length = 32 := fun i => by rw [hsk]; exact length_prf hsh _ _
  obtain ⟨ch, hch⟩ : ∃ ch : Nat → Nat → Bytes, ∀ i k, ch i k = chain shake s.pub (wotsAdrs l i) (sk i) 0 k := ⟨_, fun _ _ => rfl⟩
  have hchl : ∀ i k, (ch i k).length = 32 := fun i k => by rw [hch]; exact length_chain hsh (hskl i) _ _
  have hz : (zeroBytes 2144).length = 2144 := length_zeroBytes _
  have hsm1 : Small ⟨layer, tree, 0, kp, c0, h0⟩ := ⟨hla, htr, Nat.zero_lt_succ _, hkp, hc0, by simp only; omega⟩
  have hsm2 : Small ⟨layer, tree, 1, kp2, 0, 0⟩ := ⟨hla, htr, by simp only; omega, hkp2, Nat.zero_lt_succ _, Nat.zero_lt_succ _⟩
  rw [wotsGenLeaf, (setKeypair' hsm1 hidx).1, ok_bind, (setKeypair' hsm2 hidx).1, ok_bind]
  obtain ⟨⟨pk, sg, ad⟩, e, h1, h2, c, h, hc, hh, h3⟩ := loop_inv (fun i (t : Bytes × Bytes × Bytes) =>
      t.1 = splice (zeroBytes 2144) 0 ((List.range i).flatMap fun i => ch i 15) ∧
      t.2.1 = (if idx = lf then splice sig 0 ((List.range i).flatMap fun i => ch i (digit m i)) else sig) ∧
      ∃ c h, c < 256 ∧ h < 256 ∧ t.2.2 = (⟨layer, tree, 0, idx, c, h⟩ : Adrs).bytes)
    (fun i s_1 => do
      let (pkBuffer, wotsSig, leafAddr) := (s_1 : Bytes × Bytes × Bytes)
      let step ← rd ((List.range 67).map (digit m)) i
      let wotsK := step ||| (if idx = lf then 0 else 2 ^ 32 - 1)
      let leafAddr ← setChainAddr leafAddr i
      let leafAddr ← setHashAddr leafAddr 0
      let leafAddr ← setType leafAddr 5
      let buffer ← prfAddr shake ⟨s.pub, some s.sec⟩ leafAddr
      let leafAddr ← setType leafAddr 0
      let (buffer, wotsSig, leafAddr) ← wotsChainLoop shake ⟨s.pub, some s.sec⟩ i wotsK 16 0 buffer wotsSig leafAddr
      let pkBuffer ← copy pkBuffer (i * 32) buffer 0 32
      pure (pkBuffer, wotsSig, leafAddr)) 0 67 (zeroBytes 2144, sig, (⟨layer, tree, 0, idx, c0, h0⟩ : Adrs).bytes)
    ⟨by simp, by simp, c0, h0, hc0, hh0, rfl⟩ (by
      rintro i ⟨pk, sg, ad⟩ _ hi ⟨h1, h2, c, h, hc, hh, h3⟩
      simp only at h1 h2 h3
      subst h3
      have hsm : Small ⟨layer, tree, 0, idx, c, h⟩ := ⟨hla, htr, Nat.zero_lt_succ _, hidx, hc, by simp only; omega⟩
      have g1 := setChain' hsm (v := i) (by omega)
      have g2 := setHash' g1.2 hh (v := 0) (by omega)
      have g3 := setType' g2.2 (v := 5) (by omega)
      have g4 := setType' g3.2 (v := 0) (by omega)
      have hfl1 := length_flatMap_const (f := fun i => ch i 15) (k := 32) (n := i) (fun j _ => hchl j _)
      have hfl2 := length_flatMap_const (f := fun i => ch i (digit m i)) (k := 32) (n := i) (fun j _ => hchl j _)
      have hsgl : sg.length = 2144 := by
        rw [h2]; split
        · rw [length_splice (by rw [hfl2, hsl]; omega), hsl]
        · exact hsl
      have hpkl : pk.length = 2144 := by rw [h1, length_splice (by rw [hfl1, hz]; omega), hz]
      obtain ⟨h', hh', e⟩ := wotsChainLoop_run hsh hpub (s := s) hl (sec := some s.sec) (hskl i) (i := i) (wotsK := digit m i ||| (if idx = lf then 0 else 2 ^ 32 - 1))
        (by omega) 16 0 (by omega) (by omega) sg 0 (by omega) hsgl
      rw [← hle] at e
      rw [← hch, ← hch, ← hch] at e
      have e0 : ch i 0 = sk i := by rw [hch, chain]
      rw [e0, hle] at e
      have hskp : prf shake s ⟨layer, tree, 5, idx, i, 0⟩ = sk i := by rw [hsk, wotsSk, hle]
      refine ⟨(splice (zeroBytes 2144) 0 ((List.range (i + 1)).flatMap fun i => ch i 15),
        (if idx = lf then splice sig 0 ((List.range (i + 1)).flatMap fun i => ch i (digit m i)) else sig),
        (⟨layer, tree, 0, idx, i, h'⟩ : Adrs).bytes), ?_, rfl, rfl, i, h', by omega, hh', rfl⟩
      simp only
      rw [rd_map_range (by omega), ok_bind, g1.1, ok_bind, g2.1, ok_bind, g3.1, ok_bind, prfAddr_run hpub hsec, ok_bind, g4.1, ok_bind, hskp,
        e, ok_bind]
      simp only
      rw [copy_ok (by rw [hchl]) (by omega), ok_bind]
      have e5 : slice (ch i 15) 0 32 = ch i 15 := by have := slice_self (hchl i 15); rwa [Nat.one_mul] at this
      have f1 := fill_step (b := zeroBytes 2144) (f := fun i => ch i 15) (o := 0) (k := 32) (i := i) (n := 67) (fun j _ => hchl j _) (by rw [hz]) (by omega)
      have f2 := fill_step (b := sig) (f := fun i => ch i (digit m i)) (o := 0) (k := 32) (i := i) (n := 67) (fun j _ => hchl j _) (by rw [hsl]) (by omega)
      rw [Nat.zero_add] at f1 f2
      have hd := digit_lt m i
      rw [e5, h1, f1, pure_eq_ok, h2]
      by_cases c : idx = lf
      · simp only [if_pos c, Nat.or_zero]
        rw [if_pos (by omega), f2]
      · simp only [if_neg c]
        have : 2 ^ 32 - 1 ≤ digit m i ||| (2 ^ 32 - 1) := Nat.right_le_or
        rw [if_neg (by omega)])
  rw [Nat.zero_add] at h1 h2
  simp only at h1 h2 h3
  have hfl1 := length_flatMap_const (f := fun i => ch i 15) (k := 32) (n := 67) (fun j _ => hchl j _)
  have hfl2 := length_flatMap_const (f := fun i => ch i (digit m i)) (k := 32) (n := 67) (fun j _ => hchl j _)
  rw [splice_all (by rw [hfl1, hz])] at h1
  rw [splice_all (by rw [hfl2, hsl])] at h2
  simp only
  rw [e, ok_bind]
  simp only
  have hpkl : pk.length = 2144 := by rw [h1, hfl1]
  rw [thash_T hpub (by omega), ok_bind]
  refine ⟨⟨sg, lf, (List.range 67).map (digit m), ad, (⟨layer, tree, 1, idx, 0, 0⟩ : Adrs).bytes⟩, ?_, ?_⟩
  · rw [pure_eq_ok]
    have : T shake s.pub ⟨layer, tree, 1, idx, 0, 0⟩ (slice pk 0 (67 * 32)) = wotsPk shake s ⟨layer, tree, idx⟩ := by
      rw [wotsPk, wotsCompress, slice, List.drop_zero, List.take_of_length_le (by omega), h1]
      simp only [hch, hsk, hle]
    rw [this]
  · refine ⟨?_, rfl, rfl, ?_, ⟨idx, hidx, c, h, hc, hh, h3⟩, ⟨idx, hidx, rfl⟩⟩
    · simp only; rw [h2]; split
      · exact hfl2
      · exact hsl
    · intro hlt
      simp only
      rw [h2]
      by_cases c : idx = lf
      · rw [if_pos c, Spec.wotsSig]
        simp only [hch, hsk, hle, c]
      · rw [if_neg c]; exact hsg (by omega)
end
end Verif.Sphincs
