import Verif.Sphincs.Spec
import Verif.Sphincs.Model
import Mathlib.Tactic.NormNum
import Mathlib.Tactic.Ring
import Mathlib.Data.List.Induction

/-! Helper lemmas: addresses, big-endian encodings, block-wise filling of arrays. -/

namespace Verif.Sphincs
open Verif Spec

attribute [ext] Spec.Adrs

theorem length_be (n v : Nat) : (be n v).length = n := by
  induction n generalizing v with
  | zero => rfl
  | succ n ih => simp [be, ih]

@[simp] theorem length_bytes (a : Adrs) : a.bytes.length = 32 := by simp [Adrs.bytes, length_be]

/-- Addresses whose fields fit in the bytes that the C code writes. -/
structure Small (a : Adrs) : Prop where
  layer : a.layer < 256
  tree : a.tree < 2 ^ 64
  type : a.type < 256
  w1 : a.w1 < 256
  w2 : a.w2 < 256
  w3 : a.w3 < 2 ^ 32

theorem ofNat8_zero {v : Nat} (h : v = 0) : BitVec.ofNat 8 v = 0 := by rw [h]; rfl

theorem be4_small {v : Nat} (h : v < 256) : be 4 v = [0, 0, 0, BitVec.ofNat 8 v] := by
  simp only [be, List.nil_append, List.cons_append, Nat.div_div_eq_div_mul]
  rw [ofNat8_zero (v := v / (256 * 256 * 256)) (by omega), ofNat8_zero (v := v / (256 * 256)) (by omega), ofNat8_zero (v := v / 256) (by omega)]

theorem be12_small {v : Nat} (h : v < 2 ^ 64) : be 12 v = [0, 0, 0, 0] ++ be 8 v := by
  simp only [be, List.nil_append, List.cons_append, Nat.div_div_eq_div_mul]
  norm_num only
  rw [ofNat8_zero (v := v / 18446744073709551616) (by omega), ofNat8_zero (v := v / 4722366482869645213696) (by omega),
    ofNat8_zero (v := v / 1208925819614629174706176) (by omega), ofNat8_zero (v := v / 309485009821345068724781056) (by omega)]

/-- The explicit bytes of a small address. -/
theorem bytes_small {a : Adrs} (h : Small a) : a.bytes =
    [0, 0, 0, BitVec.ofNat 8 a.layer, 0, 0, 0, 0] ++ be 8 a.tree ++
    [0, 0, 0, BitVec.ofNat 8 a.type, 0, 0, 0, BitVec.ofNat 8 a.w1, 0, 0, 0, BitVec.ofNat 8 a.w2] ++ be 4 a.w3 := by
  simp only [Adrs.bytes, be4_small h.layer, be12_small h.tree, be4_small h.type, be4_small h.w1, be4_small h.w2, List.append_assoc,
    List.cons_append, List.nil_append]

theorem be8_lit (v : Nat) : ∃ b0 b1 b2 b3 b4 b5 b6 b7, be 8 v = [b0, b1, b2, b3, b4, b5, b6, b7] := by
  simp [be]

theorem be4_lit (v : Nat) : be 4 v = [BitVec.ofNat 8 (v / 2 ^ 24), BitVec.ofNat 8 (v / 2 ^ 16), BitVec.ofNat 8 (v / 2 ^ 8), BitVec.ofNat 8 v] := by
  simp [be, Nat.div_div_eq_div_mul]

section setters
variable {a : Adrs} (h : Small a)
include h

theorem setLayer_run {l : Nat} (hl : l < 256) : setLayerAddr a.bytes l = .ok { a with layer := l }.bytes ∧ Small { a with layer := l } := by
  have h' : Small { a with layer := l } := ⟨hl, h.tree, h.type, h.w1, h.w2, h.w3⟩
  refine ⟨?_, h'⟩
  rw [setLayerAddr, wr_ok (by simp), bytes_small h, bytes_small h']
  obtain ⟨_, _, _, _, _, _, _, _, e⟩ := be8_lit a.tree
  simp [e]

theorem setType_run {l : Nat} (hl : l < 256) : setType a.bytes l = .ok { a with type := l }.bytes ∧ Small { a with type := l } := by
  have h' : Small { a with type := l } := ⟨h.layer, h.tree, hl, h.w1, h.w2, h.w3⟩
  refine ⟨?_, h'⟩
  rw [setType, wr_ok (by simp), bytes_small h, bytes_small h']
  obtain ⟨_, _, _, _, _, _, _, _, e⟩ := be8_lit a.tree
  simp [e]

theorem setKeypair_run {l : Nat} (hl : l < 256) : setKeypairAddr a.bytes l = .ok { a with w1 := l }.bytes ∧ Small { a with w1 := l } := by
  have h' : Small { a with w1 := l } := ⟨h.layer, h.tree, h.type, hl, h.w2, h.w3⟩
  refine ⟨?_, h'⟩
  rw [setKeypairAddr, wr_ok (by simp), bytes_small h, bytes_small h']
  obtain ⟨_, _, _, _, _, _, _, _, e⟩ := be8_lit a.tree
  simp [e]

theorem setChain_run {l : Nat} (hl : l < 256) : setChainAddr a.bytes l = .ok { a with w2 := l }.bytes ∧ Small { a with w2 := l } := by
  have h' : Small { a with w2 := l } := ⟨h.layer, h.tree, h.type, h.w1, hl, h.w3⟩
  refine ⟨?_, h'⟩
  rw [setChainAddr, wr_ok (by simp), bytes_small h, bytes_small h']
  obtain ⟨_, _, _, _, _, _, _, _, e⟩ := be8_lit a.tree
  simp [e]

theorem setHeight_run {l : Nat} (hl : l < 256) : setTreeHeight a.bytes l = .ok { a with w2 := l }.bytes ∧ Small { a with w2 := l } :=
  setChain_run h hl

theorem setHash_run {l : Nat} (hw : a.w3 < 256) (hl : l < 256) : setHashAddr a.bytes l = .ok { a with w3 := l }.bytes ∧ Small { a with w3 := l } := by
  have h' : Small { a with w3 := l } := ⟨h.layer, h.tree, h.type, h.w1, h.w2, by simp only; omega⟩
  refine ⟨?_, h'⟩
  rw [setHashAddr, wr_ok (by simp), bytes_small h, bytes_small h', be4_small hw, be4_small (v := l) hl]
  obtain ⟨_, _, _, _, _, _, _, _, e⟩ := be8_lit a.tree
  simp [e]

theorem setIndex_run {l : Nat} (hl : l < 2 ^ 32) : setTreeIndex a.bytes l = .ok { a with w3 := l }.bytes ∧ Small { a with w3 := l } := by
  have h' : Small { a with w3 := l } := ⟨h.layer, h.tree, h.type, h.w1, h.w2, hl⟩
  refine ⟨?_, h'⟩
  rw [setTreeIndex, u32ToBytes, wr_ok (by simp), ok_bind, wr_ok (by simp), ok_bind, wr_ok (by simp), ok_bind, wr_ok (by simp),
    bytes_small h, bytes_small h', be4_lit, be4_lit]
  obtain ⟨_, _, _, _, _, _, _, _, e⟩ := be8_lit a.tree
  simp [e]

end setters

theorem getElem?_be {n v i : Nat} (h : i < n) : (be n v)[i]? = some (BitVec.ofNat 8 (v / 256 ^ (n - 1 - i))) := by
  induction n generalizing v i with
  | zero => omega
  | succ n ih =>
    rw [be]
    by_cases c : i < n
    · rw [List.getElem?_append_left (by rw [length_be]; exact c), ih c, Nat.div_div_eq_div_mul]
      rw [show n + 1 - 1 - i = (n - 1 - i) + 1 by omega, Nat.pow_succ, Nat.mul_comm]
    · have : i = n := by omega
      subst this
      rw [List.getElem?_append_right (by rw [length_be])]
      simp [length_be]

/-- `ull_to_bytes` writes the big-endian encoding. -/
theorem ullToBytes_run {out : Bytes} {o n v : Nat} (h : o + n ≤ out.length) :
    ullToBytes out o n v = .ok (splice out o (be n v)) := by
  obtain ⟨s, e, h1, h2, h3⟩ := loop_inv (fun k (s : Bytes × Nat) => s.2 = v / 256 ^ k ∧ s.1.length = out.length ∧
      ∀ i, s.1[i]? = if o + (n - k) ≤ i ∧ i < o + n then (be n v)[i - o]? else out[i]?)
    (fun k s => do
      let b ← wr s.1 (o + (n - 1 - k)) (BitVec.ofNat 8 s.2)
      pure (b, s.2 / 256)) 0 n (out, v)
    ⟨by simp, rfl, fun i => by rw [if_neg (by omega)]⟩ (by
      intro k s _ hk ⟨h1, h2, h3⟩
      rw [wr_ok (by rw [h2]; omega), ok_bind]
      refine ⟨_, rfl, ?_, ?_, fun i => ?_⟩
      · rw [h1, Nat.pow_succ, Nat.div_div_eq_div_mul]
      · simp [h2]
      · simp only
        rw [List.getElem?_set, h3, h1, h2]
        by_cases c : o + (n - 1 - k) = i
        · subst c
          rw [if_pos rfl, if_pos (by omega), if_pos (by omega), Nat.add_sub_cancel_left, getElem?_be (by omega)]
          congr 4; omega
        · rw [if_neg c]
          by_cases c2 : o + (n - k) ≤ i ∧ i < o + n
          · rw [if_pos c2, if_pos (by omega)]
          · rw [if_neg c2, if_neg (by omega)])
  rw [ullToBytes, e, ok_bind]
  simp only [pure_eq_ok]
  congr 1
  apply List.ext_getElem?
  intro i
  rw [h3, getElem?_splice _ _ _ _ (by rw [length_be]; exact h), length_be, Nat.zero_add, Nat.sub_self, Nat.add_zero]

theorem setTree_run {a : Adrs} (h : Small a) {l : Nat} (hl : l < 2 ^ 64) :
    setTreeAddr a.bytes l = .ok { a with tree := l }.bytes ∧ Small { a with tree := l } := by
  have h' : Small { a with tree := l } := ⟨h.layer, hl, h.type, h.w1, h.w2, h.w3⟩
  refine ⟨?_, h'⟩
  rw [setTreeAddr, ullToBytes_run (by simp), bytes_small h, bytes_small h']
  obtain ⟨_, _, _, _, _, _, _, _, e⟩ := be8_lit a.tree
  obtain ⟨_, _, _, _, _, _, _, _, e'⟩ := be8_lit l
  simp [e, e', splice]

theorem splice_head {p q p' q' : Bytes} {n : Nat} (h : p.length = n) (h' : p'.length = n) :
    splice (p ++ q) 0 (slice (p' ++ q') 0 n) = p' ++ q := by
  rw [splice, slice, List.take_zero, List.drop_zero, List.take_left' h', List.drop_left' (by rw [h, h', Nat.zero_add]), List.nil_append]

theorem bytes_split (a : Adrs) : a.bytes = (be 4 a.layer ++ be 12 a.tree) ++ (be 4 a.type ++ be 4 a.w1 ++ be 4 a.w2 ++ be 4 a.w3) := by
  simp only [Adrs.bytes, List.append_assoc]

theorem copySubtree_run (a b : Adrs) :
    copySubtreeAddr a.bytes b.bytes = .ok { a with layer := b.layer, tree := b.tree }.bytes := by
  rw [copySubtreeAddr, copy_ok (by rw [length_bytes]; omega) (by rw [length_bytes]; omega), bytes_split a, bytes_split b,
    splice_head (by rw [List.length_append, length_be, length_be]) (by rw [List.length_append, length_be, length_be])]
  rfl

theorem copyKeypair_run {a b : Adrs} (ha : Small a) (hb : Small b) :
    copyKeypairAddr a.bytes b.bytes = .ok { a with layer := b.layer, tree := b.tree, w1 := b.w1 }.bytes ∧
      Small { a with layer := b.layer, tree := b.tree, w1 := b.w1 } := by
  have h1 : Small { a with layer := b.layer, tree := b.tree } := ⟨hb.layer, hb.tree, ha.type, ha.w1, ha.w2, ha.w3⟩
  have := copySubtree_run a b
  rw [copySubtreeAddr] at this
  rw [copyKeypairAddr, this, ok_bind]
  have h23 : rd b.bytes 23 = .ok (BitVec.ofNat 8 b.w1) := by
    rw [rd_eq_ok_iff, bytes_small hb]
    obtain ⟨_, _, _, _, _, _, _, _, e⟩ := be8_lit b.tree
    simp [e]
  rw [h23, ok_bind]
  exact setKeypair_run h1 hb.w1

theorem zero_adrs : zeroBytes 32 = (⟨0, 0, 0, 0, 0, 0⟩ : Adrs).bytes := by decide
theorem zero_small : Small ⟨0, 0, 0, 0, 0, 0⟩ := ⟨by decide, by decide, by decide, by decide, by decide, by decide⟩

/-! ### big-endian decoding -/

theorem ofBe_nil : ofBe [] = 0 := rfl
theorem ofBe_concat (b : Bytes) (x : Byte) : ofBe (b ++ [x]) = 256 * ofBe b + x.toNat := by simp [ofBe]
theorem ofBe_append (a b : Bytes) : ofBe (a ++ b) = 256 ^ b.length * ofBe a + ofBe b := by
  induction b using List.reverseRecOn with
  | nil => simp [ofBe_nil]
  | append_singleton b x ih =>
    rw [← List.append_assoc, ofBe_concat, ih, ofBe_concat]
    simp only [List.length_append, List.length_singleton, Nat.pow_succ]
    ring
theorem ofBe_lt (b : Bytes) : ofBe b < 256 ^ b.length := by
  induction b using List.reverseRecOn with
  | nil => simp [ofBe_nil]
  | append_singleton b x ih =>
    rw [ofBe_concat]
    simp only [List.length_append, List.length_singleton, Nat.pow_succ]
    have := x.isLt
    omega

theorem or_shift_add {a b k : Nat} (ha : a % 2 ^ k = 0) (hb : b < 2 ^ k) : a ||| b = a + b := by
  obtain ⟨q, rfl⟩ := Nat.dvd_of_mod_eq_zero ha
  exact (Nat.two_pow_add_eq_or_of_lt hb q).symm

/-- `bytes_to_ull` reads a big-endian number. -/
theorem bytesToUll_run {b : Bytes} {o n : Nat} (h : o + n ≤ b.length) (hn : n ≤ 8) : bytesToUll b o n = .ok (ofBe (slice b o n)) := by
  obtain ⟨r, e, h1⟩ := loop_inv (fun k (r : Nat) => r = 256 ^ (n - k) * ofBe (slice b o k))
    (fun i r => do
      let x ← rd b (o + i)
      pure (r ||| (x.toNat <<< (8 * (n - 1 - i)) % 2 ^ 64))) 0 n 0 (by simp [slice, ofBe_nil]) (by
      intro k r _ hk h1
      rw [rd_ok (by omega), ok_bind]
      refine ⟨_, rfl, ?_⟩
      rw [slice_snoc (by omega), ofBe_concat, h1, Nat.shiftLeft_eq]
      have hx := (b[o + k]'(by omega)).isLt
      have e1 : 256 ^ (n - k) = 2 ^ (8 * (n - k)) := by rw [show (256 : Nat) = 2 ^ 8 by rfl, ← Nat.pow_mul]
      have e2 : 256 ^ (n - (k + 1)) = 2 ^ (8 * (n - 1 - k)) := by
        rw [show (256 : Nat) = 2 ^ 8 by rfl, ← Nat.pow_mul, show n - (k + 1) = n - 1 - k by omega]
      have e3 : 2 ^ (8 * (n - k)) = 2 ^ 8 * 2 ^ (8 * (n - 1 - k)) := by rw [← Nat.pow_add]; congr 1; omega
      have hlt : (b[o + k]'(by omega)).toNat * 2 ^ (8 * (n - 1 - k)) < 2 ^ (8 * (n - k)) := by
        rw [e3]; exact Nat.mul_lt_mul_of_pos_right hx (Nat.two_pow_pos _)
      have hle : 2 ^ (8 * (n - k)) ≤ 2 ^ 64 := Nat.pow_le_pow_right (by omega) (by omega)
      rw [Nat.mod_eq_of_lt (by omega), e1, or_shift_add (k := 8 * (n - k)) (by simp) hlt, e2, e3]
      ring)
  rw [bytesToUll, e, h1]
  simp

/-! ### arrays filled block by block -/

theorem splice_append {h x y : Bytes} {o : Nat} (hle : o + x.length + y.length ≤ h.length) :
    splice (splice h o x) (o + x.length) y = splice h o (x ++ y) := by
  apply List.ext_getElem?
  intro i
  rw [getElem?_splice _ _ _ _ (by rw [length_splice (by omega)]; omega), getElem?_splice _ _ _ _ (by omega),
    getElem?_splice _ _ _ _ (by simp; omega), List.length_append]
  by_cases c1 : o + x.length ≤ i ∧ i < o + x.length + y.length
  · rw [if_pos c1, if_pos (by omega), List.getElem?_append_right (by omega)]
    congr 1; omega
  · rw [if_neg c1]
    by_cases c2 : o ≤ i ∧ i < o + x.length
    · rw [if_pos c2, if_pos (by omega), List.getElem?_append_left (by omega)]
    · rw [if_neg c2, if_neg (by omega)]

theorem slice_splice_out {b x : Bytes} {o o' n : Nat} (h : o + x.length ≤ b.length) (hd : o' + n ≤ o ∨ o + x.length ≤ o') :
    slice (splice b o x) o' n = slice b o' n := by
  apply List.ext_getElem?
  intro i
  rw [getElem?_slice, getElem?_slice, getElem?_splice _ _ _ _ h]
  by_cases c : i < n
  · rw [if_pos c, if_pos c, if_neg (by omega)]
  · rw [if_neg c, if_neg c]

theorem slice_splice_in {b x : Bytes} {o o' n : Nat} (h : o + x.length ≤ b.length) (hd : o ≤ o' ∧ o' + n ≤ o + x.length) :
    slice (splice b o x) o' n = slice x (o' - o) n := by
  apply List.ext_getElem?
  intro i
  rw [getElem?_slice, getElem?_slice, getElem?_splice _ _ _ _ h]
  by_cases c : i < n
  · rw [if_pos c, if_pos c, if_pos (by omega)]; congr 1; omega
  · rw [if_neg c, if_neg c]

theorem length_flatMap_const {f : Nat → Bytes} {k n : Nat} (h : ∀ i, i < n → (f i).length = k) : ((List.range n).flatMap f).length = n * k := by
  induction n with
  | zero => simp
  | succ n ih =>
    rw [List.range_succ, List.flatMap_append, List.length_append, ih (fun i hi => h i (by omega))]
    simp [h n (by omega), Nat.add_mul]

theorem slice_flatMap {f : Nat → Bytes} {k n i : Nat} (h : ∀ i, i < n → (f i).length = k) (hi : i < n) :
    slice ((List.range n).flatMap f) (i * k) k = f i := by
  induction n with
  | zero => omega
  | succ n ih =>
    rw [List.range_succ, List.flatMap_append]
    have hl := length_flatMap_const (f := f) (k := k) (n := n) (fun i hi => h i (by omega))
    by_cases c : i < n
    · rw [← ih (fun i hi => h i (by omega)) c]
      apply List.ext_getElem?
      intro j
      rw [getElem?_slice, getElem?_slice]
      by_cases cj : j < k
      · have : (i + 1) * k ≤ n * k := Nat.mul_le_mul_right _ (by omega)
        rw [Nat.add_mul] at this
        rw [if_pos cj, if_pos cj, List.getElem?_append_left (by omega)]
      · rw [if_neg cj, if_neg cj]
    · have : i = n := by omega
      subst this
      rw [slice, List.drop_left' hl]
      simp only [List.flatMap_singleton]
      exact List.take_of_length_le (by rw [h i (by omega)])

/-- An array is determined by its blocks. -/
theorem blocks_ext {b : Bytes} {f : Nat → Bytes} {k n : Nat} (hl : b.length = n * k) (h : ∀ i, i < n → slice b (i * k) k = f i) :
    b = (List.range n).flatMap f := by
  induction n generalizing b with
  | zero => simp at hl; simp [hl]
  | succ n ih =>
    rw [List.range_succ, List.flatMap_append]
    have hle : n * k ≤ b.length := by rw [hl, Nat.add_mul]; omega
    rw [← ih (b := b.take (n * k)) (by simp [hle])
      (fun i hi => by
        rw [← h i (by omega)]
        have : (i + 1) * k ≤ n * k := Nat.mul_le_mul_right _ (by omega)
        rw [Nat.add_mul] at this
        apply List.ext_getElem?
        intro j
        rw [getElem?_slice, getElem?_slice]
        by_cases cj : j < k
        · rw [if_pos cj, if_pos cj, List.getElem?_take_of_lt (by omega)]
        · rw [if_neg cj, if_neg cj])]
    have := h n (by omega)
    rw [slice, List.take_of_length_le (by rw [List.length_drop, hl, Nat.add_mul]; omega)] at this
    simp [← this]

/-- One more block of an array that is filled from the left at offset `o`. -/
theorem fill_step {b : Bytes} {f : Nat → Bytes} {o k i n : Nat} (hf : ∀ i, i < n → (f i).length = k) (hb : o + n * k ≤ b.length) (hi : i < n) :
    splice (splice b o ((List.range i).flatMap f)) (o + i * k) (f i) = splice b o ((List.range (i + 1)).flatMap f) := by
  have hl := length_flatMap_const (f := f) (k := k) (n := i) (fun j hj => hf j (by omega))
  have : (i + 1) * k ≤ n * k := Nat.mul_le_mul_right _ (by omega)
  rw [Nat.add_mul] at this
  have e := splice_append (h := b) (x := (List.range i).flatMap f) (y := f i) (o := o) (by rw [hl, hf i hi]; omega)
  rw [hl] at e
  rw [e, List.range_succ, List.flatMap_append]
  simp

/-! ### the two keyed hash functions -/

section
variable {shake : Bytes → Nat → Bytes}

theorem thash_run {inp : Bytes} {o nb : Nat} {ctx : Ctx} {addr : Bytes} (hp : ctx.pubSeed.length = 32) (ha : addr.length = 32)
    (hi : o + nb * 32 ≤ inp.length) :
    thash shake inp o nb ctx addr = .ok (shake (ctx.pubSeed ++ addr ++ slice inp o (nb * 32)) 32) := by
  have hs : (slice inp o (nb * 32)).length = nb * 32 := length_slice hi
  have s1 : slice ctx.pubSeed 0 32 = ctx.pubSeed := by rw [← hp]; exact slice_zero_length _
  have s2 : slice addr 0 32 = addr := by rw [← ha]; exact slice_zero_length _
  rw [thash, copy_ok (by omega) (by simp [zeroBytes]; omega), ok_bind, s1, copy_ok (by omega) (by rw [length_splice] <;> simp [zeroBytes, hp]; omega), ok_bind, s2]
  have e1 := splice_append (h := zeroBytes (64 + nb * 32)) (x := ctx.pubSeed) (y := addr) (o := 0) (by simp [zeroBytes, hp, ha])
  rw [hp, Nat.zero_add] at e1
  rw [e1]
  have hl : (ctx.pubSeed ++ addr).length = 64 := by simp [hp, ha]
  rw [copy_ok hi (by rw [length_splice] <;> simp [zeroBytes, hp, ha]), ok_bind]
  have e2 := splice_append (h := zeroBytes (64 + nb * 32)) (x := ctx.pubSeed ++ addr) (y := slice inp o (nb * 32)) (o := 0)
    (by simp [zeroBytes, hp, ha, hs])
  rw [hl, Nat.zero_add] at e2
  rw [e2, splice_all (by simp [zeroBytes, hp, ha, hs]; omega)]
  rfl

theorem thash_T {inp : Bytes} {o nb : Nat} {ctx : Ctx} {a : Adrs} (hp : ctx.pubSeed.length = 32)
    (hi : o + nb * 32 ≤ inp.length) :
    thash shake inp o nb ctx a.bytes = .ok (T shake ctx.pubSeed a (slice inp o (nb * 32))) := thash_run hp (length_bytes a) hi

theorem prfAddr_run {s : Seeds} {a : Adrs} (hp : s.pub.length = 32) (hs : s.sec.length = 32) :
    prfAddr shake ⟨s.pub, some s.sec⟩ a.bytes = .ok (prf shake s a) := by
  have := thash_run (shake := shake) (inp := s.sec) (o := 0) (nb := 1) (ctx := ⟨s.pub, some s.sec⟩) (addr := a.bytes) hp (length_bytes a) (by omega)
  rw [thash] at this
  have s2 : slice s.sec 0 (1 * 32) = s.sec := by rw [Nat.one_mul, ← hs]; exact slice_zero_length _
  rw [s2] at this
  exact this
end

end Verif.Sphincs
