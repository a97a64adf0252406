import Verif.Sphincs.Top
import Verif.Sphincs.Props2
import Mathlib.Data.Set.Card

/-! Helper lemmas for counting digests (sphincs/hash_shake.c:50-82, sphincs/fors.c:49-60). -/

namespace Verif.Sphincs
open Verif Spec

theorem be_ofBe (b : Bytes) : be b.length (ofBe b) = b := by
  induction b using List.reverseRecOn with
  | nil => rfl
  | append_singleton b x ih =>
    have hx : x.toNat < 256 := x.isLt
    rw [List.length_append, List.length_singleton, be, ofBe_concat, show (256 * ofBe b + x.toNat) / 256 = ofBe b by omega, ih]
    congr 2
    apply BitVec.eq_of_toNat_eq
    rw [BitVec.toNat_ofNat]
    omega

/-- The number with the given digits in base 512, most significant first (no line of its own; helper). -/
def number512 (l : List Nat) : Nat := l.foldl (fun a x => 512 * a + x) 0

theorem number512_concat (l : List Nat) (x : Nat) : number512 (l ++ [x]) = 512 * number512 l + x := by simp [number512]

theorem number512_lt {l : List Nat} (h : ∀ x ∈ l, x < 512) : number512 l < 512 ^ l.length := by
  induction l using List.reverseRecOn with
  | nil => decide
  | append_singleton l x ih =>
    have h1 := ih fun y hy => h y (List.mem_append_left _ hy)
    have h2 := h x (List.mem_append_right _ (List.mem_singleton.2 rfl))
    rw [number512_concat, List.length_append, List.length_singleton, Nat.pow_succ]
    omega

theorem digits512 {l : List Nat} (h : ∀ x ∈ l, x < 512) {N : Nat} (hN : N < 512 ^ l.length) :
    (List.range l.length).map (fun i => N / 512 ^ (l.length - 1 - i) % 512) = l ↔ N = number512 l := by
  induction l using List.reverseRecOn generalizing N with
  | nil => simp only [List.length_nil, Nat.pow_zero] at hN; simp [number512]; omega
  | append_singleton l x ih =>
    have h1 : ∀ y ∈ l, y < 512 := fun y hy => h y (List.mem_append_left _ hy)
    have h2 := h x (List.mem_append_right _ (List.mem_singleton.2 rfl))
    rw [List.length_append, List.length_singleton, Nat.pow_succ] at hN
    have ih' := ih h1 (N := N / 512) (by omega)
    rw [number512_concat, List.length_append, List.length_singleton, List.range_succ, List.map_append, List.map_singleton]
    have e : (List.range l.length).map (fun i => N / 512 ^ (l.length + 1 - 1 - i) % 512) =
        (List.range l.length).map (fun i => N / 512 / 512 ^ (l.length - 1 - i) % 512) := by
      refine List.map_congr_left fun i hi => ?_
      have := List.mem_range.1 hi
      rw [Nat.div_div_eq_div_mul, show l.length + 1 - 1 - i = (l.length - 1 - i) + 1 by omega, Nat.pow_succ, Nat.mul_comm]
    rw [e, show l.length + 1 - 1 - l.length = 0 by omega, Nat.pow_zero, Nat.div_one]
    constructor
    · intro hyp
      obtain ⟨a, b⟩ := List.append_inj hyp (by simp)
      have a := ih'.1 a
      simp only [List.cons.injEq, and_true] at b
      omega
    · intro a
      rw [ih'.2 (by omega), show N % 512 = x by omega]

theorem indices_iff {m : Bytes} (hm : m.length = 40) {l : List Nat} (hl : l.length = 35) (h : ∀ x ∈ l, x < 512) :
    messageToIndices m = .ok l ↔ ofBe m / 32 = number512 l := by
  have hlt := ofBe_lt m
  rw [hm] at hlt
  have hN : ofBe m / 32 < 512 ^ l.length := by rw [hl]; omega
  rw [messageToIndices_run hm, ← digits512 h hN, Except.ok.injEq, hl]
  have e : (List.range 35).map (forsIndex m) = (List.range 35).map (fun i => ofBe m / 32 / 512 ^ (35 - 1 - i) % 512) := by
    refine List.map_congr_left fun i hi => ?_
    have := List.mem_range.1 hi
    rw [forsIndex, Nat.div_div_eq_div_mul, show (512 : Nat) = 2 ^ 9 by rfl, ← Nat.pow_mul, show (32 : Nat) = 2 ^ 5 by rfl, ← Nat.pow_add,
      show 5 + 9 * (35 - 1 - i) = 320 - 9 * (i + 1) by omega]
  rw [e]

theorem digest_iff {d R pk m : Bytes} (hd : d.length = 49) {l : List Nat} (hl : l.length = 35) (h : ∀ x ∈ l, x < 512) {tree leaf : Nat} :
    (∃ md, hashMessage (fun _ _ => d) R pk m = .ok (md, tree, leaf) ∧ messageToIndices md = .ok l) ↔
      ofBe (d.take 40) / 32 = number512 l ∧ ofBe (slice d 40 8) = tree ∧ ofBe (slice d 48 1) % 16 = leaf := by
  have h8 : ofBe (slice d 40 8) < 2 ^ 64 := by
    have := ofBe_lt (slice d 40 8); rw [length_slice (by omega)] at this; exact this
  have h1 : ofBe (slice d 48 1) < 256 := by
    have := ofBe_lt (slice d 48 1); rw [length_slice (by omega)] at this; exact this
  have e : hashMessage (fun _ _ => d) R pk m = .ok (d.take 40, ofBe (slice d 40 8), ofBe (slice d 48 1) % 16) := by
    rw [hashMessage]
    dsimp only
    rw [copy_fresh (by omega), ok_bind, bytesToUll_run (by omega) (by omega), ok_bind, bytesToUll_run (by omega) (by omega), ok_bind, pure_eq_ok]
    have e1 : ofBe (slice d 40 8) &&& ((2 ^ 64 - 1) >>> (64 - 64)) = ofBe (slice d 40 8) := by
      rw [Nat.sub_self, Nat.shiftRight_zero, Nat.and_two_pow_sub_one_eq_mod, Nat.mod_eq_of_lt h8]
    have e2 : (ofBe (slice d 48 1) % 2 ^ 32) &&& ((2 ^ 32 - 1) >>> (32 - 4)) = ofBe (slice d 48 1) % 16 := by
      rw [show (2 ^ 32 - 1) >>> (32 - 4) = 15 from rfl, and_15]; omega
    rw [e1, e2, slice, List.drop_zero]
  rw [e]
  have hm : (d.take 40).length = 40 := by rw [List.length_take]; omega
  constructor
  · rintro ⟨md, e1, e2⟩
    injection e1 with e1
    injection e1 with e1 e3
    injection e3 with e3 e4
    subst e1
    exact ⟨(indices_iff hm hl h).1 e2, e3, e4⟩
  · rintro ⟨a, rfl, rfl⟩
    exact ⟨_, rfl, (indices_iff hm hl h).2 a⟩

theorem digest_split {d : Bytes} (hd : d.length = 49) : d = d.take 40 ++ slice d 40 8 ++ slice d 48 1 := by
  have h1 : slice d 48 1 = d.drop 48 := by
    unfold slice; exact List.take_of_length_le (by rw [List.length_drop]; omega)
  have h2 : d.take 40 ++ slice d 40 8 = d.take 48 := by unfold slice; rw [← List.take_add]
  rw [h1, h2, List.take_append_drop]

/-- The digest with the given free bits (no line of its own; helper). -/
def digestOf (l : List Nat) (tree leaf u hi : Nat) : Bytes := be 40 (number512 l * 32 + u) ++ be 8 tree ++ be 1 (hi * 16 + leaf)

theorem digestOf_parts (l : List Nat) (tree leaf u hi : Nat) : (digestOf l tree leaf u hi).length = 49 ∧
    (digestOf l tree leaf u hi).take 40 = be 40 (number512 l * 32 + u) ∧ slice (digestOf l tree leaf u hi) 40 8 = be 8 tree ∧
    slice (digestOf l tree leaf u hi) 48 1 = be 1 (hi * 16 + leaf) := by
  have l1 : (be 40 (number512 l * 32 + u)).length = 40 := length_be _ _
  have l2 : (be 8 tree).length = 8 := length_be _ _
  have l3 : (be 1 (hi * 16 + leaf)).length = 1 := length_be _ _
  unfold digestOf
  generalize be 40 (number512 l * 32 + u) = a at *
  generalize be 8 tree = b at *
  generalize be 1 (hi * 16 + leaf) = c at *
  refine ⟨by simp [l1, l2, l3], ?_, ?_, ?_⟩
  · rw [List.append_assoc, List.take_left' l1]
  · rw [slice, List.append_assoc, List.drop_left' l1, List.take_left' l2]
  · rw [slice, List.drop_left' (by rw [List.length_append, l1, l2]), ← l3, List.take_length]

end Verif.Sphincs
