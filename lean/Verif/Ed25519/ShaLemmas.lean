import Verif.Ed25519.Sha
import Verif.Ed25519.Pack

/-!
Helper lemmas for C115 (the structure of SHA-512): the states as bytes, the rounds as a bijection, the padding.
-/

namespace Verif.Ed25519
open Verif Spec


theorem vars_bytes_inj {u v : Vars} (h : u.bytes = v.bytes) : u = v := by
  have ha : ∀ {a b : BitVec 64}, beBytes 8 a.toNat = beBytes 8 b.toNat → a = b := by
    intro a b e
    have := congrArg beVal e
    rw [beVal_beBytes, beVal_beBytes] at this
    apply BitVec.eq_of_toNat_eq
    have h1 := a.isLt
    have h2 := b.isLt
    norm_num at this
    omega
  simp only [Vars.bytes, List.flatMap_cons, List.flatMap_nil] at h
  have l : ∀ a : BitVec 64, (beBytes 8 a.toNat).length = 8 := fun a => length_beBytes _ _
  obtain ⟨e1, h⟩ := List.append_inj h (by rw [l, l])
  obtain ⟨e2, h⟩ := List.append_inj h (by rw [l, l])
  obtain ⟨e3, h⟩ := List.append_inj h (by rw [l, l])
  obtain ⟨e4, h⟩ := List.append_inj h (by rw [l, l])
  obtain ⟨e5, h⟩ := List.append_inj h (by rw [l, l])
  obtain ⟨e6, h⟩ := List.append_inj h (by rw [l, l])
  obtain ⟨e7, h⟩ := List.append_inj h (by rw [l, l])
  obtain ⟨e8, h⟩ := List.append_inj h (by rw [l, l])
  have h1 := ha e1
  have h2 := ha e2
  have h3 := ha e3
  have h4 := ha e4
  have h5 := ha e5
  have h6 := ha e6
  have h7 := ha e7
  have h8 := ha e8
  cases u; cases v
  exact Vars.mk.injEq .. ▸ ⟨h1, h2, h3, h4, h5, h6, h7, h8⟩

/-- Every 64 bytes are the bytes of eight words (no line of its own). -/
theorem vars_bytes_surj {x : Bytes} (h : x.length = 64) : ∃ v : Vars, v.bytes = x := by
  have w : ∀ y : Bytes, y.length = 8 → beBytes 8 (BitVec.ofNat 64 (beVal y)).toNat = y := by
    intro y hy
    have hlt := beVal_lt y
    rw [hy] at hlt
    rw [BitVec.toNat_ofNat, Nat.mod_eq_of_lt (by norm_num at hlt ⊢; omega)]
    unfold beBytes beVal
    rw [← hy, ← List.length_reverse, leBytes_leVal, List.reverse_reverse]
  let s (i : Nat) : BitVec 64 := BitVec.ofNat 64 (beVal ((x.drop (8 * i)).take 8))
  refine ⟨⟨s 0, s 1, s 2, s 3, s 4, s 5, s 6, s 7⟩, ?_⟩
  have ws : ∀ i, i < 8 → beBytes 8 (s i).toNat = (x.drop (8 * i)).take 8 := fun i hi => w _ (by rw [List.length_take, List.length_drop]; omega)
  simp only [Vars.bytes, List.flatMap_cons, List.flatMap_nil]
  rw [ws 0, ws 1, ws 2, ws 3, ws 4, ws 5, ws 6, ws 7] <;> try omega
  have sp : ∀ i, x.drop (8 * i) = (x.drop (8 * i)).take 8 ++ x.drop (8 * (i + 1)) := by
    intro i
    conv_lhs => rw [← List.take_append_drop 8 (x.drop (8 * i))]
    rw [List.drop_drop]
    rfl
  have e : x = x.drop (8 * 0) := rfl
  conv_rhs => rw [e, sp 0, sp 1, sp 2, sp 3, sp 4, sp 5, sp 6, sp 7, List.drop_of_length_le (i := 8 * (7 + 1)) (by omega)]

/-- One round backwards (no line of its own). -/
def unround (w k : Word) (v : Vars) : Vars :=
  let T2 := bigSigma0 v.b + Maj v.b v.c v.d
  let T1 := v.a - T2
  ⟨v.b, v.c, v.d, v.e - T1, v.f, v.g, v.h, T1 - bigSigma1 v.f - Ch v.f v.g v.h - k - w⟩

theorem unround_round (w k : Word) (v : Vars) : unround w k (round w k v) = v := by
  cases v
  simp only [round, unround, Vars.mk.injEq, true_and]
  refine ⟨?_, ?_⟩
  · grind
  · grind

theorem round_unround (w k : Word) (v : Vars) : round w k (unround w k v) = v := by
  cases v
  simp only [round, unround, Vars.mk.injEq, true_and, and_true]
  refine ⟨?_, ?_⟩
  · grind
  · grind

theorem rounds_bij (M : Nat → Word) (n : Nat) : Function.Bijective (rounds M n) := by
  induction n with
  | zero => exact Function.bijective_id
  | succ n ih =>
    have : rounds M (n + 1) = round (W M n) (K n) ∘ rounds M n := rfl
    rw [this]
    refine Function.Bijective.comp ⟨?_, ?_⟩ ih
    · exact Function.LeftInverse.injective (unround_round _ _)
    · exact Function.RightInverse.surjective (round_unround _ _)

/-- `compress` leaves a state as it is exactly when the rounds lead to the zero state. -/
theorem compress_fixed (H : Vars) (b : Bytes) :
    compress H b = H ↔ rounds (fun i => BitVec.ofNat 64 (beVal ((b.drop (8 * i)).take 8))) 80 H = ⟨0, 0, 0, 0, 0, 0, 0, 0⟩ := by
  unfold compress
  generalize rounds _ 80 H = v
  cases H; cases v
  have e : ∀ x y : Word, x + y = x ↔ y = 0 := fun x y => by grind
  simp only [Vars.mk.injEq, e]

/-- FIPS 180-4 5.1.2: what is appended to a message of n bytes (compare tweetnacl/tweetnacl.c:576-583). -/
def padding (n : Nat) : Bytes := [0x80] ++ List.replicate ((239 - n % 128) % 128) 0 ++ beBytes 16 (8 * n)

theorem pad_eq (m : Bytes) : pad m = m ++ padding m.length := by
  unfold pad padding
  simp only [List.append_assoc]

theorem length_pad (m : Bytes) : 128 ∣ (pad m).length ∧ m.length + 17 ≤ (pad m).length := by
  have : (pad m).length = m.length + 1 + (239 - m.length % 128) % 128 + 16 := by
    unfold pad
    simp only [List.length_append, List.length_replicate, length_beBytes, List.length_singleton]
  omega

/-- The last sixteen bytes of the padded message give its length. -/
theorem pad_tail {m : Bytes} (h : m.length < 2 ^ 64) : beVal ((pad m).drop ((pad m).length - 16)) = 8 * m.length := by
  have e : pad m = (m ++ [0x80] ++ List.replicate ((239 - m.length % 128) % 128) 0) ++ beBytes 16 (8 * m.length) := rfl
  rw [e, List.drop_left' (by rw [List.length_append (bs := beBytes 16 _), length_beBytes]; omega), beVal_beBytes, Nat.mod_eq_of_lt]
  norm_num
  omega

theorem compressAll_prefix (H : Vars) (m x : Bytes) (n : Nat) (h : 128 * n ≤ m.length) : compressAll H (m ++ x) n = compressAll H m n :=
  compressAll_congr _ _ _ _ (List.take_append_of_le_length h)

end Verif.Ed25519
