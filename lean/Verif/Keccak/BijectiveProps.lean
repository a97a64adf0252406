import Verif.Keccak.Bijective

/-!
The property C110: the Keccak permutation is a bijection, and two inputs that lead to the same state contain a collision on the inner part.
-/

namespace Verif.Keccak
open Verif

/-- C110: every state of 25 words is the result of `KeccakF1600_StatePermute` for exactly one state (common/fips202.c:73-336). -/
theorem keccakF1600_bijective {t : List W64} (h : t.length = 25) : ∃! s : List W64, s.length = 25 ∧ permute s = .ok t := by
  obtain ⟨s, hs, e⟩ := perm_surjective h
  refine ⟨s, ⟨hs, by rw [permute_eq hs, e]⟩, fun s' h' => ?_⟩
  have e' := h'.2
  rw [permute_eq h'.1] at e'
  injection e' with e'
  exact perm_injective h'.1 hs (e'.trans e.symm)

theorem inner_code {r : Nat} (h0 : 0 < r) (hr : r ≤ 200) {m m' x x' : Bytes} (h : Inner r (m ++ x) (m' ++ x') (m.length / r) (m'.length / r)) :
    ∃ i i' t t', r * i ≤ m.length ∧ r * i' ≤ m'.length ∧ m.take (r * i) ≠ m'.take (r * i') ∧
      incAbsorb incInit r (m.take (r * i)) (r * i) = .ok ⟨t, 0⟩ ∧ incAbsorb incInit r (m'.take (r * i')) (r * i') = .ok ⟨t', 0⟩ ∧ t.drop (r / 8) = t'.drop (r / 8) := by
  obtain ⟨i, i', hi, hi', ht, hd⟩ := h
  have b1 : r * i ≤ m.length := Nat.le_trans (Nat.mul_le_mul_left _ hi) (Nat.mul_div_le _ _)
  have b2 : r * i' ≤ m'.length := Nat.le_trans (Nat.mul_le_mul_left _ hi') (Nat.mul_div_le _ _)
  have run : ∀ {m x : Bytes} {i : Nat}, r * i ≤ m.length → incAbsorb incInit r (m.take (r * i)) (r * i) = .ok ⟨after r (m ++ x) i, 0⟩ := by
    intro m x i b
    have e := (after_run h0 hr (P := m ++ x) (i := i) (by rw [List.length_append]; omega)).1
    rw [List.take_append_of_le_length b] at e
    rw [incAbsorb_run (incInit_ok h0) hr (by rw [List.length_take]; omega), List.take_take, Nat.min_self, e]
  rw [List.take_append_of_le_length b1, List.take_append_of_le_length b2] at ht
  exact ⟨i, i', _, _, b1, b2, ht, run b1, run b2, hd⟩

/-- C110: if two different inputs (or the same input to SHAKE and SHA-3) lead `keccak_absorb` to the same state, then there are two different sequences of whole blocks, one at the beginning of each input, after
which the states agree in all words behind the rate: an inner collision, shown explicitly (common/fips202.c:349-380). -/
theorem absorb_inner_collision {r : Nat} (hr : r = 168 ∨ r = 136 ∨ r = 104 ∨ r = 72) {m m' : Bytes} {p p' : Byte} (hp : p = 0x1F ∨ p = 0x06) (hp' : p' = 0x1F ∨ p' = 0x06) {s : List W64}
    (h : absorb r m m.length p = .ok s) (h' : absorb r m' m'.length p' = .ok s) (hne : (m, p) ≠ (m', p')) :
    ∃ i i' t t', r * i ≤ m.length ∧ r * i' ≤ m'.length ∧ m.take (r * i) ≠ m'.take (r * i') ∧
      incAbsorb incInit r (m.take (r * i)) (r * i) = .ok ⟨t, 0⟩ ∧ incAbsorb incInit r (m'.take (r * i')) (r * i') = .ok ⟨t', 0⟩ ∧ t.drop (r / 8) = t'.drop (r / 8) := by
  have h0 : 0 < r := by omega
  have h200 : r ≤ 200 := by omega
  have h8 : r % 8 = 0 := by omega
  rw [absorb_run h0 h200 h8] at h h'
  injection h with h
  injection h' with h'
  rcases padded_same h0 h200 h8 hp hp' (h.trans h'.symm) with e | e
  · exact absurd (by rw [e.1, e.2]) hne
  · exact inner_code h0 h200 e

/-- C110: inputs that fit into one block with their padding lead to different states (common/fips202.c:349-380). -/
theorem absorb_one_block {r : Nat} (hr : r = 168 ∨ r = 136 ∨ r = 104 ∨ r = 72) {m m' : Bytes} {p p' : Byte} (hp : p = 0x1F ∨ p = 0x06) (hp' : p' = 0x1F ∨ p' = 0x06) {s : List W64}
    (hm : m.length < r) (hm' : m'.length < r) (h : absorb r m m.length p = .ok s) (h' : absorb r m' m'.length p' = .ok s) : m = m' ∧ p = p' := by
  by_contra hn
  obtain ⟨i, i', _, _, b, b', ht, -⟩ := absorb_inner_collision hr hp hp' h h' fun e => hn (by simpa only [Prod.mk.injEq] using e)
  have z : i = 0 := by
    rcases Nat.eq_zero_or_pos i with h | h
    · exact h
    · have := Nat.le_mul_of_pos_right r h; omega
  have z' : i' = 0 := by
    rcases Nat.eq_zero_or_pos i' with h | h
    · exact h
    · have := Nat.le_mul_of_pos_right r h; omega
  subst z z'
  exact ht (by rw [Nat.mul_zero, List.take_zero, List.take_zero])

/-- C110 for the seed expander: if two different seeds lead `seedexpander_init` to the same state, there is an explicit inner collision; seeds of at most 134 bytes never do (common/shake_prng.c:19-25). -/
theorem seedexpander_init_states {seed seed' : Bytes} {st : Inc} (h : seedexpanderInit seed seed.length = .ok st) (h' : seedexpanderInit seed' seed'.length = .ok st) (hne : seed ≠ seed') :
    (134 < seed.length ∨ 134 < seed'.length) ∧
    ∃ i i' t t', 136 * i ≤ seed.length + 1 ∧ 136 * i' ≤ seed'.length + 1 ∧ (seed ++ [2]).take (136 * i) ≠ (seed' ++ [2]).take (136 * i') ∧
      incAbsorb incInit 136 ((seed ++ [2]).take (136 * i)) (136 * i) = .ok ⟨t, 0⟩ ∧ incAbsorb incInit 136 ((seed' ++ [2]).take (136 * i')) (136 * i') = .ok ⟨t', 0⟩ ∧ t.drop 17 = t'.drop 17 := by
  rw [seedexpanderInit_run] at h h'
  injection h with h
  injection h' with h'
  have e := h.trans h'.symm
  injection e with e
  have hn : (seed ++ [2], (0x1F : Byte)) ≠ (seed' ++ [2], 0x1F) := fun he => hne (List.append_cancel_right (Prod.ext_iff.1 he).1)
  obtain ⟨i, i', t, t', b, b', ht, r1, r2, hd⟩ := absorb_inner_collision (r := 136) (p := 0x1F) (p' := 0x1F) (by omega) (.inl rfl) (.inl rfl)
    (absorb_run (by omega) (by omega) (by omega)) (by rw [absorb_run (by omega) (by omega) (by omega), ← e]) hn
  refine ⟨?_, i, i', t, t', by simpa using b, by simpa using b', ht, r1, r2, hd⟩
  by_contra hc
  rw [List.length_append, List.length_singleton] at b b'
  have z : i = 0 := by omega
  have z' : i' = 0 := by omega
  subst z z'
  exact ht (by rw [Nat.mul_zero, List.take_zero, List.take_zero])

/-- The zero state has a preimage, and only one. -/
example : ∃! s : List W64, s.length = 25 ∧ permute s = .ok (List.replicate 25 0) := keccakF1600_bijective rfl

/-- Two one-byte inputs lead to different states. -/
example : absorb 136 [1] 1 0x1F ≠ absorb 136 [2] 1 0x1F := by
  intro e
  have := absorb_one_block (r := 136) (m := [1]) (m' := [2]) (p := 0x1F) (p' := 0x1F) (by omega) (.inl rfl) (.inl rfl) (by decide) (by decide)
    (absorb_run (by omega) (by omega) (by omega)) (by rw [← absorb_run (m := [1]) (by omega) (by omega) (by omega)]; exact e.symm)
  exact absurd this.1 (by decide)

end Verif.Keccak
