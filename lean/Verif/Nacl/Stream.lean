import Verif.Nacl.Salsa

/-! Supporting lemmas: the stream functions of the model. -/

namespace Verif.Nacl
open Verif Verif.Ed25519 Verif.Nacl.Spec
open Verif.Ed25519.Spec (leVal leBytes)

variable {w : Nat}

theorem leBytes_succ (k v : Nat) : leBytes (k + 1) v = leBytes k v ++ [BitVec.ofNat 8 (v / 256 ^ k)] := by
  unfold leBytes
  rw [List.range_succ, List.map_append, List.map_singleton]

/-- The carry into byte k when one is added to i. -/
theorem carry_step (i k : Nat) : (i + 1) / 256 ^ k = i / 256 ^ k + (i % 256 ^ k + 1) / 256 ^ k := by
  have hp : 0 < 256 ^ k := Nat.pow_pos (by omega)
  conv_lhs => rw [← Nat.div_add_mod i (256 ^ k), Nat.add_assoc, Nat.mul_add_div hp]

theorem carry_next (i k : Nat) : (i % 256 ^ (k + 1) + 1) / 256 ^ (k + 1) = ((i % 256 ^ k + 1) / 256 ^ k + i / 256 ^ k % 256) / 256 := by
  have hp : 0 < 256 ^ k := Nat.pow_pos (by omega)
  rw [Nat.mod_pow_succ, pow_succ, ← Nat.div_div_eq_div_mul, show i % 256 ^ k + 256 ^ k * (i / 256 ^ k % 256) + 1 = (i % 256 ^ k + 1) + 256 ^ k * (i / 256 ^ k % 256) by omega,
    Nat.add_mul_div_left _ _ hp]

theorem incCounter_ok (hw : 32 ≤ w) {v : Bytes} (hv : v.length = 8) (i : Nat) : incCounter w (v ++ leBytes 8 i) = .ok (v ++ leBytes 8 (i + 1)) := by
  have h1 : (2 : Nat) ^ 32 ≤ 2 ^ w := Nat.pow_le_pow_right (by omega) hw
  unfold incCounter
  obtain ⟨s, e, hs, -⟩ := loop_inv (fun k (s : Bytes × BitVec w) => s.1 = v ++ (leBytes k (i + 1) ++ (leBytes 8 i).drop k) ∧ s.2.toNat = (i % 256 ^ k + 1) / 256 ^ k)
    (fun k (s : Bytes × BitVec w) => do
      let a ← rd s.1 (8 + k)
      let u := s.2 + a.setWidth w
      let z ← wr s.1 (8 + k) (u.setWidth 8)
      .ok (z, u >>> 8)) 0 8 (v ++ leBytes 8 i, 1)
    ⟨by simp [leBytes], by
      simp only [pow_zero, Nat.mod_one, Nat.zero_add, Nat.div_one, BitVec.ofNat_eq_ofNat, BitVec.toNat_ofNat]
      exact Nat.mod_eq_of_lt (by omega)⟩
    (by
      rintro k ⟨z, u⟩ - hk ⟨hz, hu⟩
      have hk : k < 8 := by omega
      simp only [] at hz hu ⊢
      have l1 : (leBytes k (i + 1)).length = k := length_leBytes _ _
      have l2 : (leBytes 8 i).length = 8 := length_leBytes _ _
      have hlt : (i % 256 ^ k + 1) / 256 ^ k ≤ 1 := by
        have hp : 0 < 256 ^ k := Nat.pow_pos (by omega)
        have := Nat.mod_lt i hp
        rw [Nat.div_le_iff_le_mul hp]
        omega
      have hr : rd z (8 + k) = .ok (BitVec.ofNat 8 (i / 256 ^ k)) := by
        rw [rd_eq_ok_iff, hz, List.getElem?_append_right (by omega), List.getElem?_append_right (by omega), hv, l1, show 8 + k - 8 - k = 0 by omega,
          List.getElem?_drop]
        simp [leBytes, hk]
      have hlz : z.length = 16 := by rw [hz]; simp [hv, l1, l2]; omega
      have ht : (u + (BitVec.ofNat 8 (i / 256 ^ k)).setWidth w).toNat = (i % 256 ^ k + 1) / 256 ^ k + i / 256 ^ k % 256 := by
        rw [BitVec.toNat_add, hu, BitVec.toNat_setWidth, BitVec.toNat_ofNat, show (2 : Nat) ^ 8 = 256 from rfl]
        have := Nat.mod_lt (i / 256 ^ k) (show 256 > 0 by omega)
        rw [Nat.mod_eq_of_lt (a := i / 256 ^ k % 256) (by omega), Nat.mod_eq_of_lt (by omega)]
      refine ⟨_, by rw [hr, ok_bind, wr_ok (by omega), ok_bind], ?_, ?_⟩
      · simp only []
        rw [hz, List.set_append_right _ _ (by omega), List.set_append_right _ _ (by omega), hv, l1, show 8 + k - 8 - k = 0 by omega,
          List.drop_eq_getElem_cons (by omega), List.set_cons_zero, leBytes_succ k (i + 1), List.append_assoc, List.singleton_append]
        congr 3
        apply BitVec.eq_of_toNat_eq
        rw [BitVec.toNat_setWidth, ht, BitVec.toNat_ofNat, carry_step i k]
        generalize (i % 256 ^ k + 1) / 256 ^ k = a
        generalize i / 256 ^ k = b
        omega
      · simp only []
        rw [BitVec.toNat_ushiftRight, ht, Nat.shiftRight_eq_div_pow, carry_next])
  rw [e, ok_bind]
  show Except.ok s.1 = _
  rw [hs, List.drop_of_length_le (by rw [length_leBytes]), List.append_nil]

/-- The byte of the message at position j; zero if the message pointer is null. -/
def mAt (m : Option Bytes) (j : Nat) : Byte :=
  match m with
  | some m => m.getD j 0
  | none => 0

theorem xorBlock_ok {c : Bytes} {m : Option Bytes} {o n : Nat} {x : Bytes} (hc : o + n ≤ c.length) (hm : ∀ b, m = some b → o + n ≤ b.length) (hx : n ≤ x.length) :
    xorBlock c m o x n = .ok (splice c o ((List.range n).map fun i => mAt m (o + i) ^^^ x.getD i 0)) := by
  unfold xorBlock
  apply write_loop _ _ _ hc
  intro k s hk hs
  have hx' : rd x k = .ok (x.getD k 0) := by rw [rd_ok (by omega)]; simp [show k < x.length by omega]
  cases m with
  | none =>
    simp only [ok_bind]
    rw [hx', ok_bind, wr_ok (by omega)]
    rfl
  | some b =>
    have := hm b rfl
    simp only []
    rw [rd_ok (by omega), ok_bind, hx', ok_bind, wr_ok (by omega)]
    simp [mAt, show o + k < b.length by omega]

theorem splice_splice {α : Type} {c a b : List α} {o : Nat} (h : o + (a.length + b.length) ≤ c.length) :
    splice (splice c o a) (o + a.length) b = splice c o (a ++ b) := by
  apply List.ext_getElem?
  intro i
  rw [getElem?_splice _ _ _ _ (by rw [length_splice (by omega)]; omega), getElem?_splice _ _ _ _ (by omega), getElem?_splice _ _ _ _ (by rw [List.length_append]; omega),
    List.length_append]
  by_cases h1 : o ≤ i ∧ i < o + a.length
  · rw [if_neg (by omega), if_pos h1, if_pos (by omega), List.getElem?_append_left (by omega)]
  · by_cases h2 : o + a.length ≤ i ∧ i < o + a.length + b.length
    · rw [if_pos h2, if_pos (by omega), List.getElem?_append_right (by omega)]
      congr 1; omega
    · rw [if_neg h2, if_neg h1, if_neg (by omega)]

theorem length_expansion {k n : Bytes} : (expansion k n).length = 64 := by
  unfold expansion salsa20
  have h : (words (arrange k n)).length = 16 := by simp [words]
  rw [length_unwords, List.length_zipWith, length_doublerounds h, h]
  rfl

theorem length_hsalsa20 {k n : Bytes} : (hsalsa20 k n).length = 32 := by
  unfold hsalsa20; rw [length_unwords]; rfl

/-- One block of output. -/
theorem block_eq (k v : Bytes) (m : Option Bytes) (i n : Nat) (hn : n ≤ 64) :
    (List.range n).map (fun t => mAt m (64 * i + t) ^^^ (expansion k (v ++ leBytes 8 i)).getD t 0) =
    ((List.range n).map (64 * i + ·)).map fun j => mAt m j ^^^ salsaByte k v j := by
  rw [List.map_map]
  apply List.map_congr_left
  intro t ht
  have ht : t < n := List.mem_range.mp ht
  simp only [Function.comp_apply, salsaByte]
  rw [show (64 * i + t) / 64 = i by omega, show (64 * i + t) % 64 = t by omega]

theorem streamSalsa20Xor_ok (hw : 32 ≤ w) {c : Bytes} {m : Option Bytes} {b : Nat} {n : Bytes} {no : Nat} {k : Bytes} (hc : b ≤ c.length)
    (hm : ∀ a, m = some a → b ≤ a.length) (hn : no + 8 ≤ n.length) (hk : k.length = 32) :
    streamSalsa20Xor w c m b n no k = .ok (splice c 0 ((List.range b).map fun j => mAt m j ^^^ salsaByte k (slice n no 8) j)) := by
  unfold streamSalsa20Xor
  by_cases hb : b = 0
  · subst hb; simp
  rw [if_neg hb]
  obtain ⟨v, hv⟩ : ∃ v, v = slice n no 8 := ⟨_, rfl⟩
  have lv : v.length = 8 := by rw [hv, length_slice hn]
  obtain ⟨G, hG⟩ : ∃ G : Nat → Byte, G = fun j => mAt m j ^^^ salsaByte k v j := ⟨_, rfl⟩
  dsimp only
  rw [copy_ok hn (by simp), ← hv, ok_bind]
  rw [show splice (List.replicate 16 (0 : Byte)) 0 v = v ++ leBytes 8 0 by
    unfold splice
    rw [lv, List.take_zero, List.nil_append, List.drop_replicate]
    rfl]
  obtain ⟨⟨c', z⟩, e, hc', hz⟩ := loop_inv (fun i (s : Bytes × Bytes) => s.1 = splice c 0 ((List.range (64 * i)).map G) ∧ s.2 = v ++ leBytes 8 i)
    (fun i (s : Bytes × Bytes) => do
      let x ← coreSalsa20 w (List.replicate 64 0) s.2 k sigma
      let c ← xorBlock s.1 m (64 * i) x 64
      let z ← incCounter w s.2
      .ok (c, z)) 0 (b / 64) (c, v ++ leBytes 8 0) ⟨by simp, rfl⟩
    (by
      rintro i ⟨c', z⟩ - hi ⟨h1, h2⟩
      simp only [] at h1 h2 ⊢
      have l1 : ((List.range (64 * i)).map G).length = 64 * i := by simp
      have l2 : c'.length = c.length := by rw [h1, length_splice (by omega)]
      refine ⟨_, by
        rw [h2, coreSalsa20_ok hw (by simp) (by rw [List.length_append, lv, length_leBytes]) hk, ok_bind,
          xorBlock_ok (by omega) (fun a ha => by have := hm a ha; omega) (by rw [length_expansion]), ok_bind, incCounter_ok hw lv, ok_bind], ?_, rfl⟩
      simp only []
      rw [block_eq _ _ _ _ _ (Nat.le_refl 64), ← hG, h1]
      have := splice_splice (c := c) (a := (List.range (64 * i)).map G) (b := ((List.range 64).map (64 * i + ·)).map G) (o := 0) (by simp; omega)
      rw [l1, Nat.zero_add] at this
      rw [this, show 64 * (i + 1) = 64 * i + 64 by omega, List.range_add, List.map_append])
  rw [e, ok_bind]
  simp only [Nat.zero_add] at hc' hz ⊢
  rw [← hG]
  have l1 : ((List.range (64 * (b / 64))).map G).length = 64 * (b / 64) := by simp
  by_cases h0 : b % 64 = 0
  · rw [if_pos h0, hc', show 64 * (b / 64) = b by omega]
  · rw [if_neg h0, hz, coreSalsa20_ok hw (by simp) (by rw [List.length_append, lv, length_leBytes]) hk, ok_bind,
      xorBlock_ok (by rw [hc', length_splice (by omega)]; omega) (fun a ha => by have := hm a ha; omega) (by rw [length_expansion]; omega),
      block_eq _ _ _ _ _ (by omega), ← hG, hc']
    have := splice_splice (c := c) (a := (List.range (64 * (b / 64))).map G) (b := ((List.range (b % 64)).map (64 * (b / 64) + ·)).map G) (o := 0) (by simp; omega)
    rw [l1, Nat.zero_add] at this
    rw [this, ← List.map_append, ← List.range_add, show 64 * (b / 64) + b % 64 = b by omega]

theorem stream_ok (hw : 32 ≤ w) {c : Bytes} {d : Nat} {n k : Bytes} (hc : d ≤ c.length) (hn : n.length = 24) (hk : k.length = 32) :
    stream w c d n k = .ok (splice c 0 (xsalsa20 k n d)) := by
  unfold stream streamSalsa20
  rw [coreHsalsa20_ok hw (by simp) (by omega) hk, ok_bind, streamSalsa20Xor_ok hw hc (by intro a h; cases h) (by omega) length_hsalsa20]
  congr 2
  unfold xsalsa20
  apply List.map_congr_left
  intro j _
  unfold xsalsaByte
  rw [show slice n 16 8 = n.drop 16 by unfold slice; rw [List.take_of_length_le (by rw [List.length_drop]; omega)]]
  simp [mAt]

theorem streamXor_ok (hw : 32 ≤ w) {c m : Bytes} {d : Nat} {n k : Bytes} (hc : d ≤ c.length) (hm : d ≤ m.length) (hn : n.length = 24) (hk : k.length = 32) :
    streamXor w c m d n k = .ok (splice c 0 (xorBytes (m.take d) (xsalsa20 k n d))) := by
  unfold streamXor
  rw [coreHsalsa20_ok hw (by simp) (by omega) hk, ok_bind, streamSalsa20Xor_ok hw hc (by intro a h; cases h; exact hm) (by omega) length_hsalsa20]
  congr 2
  unfold xsalsa20 xorBytes
  apply List.ext_getElem (by simp; omega)
  intro j h1 h2
  simp at h1
  have : slice n 16 8 = n.drop 16 := by unfold slice; rw [List.take_of_length_le (by rw [List.length_drop]; omega)]
  simp [mAt, xsalsaByte, this, show j < m.length by omega]

end Verif.Nacl
