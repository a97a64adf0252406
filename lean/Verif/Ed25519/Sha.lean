import Verif.Ed25519.Pack

/-!
`crypto_hash` of tweetnacl.c is SHA-512.
-/

namespace Verif.Ed25519
open Verif Spec

/-! ### Big-endian words -/

theorem beVal_snoc (l : Bytes) (a : Byte) : beVal (l ++ [a]) = 256 * beVal l + a.toNat := by
  unfold beVal
  rw [List.reverse_append]
  simp [leVal]
  omega

theorem beVal_lt (l : Bytes) : beVal l < 256 ^ l.length := by
  have := leVal_lt l.reverse
  rwa [List.length_reverse] at this

theorem length_beBytes (n v : Nat) : (beBytes n v).length = n := by simp [beBytes, length_leBytes]

theorem dl64_ok {x : Bytes} {o : Nat} (h : o + 8 ≤ x.length) : dl64 x o = .ok (BitVec.ofNat 64 (beVal ((x.drop o).take 8))) := by
  unfold dl64
  obtain ⟨u, e, hu⟩ := loop_inv (fun k (u : BitVec 64) => u.toNat = beVal ((x.drop o).take k))
    (fun i u => do
      let b ← rd x (o + i)
      .ok (u <<< 8 ||| b.setWidth 64)) 0 8 0 (by simp [beVal, leVal])
    (by
      intro k u _ hk hu
      refine ⟨_, by rw [rd_ok (by omega), ok_bind], ?_⟩
      have hlt := beVal_lt ((x.drop o).take k)
      have hl : ((x.drop o).take k).length = k := by simp; omega
      rw [hl] at hlt
      have h56 : 256 ^ k ≤ 256 ^ 7 := Nat.pow_le_pow_right (by omega) (by omega)
      have hb := (x[o + k]'(by omega)).isLt
      rw [List.take_succ_eq_append_getElem (by simp; omega), beVal_snoc, ← hu]
      rw [BitVec.toNat_or, BitVec.toNat_shiftLeft, BitVec.toNat_setWidth, Nat.shiftLeft_eq, Nat.mod_eq_of_lt (by omega), Nat.mod_eq_of_lt (by omega), ← Nat.shiftLeft_eq,
        ← Nat.shiftLeft_add_eq_or_of_lt (by omega), Nat.shiftLeft_eq, List.getElem_drop]
      omega)
  rw [e]
  congr 1
  rw [Nat.zero_add] at hu
  rw [← hu]
  simp

theorem ts64_ok {x : Bytes} {o : Nat} {u : BitVec 64} (h : o + 8 ≤ x.length) : ts64 x o u = .ok (splice x o (beBytes 8 u.toNat)) := by
  unfold ts64
  obtain ⟨s, e, hl, hx, hu⟩ := loop_inv (fun k (s : Bytes × BitVec 64) => s.1.length = x.length ∧
      (∀ i, s.1[i]? = if o + (8 - k) ≤ i ∧ i < o + 8 then some (BitVec.ofNat 8 (u.toNat / 256 ^ (o + 7 - i))) else x[i]?) ∧ s.2.toNat = u.toNat / 256 ^ k)
    (fun k (s : Bytes × BitVec 64) => do
      let x ← wr s.1 (o + (7 - k)) (s.2.setWidth 8)
      .ok (x, s.2 >>> 8)) 0 8 (x, u)
    ⟨rfl, by intro i; rw [if_neg (by omega)], by simp⟩
    (by
      rintro k s - hk ⟨hl, hx, hu⟩
      refine ⟨_, by rw [wr_ok (by omega), ok_bind], by simp [hl], ?_, ?_⟩
      · intro i
        simp only [List.getElem?_set, hl]
        have := hx i
        by_cases h1 : o + (7 - k) = i
        · rw [if_pos h1, if_pos (by omega), if_pos (by omega)]
          congr 1
          apply BitVec.eq_of_toNat_eq
          rw [BitVec.toNat_setWidth, hu, BitVec.toNat_ofNat, show o + 7 - i = k by omega]
        · rw [if_neg h1, this]
          by_cases h2 : o + (8 - k) ≤ i ∧ i < o + 8
          · rw [if_pos h2, if_pos (by omega)]
          · rw [if_neg h2, if_neg (by omega)]
      · simp only []
        rw [BitVec.toNat_ushiftRight, hu, Nat.shiftRight_eq_div_pow, Nat.div_div_eq_div_mul, show (2 : Nat) ^ 8 = 256 from rfl, ← pow_succ])
  rw [e, ok_bind]
  show Except.ok s.1 = _
  congr 1
  apply List.ext_getElem?
  intro i
  rw [hx, getElem?_splice _ _ _ _ (by rw [length_beBytes]; omega), length_beBytes]
  by_cases h1 : o ≤ i ∧ i < o + 8
  · rw [if_pos (by omega), if_pos h1]
    unfold beBytes
    rw [List.getElem?_reverse (by rw [length_leBytes]; omega), length_leBytes]
    simp only [leBytes, List.getElem?_map]
    rw [List.getElem?_range (by omega)]
    simp only [Option.map_some]
    rw [show 8 - 1 - (i - o) = o + 7 - i by omega]
  · rw [if_neg (by omega), if_neg h1]

theorem beVal_beBytes (n v : Nat) : beVal (beBytes n v) = v % 256 ^ n := by
  unfold beVal beBytes
  rw [List.reverse_reverse, leVal_leBytes]

/-! ### The tables -/

theorem shaK_eq : ∀ i : Fin 80, rd shaK i.val = .ok (Spec.K i.val) := by decide +kernel

theorem shaIv_eq : shaIv = initVars.bytes := by decide +kernel

/-! ### Rounds -/

/-- The eight working variables as the array `a`. -/
def vl (v : Vars) : List (BitVec 64) := [v.a, v.b, v.c, v.d, v.e, v.f, v.g, v.h]

/-- The array `w` in the q-th group of sixteen rounds. -/
def wl (M : Nat → Word) (q : Nat) : List (BitVec 64) := (List.range 16).map fun j => W M (16 * q + j)

theorem W_step (M : Nat → Word) (t : Nat) (h : 16 ≤ t) : W M t = smallSigma1 (W M (t - 2)) + W M (t - 7) + smallSigma0 (W M (t - 15)) + W M (t - 16) := by
  conv_lhs => rw [W]
  rw [if_neg (by omega)]

theorem W_first (M : Nat → Word) (t : Nat) (h : t < 16) : W M t = M t := by
  rw [W, if_pos h]

theorem shift_loop (b0 b1 b2 b3 b4 b5 b6 b7 a0 a1 a2 a3 a4 a5 a6 a7 : BitVec 64) :
    loop (fun j a => do
      let x ← rd [b0, b1, b2, b3, b4, b5, b6, b7] j
      wr a ((j + 1) % 8) x) 0 8 [a0, a1, a2, a3, a4, a5, a6, a7] = .ok [b7, b0, b1, b2, b3, b4, b5, b6] := rfl

/-- The part of `shaRound` before the schedule. -/
theorem shaRound_a (i : Nat) (hi : i < 80) (v : Vars) (w : List (BitVec 64)) (wi : BitVec 64) (hw : rd w (i % 16) = .ok wi) :
    shaRound i (vl v) w = (do
      let w ← if i % 16 = 15 then
          loop (fun j w => do
            let wj ← rd w j
            let w9 ← rd w ((j + 9) % 16)
            let w1 ← rd w ((j + 1) % 16)
            let w14 ← rd w ((j + 14) % 16)
            wr w j (wj + (w9 + shasigma0 w1 + shasigma1 w14))) 0 16 w
        else .ok w
      .ok (vl (round wi (Spec.K i) v), w)) := by
  have hk := shaK_eq ⟨i, hi⟩
  simp only [] at hk
  unfold shaRound
  rw [hk, hw]
  generalize Spec.K i = k
  obtain ⟨a, b, c, d, e, f, g, h⟩ := v
  rw [show rd (vl ⟨a, b, c, d, e, f, g, h⟩) 0 = .ok a from rfl, ok_bind, show rd (vl ⟨a, b, c, d, e, f, g, h⟩) 1 = .ok b from rfl, ok_bind,
    show rd (vl ⟨a, b, c, d, e, f, g, h⟩) 2 = .ok c from rfl, ok_bind, show rd (vl ⟨a, b, c, d, e, f, g, h⟩) 4 = .ok e from rfl, ok_bind,
    show rd (vl ⟨a, b, c, d, e, f, g, h⟩) 5 = .ok f from rfl, ok_bind, show rd (vl ⟨a, b, c, d, e, f, g, h⟩) 6 = .ok g from rfl, ok_bind,
    show rd (vl ⟨a, b, c, d, e, f, g, h⟩) 7 = .ok h from rfl, ok_bind, ok_bind, ok_bind]
  simp only []
  rw [show ∀ x, wr (vl ⟨a, b, c, d, e, f, g, h⟩) 7 x = .ok [a, b, c, d, e, f, g, x] from fun _ => rfl, ok_bind,
    show ∀ x, rd [a, b, c, d, e, f, g, x] 3 = .ok d from fun _ => rfl, ok_bind, show ∀ x y, wr [a, b, c, d, e, f, g, x] 3 y = .ok [a, b, c, y, e, f, g, x] from fun _ _ => rfl, ok_bind]
  unfold vl
  rw [shift_loop, ok_bind]
  have e1 : h + shaSigma1 e + shaCh e f g + k + wi + shaSigma0 a + shaMaj a b c = (h + bigSigma1 e + Ch e f g + k + wi) + (bigSigma0 a + Maj a b c) := by
    rw [← BitVec.add_assoc]; rfl
  simp only [round]
  rw [e1]
  rfl

theorem length_wl (M : Nat → Word) (q : Nat) : (wl M q).length = 16 := by simp [wl]

theorem rd_wl (M : Nat → Word) (q j : Nat) (h : j < 16) : rd (wl M q) j = .ok (W M (16 * q + j)) := by
  rw [rd_ok (by rw [length_wl]; exact h)]
  simp [wl]

theorem add_four (a b x y : BitVec 64) : a + (b + x + y) = y + b + x + a := by
  rw [BitVec.add_comm a, BitVec.add_comm y b, BitVec.add_assoc b, BitVec.add_comm x y, ← BitVec.add_assoc]

/-- The body of the schedule loop, as in `shaRound`. -/
abbrev schedStep (j : Nat) (w : List (BitVec 64)) : C (List (BitVec 64)) := do
  let wj ← rd w j
  let w9 ← rd w ((j + 9) % 16)
  let w1 ← rd w ((j + 1) % 16)
  let w14 ← rd w ((j + 14) % 16)
  wr w j (wj + (w9 + shasigma0 w1 + shasigma1 w14))

theorem schedStep_ok (M : Nat → Word) (q j : Nat) (hj : j < 16) (w : List (BitVec 64)) (hl : w.length = 16)
    (hw : ∀ k < 16, w[k]? = some (if k < j then W M (16 * q + 16 + k) else W M (16 * q + k))) :
    schedStep j w = .ok (w.set j (W M (16 * q + 16 + j))) := by
  have r0 : rd w j = .ok (W M (16 * q + 16 + j - 16)) := by
    rw [rd_eq_ok_iff, hw j (by omega), if_neg (by omega), show 16 * q + 16 + j - 16 = 16 * q + j by omega]
  have r9 : rd w ((j + 9) % 16) = .ok (W M (16 * q + 16 + j - 7)) := by
    rw [rd_eq_ok_iff, hw _ (by omega)]
    by_cases h : (j + 9) % 16 < j
    · rw [if_pos h, show 16 * q + 16 + (j + 9) % 16 = 16 * q + 16 + j - 7 by omega]
    · rw [if_neg h, show 16 * q + (j + 9) % 16 = 16 * q + 16 + j - 7 by omega]
  have r1 : rd w ((j + 1) % 16) = .ok (W M (16 * q + 16 + j - 15)) := by
    rw [rd_eq_ok_iff, hw _ (by omega)]
    by_cases h : (j + 1) % 16 < j
    · rw [if_pos h, show 16 * q + 16 + (j + 1) % 16 = 16 * q + 16 + j - 15 by omega]
    · rw [if_neg h, show 16 * q + (j + 1) % 16 = 16 * q + 16 + j - 15 by omega]
  have r14 : rd w ((j + 14) % 16) = .ok (W M (16 * q + 16 + j - 2)) := by
    rw [rd_eq_ok_iff, hw _ (by omega)]
    by_cases h : (j + 14) % 16 < j
    · rw [if_pos h, show 16 * q + 16 + (j + 14) % 16 = 16 * q + 16 + j - 2 by omega]
    · rw [if_neg h, show 16 * q + (j + 14) % 16 = 16 * q + 16 + j - 2 by omega]
  have hW := W_step M (16 * q + 16 + j) (by omega)
  unfold schedStep
  rw [r0, ok_bind, r9, ok_bind, r1, ok_bind, r14, ok_bind, wr_ok (by omega), hW, add_four]
  rfl

theorem schedule_aux (w w' : List (BitVec 64)) (v : Nat → BitVec 64) (hl : w.length = 16)
    (h' : ∀ k < 16, rd w' k = .ok (v (16 + k))) (hl' : w'.length = 16)
    (hs : ∀ j < 16, ∀ u : List (BitVec 64), u.length = 16 → (∀ k < 16, u[k]? = some (if k < j then v (16 + k) else v k)) →
      schedStep j u = .ok (u.set j (v (16 + j))))
    (h : ∀ k < 16, rd w k = .ok (v k)) : loop schedStep 0 16 w = .ok w' := by
  obtain ⟨u, e, hu, hw⟩ := loop_inv (fun j (u : List (BitVec 64)) => u.length = 16 ∧ ∀ k < 16, u[k]? = some (if k < j then v (16 + k) else v k))
    schedStep 0 16 w
    ⟨hl, by
      intro k hk
      rw [if_neg (by omega)]
      have := h k hk
      rwa [rd_eq_ok_iff] at this⟩
    (by
      rintro j u - hj ⟨hl, hw⟩
      refine ⟨u.set j (v (16 + j)), hs j (by omega) u hl hw, by rw [List.length_set]; exact hl, ?_⟩
      intro k hk
      rw [List.getElem?_set]
      by_cases h : j = k
      · subst h; rw [if_pos rfl, if_pos (by omega), if_pos (by omega)]
      · rw [if_neg h, hw k hk]
        by_cases h' : k < j
        · rw [if_pos h', if_pos (by omega)]
        · rw [if_neg h', if_neg (by omega)])
  rw [e]
  congr 1
  apply List.ext_getElem?
  intro k
  by_cases hk : k < 16
  · have := h' k hk
    rw [rd_eq_ok_iff] at this
    rw [hw k hk, if_pos (by omega), this]
  · rw [List.getElem?_eq_none (by omega), List.getElem?_eq_none (by omega)]

theorem schedule_ok (M : Nat → Word) (q : Nat) : loop schedStep 0 16 (wl M q) = .ok (wl M (q + 1)) := by
  refine schedule_aux _ _ (fun k => W M (16 * q + k)) (length_wl M q) ?_ (length_wl M (q + 1)) ?_ (rd_wl M q)
  · intro k hk
    rw [rd_wl M (q + 1) k hk, show 16 * (q + 1) + k = 16 * q + (16 + k) by omega]
  · intro j hj u hu h
    rw [show 16 * q + (16 + j) = 16 * q + 16 + j by omega]
    refine schedStep_ok M q j hj u hu ?_
    intro k hk
    rw [h k hk, show 16 * q + (16 + k) = 16 * q + 16 + k by omega]

theorem shaRounds_ok (M : Nat → Word) (v : Vars) :
    ∃ w, loop (fun i (s : List (BitVec 64) × List (BitVec 64)) => shaRound i s.1 s.2) 0 80 (vl v, wl M 0) = .ok (vl (rounds M 80 v), w) := by
  obtain ⟨s, e, h1, -⟩ := loop_inv (fun i (s : List (BitVec 64) × List (BitVec 64)) => s.1 = vl (rounds M i v) ∧ s.2 = wl M (i / 16))
    (fun i (s : List (BitVec 64) × List (BitVec 64)) => shaRound i s.1 s.2) 0 80 (vl v, wl M 0) ⟨rfl, rfl⟩
    (by
      rintro i ⟨a, w⟩ - hi ⟨rfl, rfl⟩
      simp only []
      rw [shaRound_a i (by omega) _ _ _ (rd_wl M (i / 16) (i % 16) (by omega)), show 16 * (i / 16) + i % 16 = i by omega]
      by_cases h : i % 16 = 15
      · rw [if_pos h, schedule_ok, ok_bind]
        exact ⟨_, rfl, rfl, by simp only []; congr 1; omega⟩
      · rw [if_neg h, ok_bind]
        exact ⟨_, rfl, rfl, by simp only []; congr 1; omega⟩)
  refine ⟨s.2, ?_⟩
  rw [e, ← h1]

theorem shaBlock_ok (H : Vars) {m : Bytes} {o : Nat} (h : o + 128 ≤ m.length) :
    shaBlock (vl H) m o = .ok (vl (compress H ((m.drop o).take 128))) := by
  unfold shaBlock
  have hM : ∀ i < 16, ((m.drop (o + 8 * i)).take 8) = ((((m.drop o).take 128).drop (8 * i)).take 8) := by
    intro i hi
    rw [List.drop_take, List.take_take, List.drop_drop, Nat.min_eq_left (by omega)]
  rw [fill_ok 16 0 _ (fun i => BitVec.ofNat 64 (beVal ((m.drop (o + 8 * i)).take 8))) (by
    intro k s hk hs
    rw [dl64_ok (by omega), ok_bind, wr_ok (by omega)]), ok_bind]
  have hw : (List.range 16).map (fun i => BitVec.ofNat 64 (beVal ((m.drop (o + 8 * i)).take 8))) =
      wl (fun i => BitVec.ofNat 64 (beVal ((((m.drop o).take 128).drop (8 * i)).take 8))) 0 := by
    unfold wl
    apply List.map_congr_left
    intro i hi
    have hi' : i < 16 := by simpa using hi
    rw [W_first _ _ (by omega), hM i hi']
    simp only [Nat.mul_zero, Nat.zero_add]
  rw [hw]
  obtain ⟨w, e⟩ := shaRounds_ok (fun i => BitVec.ofNat 64 (beVal ((((m.drop o).take 128).drop (8 * i)).take 8))) H
  rw [e, ok_bind]
  clear e
  simp only []
  unfold compress
  simp only []
  generalize rounds _ 80 H = v
  obtain ⟨a, b, c, d, e, f, g, h⟩ := v
  obtain ⟨a', b', c', d', e', f', g', h'⟩ := H
  simp only [BitVec.add_comm a' a, BitVec.add_comm b' b, BitVec.add_comm c' c, BitVec.add_comm d' d, BitVec.add_comm e' e, BitVec.add_comm f' f, BitVec.add_comm g' g, BitVec.add_comm h' h]
  rfl

theorem length_bytes (v : Vars) : v.bytes.length = 64 := by
  simp [Vars.bytes, length_beBytes]

theorem loadVars_ok (v : Vars) : loop (fun i z => do
    let x ← dl64 v.bytes (8 * i)
    wr z i x) 0 8 (List.replicate 8 0) = .ok (vl v) := by
  rw [fill_ok 8 0 _ (fun i => (vl v).getD i 0) (by
    intro k s hk hs
    rw [dl64_ok (by rw [length_bytes]; omega), ok_bind, wr_ok (by omega)]
    congr 2
    have : ∀ w : BitVec 64, BitVec.ofNat 64 (beVal (beBytes 8 w.toNat)) = w := by
      intro w
      rw [beVal_beBytes, show (256 : Nat) ^ 8 = 2 ^ 64 from rfl, Nat.mod_eq_of_lt w.isLt]
      simp
    obtain ⟨a, b, c, d, e, f, g, h⟩ := v
    have l8 : ∀ w : BitVec 64, (beBytes 8 w.toNat).length = 8 := fun w => length_beBytes _ _
    rcases (by omega : k = 0 ∨ k = 1 ∨ k = 2 ∨ k = 3 ∨ k = 4 ∨ k = 5 ∨ k = 6 ∨ k = 7) with rfl | rfl | rfl | rfl | rfl | rfl | rfl | rfl
    · exact this a
    · exact this b
    · exact this c
    · exact this d
    · exact this e
    · exact this f
    · exact this g
    · exact this h)]
  rfl

theorem storeVars_ok (v : Vars) {x : Bytes} (hx : x.length = 64) : loop (fun i x => do
    let w ← rd (vl v) i
    ts64 x (8 * i) w) 0 8 x = .ok v.bytes := by
  obtain ⟨r, e, h⟩ := loop_inv (fun i (r : Bytes) => r = ((vl v).take i).flatMap (fun w => beBytes 8 w.toNat) ++ x.drop (8 * i))
    (fun i x => do
      let w ← rd (vl v) i
      ts64 x (8 * i) w) 0 8 x (by simp)
    (by
      rintro i r - hi rfl
      have hl : (vl v).length = 8 := rfl
      have lf : ∀ l : List (BitVec 64), (l.flatMap (fun w => beBytes 8 w.toNat)).length = 8 * l.length := by
        intro l
        induction l with
        | nil => rfl
        | cons a l ih => rw [List.flatMap_cons, List.length_append, ih, length_beBytes, List.length_cons]; omega
      have lt : ((vl v).take i).length = i := by rw [List.length_take]; omega
      refine ⟨_, ?_, rfl⟩
      rw [rd_ok (by omega), ok_bind, ts64_ok (by rw [List.length_append, lf, lt, List.length_drop]; omega)]
      congr 1
      unfold splice
      rw [length_beBytes, List.take_append_of_le_length (by rw [lf, lt]), List.take_of_length_le (by rw [lf, lt]), List.drop_append, lf, lt,
        List.drop_of_length_le (by rw [lf, lt]; omega), List.nil_append, List.drop_drop, List.take_succ_eq_append_getElem (by omega), List.flatMap_append]
      simp only [List.flatMap_cons, List.flatMap_nil, List.append_nil]
      congr 2
      omega)
  rw [e, h]
  congr 1
  rw [List.drop_of_length_le (by omega), List.append_nil]
  rfl

theorem hashblocks_ok (H : Vars) {m : Bytes} {n : Nat} (h : n ≤ m.length) : hashblocks H.bytes m n = .ok (compressAll H m (n / 128)).bytes := by
  unfold hashblocks
  rw [loadVars_ok, ok_bind]
  obtain ⟨z, e, hz⟩ := loop_inv (fun k (z : List (BitVec 64)) => z = vl (compressAll H m k)) (fun k z => shaBlock z m (128 * k)) 0 (n / 128) (vl H) rfl
    (by
      rintro k z - hk rfl
      exact ⟨_, shaBlock_ok _ (by omega), rfl⟩)
  rw [e, ok_bind, hz, Nat.zero_add]
  exact storeVars_ok _ (length_bytes H)

/-! ### Padding -/

theorem compressAll_congr (H : Vars) (m m' : Bytes) (n : Nat) (h : m.take (128 * n) = m'.take (128 * n)) : compressAll H m n = compressAll H m' n := by
  induction n with
  | zero => rfl
  | succ n ih =>
    have h1 : m.take (128 * n) = m'.take (128 * n) := by
      have := congrArg (List.take (128 * n)) h
      rwa [List.take_take, List.take_take, Nat.min_eq_left (by omega)] at this
    have h2 : (m.drop (128 * n)).take 128 = (m'.drop (128 * n)).take 128 := by
      have := congrArg (List.drop (128 * n)) h
      rw [List.drop_take, List.drop_take, show 128 * (n + 1) - 128 * n = 128 by omega] at this
      exact this
    unfold compressAll
    rw [ih h1, h2]

theorem compressAll_add (H : Vars) (m : Bytes) (a b : Nat) : compressAll H m (a + b) = compressAll (compressAll H m a) (m.drop (128 * a)) b := by
  induction b with
  | zero => rfl
  | succ b ih =>
    rw [← Nat.add_assoc]
    unfold compressAll
    rw [ih, List.drop_drop]
    congr 4
    omega

theorem beBytes_split (v : Nat) (hv : v < 2 ^ 67) : beBytes 16 v = List.replicate 7 0 ++ [BitVec.ofNat 8 (v / 2 ^ 64)] ++ beBytes 8 (v % 2 ^ 64) := by
  unfold beBytes leBytes
  have z : ∀ k, 9 ≤ k → BitVec.ofNat 8 (v / 256 ^ k) = 0 := by
    intro k hk
    have : v / 256 ^ k = 0 := by
      apply Nat.div_eq_of_lt
      have : 256 ^ 9 ≤ 256 ^ k := Nat.pow_le_pow_right (by omega) hk
      norm_num at *
      omega
    rw [this]; rfl
  have l : ∀ k, k < 8 → BitVec.ofNat 8 (v % 2 ^ 64 / 256 ^ k) = BitVec.ofNat 8 (v / 256 ^ k) := by
    intro k hk
    apply BitVec.eq_of_toNat_eq
    rw [BitVec.toNat_ofNat, BitVec.toNat_ofNat]
    rcases (by omega : k = 0 ∨ k = 1 ∨ k = 2 ∨ k = 3 ∨ k = 4 ∨ k = 5 ∨ k = 6 ∨ k = 7) with rfl | rfl | rfl | rfl | rfl | rfl | rfl | rfl <;> norm_num <;> omega
  have e : (List.range 16).map (fun i => BitVec.ofNat 8 (v / 256 ^ i)) = (List.range 8).map (fun i => BitVec.ofNat 8 (v % 2 ^ 64 / 256 ^ i)) ++ [BitVec.ofNat 8 (v / 2 ^ 64)] ++ List.replicate 7 0 := by
    simp only [List.range_succ, List.range_zero, List.map_append, List.map_cons, List.map_nil, List.nil_append, List.cons_append, List.replicate]
    rw [z 9 (by omega), z 10 (by omega), z 11 (by omega), z 12 (by omega), z 13 (by omega), z 14 (by omega), z 15 (by omega), l 0 (by omega), l 1 (by omega), l 2 (by omega), l 3 (by omega),
      l 4 (by omega), l 5 (by omega), l 6 (by omega), l 7 (by omega), show (256 : Nat) ^ 8 = 2 ^ 64 from rfl]
  rw [e]
  simp only [List.reverse_append, List.reverse_replicate, List.reverse_singleton, List.append_assoc]

theorem cryptoHash_ok {m : Bytes} {n : Nat} (hn : n ≤ m.length) (hn64 : n < 2 ^ 64) : cryptoHash m n = .ok (sha512 (m.take n)) := by
  unfold cryptoHash
  rw [shaIv_eq, hashblocks_ok initVars hn, ok_bind]
  simp only []
  obtain ⟨t, ht⟩ : ∃ t, t = (m.take n).drop (n - n % 128) := ⟨_, rfl⟩
  have htl : t.length = n % 128 := by rw [ht, List.length_drop, List.length_take]; omega
  have cp := copy_ok (dst := List.replicate 256 (0 : Byte)) (src := m) (d := 0) (s := n - n % 128) (n := n % 128) (by omega) (by rw [List.length_replicate]; omega)
  unfold copy at cp
  simp only [Nat.zero_add] at cp
  rw [cp, ok_bind]
  have hst : slice m (n - n % 128) (n % 128) = t := by
    rw [ht, List.drop_take]
    unfold slice
    rw [show n - (n - n % 128) = n % 128 by omega]
  rw [hst]
  have e1 : splice (List.replicate 256 (0 : Byte)) 0 t = t ++ List.replicate (256 - n % 128) 0 := by
    unfold splice
    rw [htl, List.take_zero, List.nil_append, List.drop_replicate, Nat.zero_add]
  rw [e1, wr_ok (by rw [List.length_append, htl, List.length_replicate]; omega), ok_bind]
  have e2 : (t ++ List.replicate (256 - n % 128) (0 : Byte)).set (n % 128) 128 = t ++ [128] ++ List.replicate (255 - n % 128) 0 := by
    rw [List.set_append_right _ _ (by omega), htl, Nat.sub_self, show 256 - n % 128 = (255 - n % 128) + 1 by omega, List.replicate_succ, List.set_cons_zero]
    simp
  rw [e2]
  -- the end of the padded message
  have main : ∀ e, (e = 128 ∨ e = 256) → (239 - n % 128) % 128 + (n % 128 + 17) = e →
      (do
        let x ← wr (t ++ [128] ++ List.replicate (255 - n % 128) 0) (e - 9) ((BitVec.ofNat 64 n >>> 61).setWidth 8)
        let x ← ts64 x (e - 8) (BitVec.ofNat 64 n <<< 3)
        hashblocks (compressAll initVars m (n / 128)).bytes x e) = .ok (sha512 (m.take n)) := by
    intro e he hz
    have hL : (t ++ [128] ++ List.replicate (255 - n % 128) (0 : Byte)).length = 256 := by
      rw [List.length_append, List.length_append, htl, List.length_replicate, List.length_singleton]; omega
    rw [wr_ok (by rw [hL]; omega), ok_bind, ts64_ok (by rw [List.length_set, hL]; omega), ok_bind]
    obtain ⟨x, hx⟩ : ∃ x, x = splice ((t ++ [128] ++ List.replicate (255 - n % 128) 0).set (e - 9) ((BitVec.ofNat 64 n >>> 61).setWidth 8)) (e - 8) (beBytes 8 (BitVec.ofNat 64 n <<< 3).toNat) := ⟨_, rfl⟩
    have hxl : x.length = 256 := by
      rw [hx, length_splice (by rw [length_beBytes, List.length_set, hL]; omega), List.length_set, hL]
    rw [← hx, hashblocks_ok _ (by omega)]
    refine congrArg (fun v => Except.ok (Vars.bytes v)) (?_ : _ = compressAll initVars (pad (m.take n)) ((pad (m.take n)).length / 128))
    have hpl : (pad (m.take n)).length = 128 * (n / 128) + e := by
      unfold pad
      rw [List.length_append, List.length_append, List.length_append, List.length_replicate, length_beBytes, List.length_singleton, List.length_take, Nat.min_eq_left hn]
      omega
    have hdiv : (pad (m.take n)).length / 128 = n / 128 + e / 128 := by rw [hpl]; omega
    have hpre : (pad (m.take n)).take (128 * (n / 128)) = m.take (128 * (n / 128)) := by
      unfold pad
      rw [List.append_assoc, List.append_assoc, List.take_append_of_le_length (by rw [List.length_take]; omega), List.take_take, Nat.min_eq_left (by omega)]
    have hsuf : (pad (m.take n)).drop (128 * (n / 128)) = x.take e := by
      unfold pad
      rw [List.append_assoc, List.append_assoc, List.drop_append_of_le_length (by rw [List.length_take]; omega), show 128 * (n / 128) = n - n % 128 by omega, ← ht]
      have hn' : (m.take n).length = n := by rw [List.length_take]; omega
      rw [hn', beBytes_split (8 * n) (by omega), hx]
      have s1 : (BitVec.ofNat 64 n <<< 3).toNat = 8 * n % 2 ^ 64 := by
        rw [BitVec.toNat_shiftLeft, BitVec.toNat_ofNat, Nat.shiftLeft_eq]; omega
      have s2 : (BitVec.ofNat 64 n >>> 61).setWidth 8 = BitVec.ofNat 8 (8 * n / 2 ^ 64) := by
        apply BitVec.eq_of_toNat_eq
        rw [BitVec.toNat_setWidth, BitVec.toNat_ushiftRight, BitVec.toNat_ofNat, BitVec.toNat_ofNat, Nat.shiftRight_eq_div_pow]; omega
      rw [s1, s2]
      have s3 : t ++ [128] ++ List.replicate (255 - n % 128) (0 : Byte) = (t ++ [128] ++ List.replicate (239 - n % 128 - (256 - e)) 0 ++ List.replicate 7 0) ++ (0 :: List.replicate (8 + (256 - e)) 0) := by
        rw [← List.replicate_succ, List.append_assoc _ (List.replicate 7 0), List.replicate_append_replicate, List.append_assoc _ (List.replicate _ 0), List.replicate_append_replicate]
        congr 2
        omega
      have s4 : (t ++ [128] ++ List.replicate (239 - n % 128 - (256 - e)) (0 : Byte) ++ List.replicate 7 0).length = e - 9 := by
        rw [List.length_append, List.length_append, List.length_append, htl, List.length_replicate, List.length_replicate, List.length_singleton]; omega
      rw [s3, List.set_append_right _ _ (by omega), s4, Nat.sub_self, List.set_cons_zero]
      unfold splice
      rw [List.take_append_of_le_length (by
        rw [List.length_append, List.length_take, length_beBytes, List.length_append, s4, List.length_cons, List.length_replicate]; omega)]
      have s5 : (t ++ [128] ++ List.replicate (239 - n % 128 - (256 - e)) (0 : Byte) ++ List.replicate 7 0 ++ BitVec.ofNat 8 (8 * n / 2 ^ 64) :: List.replicate (8 + (256 - e)) 0).take (e - 8) =
          t ++ [128] ++ List.replicate (239 - n % 128 - (256 - e)) 0 ++ List.replicate 7 0 ++ [BitVec.ofNat 8 (8 * n / 2 ^ 64)] := by
        rw [List.take_append, s4, List.take_of_length_le (by rw [s4]; omega), show e - 8 - (e - 9) = 1 by omega]
        simp
      rw [s5, List.take_of_length_le (by rw [List.length_append, List.length_append, s4, length_beBytes, List.length_singleton]; omega)]
      rw [show (239 - n % 128) % 128 = 239 - n % 128 - (256 - e) by omega]
      simp only [List.append_assoc]
    rw [hdiv, compressAll_add, compressAll_congr _ _ _ _ hpre, hsuf]
    apply compressAll_congr
    rw [List.take_take, Nat.min_eq_left (by omega)]
  by_cases h : n % 128 < 112
  · rw [if_pos h]
    exact main 128 (Or.inl rfl) (by omega)
  · rw [if_neg h]
    exact main 256 (Or.inr rfl) (by omega)

theorem length_sha512 (m : Bytes) : (sha512 m).length = 64 := length_bytes _

end Verif.Ed25519
