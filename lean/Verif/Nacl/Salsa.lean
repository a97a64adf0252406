import Verif.Nacl.Model
import Verif.Nacl.Spec
import Verif.Ed25519.Pack

/-! Supporting lemmas: the Salsa20 core of the model computes the functions of the specification. -/

namespace Verif.Nacl
open Verif Verif.Ed25519 Verif.Nacl.Spec
open Verif.Ed25519.Spec (leVal leBytes)

variable {w : Nat}

/-- The low 32 bits. -/
abbrev lo (x : BitVec w) : Word := x.setWidth 32

theorem L32_lo (hw : 32 ≤ w) (x : BitVec w) (c : Nat) (h0 : 0 < c) (h1 : c < 32) : lo (L32 w x c) = (lo x).rotateLeft c := by
  unfold L32 lo
  apply BitVec.eq_of_getLsbD_eq
  intro i hi
  rw [BitVec.getLsbD_setWidth, BitVec.getLsbD_or, BitVec.getLsbD_shiftLeft, BitVec.getLsbD_ushiftRight, BitVec.getLsbD_and, BitVec.getLsbD_ofNat,
    show (0xffffffff : Nat) = 2 ^ 32 - 1 from rfl, Nat.testBit_two_pow_sub_one, BitVec.getLsbD_rotateLeft, Nat.mod_eq_of_lt h1]
  by_cases h : i < c
  · simp [h, hi, show i < w by omega, show 32 - c + i < 32 by omega, show 32 - c + i < w by omega]
  · simp [h, hi, show i < w by omega, show ¬ (32 - c + i < 32) by omega, show i - c < 32 by omega]

theorem lo_add (hw : 32 ≤ w) (x y : BitVec w) : lo (x + y) = lo x + lo y := BitVec.setWidth_add x y hw
theorem lo_xor (x y : BitVec w) : lo (x ^^^ y) = lo x ^^^ lo y := BitVec.setWidth_xor

/-- The transposition of a four by four matrix. -/
def tr {α : Type} : List α → List α
  | [a0, a1, a2, a3, a4, a5, a6, a7, a8, a9, a10, a11, a12, a13, a14, a15] =>
    [a0, a4, a8, a12, a1, a5, a9, a13, a2, a6, a10, a14, a3, a7, a11, a15]
  | l => l

theorem list16 {α : Type} {l : List α} (h : l.length = 16) : ∃ a0 a1 a2 a3 a4 a5 a6 a7 a8 a9 a10 a11 a12 a13 a14 a15,
    l = [a0, a1, a2, a3, a4, a5, a6, a7, a8, a9, a10, a11, a12, a13, a14, a15] := by
  match l, h with
  | [a0, a1, a2, a3, a4, a5, a6, a7, a8, a9, a10, a11, a12, a13, a14, a15], _ => exact ⟨_, _, _, _, _, _, _, _, _, _, _, _, _, _, _, _, rfl⟩

/-- The quarter of a round on words of width w. -/
def quarterW (w : Nat) (t0 t1 t2 t3 : BitVec w) : BitVec w × BitVec w × BitVec w × BitVec w :=
  let t1 := t1 ^^^ L32 w (t0 + t3) 7
  let t2 := t2 ^^^ L32 w (t1 + t0) 9
  let t3 := t3 ^^^ L32 w (t2 + t1) 13
  let t0 := t0 ^^^ L32 w (t3 + t2) 18
  (t0, t1, t2, t3)

theorem quarterW_lo (hw : 32 ≤ w) (t0 t1 t2 t3 : BitVec w) :
    (let q := quarterW w t0 t1 t2 t3; (lo q.1, lo q.2.1, lo q.2.2.1, lo q.2.2.2)) = quarter (lo t0) (lo t1) (lo t2) (lo t3) := by
  simp only [quarterW, quarter, lo_xor, L32_lo hw _ 7 (by omega) (by omega), L32_lo hw _ 9 (by omega) (by omega), L32_lo hw _ 13 (by omega) (by omega),
    L32_lo hw _ 18 (by omega) (by omega), lo_add hw]

theorem coreQuarter0 {x0 x1 x2 x3 x4 x5 x6 x7 x8 x9 x10 x11 x12 x13 x14 x15 v0 v1 v2 v3 v4 v5 v6 v7 v8 v9 v10 v11 v12 v13 v14 v15 : BitVec w} :
    coreQuarter w [x0, x1, x2, x3, x4, x5, x6, x7, x8, x9, x10, x11, x12, x13, x14, x15] 0 [v0, v1, v2, v3, v4, v5, v6, v7, v8, v9, v10, v11, v12, v13, v14, v15] =
    (let q := quarterW w x0 x4 x8 x12
     .ok [q.1, q.2.1, q.2.2.1, q.2.2.2, v4, v5, v6, v7, v8, v9, v10, v11, v12, v13, v14, v15]) := by
  rfl

theorem coreQuarter1 {x0 x1 x2 x3 x4 x5 x6 x7 x8 x9 x10 x11 x12 x13 x14 x15 v0 v1 v2 v3 v4 v5 v6 v7 v8 v9 v10 v11 v12 v13 v14 v15 : BitVec w} :
    coreQuarter w [x0, x1, x2, x3, x4, x5, x6, x7, x8, x9, x10, x11, x12, x13, x14, x15] 1 [v0, v1, v2, v3, v4, v5, v6, v7, v8, v9, v10, v11, v12, v13, v14, v15] =
    (let q := quarterW w x5 x9 x13 x1
     .ok [v0, v1, v2, v3, q.2.2.2, q.1, q.2.1, q.2.2.1, v8, v9, v10, v11, v12, v13, v14, v15]) := by
  rfl

theorem coreQuarter2 {x0 x1 x2 x3 x4 x5 x6 x7 x8 x9 x10 x11 x12 x13 x14 x15 v0 v1 v2 v3 v4 v5 v6 v7 v8 v9 v10 v11 v12 v13 v14 v15 : BitVec w} :
    coreQuarter w [x0, x1, x2, x3, x4, x5, x6, x7, x8, x9, x10, x11, x12, x13, x14, x15] 2 [v0, v1, v2, v3, v4, v5, v6, v7, v8, v9, v10, v11, v12, v13, v14, v15] =
    (let q := quarterW w x10 x14 x2 x6
     .ok [v0, v1, v2, v3, v4, v5, v6, v7, q.2.2.1, q.2.2.2, q.1, q.2.1, v12, v13, v14, v15]) := by
  rfl

theorem coreQuarter3 {x0 x1 x2 x3 x4 x5 x6 x7 x8 x9 x10 x11 x12 x13 x14 x15 v0 v1 v2 v3 v4 v5 v6 v7 v8 v9 v10 v11 v12 v13 v14 v15 : BitVec w} :
    coreQuarter w [x0, x1, x2, x3, x4, x5, x6, x7, x8, x9, x10, x11, x12, x13, x14, x15] 3 [v0, v1, v2, v3, v4, v5, v6, v7, v8, v9, v10, v11, v12, v13, v14, v15] =
    (let q := quarterW w x15 x3 x7 x11
     .ok [v0, v1, v2, v3, v4, v5, v6, v7, v8, v9, v10, v11, q.2.1, q.2.2.1, q.2.2.2, q.1]) := by
  rfl

theorem coreRound_ok {x0 x1 x2 x3 x4 x5 x6 x7 x8 x9 x10 x11 x12 x13 x14 x15 : BitVec w} :
    coreRound w [x0, x1, x2, x3, x4, x5, x6, x7, x8, x9, x10, x11, x12, x13, x14, x15] =
    (let a := quarterW w x0 x4 x8 x12
     let b := quarterW w x5 x9 x13 x1
     let c := quarterW w x10 x14 x2 x6
     let d := quarterW w x15 x3 x7 x11
     .ok [a.1, a.2.1, a.2.2.1, a.2.2.2, b.2.2.2, b.1, b.2.1, b.2.2.1, c.2.2.1, c.2.2.2, c.1, c.2.1, d.2.1, d.2.2.1, d.2.2.2, d.1]) := by
  unfold coreRound
  rw [show List.replicate 16 (0 : BitVec w) = [0, 0, 0, 0, 0, 0, 0, 0, 0, 0, 0, 0, 0, 0, 0, 0] from rfl, loop_succ, coreQuarter0, ok_bind, loop_succ,
    coreQuarter1, ok_bind, loop_succ, coreQuarter2, ok_bind, loop_succ, coreQuarter3, ok_bind, loop_zero, ok_bind]
  generalize quarterW w x0 x4 x8 x12 = a
  generalize quarterW w x5 x9 x13 x1 = b
  generalize quarterW w x10 x14 x2 x6 = c
  generalize quarterW w x15 x3 x7 x11 = d
  rfl

theorem coreRound_lo (hw : 32 ≤ w) {x : List (BitVec w)} (h : x.length = 16) :
    ∃ y, coreRound w x = .ok y ∧ y.length = 16 ∧ y.map lo = tr (columnround (x.map lo)) := by
  obtain ⟨x0, x1, x2, x3, x4, x5, x6, x7, x8, x9, x10, x11, x12, x13, x14, x15, rfl⟩ := list16 h
  refine ⟨_, coreRound_ok, rfl, ?_⟩
  have h1 := quarterW_lo hw x0 x4 x8 x12
  have h2 := quarterW_lo hw x5 x9 x13 x1
  have h3 := quarterW_lo hw x10 x14 x2 x6
  have h4 := quarterW_lo hw x15 x3 x7 x11
  simp only [List.map, columnround, ← h1, ← h2, ← h3, ← h4, tr]

theorem tr_columnround_tr {l : List Word} (h : l.length = 16) : tr (columnround (tr l)) = rowround l := by
  obtain ⟨x0, x1, x2, x3, x4, x5, x6, x7, x8, x9, x10, x11, x12, x13, x14, x15, rfl⟩ := list16 h
  rfl

theorem length_columnround {l : List Word} (h : l.length = 16) : (columnround l).length = 16 := by
  obtain ⟨x0, x1, x2, x3, x4, x5, x6, x7, x8, x9, x10, x11, x12, x13, x14, x15, rfl⟩ := list16 h
  rfl

theorem length_rowround {l : List Word} (h : l.length = 16) : (rowround l).length = 16 := by
  obtain ⟨x0, x1, x2, x3, x4, x5, x6, x7, x8, x9, x10, x11, x12, x13, x14, x15, rfl⟩ := list16 h
  rfl

theorem length_doublerounds {l : List Word} (h : l.length = 16) (n : Nat) : (doubleround^[n] l).length = 16 := by
  induction n generalizing l with
  | zero => exact h
  | succ n ih => rw [Function.iterate_succ_apply]; exact ih (length_rowround (length_columnround h))

/-- Two rounds of the code are one doubleround, so 2 n rounds are n doublerounds. -/
theorem rounds_lo (hw : 32 ≤ w) (n : Nat) : ∀ (i : Nat) {x : List (BitVec w)}, x.length = 16 →
    ∃ y, loop (fun _ x => coreRound w x) i (2 * n) x = .ok y ∧ y.length = 16 ∧ y.map lo = doubleround^[n] (x.map lo) := by
  induction n with
  | zero => intro i x h; exact ⟨x, rfl, h, rfl⟩
  | succ n ih =>
    intro i x h
    obtain ⟨y, e, hy, r⟩ := coreRound_lo hw h
    obtain ⟨z, e', hz, r'⟩ := coreRound_lo hw hy
    obtain ⟨v, e'', hv, r''⟩ := ih (i + 1 + 1) hz
    refine ⟨v, ?_, hv, ?_⟩
    · rw [show 2 * (n + 1) = 2 * n + 1 + 1 by omega, loop_succ, e, ok_bind, loop_succ, e', ok_bind, e'']
    · rw [r'', r', r, tr_columnround_tr (length_columnround (by simpa using h)), Function.iterate_succ_apply]
      rfl

/-! ### Bytes and words -/

/-- A loop that writes one element after the other from position `o` on. -/
theorem write_loop {α : Type} {out : List α} {o n : Nat} (v : Nat → α) (f : Nat → List α → C (List α))
    (hf : ∀ k s, k < n → s.length = out.length → f k s = .ok (s.set (o + k) (v k))) (h : o + n ≤ out.length) :
    loop f 0 n out = .ok (splice out o ((List.range n).map v)) := by
  obtain ⟨b, e, hb⟩ := loop_inv (fun k b => b = splice out o ((List.range k).map v)) f 0 n out (by simp)
    (by
      intro k b _ hk hb
      subst hb
      have hl : ((List.range k).map v).length = k := by simp
      refine ⟨_, hf k _ (by omega) (length_splice (by omega)), ?_⟩
      rw [List.range_succ, List.map_append, List.map_singleton, ← splice_snoc (by omega), hl])
  simp only [Nat.zero_add] at hb
  rw [e, hb]

/-- A loop that replaces one element of an array after the other. -/
theorem map_loop {α : Type} {x : List α} {n : Nat} (v : Nat → α) (f : Nat → List α → C (List α)) (hx : x.length = n)
    (hf : ∀ k s, k < n → s.length = n → s[k]? = x[k]? → f k s = .ok (s.set k (v k))) : loop f 0 n x = .ok ((List.range n).map v) := by
  obtain ⟨b, e, hb⟩ := loop_inv (fun k b => b = (List.range k).map v ++ x.drop k) f 0 n x (by simp)
    (by
      intro k b _ hk hb
      have hl : b.length = n := by rw [hb]; simp; omega
      refine ⟨_, hf k b (by omega) hl ?_, ?_⟩
      · rw [hb, List.getElem?_append_right (by simp)]
        simp
      · rw [hb, List.set_append_right _ _ (by simp), List.length_map, List.length_range, Nat.sub_self, List.drop_eq_getElem_cons (by omega),
          List.set_cons_zero, List.range_succ, List.map_append, List.map_singleton, List.append_assoc, List.singleton_append])
  rw [e, hb]
  simp [List.drop_of_length_le (show x.length ≤ n by omega)]

theorem or_byte (hw : 32 ≤ w) (n : Nat) (hn : n < 2 ^ 24) (b : Byte) :
    BitVec.ofNat w n <<< 8 ||| b.setWidth w = BitVec.ofNat w (256 * n + b.toNat) := by
  apply BitVec.eq_of_toNat_eq
  have hb := b.isLt
  have h1 : (2 : Nat) ^ 32 ≤ 2 ^ w := Nat.pow_le_pow_right (by omega) hw
  rw [BitVec.toNat_or, BitVec.toNat_shiftLeft, BitVec.toNat_ofNat, BitVec.toNat_setWidth, BitVec.toNat_ofNat, Nat.mod_eq_of_lt (a := n) (by omega),
    Nat.mod_eq_of_lt (a := b.toNat) (by omega), Nat.shiftLeft_eq, Nat.mod_eq_of_lt (by omega), Nat.mod_eq_of_lt (by omega), Nat.mul_comm n,
    ← Nat.two_pow_add_eq_or_of_lt (i := 8) (by omega)]

theorem ld32_ok (hw : 32 ≤ w) {x : Bytes} {o : Nat} (h : o + 4 ≤ x.length) : ld32 w x o = .ok (BitVec.ofNat w (leVal (slice x o 4))) := by
  unfold ld32
  rw [rd_ok (by omega), ok_bind, rd_ok (by omega), ok_bind, rd_ok (by omega), ok_bind, rd_ok (by omega), ok_bind]
  have e : slice x o 4 = [x[o], x[o + 1], x[o + 2], x[o + 3]] := by
    apply List.ext_getElem?
    intro i
    rw [getElem?_slice]
    match i with
    | 0 => simp
    | 1 => simp
    | 2 => simp
    | 3 => simp
    | i + 4 => simp
  have b3 := x[o + 3].isLt
  have b2 := x[o + 2].isLt
  have b1 := x[o + 1].isLt
  rw [e, show x[o + 3].setWidth w = BitVec.ofNat w (x[o + 3]).toNat by
    apply BitVec.eq_of_toNat_eq; rw [BitVec.toNat_setWidth, BitVec.toNat_ofNat]]
  rw [or_byte hw _ (by omega), or_byte hw _ (by omega), or_byte hw _ (by omega)]
  simp only [leVal]
  congr 2
  omega

theorem lo_ofNat (hw : 32 ≤ w) (n : Nat) : lo (BitVec.ofNat w n) = BitVec.ofNat 32 n := BitVec.setWidth_ofNat_of_le hw n

theorem st32_ok {x : Bytes} {o : Nat} {u : BitVec w} (h : o + 4 ≤ x.length) : st32 w x o u = .ok (splice x o (leBytes 4 (lo u).toNat)) := by
  unfold st32
  obtain ⟨s, e, hx, -⟩ := loop_inv (fun k (s : Bytes × BitVec w) => s.1 = splice x o (leBytes k (lo u).toNat) ∧ s.2.toNat = u.toNat / 256 ^ k)
    (fun k (s : Bytes × BitVec w) => do
      let x ← wr s.1 (o + k) (s.2.setWidth 8)
      .ok (x, s.2 >>> 8)) 0 4 (x, u)
    ⟨by simp [leBytes], by simp⟩
    (by
      rintro k s - hk ⟨hx, hu⟩
      have hl : (leBytes k (lo u).toNat).length = k := length_leBytes _ _
      refine ⟨_, by rw [wr_ok (by rw [hx, length_splice (by omega)]; omega), ok_bind], ?_, ?_⟩
      · simp only []
        rw [hx]
        have hv : leBytes (k + 1) (lo u).toNat = leBytes k (lo u).toNat ++ [s.2.setWidth 8] := by
          unfold leBytes
          rw [List.range_succ, List.map_append, List.map_singleton]
          congr 2
          apply BitVec.eq_of_toNat_eq
          rw [BitVec.toNat_setWidth, BitVec.toNat_ofNat, BitVec.toNat_setWidth, hu]
          have : k = 0 ∨ k = 1 ∨ k = 2 ∨ k = 3 := by omega
          rcases this with rfl | rfl | rfl | rfl <;> omega
        rw [hv, ← splice_snoc (by omega), hl]
      · simp only []
        rw [BitVec.toNat_ushiftRight, hu, Nat.shiftRight_eq_div_pow, Nat.div_div_eq_div_mul, show (2 : Nat) ^ 8 = 256 from rfl, ← pow_succ])
  rw [e, ok_bind]
  show Except.ok s.1 = _
  rw [hx]

/-- A string as a list of blocks of four bytes. -/
theorem chunks4 : ∀ (n : Nat) (x : Bytes), x.length = 4 * n → ∃ L : List Bytes, L.length = n ∧ (∀ c ∈ L, c.length = 4) ∧ x = L.flatten := by
  intro n
  induction n with
  | zero => intro x h; exact ⟨[], rfl, by simp, by simpa using h⟩
  | succ n ih =>
    intro x h
    obtain ⟨L, hl, hc, e⟩ := ih (x.drop 4) (by rw [List.length_drop]; omega)
    refine ⟨x.take 4 :: L, by simp [hl], ?_, ?_⟩
    · intro c hc'
      rcases List.mem_cons.mp hc' with rfl | h'
      · rw [List.length_take]; omega
      · exact hc c h'
    · rw [List.flatten_cons, ← e, List.take_append_drop]

theorem length_flatten4 : ∀ {L : List Bytes}, (∀ c ∈ L, c.length = 4) → L.flatten.length = 4 * L.length := by
  intro L
  induction L with
  | nil => intro _; rfl
  | cons a L ih =>
    intro h
    rw [List.flatten_cons, List.length_append, ih (fun c hc => h c (List.mem_cons_of_mem _ hc)), h a List.mem_cons_self, List.length_cons]
    omega

theorem splice_chunk : ∀ {L : List Bytes} {i : Nat} {b : Bytes}, (∀ c ∈ L, c.length = 4) → i < L.length → b.length = 4 →
    splice L.flatten (4 * i) b = (L.set i b).flatten := by
  intro L
  induction L with
  | nil => intro i b _ h; simp at h
  | cons a L ih =>
    intro i b h hi hb
    have ha := h a List.mem_cons_self
    have hL : ∀ c ∈ L, c.length = 4 := fun c hc => h c (List.mem_cons_of_mem _ hc)
    cases i with
    | zero =>
      unfold splice
      rw [hb, List.flatten_cons, List.set_cons_zero, List.flatten_cons, Nat.mul_zero, List.take_zero, List.nil_append, Nat.zero_add, List.drop_left' ha]
    | succ i =>
      rw [List.set_cons_succ, List.flatten_cons, List.flatten_cons, ← ih hL (by simpa using hi) hb]
      unfold splice
      rw [hb, List.take_append, List.take_of_length_le (by omega), List.drop_append, List.drop_of_length_le (by omega), List.nil_append, ha,
        show 4 * (i + 1) - 4 = 4 * i by omega, show 4 * (i + 1) + 4 - 4 = 4 * i + 4 by omega]
      simp only [List.append_assoc]

theorem unwords_eq (l : List Word) : unwords l = (l.map fun v => leBytes 4 v.toNat).flatten := by
  unfold unwords; rw [List.flatMap_def]

theorem length_unwords (l : List Word) : (unwords l).length = 4 * l.length := by
  rw [unwords_eq, length_flatten4, List.length_map]
  intro c hc
  obtain ⟨v, -, rfl⟩ := List.mem_map.mp hc
  exact length_leBytes _ _

/-- Storing n words one after the other. -/
theorem store_loop {n : Nat} (v : Nat → BitVec w) (f : Nat → Bytes → C Bytes) {out : Bytes} (hl : out.length = 4 * n)
    (hf : ∀ k s, k < n → s.length = out.length → f k s = st32 w s (4 * k) (v k)) :
    loop f 0 n out = .ok (unwords ((List.range n).map fun k => lo (v k))) := by
  obtain ⟨L, lL, hL, rfl⟩ := chunks4 n out hl
  obtain ⟨b, e, hb⟩ := loop_inv (fun k b => b = (((List.range k).map fun k => leBytes 4 (lo (v k)).toNat) ++ L.drop k).flatten) f 0 n L.flatten (by simp)
    (by
      intro k b _ hk hb
      have hk : k < n := by omega
      have hc : ∀ c ∈ ((List.range k).map fun k => leBytes 4 (lo (v k)).toNat) ++ L.drop k, c.length = 4 := by
        intro c hc
        rcases List.mem_append.mp hc with h | h
        · obtain ⟨j, -, rfl⟩ := List.mem_map.mp h
          exact length_leBytes _ _
        · exact hL c (List.mem_of_mem_drop h)
      have hl' : b.length = 4 * n := by rw [hb, length_flatten4 hc]; simp; omega
      refine ⟨_, by rw [hf k b hk (by rw [hl', hl]), st32_ok (by omega)], ?_⟩
      rw [hb, splice_chunk hc (by simp; omega) (length_leBytes _ _), List.set_append_right _ _ (by simp), List.length_map, List.length_range,
        Nat.sub_self, List.drop_eq_getElem_cons (by omega), List.set_cons_zero, List.range_succ, List.map_append, List.map_singleton, List.append_assoc,
        List.singleton_append])
  rw [e, hb, unwords_eq]
  simp [List.drop_of_length_le (show L.length ≤ n by omega), Function.comp_def]

/-! ### The core -/

/-- The word at position `o`. -/
abbrev wd (w : Nat) (x : Bytes) (o : Nat) : BitVec w := BitVec.ofNat w (leVal (slice x o 4))

/-- The sixteen words the core starts with. -/
abbrev start (w : Nat) (inp k c : Bytes) : List (BitVec w) :=
  [wd w c 0, wd w k 0, wd w k 4, wd w k 8, wd w k 12, wd w c 4, wd w inp 0, wd w inp 4, wd w inp 8, wd w inp 12, wd w c 8, wd w k 16, wd w k 20, wd w k 24, wd w k 28, wd w c 12]

theorem coreLoad_ok (hw : 32 ≤ w) {inp k c : Bytes} (hi : 16 ≤ inp.length) (hk : 32 ≤ k.length) (hc : 16 ≤ c.length) :
    coreLoad w inp k c = .ok (start w inp k c) := by
  have c0 := ld32_ok (w := w) hw (x := c) (o := 0) (by omega)
  have c1 := ld32_ok (w := w) hw (x := c) (o := 4) (by omega)
  have c2 := ld32_ok (w := w) hw (x := c) (o := 8) (by omega)
  have c3 := ld32_ok (w := w) hw (x := c) (o := 12) (by omega)
  have k0 := ld32_ok (w := w) hw (x := k) (o := 0) (by omega)
  have k1 := ld32_ok (w := w) hw (x := k) (o := 4) (by omega)
  have k2 := ld32_ok (w := w) hw (x := k) (o := 8) (by omega)
  have k3 := ld32_ok (w := w) hw (x := k) (o := 12) (by omega)
  have k4 := ld32_ok (w := w) hw (x := k) (o := 16) (by omega)
  have k5 := ld32_ok (w := w) hw (x := k) (o := 20) (by omega)
  have k6 := ld32_ok (w := w) hw (x := k) (o := 24) (by omega)
  have k7 := ld32_ok (w := w) hw (x := k) (o := 28) (by omega)
  have i0 := ld32_ok (w := w) hw (x := inp) (o := 0) (by omega)
  have i1 := ld32_ok (w := w) hw (x := inp) (o := 4) (by omega)
  have i2 := ld32_ok (w := w) hw (x := inp) (o := 8) (by omega)
  have i3 := ld32_ok (w := w) hw (x := inp) (o := 12) (by omega)
  unfold coreLoad
  simp [loop, wr, List.replicate_succ, c0, c1, c2, c3, k0, k1, k2, k3, k4, k5, k6, k7, i0, i1, i2, i3]

theorem slice_take {α : Type} (x : List α) {o n m : Nat} (h : o + n ≤ m) : slice (x.take m) o n = slice x o n := by
  apply List.ext_getElem?
  intro i
  rw [getElem?_slice, getElem?_slice]
  by_cases hi : i < n
  · rw [if_pos hi, if_pos hi, List.getElem?_take, if_pos (by omega)]
  · rw [if_neg hi, if_neg hi]

theorem words_arrange {n k : Bytes} (hn : n.length = 16) (hk : k.length = 32) : words (arrange k n) = start 32 n k sigma := by
  obtain ⟨a0, a1, a2, a3, a4, a5, a6, a7, a8, a9, a10, a11, a12, a13, a14, a15, rfl⟩ := list16 hn
  obtain ⟨b0, b1, b2, b3, b4, b5, b6, b7, b8, b9, b10, b11, b12, b13, b14, b15, e⟩ := list16 (l := k.take 16) (by rw [List.length_take]; omega)
  obtain ⟨d0, d1, d2, d3, d4, d5, d6, d7, d8, d9, d10, d11, d12, d13, d14, d15, e'⟩ := list16 (l := k.drop 16) (by rw [List.length_drop]; omega)
  rw [← List.take_append_drop 16 k, e, e']
  rfl

theorem start_lo (hw : 32 ≤ w) {inp k : Bytes} (hi : 16 ≤ inp.length) (hk : k.length = 32) :
    (start w inp k sigma).map lo = words (arrange k (inp.take 16)) := by
  rw [words_arrange (by rw [List.length_take]; omega) hk]
  simp only [List.map, lo_ofNat hw, start, wd, slice_take inp (show 0 + 4 ≤ 16 by omega), slice_take inp (show 4 + 4 ≤ 16 by omega),
    slice_take inp (show 8 + 4 ≤ 16 by omega), slice_take inp (show 12 + 4 ≤ 16 by omega)]

theorem getD_map_lo (l : List (BitVec w)) (i : Nat) : (l.map lo).getD i 0 = lo (l.getD i 0) := by
  rw [List.getD_eq_getElem?_getD, List.getD_eq_getElem?_getD, List.getElem?_map]
  cases l[i]? with
  | none => simp
  | some a => rfl

theorem coreSalsa20_ok (hw : 32 ≤ w) {out inp k : Bytes} (ho : out.length = 64) (hi : inp.length = 16) (hk : k.length = 32) :
    coreSalsa20 w out inp k sigma = .ok (expansion k inp) := by
  unfold coreSalsa20 core
  rw [coreLoad_ok hw (by omega) (by omega) (by decide), ok_bind]
  obtain ⟨x, hx⟩ : ∃ x, x = start w inp k sigma := ⟨_, rfl⟩
  have lx : x.length = 16 := by rw [hx]; rfl
  have e1 : x.map lo = words (arrange k inp) := by
    rw [hx, start_lo hw (by omega) hk, List.take_of_length_le (by omega)]
  rw [← hx, fill_ok 16 0 _ (fun i => x.getD i 0) (by
    intro i s hi' hs
    rw [rd_ok (by omega), ok_bind, wr_ok (by omega)]
    simp [lx, hi']), ok_bind]
  obtain ⟨y, e, ly, r⟩ := rounds_lo hw 10 0 lx
  rw [show 20 = 2 * 10 from rfl, e, ok_bind, if_neg (by decide)]
  rw [store_loop (fun i => y.getD i 0 + x.getD i 0) _ (by omega) (by
    intro i s hi' hs
    rw [rd_ok (by omega), ok_bind, rd_ok (by simp; omega), ok_bind]
    simp [ly, hi'])]
  unfold expansion salsa20
  rw [← e1, ← r]
  congr 2
  apply List.ext_getElem (by simp [lx, ly])
  intro i h1 h2
  simp at h1
  simp [lo_add hw, lx, ly, h1, BitVec.add_comm]

theorem list8 {α : Type} {l : List α} (h : l.length = 8) : ∃ a0 a1 a2 a3 a4 a5 a6 a7, l = [a0, a1, a2, a3, a4, a5, a6, a7] := by
  match l, h with
  | [a0, a1, a2, a3, a4, a5, a6, a7], _ => exact ⟨_, _, _, _, _, _, _, _, rfl⟩

theorem st32_chunk {L : List Bytes} {i : Nat} {u : BitVec w} (h : ∀ c ∈ L, c.length = 4) (hi : i < L.length) :
    st32 w L.flatten (4 * i) u = .ok (L.set i (leBytes 4 (lo u).toNat)).flatten := by
  rw [st32_ok (by rw [length_flatten4 h]; omega), splice_chunk h hi (length_leBytes _ _)]

/-- The eight words HSalsa20 stores. -/
theorem hstore {out : Bytes} (ho : out.length = 32) {x : List (BitVec w)} (hx : x.length = 16) :
    loop (fun i out => do
      let a ← rd x (5 * i)
      let out ← st32 w out (4 * i) a
      let a ← rd x (6 + i)
      st32 w out (16 + 4 * i) a) 0 4 out = .ok (unwords ([0, 5, 10, 15, 6, 7, 8, 9].map fun i => (x.map lo).getD i 0)) := by
  obtain ⟨L, lL, hL, rfl⟩ := chunks4 8 out (by omega)
  have step : ∀ (i : Nat) (L : List Bytes), i < 4 → L.length = 8 → (∀ c ∈ L, c.length = 4) →
      (do
        let a ← rd x (5 * i)
        let out ← st32 w L.flatten (4 * i) a
        let a ← rd x (6 + i)
        st32 w out (16 + 4 * i) a : C Bytes) =
      .ok ((L.set i (leBytes 4 (lo (x.getD (5 * i) 0)).toNat)).set (4 + i) (leBytes 4 (lo (x.getD (6 + i) 0)).toNat)).flatten := by
    intro i L hi lL hL
    rw [rd_ok (by omega), ok_bind, st32_chunk hL (by omega), ok_bind, rd_ok (by omega), ok_bind, show 16 + 4 * i = 4 * (4 + i) by omega, st32_chunk]
    · simp [hx, show 5 * i < 16 by omega, show 6 + i < 16 by omega]
    · intro c hc
      rcases List.mem_or_eq_of_mem_set hc with h | rfl
      · exact hL c h
      · exact length_leBytes _ _
    · simp; omega
  have keep : ∀ (i : Nat) (L : List Bytes) (a b : Nat), (∀ c ∈ L, c.length = 4) → ∀ c ∈ (L.set i (leBytes 4 a)).set (4 + i) (leBytes 4 b), c.length = 4 := by
    intro i L a b hL c hc
    rcases List.mem_or_eq_of_mem_set hc with h | rfl
    · rcases List.mem_or_eq_of_mem_set h with h | rfl
      · exact hL c h
      · exact length_leBytes _ _
    · exact length_leBytes _ _
  rw [loop_succ, step 0 L (by omega) lL hL, ok_bind, loop_succ, step 1 _ (by omega) (by simpa using lL) (keep _ _ _ _ hL), ok_bind, loop_succ,
    step 2 _ (by omega) (by simpa using lL) (keep _ _ _ _ (keep _ _ _ _ hL)), ok_bind, loop_succ,
    step 3 _ (by omega) (by simpa using lL) (keep _ _ _ _ (keep _ _ _ _ (keep _ _ _ _ hL))), ok_bind, loop_zero]
  obtain ⟨l0, l1, l2, l3, l4, l5, l6, l7, rfl⟩ := list8 lL
  obtain ⟨x0, x1, x2, x3, x4, x5, x6, x7, x8, x9, x10, x11, x12, x13, x14, x15, rfl⟩ := list16 hx
  rfl

theorem coreHsalsa20_ok (hw : 32 ≤ w) {out inp k : Bytes} (ho : out.length = 32) (hi : 16 ≤ inp.length) (hk : k.length = 32) :
    coreHsalsa20 w out inp k sigma = .ok (hsalsa20 k (inp.take 16)) := by
  unfold coreHsalsa20 core
  rw [coreLoad_ok hw (by omega) (by omega) (by decide), ok_bind]
  obtain ⟨y, e, ly, r⟩ := rounds_lo hw 10 0 (x := start w inp k sigma) rfl
  have c0 := ld32_ok (w := w) hw (x := sigma) (o := 0) (by decide)
  have c1 := ld32_ok (w := w) hw (x := sigma) (o := 4) (by decide)
  have c2 := ld32_ok (w := w) hw (x := sigma) (o := 8) (by decide)
  have c3 := ld32_ok (w := w) hw (x := sigma) (o := 12) (by decide)
  have i0 := ld32_ok (w := w) hw (x := inp) (o := 0) (by omega)
  have i1 := ld32_ok (w := w) hw (x := inp) (o := 4) (by omega)
  have i2 := ld32_ok (w := w) hw (x := inp) (o := 8) (by omega)
  have i3 := ld32_ok (w := w) hw (x := inp) (o := 12) (by omega)
  rw [show 20 = 2 * 10 from rfl, fill_ok 16 0 _ (fun i => (start w inp k sigma).getD i 0) (by
    intro i s hi' hs
    rw [rd_ok hi', ok_bind, wr_ok (by omega)]
    rw [List.getD_eq_getElem?_getD, List.getElem?_eq_getElem hi']
    rfl), ok_bind, e, ok_bind, if_pos rfl]
  unfold hsalsa20
  rw [← start_lo hw hi hk, ← r]
  obtain ⟨y0, y1, y2, y3, y4, y5, y6, y7, y8, y9, y10, y11, y12, y13, y14, y15, rfl⟩ := list16 ly
  rw [map_loop (n := 16) (x := [y0, y1, y2, y3, y4, y5, y6, y7, y8, y9, y10, y11, y12, y13, y14, y15]) (fun i => [y0, y1, y2, y3, y4, y5, y6, y7, y8, y9, y10, y11, y12, y13, y14, y15].getD i 0 + (start w inp k sigma).getD i 0) _ rfl
    (by
      intro i s hi' hs he
      rw [rd_eq_ok_iff.mpr (show s[i]? = some ([y0, y1, y2, y3, y4, y5, y6, y7, y8, y9, y10, y11, y12, y13, y14, y15].getD i 0) by
        rw [he, List.getD_eq_getElem?_getD, List.getElem?_eq_getElem hi']; rfl), ok_bind, rd_ok (by simpa using hi'), ok_bind, wr_ok (by omega)]
      simp only [List.getElem_map, List.getElem_range]), ok_bind,
    show (List.range 16).map (fun i => [y0, y1, y2, y3, y4, y5, y6, y7, y8, y9, y10, y11, y12, y13, y14, y15].getD i 0 + (start w inp k sigma).getD i 0) =
      [y0 + wd w sigma 0, y1 + wd w k 0, y2 + wd w k 4, y3 + wd w k 8, y4 + wd w k 12, y5 + wd w sigma 4, y6 + wd w inp 0, y7 + wd w inp 4, y8 + wd w inp 8, y9 + wd w inp 12, y10 + wd w sigma 8, y11 + wd w k 16, y12 + wd w k 20, y13 + wd w k 24, y14 + wd w k 28, y15 + wd w sigma 12] from rfl,
    show loop (fun i x => do
      let a ← rd x (5 * i)
      let b ← ld32 w sigma (4 * i)
      let x ← wr x (5 * i) (a - b)
      let a ← rd x (6 + i)
      let b ← ld32 w inp (4 * i)
      wr x (6 + i) (a - b)) 0 4 [y0 + wd w sigma 0, y1 + wd w k 0, y2 + wd w k 4, y3 + wd w k 8, y4 + wd w k 12, y5 + wd w sigma 4, y6 + wd w inp 0, y7 + wd w inp 4, y8 + wd w inp 8, y9 + wd w inp 12, y10 + wd w sigma 8, y11 + wd w k 16, y12 + wd w k 20, y13 + wd w k 24, y14 + wd w k 28, y15 + wd w sigma 12] = .ok [y0, y1 + wd w k 0, y2 + wd w k 4, y3 + wd w k 8, y4 + wd w k 12, y5, y6, y7, y8, y9, y10, y11 + wd w k 16, y12 + wd w k 20, y13 + wd w k 24, y14 + wd w k 28, y15] by
        simp [loop, rd, wr, c0, c1, c2, c3, i0, i1, i2, i3, BitVec.add_sub_cancel], ok_bind, hstore ho rfl]
  rfl

end Verif.Nacl
