import Verif.Nacl.Salsa

/-!
Helper lemmas for C116 (the structure of Salsa20): the rounds backwards, the flip of the top bits.
-/

namespace Verif.Nacl
open Verif Verif.Ed25519 Verif.Nacl.Spec
open Verif.Ed25519.Spec hiding Word

/-- The quarterround backwards (no line of its own). -/
def unquarter (z0 z1 z2 z3 : Word) : Word × Word × Word × Word :=
  let y0 := z0 ^^^ (z3 + z2).rotateLeft 18
  let y3 := z3 ^^^ (z2 + z1).rotateLeft 13
  let y2 := z2 ^^^ (z1 + y0).rotateLeft 9
  let y1 := z1 ^^^ (y0 + y3).rotateLeft 7
  (y0, y1, y2, y3)

theorem xor_xor_self (a b : Word) : a ^^^ b ^^^ b = a := by rw [BitVec.xor_assoc, BitVec.xor_self, BitVec.xor_zero]

theorem unquarter_quarter (a b c d : Word) :
    unquarter (quarter a b c d).1 (quarter a b c d).2.1 (quarter a b c d).2.2.1 (quarter a b c d).2.2.2 = (a, b, c, d) := by
  simp only [quarter, unquarter, xor_xor_self]

theorem quarter_unquarter (a b c d : Word) :
    quarter (unquarter a b c d).1 (unquarter a b c d).2.1 (unquarter a b c d).2.2.1 (unquarter a b c d).2.2.2 = (a, b, c, d) := by
  simp only [quarter, unquarter, xor_xor_self]

/-- The rowround backwards (no line of its own). -/
def unrow : List Word → List Word
  | [y0, y1, y2, y3, y4, y5, y6, y7, y8, y9, y10, y11, y12, y13, y14, y15] =>
    let (z0, z1, z2, z3) := unquarter y0 y1 y2 y3
    let (z5, z6, z7, z4) := unquarter y5 y6 y7 y4
    let (z10, z11, z8, z9) := unquarter y10 y11 y8 y9
    let (z15, z12, z13, z14) := unquarter y15 y12 y13 y14
    [z0, z1, z2, z3, z4, z5, z6, z7, z8, z9, z10, z11, z12, z13, z14, z15]
  | l => l

/-- The columnround backwards (no line of its own). -/
def uncolumn : List Word → List Word
  | [x0, x1, x2, x3, x4, x5, x6, x7, x8, x9, x10, x11, x12, x13, x14, x15] =>
    let (y0, y4, y8, y12) := unquarter x0 x4 x8 x12
    let (y5, y9, y13, y1) := unquarter x5 x9 x13 x1
    let (y10, y14, y2, y6) := unquarter x10 x14 x2 x6
    let (y15, y3, y7, y11) := unquarter x15 x3 x7 x11
    [y0, y1, y2, y3, y4, y5, y6, y7, y8, y9, y10, y11, y12, y13, y14, y15]
  | l => l

theorem unrow_row {l : List Word} (h : l.length = 16) : unrow (rowround l) = l := by
  obtain ⟨a0, a1, a2, a3, a4, a5, a6, a7, a8, a9, a10, a11, a12, a13, a14, a15, rfl⟩ := list16 h
  simp only [rowround, unrow, unquarter_quarter]

theorem row_unrow {l : List Word} (h : l.length = 16) : rowround (unrow l) = l := by
  obtain ⟨a0, a1, a2, a3, a4, a5, a6, a7, a8, a9, a10, a11, a12, a13, a14, a15, rfl⟩ := list16 h
  simp only [rowround, unrow, quarter_unquarter]

theorem uncolumn_column {l : List Word} (h : l.length = 16) : uncolumn (columnround l) = l := by
  obtain ⟨a0, a1, a2, a3, a4, a5, a6, a7, a8, a9, a10, a11, a12, a13, a14, a15, rfl⟩ := list16 h
  simp only [columnround, uncolumn, unquarter_quarter]

theorem column_uncolumn {l : List Word} (h : l.length = 16) : columnround (uncolumn l) = l := by
  obtain ⟨a0, a1, a2, a3, a4, a5, a6, a7, a8, a9, a10, a11, a12, a13, a14, a15, rfl⟩ := list16 h
  simp only [columnround, uncolumn, quarter_unquarter]

theorem length_unrow {l : List Word} (h : l.length = 16) : (unrow l).length = 16 := by
  obtain ⟨a0, a1, a2, a3, a4, a5, a6, a7, a8, a9, a10, a11, a12, a13, a14, a15, rfl⟩ := list16 h
  rfl

theorem length_uncolumn {l : List Word} (h : l.length = 16) : (uncolumn l).length = 16 := by
  obtain ⟨a0, a1, a2, a3, a4, a5, a6, a7, a8, a9, a10, a11, a12, a13, a14, a15, rfl⟩ := list16 h
  rfl

theorem doubleround_bij {t : List Word} (h : t.length = 16) : ∃! s : List Word, s.length = 16 ∧ doubleround s = t := by
  refine ⟨uncolumn (unrow t), ⟨length_uncolumn (length_unrow h), ?_⟩, ?_⟩
  · show rowround (columnround _) = t
    rw [column_uncolumn (length_unrow h), row_unrow h]
  · rintro s ⟨hs, rfl⟩
    show s = uncolumn (unrow (rowround (columnround s)))
    rw [unrow_row (length_columnround hs), uncolumn_column hs]

theorem doublerounds_bij (n : Nat) : ∀ {t : List Word}, t.length = 16 → ∃! s : List Word, s.length = 16 ∧ doubleround^[n] s = t := by
  induction n with
  | zero =>
    intro t h
    exact ⟨t, ⟨h, rfl⟩, fun s hs => hs.2⟩
  | succ n ih =>
    intro t h
    obtain ⟨u, ⟨hu, eu⟩, uu⟩ := ih h
    obtain ⟨s, ⟨hs, es⟩, us⟩ := doubleround_bij hu
    refine ⟨s, ⟨hs, by rw [Function.iterate_succ_apply, es, eu]⟩, ?_⟩
    rintro v ⟨hv, ev⟩
    rw [Function.iterate_succ_apply] at ev
    exact us v ⟨hv, uu _ ⟨by unfold doubleround; exact length_rowround (length_columnround hv), ev⟩⟩

/-! ### The flip of the top bits -/

/-- The top bit of a word changed (no line of its own). -/
def flip (a : Word) : Word := a + 0x80000000#32

theorem flip_add (a b : Word) : flip a + flip b = a + b := by
  unfold flip
  have : (0x80000000#32 : Word) + 0x80000000#32 = 0#32 := by decide
  grind

theorem flip_xor (a b : Word) : flip a ^^^ b = flip (a ^^^ b) := by
  unfold flip
  have e : ∀ x : Word, x + 0x80000000#32 = x ^^^ 0x80000000#32 := by
    intro x
    apply BitVec.eq_of_getLsbD_eq
    intro i hi
    rw [BitVec.getLsbD_add hi, BitVec.getLsbD_xor]
    have hc : BitVec.carry i x 0x80000000#32 false = false := by
      unfold BitVec.carry
      have h0 : (0x80000000#32).toNat % 2 ^ i = 0 := by
        have : (0x80000000#32).toNat = 2 ^ i * 2 ^ (31 - i) := by rw [← Nat.pow_add, show i + (31 - i) = 31 by omega]; decide
        rw [this, Nat.mul_mod_right]
      have h1 := Nat.mod_lt x.toNat (Nat.two_pow_pos i)
      rw [h0]
      simp only [Nat.add_zero, Bool.toNat_false, ge_iff_le, decide_eq_false_iff_not]
      omega
    rw [hc, Bool.xor_false]
  rw [e, e, BitVec.xor_assoc, BitVec.xor_comm _ b, BitVec.xor_assoc]

theorem quarter_flip (a b c d : Word) :
    quarter (flip a) (flip b) (flip c) (flip d) = (flip (quarter a b c d).1, flip (quarter a b c d).2.1, flip (quarter a b c d).2.2.1, flip (quarter a b c d).2.2.2) := by
  simp only [quarter, flip_add, flip_xor]

theorem doubleround_flip {l : List Word} (h : l.length = 16) : doubleround (l.map flip) = (doubleround l).map flip := by
  obtain ⟨a0, a1, a2, a3, a4, a5, a6, a7, a8, a9, a10, a11, a12, a13, a14, a15, rfl⟩ := list16 h
  simp only [doubleround, rowround, columnround, List.map, quarter_flip]

theorem doublerounds_flip (n : Nat) : ∀ {l : List Word}, l.length = 16 → doubleround^[n] (l.map flip) = (doubleround^[n] l).map flip := by
  induction n with
  | zero => intro l _; rfl
  | succ n ih =>
    intro l h
    rw [Function.iterate_succ_apply, Function.iterate_succ_apply, doubleround_flip h, ih (by unfold doubleround; exact length_rowround (length_columnround h))]

end Verif.Nacl
