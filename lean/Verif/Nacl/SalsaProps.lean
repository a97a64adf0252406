import Verif.Nacl.SalsaLemmas
import Verif.Nacl.Props

/-!
The property C116: the structure of the Salsa20 core.  The rounds are a bijection; the core with any constants; changing the top bit of all sixteen words does not change the result,
so the fixed constants are needed; the HSalsa20 value can be computed from the Salsa20 block of the same key and input without the key.
-/

namespace Verif.Nacl
open Verif Verif.Ed25519 Verif.Nacl.Spec
open Verif.Ed25519.Spec hiding Word

/-! ### What the theorems are about -/

/-- Salsa20 specification, section 9, with any sixteen bytes as constants (compare tweetnacl/tweetnacl.c:76-81). -/
def arrangeWith (c k n : Bytes) : Bytes := c.take 4 ++ k.take 16 ++ slice c 4 4 ++ n ++ slice c 8 4 ++ k.drop 16 ++ c.drop 12

/-- Bytes whose little-endian words have their top bits changed: byte 3, 7, 11, ... exclusive-or 128 (no line of its own). -/
def topFlipped (x : Bytes) : Bytes := x.mapIdx fun i a => if i % 4 = 3 then a ^^^ 0x80 else a

/-- Word `i` of a string (no line of its own). -/
def wordAt (x : Bytes) (i : Nat) : Word := BitVec.ofNat 32 (leVal (slice x (4 * i) 4))

/-- What everybody computes from a Salsa20 block and its input: words 0, 5, 10, 15 minus the constants, words 6 to 9 minus the input (compare tweetnacl/tweetnacl.c:98-104). -/
def subkeyOf (block n : Bytes) : Bytes :=
  unwords [wordAt block 0 - wordAt (sigma0 ++ sigma1 ++ sigma2 ++ sigma3) 0, wordAt block 5 - wordAt (sigma0 ++ sigma1 ++ sigma2 ++ sigma3) 1,
    wordAt block 10 - wordAt (sigma0 ++ sigma1 ++ sigma2 ++ sigma3) 2, wordAt block 15 - wordAt (sigma0 ++ sigma1 ++ sigma2 ++ sigma3) 3,
    wordAt block 6 - wordAt n 0, wordAt block 7 - wordAt n 1, wordAt block 8 - wordAt n 2, wordAt block 9 - wordAt n 3]

/-! ### Helper lemmas -/

theorem words_arrangeWith {c n k : Bytes} (hc : c.length = 16) (hn : n.length = 16) (hk : k.length = 32) : words (arrangeWith c k n) = start 32 n k c := by
  obtain ⟨a0, a1, a2, a3, a4, a5, a6, a7, a8, a9, a10, a11, a12, a13, a14, a15, rfl⟩ := list16 hn
  obtain ⟨c0, c1, c2, c3, c4, c5, c6, c7, c8, c9, c10, c11, c12, c13, c14, c15, rfl⟩ := list16 hc
  obtain ⟨b0, b1, b2, b3, b4, b5, b6, b7, b8, b9, b10, b11, b12, b13, b14, b15, e⟩ := list16 (l := k.take 16) (by rw [List.length_take]; omega)
  obtain ⟨d0, d1, d2, d3, d4, d5, d6, d7, d8, d9, d10, d11, d12, d13, d14, d15, e'⟩ := list16 (l := k.drop 16) (by rw [List.length_drop]; omega)
  rw [← List.take_append_drop 16 k, e, e']
  rfl

theorem flip_byte (a : Byte) : (a ^^^ 0x80).toNat = (a.toNat + 128) % 256 := by
  have e : a ^^^ 0x80#8 = a + 0x80#8 := by
    apply BitVec.eq_of_getLsbD_eq
    intro i hi
    rw [BitVec.getLsbD_add hi, BitVec.getLsbD_xor]
    have hc : BitVec.carry i a 0x80#8 false = false := by
      unfold BitVec.carry
      have h0 : (0x80#8).toNat % 2 ^ i = 0 := by
        have : (0x80#8).toNat = 2 ^ i * 2 ^ (7 - i) := by rw [← Nat.pow_add, show i + (7 - i) = 7 by omega]; decide
        rw [this, Nat.mul_mod_right]
      have h1 := Nat.mod_lt a.toNat (Nat.two_pow_pos i)
      rw [h0]
      simp only [Nat.add_zero, Bool.toNat_false, ge_iff_le, decide_eq_false_iff_not]
      omega
    rw [hc, Bool.xor_false]
  show (a ^^^ 0x80#8).toNat = _
  rw [e, BitVec.toNat_add]
  rfl

theorem flip_word (a b c d : Byte) : BitVec.ofNat 32 (leVal [a, b, c, d ^^^ 0x80]) = flip (BitVec.ofNat 32 (leVal [a, b, c, d])) := by
  have h := flip_byte d
  unfold flip
  simp only [leVal]
  rw [← BitVec.ofNat_add]
  generalize (d ^^^ 0x80).toNat = e at *
  generalize a.toNat = a at *
  generalize b.toNat = b at *
  generalize c.toNat = c at *
  generalize d.toNat = d at *
  apply BitVec.eq_of_toNat_eq
  rw [BitVec.toNat_ofNat, BitVec.toNat_ofNat]
  have : 256 * e % 65536 = (256 * d + 32768) % 65536 := by omega
  omega

/-- The core with any constants (see `nacl_salsa20_core` for the constants of the library). -/
theorem coreSalsa20_with (hw : 32 ≤ w) {out inp k c : Bytes} (ho : out.length = 64) (hi : inp.length = 16) (hk : k.length = 32) (hc : c.length = 16) :
    coreSalsa20 w out inp k c = .ok (salsa20 (arrangeWith c k inp)) := by
  unfold coreSalsa20 core
  rw [coreLoad_ok hw (by omega) (by omega) (by omega), ok_bind]
  obtain ⟨x, hx⟩ : ∃ x, x = start w inp k c := ⟨_, rfl⟩
  have lx : x.length = 16 := by rw [hx]; rfl
  have e1 : x.map lo = words (arrangeWith c k inp) := by
    rw [hx, words_arrangeWith hc hi hk]
    simp only [List.map, lo_ofNat hw, start, wd]
  rw [← hx, fill_ok 16 0 _ (fun i => x.getD i 0) (by
    intro i s hi' hs
    rw [rd_ok (by omega), ok_bind, wr_ok (by omega)]
    simp [lx, hi']), ok_bind]
  obtain ⟨y, e, ly, r⟩ := rounds_lo hw 10 0 lx
  rw [show 20 = 2 * 10 from rfl, e, ok_bind, if_neg (by decide)]
  rw [store_loop (fun i => y.getD i 0 + x.getD i 0) _ (by omega) (by
    intro i s hi' hs
    rw [rd_ok (by omega), ok_bind, rd_ok (by simp; omega), ok_bind]
    simp [ly, hi'])]
  unfold salsa20
  rw [← e1, ← r]
  congr 2
  apply List.ext_getElem (by simp [lx, ly])
  intro i h1 h2
  simp at h1
  simp [lo_add hw, lx, ly, h1, BitVec.add_comm]

theorem slice_four {x : Bytes} {o : Nat} (h : o + 4 ≤ x.length) : slice x o 4 = [x.getD o 0, x.getD (o + 1) 0, x.getD (o + 2) 0, x.getD (o + 3) 0] := by
  apply List.ext_getElem?
  intro i
  unfold slice
  rcases (by omega : i = 0 ∨ i = 1 ∨ i = 2 ∨ i = 3 ∨ 4 ≤ i) with rfl | rfl | rfl | rfl | hi
  all_goals simp [List.getElem?_take, List.getElem?_drop, List.getD_eq_getElem?_getD]
  · rw [List.getElem?_eq_getElem (by omega)]; rfl
  · rw [List.getElem?_eq_getElem (by omega)]; rfl
  · rw [List.getElem?_eq_getElem (by omega)]; rfl
  · rw [List.getElem?_eq_getElem (by omega)]; rfl
  · rw [if_neg (by omega), List.getElem?_eq_none (by simp; omega)]

theorem length_topFlipped (x : Bytes) : (topFlipped x).length = x.length := by unfold topFlipped; rw [List.length_mapIdx]

theorem getD_topFlipped {x : Bytes} {i : Nat} (h : i < x.length) : (topFlipped x).getD i 0 = if i % 4 = 3 then x.getD i 0 ^^^ 0x80 else x.getD i 0 := by
  unfold topFlipped
  simp [List.getD_eq_getElem?_getD, List.getElem?_mapIdx, List.getElem?_eq_getElem h]

theorem wd_flip {x : Bytes} {o : Nat} (h4 : o % 4 = 0) (h : o + 4 ≤ x.length) : wd 32 (topFlipped x) o = flip (wd 32 x o) := by
  show BitVec.ofNat 32 (leVal (slice (topFlipped x) o 4)) = flip (BitVec.ofNat 32 (leVal (slice x o 4)))
  rw [slice_four (by rw [length_topFlipped]; omega), slice_four h, getD_topFlipped (by omega), getD_topFlipped (by omega), getD_topFlipped (by omega), getD_topFlipped (by omega),
    if_neg (by omega), if_neg (by omega), if_neg (by omega), if_pos (by omega), flip_word]

theorem start_flip {n k c : Bytes} (hn : n.length = 16) (hk : k.length = 32) (hc : c.length = 16) :
    start 32 (topFlipped n) (topFlipped k) (topFlipped c) = (start 32 n k c).map flip := by
  simp only [List.map, start]
  rw [wd_flip (x := c) (o := 0), wd_flip (x := c) (o := 4), wd_flip (x := c) (o := 8), wd_flip (x := c) (o := 12), wd_flip (x := n) (o := 0), wd_flip (x := n) (o := 4),
    wd_flip (x := n) (o := 8), wd_flip (x := n) (o := 12), wd_flip (x := k) (o := 0), wd_flip (x := k) (o := 4), wd_flip (x := k) (o := 8), wd_flip (x := k) (o := 12),
    wd_flip (x := k) (o := 16), wd_flip (x := k) (o := 20), wd_flip (x := k) (o := 24), wd_flip (x := k) (o := 28)] <;> omega

theorem wordAt_unwords : ∀ (l : List Word) (i : Nat), i < l.length → wordAt (unwords l) i = l.getD i 0 := by
  intro l
  induction l with
  | nil => intro i h; simp at h
  | cons a l ih =>
    intro i h
    have e : unwords (a :: l) = leBytes 4 a.toNat ++ unwords l := rfl
    have hl : (leBytes 4 a.toNat).length = 4 := by rw [length_leBytes]
    unfold wordAt slice
    rw [e]
    cases i with
    | zero =>
      rw [Nat.mul_zero, List.drop_zero, List.take_left' hl, leVal_leBytes]
      apply BitVec.eq_of_toNat_eq
      rw [BitVec.toNat_ofNat]
      have := a.isLt
      show a.toNat % 256 ^ 4 % 2 ^ 32 = a.toNat
      omega
    | succ i =>
      rw [show 4 * (i + 1) = 4 + 4 * i by omega, ← List.drop_drop, List.drop_left' hl]
      exact ih i (by simpa using h)

/-! ### The theorems -/

/-- C116, the rounds: every sixteen words are the result of the twenty rounds of the code for exactly one sixteen words (tweetnacl/tweetnacl.c:85-95; for a `u32` of 32 bits). -/
theorem salsa_rounds_bijective {t : List (BitVec 32)} (h : t.length = 16) : ∃! s : List (BitVec 32), s.length = 16 ∧ loop (fun _ x => coreRound 32 x) 0 20 s = .ok t := by
  have run : ∀ s : List (BitVec 32), s.length = 16 → loop (fun _ x => coreRound 32 x) 0 20 s = .ok (doubleround^[10] s) := by
    intro s hs
    obtain ⟨y, e, -, r⟩ := rounds_lo (w := 32) (Nat.le_refl _) 10 0 hs
    have id : ∀ l : List (BitVec 32), l.map lo = l := fun l => by
      rw [show (lo : BitVec 32 → Word) = id from funext fun x => BitVec.setWidth_eq x, List.map_id]
    rw [id, id] at r
    rw [show 20 = 2 * 10 from rfl, e, r]
  obtain ⟨s, ⟨hs, e⟩, u⟩ := doublerounds_bij 10 h
  refine ⟨s, ⟨hs, by rw [run s hs, e]⟩, ?_⟩
  rintro v ⟨hv, e'⟩
  rw [run v hv] at e'
  exact u v ⟨hv, Except.ok.inj e'⟩

/-- C116, the core with any constants: `crypto_core_salsa20` computes the Salsa20 hash function of constants, key and input in their places (tweetnacl/tweetnacl.c:71-115). -/
theorem salsa_core_any_constants (hw : 32 ≤ w) {out inp k c : Bytes} (ho : out.length = 64) (hi : inp.length = 16) (hk : k.length = 32) (hc : c.length = 16) :
    coreSalsa20 w out inp k c = .ok (salsa20 (arrangeWith c k inp)) := coreSalsa20_with hw ho hi hk hc

/-- C116, the top bits: `crypto_core_salsa20` gives the same block for every key, input and constants and for those with the top bits of all sixteen words changed.  So it is the fixed constants
(which cannot be changed like this) that keep keys and inputs apart (tweetnacl/tweetnacl.c:71-115). -/
theorem salsa_top_bits (hw : 32 ≤ w) {out inp k c : Bytes} (ho : out.length = 64) (hi : inp.length = 16) (hk : k.length = 32) (hc : c.length = 16) :
    coreSalsa20 w out (topFlipped inp) (topFlipped k) (topFlipped c) = coreSalsa20 w out inp k c ∧ topFlipped c ≠ c ∧ topFlipped k ≠ k ∧ topFlipped inp ≠ inp := by
  have hne : ∀ x : Bytes, 4 ≤ x.length → topFlipped x ≠ x := by
    intro x hx e
    have := getD_topFlipped (x := x) (i := 3) (by omega)
    rw [e, if_pos rfl] at this
    have h2 := congrArg BitVec.toNat this
    rw [flip_byte] at h2
    have := (x.getD 3 0).isLt
    omega
  refine ⟨?_, hne c (by omega), hne k (by omega), hne inp (by omega)⟩
  rw [coreSalsa20_with hw ho hi hk hc, coreSalsa20_with hw ho (by rw [length_topFlipped, hi]) (by rw [length_topFlipped, hk]) (by rw [length_topFlipped, hc])]
  unfold salsa20
  rw [words_arrangeWith (by rw [length_topFlipped, hc]) (by rw [length_topFlipped, hi]) (by rw [length_topFlipped, hk]), words_arrangeWith hc hi hk, start_flip hi hk hc,
    doublerounds_flip 10 (by rfl)]
  generalize doubleround^[10] (start 32 inp k c) = b
  generalize start 32 inp k c = a
  rw [List.zipWith_map]
  simp only [flip_add]

/-- C116, HSalsa20: the subkey that `crypto_core_hsalsa20` computes from key and input is what everybody computes from the block that `crypto_core_salsa20` gives for them, without the key: words 0, 5, 10, 15
minus the constants and words 6 to 9 minus the input (tweetnacl/tweetnacl.c:71-121). -/
theorem hsalsa_from_salsa (hw : 32 ≤ w) {out out' inp k b s : Bytes} (ho : out.length = 64) (ho' : out'.length = 32) (hi : inp.length = 16) (hk : k.length = 32)
    (hb : coreSalsa20 w out inp k sigma = .ok b) (hs : coreHsalsa20 w out' inp k sigma = .ok s) : s = subkeyOf b inp := by
  rw [nacl_salsa20_core hw ho hi hk] at hb
  rw [nacl_hsalsa20_core hw ho' hi hk] at hs
  have hb := Except.ok.inj hb
  have hs := Except.ok.inj hs
  subst hb hs
  have e := words_arrange hi hk
  have hl := length_doublerounds (l := words (arrange k inp)) (by rw [e]; rfl) 10
  unfold subkeyOf expansion salsa20 hsalsa20
  rw [e] at hl ⊢
  generalize hz : doubleround^[10] (start 32 inp k sigma) = z at *
  obtain ⟨z0, z1, z2, z3, z4, z5, z6, z7, z8, z9, z10, z11, z12, z13, z14, z15, rfl⟩ := list16 hl
  have u : ∀ i, i < 16 → wordAt (unwords (List.zipWith (· + ·) (start 32 inp k sigma) [z0, z1, z2, z3, z4, z5, z6, z7, z8, z9, z10, z11, z12, z13, z14, z15])) i =
      (List.zipWith (· + ·) (start 32 inp k sigma) [z0, z1, z2, z3, z4, z5, z6, z7, z8, z9, z10, z11, z12, z13, z14, z15]).getD i 0 := fun i hi => wordAt_unwords _ _ hi
  rw [u 0 (by omega), u 5 (by omega), u 10 (by omega), u 15 (by omega), u 6 (by omega), u 7 (by omega), u 8 (by omega), u 9 (by omega)]
  have c : ∀ x y : Word, y = x + y - x := fun x y => by grind
  show unwords [z0, z5, z10, z15, z6, z7, z8, z9] = unwords [wd 32 sigma 0 + z0 - wd 32 sigma 0, wd 32 sigma 4 + z5 - wd 32 sigma 4, wd 32 sigma 8 + z10 - wd 32 sigma 8, wd 32 sigma 12 + z15 - wd 32 sigma 12,
    wd 32 inp 0 + z6 - wd 32 inp 0, wd 32 inp 4 + z7 - wd 32 inp 4, wd 32 inp 8 + z8 - wd 32 inp 8, wd 32 inp 12 + z9 - wd 32 inp 12]
  rw [← c, ← c, ← c, ← c, ← c, ← c, ← c, ← c]

/-- The hypotheses of the theorems on the core: any key, input, constants of the right lengths and output buffers. -/
example : (∃ b, coreSalsa20 32 (List.replicate 64 0) (List.replicate 16 7) (List.replicate 32 9) (List.replicate 16 1) = .ok b ∧
    coreSalsa20 32 (List.replicate 64 0) (topFlipped (List.replicate 16 7)) (topFlipped (List.replicate 32 9)) (topFlipped (List.replicate 16 1)) = .ok b) ∧
    ∃ b s, coreSalsa20 64 (List.replicate 64 0) (List.replicate 16 7) (List.replicate 32 9) sigma = .ok b ∧
      coreHsalsa20 64 (List.replicate 32 0) (List.replicate 16 7) (List.replicate 32 9) sigma = .ok s ∧ s = subkeyOf b (List.replicate 16 7) := by
  have l : ∀ n (a : Byte), (List.replicate n a).length = n := fun n a => List.length_replicate ..
  refine ⟨⟨_, salsa_core_any_constants (by decide) (l _ _) (l _ _) (l _ _) (l _ _), ?_⟩, _, _, nacl_salsa20_core (by decide) (l _ _) (l _ _) (l _ _),
    nacl_hsalsa20_core (by decide) (l _ _) (l _ _) (l _ _), ?_⟩
  · rw [(salsa_top_bits (by decide) (l _ _) (l _ _) (l _ _) (l _ _)).1]
    exact salsa_core_any_constants (by decide) (l _ _) (l _ _) (l _ _) (l _ _)
  · exact hsalsa_from_salsa (w := 64) (by decide) (l _ 0) (l _ 0) (l _ _) (l _ _) (nacl_salsa20_core (by decide) (l _ _) (l _ _) (l _ _)) (nacl_hsalsa20_core (by decide) (l _ _) (l _ _) (l _ _))

/-- The zero state has exactly one preimage. -/
example : ∃! s : List (BitVec 32), s.length = 16 ∧ loop (fun _ x => coreRound 32 x) 0 20 s = .ok (List.replicate 16 0) := salsa_rounds_bijective (List.length_replicate ..)

end Verif.Nacl
