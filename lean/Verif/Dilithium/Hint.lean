import Verif.Dilithium.Poly

/-! Encoding and decoding of the hints and of whole signatures (dilithium2/packing.c:168-260). -/

namespace Verif.Dilithium
open Verif Spec

/-- Positions up to `j`. -/
def posUpTo (h : List Int) (j : Nat) : Bytes := ((List.range j).filter fun j => co h j ≠ 0).map (BitVec.ofNat 8)

theorem posUpTo_succ (h : List Int) (j : Nat) : posUpTo h (j + 1) = if co h j ≠ 0 then posUpTo h j ++ [BitVec.ofNat 8 j] else posUpTo h j := by
  unfold posUpTo
  rw [List.range_succ, List.filter_append, List.map_append]
  split
  · rename_i c; rw [List.filter_cons_of_pos (by simpa using c)]; simp
  · rename_i c; rw [List.filter_cons_of_neg (by simpa using c)]; simp

theorem posUpTo_le (h : List Int) {i j : Nat} (hij : i ≤ j) : (posUpTo h i).length ≤ (posUpTo h j).length := by
  induction j with
  | zero => have : i = 0 := by omega
            subst this; exact Nat.le_refl _
  | succ j ih =>
    rcases Nat.lt_or_ge i (j + 1) with c | c
    · have := ih (by omega)
      rw [posUpTo_succ]; split
      · rw [List.length_append]; omega
      · exact this
    · have : i = j + 1 := by omega
      subst this; exact Nat.le_refl _

theorem packHintPoly_ok {o k : Nat} {h : Poly} {sig : Bytes} (hh : h.length = 256) (hs : o + k + (positions h).length ≤ sig.length) :
    packHintPoly o h (sig, k) = .ok (splice sig (o + k) (positions h), k + (positions h).length) := by
  unfold packHintPoly
  obtain ⟨s, e, hs⟩ := loop_inv (fun j (s : Bytes × Nat) => s = (splice sig (o + k) (posUpTo h j), k + (posUpTo h j).length)) (fun j s => do
    let x ← rd h j
    if x ≠ 0 then do
      let sig ← wr s.1 (o + s.2) (BitVec.ofNat 8 j)
      .ok (sig, s.2 + 1)
    else .ok s) 0 256 (sig, k) (by simp [posUpTo]) (by
    rintro j s _ hj rfl
    have hle : (posUpTo h (j + 1)).length ≤ (positions h).length := posUpTo_le h (by omega)
    simp only
    rw [rd_co (by omega), ok_bind]
    by_cases c : co h j ≠ 0
    · rw [posUpTo_succ, if_pos c, List.length_append, List.length_singleton] at hle
      rw [if_pos c, posUpTo_succ, if_pos c, wr_ok (by rw [length_splice (by omega)]; omega), ok_bind, ← Nat.add_assoc, splice_snoc (by omega), List.length_append]
      exact ⟨_, rfl, rfl⟩
    · rw [if_neg c, posUpTo_succ, if_neg c]
      exact ⟨_, rfl, rfl⟩)
  rw [e, hs]; rfl

theorem splice_swap {α : Type} {b x c y : List α} {o p : Nat} (h1 : o + x.length + y.length ≤ p) (h2 : p + c.length ≤ b.length) :
    splice (splice (splice b o x) p c) (o + x.length) y = splice (splice b o (x ++ y)) p c := by
  have hl : (splice b o x).length = b.length := length_splice (by omega)
  have hl2 : (splice b o (x ++ y)).length = b.length := length_splice (by rw [List.length_append]; omega)
  have hl3 : (splice (splice b o x) p c).length = b.length := by rw [length_splice (by omega), hl]
  rw [← splice_splice (by omega)]
  have hl4 : (splice (splice b o x) (o + x.length) y).length = b.length := by rw [length_splice (by omega), hl]
  apply List.ext_getElem?
  intro i
  rw [getElem?_splice _ _ _ _ (by omega), getElem?_splice _ _ _ _ (by omega), getElem?_splice _ _ p _ (by omega), getElem?_splice _ y _ _ (by omega)]
  by_cases h3 : o + x.length ≤ i ∧ i < o + x.length + y.length
  · rw [if_pos h3, if_neg (by omega), if_pos h3]
  · rw [if_neg h3, if_neg h3]

theorem zero_loop {b : Bytes} {o n : Nat} (h : o + n ≤ b.length) :
    loop (fun i sig => wr sig (o + i) (0 : Byte)) 0 n b = .ok (splice b o (List.replicate n 0)) := by
  rw [fill_loop (G := fun _ => [0]) (k := 1) (base := o) _ (by omega) (fun _ _ => rfl) (fun i s hi hs => by
    rw [wr_ok (by omega)]
    have := splice_snoc (b := s) (x := []) (o := o + i) (v := (0 : Byte)) (by simp; omega)
    simp only [splice_nil, List.length_nil, Nat.add_zero, List.nil_append] at this
    rw [this, Nat.one_mul])]
  refine congrArg _ (congrArg _ ?_)
  clear h
  induction n with
  | zero => rfl
  | succ n ih => rw [flatMap_range_succ, ih, List.replicate_succ']

/-- Running totals of the first `n` polynomials. -/
def totals (h : Vec) (n : Nat) : Bytes := (List.range n).map fun i => BitVec.ofNat 8 ((h.take (i + 1)).flatMap positions).length

theorem totals_succ (h : Vec) (n : Nat) : totals h (n + 1) = totals h n ++ [BitVec.ofNat 8 ((h.take (n + 1)).flatMap positions).length] := by
  unfold totals; rw [List.range_succ, List.map_append]; rfl

theorem take_flatMap_le (h : Vec) (n : Nat) : ((h.take n).flatMap positions).length ≤ (h.flatMap positions).length := by
  conv_rhs => rw [← List.take_append_drop n h, List.flatMap_append, List.length_append]
  omega

theorem take_succ_at {α : Type} {v : List (List α)} {n : Nat} (h : n < v.length) : v.take (n + 1) = v.take n ++ [at_ v n] := by
  rw [List.take_succ, List.getElem?_eq_getElem h]
  unfold at_
  simp [h]

theorem length_packHint {h : Vec} (hw : weight h ≤ 80) : (packHint h).length = 84 := by
  unfold weight at hw
  unfold packHint vec
  simp only [List.length_append, List.length_replicate, List.length_map, List.length_range]
  omega

theorem packSig_ok {sig c : Bytes} {z h : Vec} (hs : sig.length = 2420) (hc : c.length = 32) (hz : z.length = 4)
    (hzb : ∀ x ∈ z, x.length = 256 ∧ ∀ v ∈ x, -131072 < v ∧ v ≤ 131072) (hh : h.length = 4) (hhl : ∀ x ∈ h, x.length = 256) (hw : weight h ≤ 80) :
    packSig sig c z h = .ok (encodeSig c z h) := by
  have fz : (z.flatMap (packAt 18 131072)).length = 2304 := length_flatMap_vec hz fun x hx => length_packAt (hzb x hx).1
  have hl : ∀ {x : Bytes}, x.length ≤ 2420 → (splice sig 0 x).length = 2420 := fun h => by rw [length_splice (by omega), hs]
  have step : ∀ {x y : Bytes} {o : Nat}, x.length = o → o + y.length ≤ 2420 → splice (splice sig 0 x) o y = splice sig 0 (x ++ y) := by
    intro x y o hx hy
    have := splice_splice (b := sig) (o := 0) (x := x) (y := y) (by omega)
    rw [Nat.zero_add, hx] at this; exact this
  unfold packSig
  rw [copy_whole hc (by omega), ok_bind, vecPack_ok (g := packAt 18 131072) hz (fun x hx => length_packAt (hzb x hx).1) (by rw [hl (by omega)]; omega)
      (fun x hx s b hs => polyzPack_ok (hzb x hx).1 (hzb x hx).2 hs), ok_bind, step hc (by omega),
      zero_loop (by rw [hl (by simp only [List.length_append]; omega)]), ok_bind,
      step (by simp only [List.length_append]; omega) (by simp only [List.length_replicate]; omega), splice_all (by simp only [List.length_append, List.length_replicate]; omega)]
  obtain ⟨P, hP⟩ : ∃ P, P = c ++ z.flatMap (packAt 18 131072) := ⟨_, rfl⟩
  have hPl : P.length = 2336 := by rw [hP, List.length_append]; omega
  obtain ⟨Z, hZ⟩ : ∃ Z, Z = P ++ List.replicate 84 (0 : Byte) := ⟨_, rfl⟩
  have hZl : Z.length = 2420 := by rw [hZ, List.length_append, List.length_replicate]; omega
  rw [← hP, ← hZ]
  unfold weight at hw
  obtain ⟨s, e, hinv⟩ := loop_inv (fun i (s : Bytes × Nat) =>
      s = (splice (splice Z 2336 ((h.take i).flatMap positions)) 2416 (totals h i), ((h.take i).flatMap positions).length)) (fun i s => do
    let x ← rd h i
    let (sig, k) ← packHintPoly 2336 x s
    let sig ← wr sig (2336 + 80 + i) (BitVec.ofNat 8 k)
    .ok (sig, k)) 0 4 (Z, 0) (by simp [totals]) (by
    rintro i s _ hi rfl
    have hle := take_flatMap_le h (i + 1)
    rw [take_succ_at (by omega), List.flatMap_append, List.length_append] at hle
    simp only [List.flatMap_cons, List.flatMap_nil, List.append_nil] at hle
    have ht : (totals h i).length = i := by simp [totals]
    have l1 : (splice Z 2336 ((h.take i).flatMap positions)).length = 2420 := by rw [length_splice (by omega), hZl]
    have l2 : (splice (splice Z 2336 ((h.take i).flatMap positions)) 2416 (totals h i)).length = 2420 := by rw [length_splice (by omega), l1]
    have l3 : (splice Z 2336 ((h.take i).flatMap positions ++ positions (at_ h i))).length = 2420 := by rw [length_splice (by rw [List.length_append]; omega), hZl]
    rw [rd_at (by omega), ok_bind, packHintPoly_ok (hhl _ (at_mem (by omega))) (by omega), ok_bind]
    simp only
    rw [splice_swap (by omega) (by omega), wr_ok (by rw [length_splice (by omega), l3]; omega), ok_bind]
    have := splice_snoc (b := splice Z 2336 ((h.take i).flatMap positions ++ positions (at_ h i))) (x := totals h i) (o := 2416)
      (v := BitVec.ofNat 8 (((h.take i).flatMap positions).length + (positions (at_ h i)).length)) (by omega)
    rw [ht] at this
    refine ⟨_, rfl, ?_⟩
    rw [this, totals_succ, take_succ_at (by omega), List.flatMap_append, List.length_append]
    simp only [List.flatMap_cons, List.flatMap_nil, List.append_nil])
  rw [e, ok_bind, hinv]
  simp only [Nat.zero_add]
  rw [List.take_of_length_le (by omega)]
  have ht : (totals h 4).length = 4 := by simp [totals]
  obtain ⟨X, hX⟩ : ∃ X, X = h.flatMap positions := ⟨_, rfl⟩
  refine congrArg _ ?_
  unfold encodeSig packHint
  rw [← hX] at hw ⊢
  rw [hP] at hZ
  rw [hZ, ← hP]
  have e1 : splice (P ++ List.replicate 84 (0 : Byte)) 2336 X = P ++ X ++ List.replicate (84 - X.length) 0 := by
    unfold splice
    rw [List.take_append_of_le_length (by omega), List.take_of_length_le (by omega), List.drop_append, List.drop_of_length_le (by omega), List.nil_append,
      List.drop_replicate, hPl, show 84 - (2336 + X.length - 2336) = 84 - X.length by omega]
  rw [e1]
  have e2 : List.replicate (84 - X.length) (0 : Byte) = List.replicate (80 - X.length) 0 ++ List.replicate 4 0 := by
    rw [List.replicate_append_replicate]; congr 1; omega
  rw [e2]
  simp only
  unfold splice
  rw [← List.append_assoc, List.take_append_of_le_length (by simp only [List.length_append, List.length_replicate]; omega),
    List.take_of_length_le (by simp only [List.length_append, List.length_replicate]; omega), List.drop_of_length_le (by simp only [List.length_append, List.length_replicate]; omega)]
  simp only [List.append_assoc, List.append_nil]
  rfl

/-! ### Unpacking -/

/-- Set the coefficients at the given positions to 1. -/
def setAll (h : Poly) (bs : Bytes) : Poly := bs.foldl (fun h x => h.set x.toNat 1) h

theorem length_setAll (h : Poly) (bs : Bytes) : (setAll h bs).length = h.length := by
  induction bs generalizing h with
  | nil => rfl
  | cons b bs ih => show (setAll (h.set b.toNat 1) bs).length = _; rw [ih]; simp

theorem co_setAll (bs : Bytes) (h : Poly) (hh : h.length = 256) (i : Nat) :
    co (setAll h bs) i = if ∃ x ∈ bs, x.toNat = i then 1 else co h i := by
  induction bs generalizing h with
  | nil => simp [setAll]
  | cons b bs ih =>
    show co (setAll (h.set b.toNat 1) bs) i = _
    rw [ih _ (by simp [hh])]
    by_cases c : ∃ x ∈ bs, x.toNat = i
    · rw [if_pos c, if_pos (by obtain ⟨x, hx, e⟩ := c; exact ⟨x, List.mem_cons_of_mem _ hx, e⟩)]
    · rw [if_neg c, show co (h.set b.toNat 1) i = if i = b.toNat then 1 else co h i from co_set h b.toNat i 1 (by rw [hh]; exact b.isLt)]
      by_cases d : b.toNat = i
      · rw [if_pos d.symm, if_pos ⟨b, List.mem_cons_self, d⟩]
      · rw [if_neg (fun e => d e.symm), if_neg]
        rintro ⟨x, hx, e⟩
        rcases List.mem_cons.1 hx with rfl | hx
        · exact d e
        · exact c ⟨x, hx, e⟩

/-- The order of the positions of hints as bytes (dilithium2/packing.c:241-244). -/
abbrev Lt8 (a b : Byte) : Prop := a.toNat < b.toNat

/-- `Lt8` is transitive. -/
instance : Trans Lt8 Lt8 Lt8 := ⟨fun h1 h2 => Nat.lt_trans h1 h2⟩

theorem slice_cons {α : Type} {b : List α} {o n : Nat} {x : α} (h : b[o]? = some x) : slice b o (n + 1) = x :: slice b (o + 1) n := by
  unfold slice
  rw [List.drop_eq_getElem?_toList_append, h]
  simp

theorem unpackHintPoly_gt {sig : Bytes} {o k : Nat} (n j : Nat) (h : Poly) (hj : k < j) (hl : o + j + n ≤ sig.length) (hh : h.length = 256) :
    unpackHintPoly sig o k j n h =
      .ok (if (slice sig (o + j - 1) (n + 1)).IsChain Lt8 then some (setAll h (slice sig (o + j) n)) else none) := by
  induction n generalizing j h with
  | zero =>
    rw [unpackHintPoly.eq_1, if_pos]
    · simp [slice, setAll]
    · rw [slice_cons (List.getElem?_eq_getElem (show o + j - 1 < sig.length by omega))]
      simp [slice]
  | succ n ih =>
    rw [unpackHintPoly.eq_2, rd_ok (by omega), ok_bind, if_pos hj, rd_ok (by omega), ok_bind, ok_bind]
    have e1 : slice sig (o + j - 1) (n + 1 + 1) = sig[o + j - 1]'(by omega) :: sig[o + j]'(by omega) :: slice sig (o + j + 1) n := by
      rw [slice_cons (List.getElem?_eq_getElem (show o + j - 1 < sig.length by omega)), show o + j - 1 + 1 = o + j by omega,
        slice_cons (List.getElem?_eq_getElem (show o + j < sig.length by omega))]
    have e2 : slice sig (o + j) (n + 1) = sig[o + j]'(by omega) :: slice sig (o + j + 1) n :=
      slice_cons (List.getElem?_eq_getElem (show o + j < sig.length by omega))
    rw [e1]
    by_cases c : (sig[o + j]'(by omega)).toNat ≤ (sig[o + j - 1]'(by omega)).toNat
    · rw [if_pos (by simpa using c), if_neg (fun h : List.IsChain Lt8 _ => absurd (List.isChain_cons_cons.1 h).1 (Nat.not_lt.2 c))]
    · rw [if_neg (by simpa using c), wr_ok (by rw [hh]; exact BitVec.isLt _), ok_bind, ih _ _ (by omega) (by omega) (by simp [hh]),
        show o + (j + 1) - 1 = o + j by omega, e2, show o + (j + 1) = o + j + 1 by omega]
      refine congrArg _ ?_
      have : List.IsChain Lt8 (sig[o + j - 1]'(by omega) :: sig[o + j]'(by omega) :: slice sig (o + j + 1) n) ↔
          List.IsChain Lt8 (sig[o + j]'(by omega) :: slice sig (o + j + 1) n) :=
        ⟨fun h => (List.isChain_cons_cons.1 h).2, fun h => List.isChain_cons_cons.2 ⟨Nat.lt_of_not_le c, h⟩⟩
      simp only [this]
      rfl

theorem unpackHintPoly_ok {sig : Bytes} {o k n : Nat} {h : Poly} (hl : o + k + n ≤ sig.length) (hh : h.length = 256) :
    unpackHintPoly sig o k k n h =
      .ok (if (slice sig (o + k) n).IsChain Lt8 then some (setAll h (slice sig (o + k) n)) else none) := by
  cases n with
  | zero => rw [unpackHintPoly.eq_1, if_pos (by simp [slice])]; simp [slice, setAll]
  | succ n =>
    rw [unpackHintPoly.eq_2, rd_ok (by omega), ok_bind, if_neg (Nat.lt_irrefl k), ok_bind, if_neg (by decide), wr_ok (by rw [hh]; exact BitVec.isLt _), ok_bind,
      unpackHintPoly_gt _ _ _ (by omega) (by omega) (by simp [hh]), show o + (k + 1) - 1 = o + k by omega,
      slice_cons (List.getElem?_eq_getElem (show o + k < sig.length by omega)), show o + (k + 1) = o + k + 1 by omega]
    rfl

theorem sorted_ext {l1 l2 : List Nat} (h1 : l1.Pairwise (· < ·)) (h2 : l2.Pairwise (· < ·)) (h : ∀ x, x ∈ l1 ↔ x ∈ l2) : l1 = l2 := by
  induction l1 generalizing l2 with
  | nil =>
    cases l2 with
    | nil => rfl
    | cons b l => exact absurd ((h b).2 List.mem_cons_self) (by simp)
  | cons a l1 ih =>
    cases l2 with
    | nil => exact absurd ((h a).1 List.mem_cons_self) (by simp)
    | cons b l2 =>
      rw [List.pairwise_cons] at h1 h2
      have hab : a = b := by
        rcases List.mem_cons.1 ((h a).1 List.mem_cons_self) with e | e
        · exact e
        · rcases List.mem_cons.1 ((h b).2 List.mem_cons_self) with f | f
          · exact f.symm
          · have := h2.1 _ e; have := h1.1 _ f; omega
      subst hab
      rw [ih h1.2 h2.2]
      intro x
      constructor
      · intro hx
        rcases List.mem_cons.1 ((h x).1 (List.mem_cons_of_mem _ hx)) with e | e
        · have := h1.1 _ hx; omega
        · exact e
      · intro hx
        rcases List.mem_cons.1 ((h x).2 (List.mem_cons_of_mem _ hx)) with e | e
        · have := h2.1 _ hx; omega
        · exact e

theorem mem_positions (h : Poly) (b : Byte) : b ∈ positions h ↔ co h b.toNat ≠ 0 := by
  unfold positions
  simp only [List.mem_map, List.mem_filter, List.mem_range, decide_eq_true_eq]
  constructor
  · rintro ⟨a, ⟨ha, h0⟩, rfl⟩
    rwa [BitVec.toNat_ofNat, Nat.mod_eq_of_lt (by simpa using ha)]
  · intro h0
    exact ⟨b.toNat, ⟨b.isLt, h0⟩, by simp⟩

theorem positions_map (h : Poly) : (positions h).map BitVec.toNat = (List.range 256).filter fun j => co h j ≠ 0 := by
  unfold positions
  rw [List.map_map]
  conv_rhs => rw [← List.map_id ((List.range 256).filter fun j => decide (co h j ≠ 0))]
  refine List.map_congr_left fun x hx => ?_
  have := List.mem_range.1 (List.mem_filter.1 hx).1
  simp only [Function.comp, BitVec.toNat_ofNat, id]
  omega

theorem positions_chain (h : Poly) : (positions h).IsChain Lt8 := by
  rw [List.isChain_iff_pairwise]
  have : ((positions h).map BitVec.toNat).Pairwise (· < ·) := by
    rw [positions_map]
    exact List.Pairwise.filter _ List.pairwise_lt_range
  rwa [List.pairwise_map] at this

theorem positions_setAll {bs : Bytes} (h : bs.IsChain Lt8) : positions (setAll (List.replicate 256 0) bs) = bs := by
  rw [List.isChain_iff_pairwise] at h
  have key : (positions (setAll (List.replicate 256 0) bs)).map BitVec.toNat = bs.map BitVec.toNat := by
    refine sorted_ext ?_ (List.pairwise_map.2 h) ?_
    · rw [positions_map]
      exact List.Pairwise.filter _ List.pairwise_lt_range
    · intro x
      have hz : co (List.replicate 256 0) x = 0 := by
        unfold co; rw [List.getD_eq_getElem?_getD, List.getElem?_replicate]; split <;> rfl
      rw [positions_map, List.mem_filter, List.mem_range, List.mem_map]
      simp only [decide_eq_true_eq]
      rw [co_setAll _ _ (List.length_replicate ..), hz]
      constructor
      · rintro ⟨_, h⟩
        by_contra c
        rw [if_neg c] at h
        exact h rfl
      · rintro ⟨a, ha, rfl⟩
        exact ⟨a.isLt, by rw [if_pos ⟨a, ha, rfl⟩]; decide⟩
  exact List.map_injective_iff.2 (fun a b h => BitVec.eq_of_toNat_eq h) key

theorem co_ext {a b : List Int} (ha : a.length = 256) (hb : b.length = 256) (h : ∀ i, i < 256 → co a i = co b i) : a = b := by
  apply List.ext_getElem (by omega)
  intro i h1 h2
  have := h i (by omega)
  unfold co at this
  rwa [List.getD_eq_getElem?_getD, List.getD_eq_getElem?_getD, List.getElem?_eq_getElem h1, List.getElem?_eq_getElem h2] at this

theorem co_mem {a : List Int} {i : Nat} (h : i < a.length) : co a i ∈ a := by
  unfold co; rw [List.getD_eq_getElem?_getD, List.getElem?_eq_getElem h]; exact List.getElem_mem h

theorem setAll_positions {h : Poly} (hh : h.length = 256) (hb : ∀ c ∈ h, c = 0 ∨ c = 1) :
    setAll (List.replicate 256 0) (positions h) = h := by
  have hl : (List.replicate 256 (0 : Int)).length = 256 := List.length_replicate ..
  refine co_ext (by rw [length_setAll, hl]) hh fun i hi => ?_
  have hz : co (List.replicate 256 0) i = 0 := by
    unfold co; rw [List.getD_eq_getElem?_getD, List.getElem?_replicate]; split <;> rfl
  rw [co_setAll _ _ hl, hz]
  rcases hb _ (co_mem (i := i) (by omega)) with c | c
  · rw [if_neg, c]
    rintro ⟨x, hx, rfl⟩
    exact (mem_positions _ _).1 hx c
  · rw [if_pos, c]
    refine ⟨BitVec.ofNat 8 i, ?_, by rw [BitVec.toNat_ofNat]; omega⟩
    rw [mem_positions, BitVec.toNat_ofNat, Nat.mod_eq_of_lt (by omega), c]; decide

theorem setAll_bit (bs : Bytes) : ∀ c ∈ setAll (List.replicate 256 0) bs, c = 0 ∨ c = 1 := by
  have gen : ∀ (bs : Bytes) (h : Poly), (∀ c ∈ h, c = 0 ∨ c = 1) → ∀ c ∈ setAll h bs, c = 0 ∨ c = 1 := by
    intro bs
    induction bs with
    | nil => intro h hh; exact hh
    | cons b bs ih =>
      intro h hh
      show ∀ c ∈ setAll (h.set b.toNat 1) bs, _
      refine ih _ fun c hc => ?_
      rcases List.mem_or_eq_of_mem_set hc with e | e
      · exact hh _ e
      · exact Or.inr e
  exact gen bs _ fun c hc => Or.inl (List.eq_of_mem_replicate hc)

/-- Running totals starting from `k`. -/
def tot : Nat → Vec → Bytes
  | _, [] => []
  | k, h :: hs => BitVec.ofNat 8 (k + (positions h).length) :: tot (k + (positions h).length) hs

theorem length_tot (k : Nat) (hs : Vec) : (tot k hs).length = hs.length := by
  induction hs generalizing k with
  | nil => rfl
  | cons h hs ih => simp [tot, ih]

theorem tot_eq (k : Nat) (hs : Vec) : tot k hs = (List.range hs.length).map fun t => BitVec.ofNat 8 (k + ((hs.take (t + 1)).flatMap positions).length) := by
  induction hs generalizing k with
  | nil => rfl
  | cons h hs ih =>
    rw [tot, ih, List.length_cons, List.range_succ_eq_map, List.map_cons, List.map_map]
    refine congrArg₂ _ (by simp) ?_
    refine List.map_congr_left fun t _ => ?_
    simp only [Function.comp, List.take_succ_cons, List.flatMap_cons, List.length_append, Nat.add_assoc]

theorem unpackHints_iff {sig : Bytes} {o : Nat} (hl : o + 84 ≤ sig.length) (n i k : Nat) (hk : k ≤ 80) (hi : i + n ≤ 4) :
    ∃ r, unpackHints sig o i n k = .ok r ∧ ∀ hs k', r = some (hs, k') ↔
      (hs.length = n ∧ (∀ x ∈ hs, x.length = 256 ∧ ∀ c ∈ x, c = 0 ∨ c = 1) ∧ k' = k + weight hs ∧ k' ≤ 80 ∧
        slice sig (o + k) (weight hs) = hs.flatMap positions ∧ slice sig (o + 80 + i) n = tot k hs) := by
  induction n generalizing i k with
  | zero =>
    refine ⟨_, unpackHints.eq_1 .., fun hs k' => ?_⟩
    rw [Option.some.injEq, Prod.mk.injEq]
    constructor
    · rintro ⟨rfl, rfl⟩
      simp [weight, slice, tot, hk]
    · rintro ⟨h, _, hk', _⟩
      have := List.length_eq_zero_iff.1 h
      subst this
      simp [weight] at hk'
      exact ⟨rfl, hk'.symm⟩
  | succ n ih =>
    have hs0 : slice sig (o + 80 + i) (n + 1) = sig[o + 80 + i]'(by omega) :: slice sig (o + 80 + (i + 1)) n := by
      rw [slice_cons (List.getElem?_eq_getElem (show o + 80 + i < sig.length by omega)), Nat.add_assoc (o + 80)]
    rw [unpackHints.eq_2, rd_ok (by omega), ok_bind, hs0]
    generalize sig[o + 80 + i]'(by omega) = e
    have hend : ∀ (h : Poly) (hs : Vec) (k' : Nat), k' = k + weight (h :: hs) → k' ≤ 80 → e = BitVec.ofNat 8 (k + (positions h).length) → e.toNat = k + (positions h).length := by
      intro h hs k' h1 h2 h3
      simp only [weight, List.flatMap_cons, List.length_append] at h1
      rw [h3, BitVec.toNat_ofNat]
      omega
    by_cases c : e.toNat < k ∨ e.toNat > 80
    · rw [if_pos c]
      refine ⟨none, rfl, fun hs k' => ⟨fun h => (nomatch h), ?_⟩⟩
      rintro ⟨h1, h2, h3, h4, h5, h6⟩
      cases hs with
      | nil => simp at h1
      | cons h hs =>
        rw [tot, List.cons.injEq] at h6
        have := hend h hs k' h3 h4 h6.1
        simp only [weight, List.flatMap_cons, List.length_append] at h3
        omega
    · rw [if_neg c, unpackHintPoly_ok (by omega) (List.length_replicate ..), ok_bind]
      have hpos : ∀ (h : Poly) (hs : Vec), e.toNat = k + (positions h).length → slice sig (o + k) (weight (h :: hs)) = (h :: hs).flatMap positions →
          slice sig (o + k) (e.toNat - k) = positions h ∧ slice sig (o + e.toNat) (weight hs) = hs.flatMap positions := by
        intro h hs he hsl
        simp only [weight, List.flatMap_cons, List.length_append] at hsl
        unfold slice at hsl
        rw [List.take_add] at hsl
        have hle : (List.drop (o + k) sig).length ≥ (positions h).length := by rw [List.length_drop]; omega
        have := List.append_inj hsl (by rw [List.length_take]; omega)
        rw [List.drop_drop] at this
        refine ⟨?_, ?_⟩
        · rw [he, Nat.add_sub_cancel_left]; exact this.1
        · rw [he, ← Nat.add_assoc]; exact this.2
      by_cases d : (slice sig (o + k) (e.toNat - k)).IsChain Lt8
      · rw [if_pos d]
        obtain ⟨r, hr, hiff⟩ := ih (i + 1) e.toNat (by omega) (by omega)
        simp only
        rw [hr, ok_bind]
        have hp := positions_setAll d
        have hplen : (positions (setAll (List.replicate 256 0) (slice sig (o + k) (e.toNat - k)))).length = e.toNat - k := by
          rw [hp, length_slice (by omega)]
        cases r with
        | none =>
          refine ⟨none, rfl, fun hs k' => ⟨fun h => (nomatch h), ?_⟩⟩
          rintro ⟨h1, h2, h3, h4, h5, h6⟩
          cases hs with
          | nil => simp at h1
          | cons h hs =>
            rw [tot, List.cons.injEq] at h6
            have he := hend h hs k' h3 h4 h6.1
            have hp2 := hpos h hs he h5
            have := (hiff hs k').2 ⟨by simpa using h1, fun x hx => h2 x (List.mem_cons_of_mem _ hx),
              by rw [he, h3]; simp only [weight, List.flatMap_cons, List.length_append]; omega, h4, hp2.2, by rw [h6.2, he]⟩
            cases this
        | some p =>
          obtain ⟨hs1, k1⟩ := p
          refine ⟨some (setAll (List.replicate 256 0) (slice sig (o + k) (e.toNat - k)) :: hs1, k1), rfl, fun hs k' => ?_⟩
          have base := (hiff hs1 k1).1 rfl
          constructor
          · intro h
            rw [Option.some.injEq, Prod.mk.injEq] at h
            obtain ⟨rfl, rfl⟩ := h
            obtain ⟨b1, b2, b3, b4, b5, b6⟩ := base
            refine ⟨by rw [List.length_cons, b1], ?_, ?_, b4, ?_, ?_⟩
            · intro x hx
              rcases List.mem_cons.1 hx with rfl | hx
              · exact ⟨by rw [length_setAll]; exact List.length_replicate .., setAll_bit _⟩
              · exact b2 x hx
            · rw [b3]; simp only [weight, List.flatMap_cons, List.length_append]; rw [hplen]; omega
            · simp only [weight, List.flatMap_cons, List.length_append]
              rw [hplen, hp]
              refine Eq.trans ?_ (congrArg _ b5)
              unfold slice
              rw [List.take_add, List.drop_drop, show o + k + (e.toNat - k) = o + e.toNat by omega]
              rfl
            · rw [tot, hplen, show k + (e.toNat - k) = e.toNat by omega, b6]
              simp
          · rintro ⟨h1, h2, h3, h4, h5, h6⟩
            cases hs with
            | nil => simp at h1
            | cons h hs =>
              rw [tot, List.cons.injEq] at h6
              have he := hend h hs k' h3 h4 h6.1
              have hp2 := hpos h hs he h5
              have := (hiff hs k').2 ⟨by simpa using h1, fun x hx => h2 x (List.mem_cons_of_mem _ hx),
                by rw [he, h3]; simp only [weight, List.flatMap_cons, List.length_append]; omega, h4, hp2.2, by rw [h6.2, he]⟩
              rw [Option.some.injEq, Prod.mk.injEq] at this
              rw [this.1, this.2, hp2.1, setAll_positions (h2 h List.mem_cons_self).1 (h2 h List.mem_cons_self).2]
      · rw [if_neg d]
        refine ⟨none, rfl, fun hs k' => ⟨fun h => (nomatch h), ?_⟩⟩
        rintro ⟨h1, h2, h3, h4, h5, h6⟩
        cases hs with
        | nil => simp at h1
        | cons h hs =>
          rw [tot, List.cons.injEq] at h6
          have he := hend h hs k' h3 h4 h6.1
          have hp2 := hpos h hs he h5
          rw [hp2.1] at d
          exact absurd (positions_chain h) d

/-- What an encoded signature contains. -/
def SigParts (c : Bytes) (z h : Vec) : Prop :=
  c.length = 32 ∧ z.length = 4 ∧ (∀ x ∈ z, x.length = 256 ∧ ∀ v ∈ x, -131072 < v ∧ v ≤ 131072) ∧ IsHint h ∧ weight h ≤ 80

theorem slice_append_left {α : Type} {a b : List α} {o n : Nat} (h : o + n ≤ a.length) : slice (a ++ b) o n = slice a o n := by
  unfold slice
  rw [List.drop_append_of_le_length (by omega), List.take_append_of_le_length (by rw [List.length_drop]; omega)]

theorem slice_append_right {α : Type} {a b : List α} {o n : Nat} (h : a.length = o) : slice (a ++ b) o n = b.take n := by
  unfold slice
  rw [List.drop_append_of_le_length (by omega), List.drop_of_length_le (by omega), List.nil_append]

theorem slice_append_add {α : Type} {a b : List α} {o p n : Nat} (h : a.length = o) : slice (a ++ b) (o + p) n = slice b p n := by
  unfold slice
  rw [← List.drop_drop, List.drop_append_of_le_length (l₁ := a) (by omega), List.drop_of_length_le (l := a) (by omega), List.nil_append]

theorem slice_flatMap {α β : Type} {v : List α} {g : α → List β} {k i : Nat} (h : ∀ x ∈ v, (g x).length = k) (hi : i < v.length) :
    slice (v.flatMap g) (i * k) k = g (v[i]) := by
  induction v generalizing i with
  | nil => simp at hi
  | cons a v ih =>
    cases i with
    | zero =>
      rw [Nat.zero_mul, List.flatMap_cons, slice_append_left (by rw [h a List.mem_cons_self]; omega), ← h a List.mem_cons_self]
      unfold slice; simp
    | succ i =>
      rw [Nat.succ_mul, Nat.add_comm, List.flatMap_cons, slice_append_add (h a List.mem_cons_self),
        ih (fun x hx => h x (List.mem_cons_of_mem _ hx)) (by simpa using hi)]
      rfl

theorem slice_add {α : Type} (b : List α) (o n k : Nat) : slice b o (n + k) = slice b o n ++ slice b (o + n) k := by
  unfold slice
  rw [List.take_add, List.drop_drop]

theorem slice_four (b : Bytes) (o k : Nat) : slice b o (4 * k) = (List.range 4).flatMap fun i => slice b (o + i * k) k := by
  have : (List.range 4).flatMap (fun i => slice b (o + i * k) k) = slice b (o + 0 * k) k ++ (slice b (o + 1 * k) k ++ (slice b (o + 2 * k) k ++ slice b (o + 3 * k) k)) := by
    simp [List.range_succ]
  rw [this, show 4 * k = k + (k + (k + k)) by omega, slice_add, slice_add, slice_add, Nat.zero_mul, Nat.one_mul,
    show o + k + k = o + 2 * k by omega, show o + 2 * k + k = o + 3 * k by omega]
  rfl

/-- A vector is determined by the encodings of its components. -/
theorem vec_decode {z : Vec} (hz : z.length = 4) (g : Poly → Bytes) (u : Bytes → Poly) (k : Nat) (hg : ∀ x ∈ z, (g x).length = k) (hu : ∀ x ∈ z, u (g x) = x) :
    (vec fun i => u (slice (z.flatMap g) (i * k) k)) = z := by
  apply List.ext_getElem
  · simp [vec, hz]
  · intro i h1 h2
    simp only [vec, List.getElem_map, List.getElem_range]
    rw [slice_flatMap hg h2, hu _ (List.getElem_mem h2)]

theorem vec_encode (b : Bytes) (o k : Nat) (g : Poly → Bytes) (u : Bytes → Poly) (h : ∀ i, i < 4 → g (u (slice b (o + i * k) k)) = slice b (o + i * k) k) :
    (vec fun i => u (slice b (o + i * k) k)).flatMap g = slice b o (4 * k) := by
  rw [slice_four]
  unfold vec
  rw [List.flatMap_map]
  simp only [List.flatMap_def]
  refine congrArg _ (List.map_congr_left fun i hi => ?_)
  exact h i (List.mem_range.1 hi)

theorem vec_tot {h : Vec} (hh : h.length = 4) : (vec fun i => BitVec.ofNat 8 ((h.take (i + 1)).flatMap positions).length) = tot 0 h := by
  rw [tot_eq, hh]
  unfold vec
  simp

theorem split3 {α : Type} {b : List α} (i j k : Nat) (h : b.length = i + j + k) : b = slice b 0 i ++ slice b i j ++ slice b (i + j) k := by
  have e1 := slice_add b 0 (i + j) k
  have e2 := slice_add b 0 i j
  rw [Nat.zero_add] at e1 e2
  rw [← e2, ← e1, ← h, slice_zero_length]

theorem unpackSig_iff {sig : Bytes} (hs : sig.length = 2420) :
    ∃ r, unpackSig sig = .ok r ∧ ∀ c z h, r = some (c, z, h) ↔ (SigParts c z h ∧ sig = encodeSig c z h) := by
  unfold unpackSig
  rw [copy_from (by omega), ok_bind, vecUnpack_ok (g := fun i => unpackAt 18 131072 (slice sig (32 + i * 576) 576)) (fun i hi => polyzUnpack_ok (by omega)), ok_bind]
  obtain ⟨r, hr, hiff⟩ := unpackHints_iff (sig := sig) (o := 2336) (by omega) 4 0 0 (by omega) (by omega)
  rw [hr, ok_bind]
  -- decomposition of an encoded signature
  have dec : ∀ c z h, SigParts c z h → sig = encodeSig c z h →
      slice sig 0 32 = c ∧ (vec fun i => unpackAt 18 131072 (slice sig (32 + i * 576) 576)) = z ∧
      slice sig 2336 (weight h) = h.flatMap positions ∧ slice sig (2336 + weight h) (80 - weight h) = List.replicate (80 - weight h) 0 ∧
      slice sig 2416 4 = tot 0 h := by
    intro c z h ⟨h1, h2, h3, h4, h5⟩ he
    have hZ : (z.flatMap (packAt 18 131072)).length = 2304 := length_flatMap_vec h2 fun x hx => length_packAt (h3 x hx).1
    have hcz : (c ++ z.flatMap (packAt 18 131072)).length = 2336 := by rw [List.length_append]; omega
    unfold encodeSig at he
    refine ⟨?_, ?_, ?_, ?_, ?_⟩
    · rw [he, List.append_assoc, slice_append_left (by omega), ← h1, slice_zero_length]
    · rw [← vec_decode h2 (packAt 18 131072) (unpackAt 18 131072) 576 (fun x hx => length_packAt (h3 x hx).1)
        (fun x hx => unpackAt_packAt (h3 x hx).1 (fun v hv => by have := (h3 x hx).2 v hv; omega))]
      unfold vec
      refine List.map_congr_left fun i hi => ?_
      have := List.mem_range.1 hi
      rw [he, slice_append_left (by omega), slice_append_add h1]
    · rw [he, slice_append_right hcz]
      unfold packHint
      simp only
      rw [List.append_assoc]
      exact List.take_left
    · rw [he, slice_append_add hcz]
      unfold packHint
      simp only
      rw [List.append_assoc]
      have := slice_append_right (a := h.flatMap positions) (b := List.replicate (80 - (h.flatMap positions).length) (0 : Byte) ++ vec fun i => BitVec.ofNat 8 ((h.take (i + 1)).flatMap positions).length) (o := weight h) (n := 80 - weight h) rfl
      rw [this]
      have := List.take_left (l₁ := List.replicate (80 - weight h) (0 : Byte)) (l₂ := vec fun i => BitVec.ofNat 8 ((h.take (i + 1)).flatMap positions).length)
      rw [List.length_replicate] at this
      exact this
    · rw [he, show 2416 = 2336 + 80 by rfl, slice_append_add hcz]
      unfold packHint
      simp only
      rw [slice_append_right (by rw [List.length_append, List.length_replicate]; unfold weight at h5; omega), vec_tot h4.1, List.take_of_length_le]
      rw [length_tot, h4.1]
  cases r with
  | none =>
    refine ⟨none, rfl, fun c z h => ⟨fun h => (nomatch h), fun ⟨hp, he⟩ => ?_⟩⟩
    obtain ⟨_, _, d3, _, d5⟩ := dec c z h hp he
    obtain ⟨h1, h2, h3, h4, h5⟩ := hp
    have := (hiff h (weight h)).2 ⟨h4.1, h4.2, (Nat.zero_add _).symm, h5, d3, d5⟩
    cases this
  | some p =>
    obtain ⟨h0, k⟩ := p
    obtain ⟨b1, b2, b3, b4, b5, b6⟩ := (hiff h0 k).1 rfl
    rw [Nat.zero_add] at b3
    subst b3
    obtain ⟨b, hb, hbt⟩ := anyBad_ok (f := fun j => do
      let x ← rd sig (2336 + j)
      .ok (decide (x ≠ 0))) (g := fun j => decide (sig.getD (2336 + j) 0 ≠ 0)) (weight h0) (80 - weight h0) (fun j h1 h2 => by
        rw [rd_ok (by omega), ok_bind, List.getD_eq_getElem?_getD, List.getElem?_eq_getElem (by omega)]; rfl)
    simp only
    rw [hb, ok_bind]
    have hzero : slice sig (2336 + weight h0) (80 - weight h0) = List.replicate (80 - weight h0) 0 ↔ b = false := by
      constructor
      · intro hz
        cases b with
        | false => rfl
        | true =>
          obtain ⟨j, j1, j2, j3⟩ := hbt.1 rfl
          have := congrArg (fun l => l[j - weight h0]?) hz
          simp only [getElem?_slice, List.getElem?_replicate] at this
          rw [if_pos (by omega), if_pos (by omega), show 2336 + weight h0 + (j - weight h0) = 2336 + j by omega] at this
          rw [List.getD_eq_getElem?_getD, this] at j3
          simp at j3
      · rintro rfl
        apply List.ext_getElem?
        intro j
        rw [getElem?_slice, List.getElem?_replicate]
        split
        · rename_i hj
          have : ¬ (decide (sig.getD (2336 + (weight h0 + j)) 0 ≠ 0) = true) := fun c => by
            have := hbt.2 ⟨weight h0 + j, by omega, by omega, c⟩; cases this
          rw [decide_eq_true_eq, not_not, List.getD_eq_getElem?_getD, List.getElem?_eq_getElem (by omega)] at this
          rw [Nat.add_assoc, List.getElem?_eq_getElem (by omega)]
          exact congrArg some this
        · rfl
    have uniq : ∀ c z h, SigParts c z h → sig = encodeSig c z h → h = h0 := by
      intro c z h hp he
      obtain ⟨_, _, d3, _, d5⟩ := dec c z h hp he
      obtain ⟨h1, h2, h3, h4, h5⟩ := hp
      have := (hiff h (weight h)).2 ⟨h4.1, h4.2, (Nat.zero_add _).symm, h5, d3, d5⟩
      rw [Option.some.injEq, Prod.mk.injEq] at this
      exact this.1.symm
    cases b with
    | true =>
      refine ⟨none, rfl, fun c z h => ⟨fun h => (nomatch h), fun ⟨hp, he⟩ => ?_⟩⟩
      have hh := uniq c z h hp he
      subst hh
      obtain ⟨_, _, _, d4, _⟩ := dec c z h hp he
      exact nomatch hzero.1 d4
    | false =>
      refine ⟨_, rfl, fun c z h => ?_⟩
      rw [Option.some.injEq, Prod.mk.injEq, Prod.mk.injEq]
      constructor
      · rintro ⟨rfl, rfl, rfl⟩
        refine ⟨⟨length_slice (by omega), by simp [vec], ?_, ⟨b1, b2⟩, b4⟩, ?_⟩
        · intro x hx
          obtain ⟨i, _, rfl⟩ := List.mem_map.1 hx
          exact ⟨length_unpackAt, fun v hv => by have := unpackAt_bound v hv; omega⟩
        · unfold encodeSig packHint
          simp only
          rw [vec_encode sig 32 576 (packAt 18 131072) (unpackAt 18 131072) (fun i hi => packAt_unpackAt (by rw [length_slice (by omega)])), vec_tot b1]
          have z := hzero.2 rfl
          unfold weight at z b5 b4
          rw [← z]
          conv_rhs => rw [show h0.flatMap positions ++ slice sig (2336 + (h0.flatMap positions).length) (80 - (h0.flatMap positions).length) ++ tot 0 h0 = slice sig 2336 84 from by
            rw [show 84 = (h0.flatMap positions).length + (80 - (h0.flatMap positions).length) + 4 by omega, slice_add, slice_add,
              show 2336 + ((h0.flatMap positions).length + (80 - (h0.flatMap positions).length)) = 2336 + 80 by omega, b5, b6]]
          exact split3 32 2304 84 (by omega)
      · rintro ⟨hp, he⟩
        have hh := uniq c z h hp he
        obtain ⟨d1, d2, _⟩ := dec c z h hp he
        exact ⟨d1, d2, hh.symm⟩

end Verif.Dilithium
