import Verif.Hybrid.Exec

/-!
Helper lemmas between the symbolic execution results and the property theorems.
-/

namespace Verif.Hybrid
open Verif

variable {P : Prims}

theorem zeros_eq (n : Nat) : zeros n = List.replicate n 0 := rfl

theorem slice_eq (b : Bytes) (o n : Nat) : slice b o n = (b.drop o).take n := rfl

theorem slice_append_slice {b : Bytes} {o n k : Nat} : slice b o n ++ slice b (o + n) k = slice b o (n + k) := by
  rw [slice_eq, slice_eq, slice_eq, ← List.drop_drop]
  rw [List.take_add]

theorem slice_append_left {x y : Bytes} {o n : Nat} (h : o + n ≤ x.length) : slice (x ++ y) o n = slice x o n := by
  rw [slice_eq, slice_eq, List.drop_append_of_le_length (by omega), List.take_append_of_le_length (by simp; omega)]

theorem slice_append_right {x y : Bytes} {o n : Nat} (h : x.length ≤ o) : slice (x ++ y) o n = slice y (o - x.length) n := by
  rw [slice_eq, slice_eq, List.drop_append, List.drop_eq_nil_of_le h, List.nil_append]

theorem slice_here {x y z : Bytes} {o n : Nat} (h : x.length = o) (hy : y.length = n) : slice (x ++ (y ++ z)) o n = y := by
  subst h hy
  rw [slice_append_right (Nat.le_refl _), Nat.sub_self, slice_append_left (by omega), slice_full rfl]

theorem slice_last {x y : Bytes} {o n : Nat} (h : x.length = o) (hy : y.length = n) : slice (x ++ y) o n = y := by
  subst h hy
  rw [slice_append_right (Nat.le_refl _), Nat.sub_self, slice_full rfl]

theorem cons2_drop {b : Bytes} (h : 2 ≤ b.length) : b = b.getD 0 0 :: b.getD 1 0 :: b.drop 2 := by
  match b, h with
  | x :: y :: t, _ => rfl

/-- `sig ++ msg` in a 128-byte array. -/
theorem splice_zeros_pad {x : Bytes} (_h : x.length ≤ 128) :
    splice (zeros 128) 0 x = x ++ List.replicate (128 - x.length) 0 := by
  unfold splice
  rw [zeros, List.drop_replicate]
  simp

theorem toInt32_small {n : Nat} (h : n ≤ 64) : toInt32 n = n := by
  unfold toInt32
  rw [BitVec.toInt_ofNat']
  have : (n : Int).bmod (2 ^ 32) = n := by
    apply Int.bmod_eq_of_le <;> omega
  simpa using this

theorem wire_full_slices {ed msg dil spx : Bytes} (h1 : ed.length = 64) (h2 : dil.length = 2420) (h3 : spx.length = 49856)
    (hm : msg.length ≤ 64) :
    let sb := fullWire ed msg dil spx
    sb.length = 52342 + msg.length ∧ sb.getD 0 0 = 2 ∧ (sb.getD 1 0).toNat = msg.length ∧
    slice sb 2 (64 + msg.length) = ed ++ msg ∧ slice sb (66 + msg.length) 2420 = dil ∧
    slice sb (2486 + msg.length) 49856 = spx ∧ slice sb 2 64 = ed := by
  intro sb
  have e : sb = [2, BitVec.ofNat 8 msg.length] ++ (ed ++ msg ++ dil ++ spx) := rfl
  refine ⟨?_, rfl, ?_, ?_, ?_, ?_, ?_⟩
  · simp [sb, fullWire]; omega
  · show (BitVec.ofNat 8 msg.length).toNat = _
    rw [BitVec.toNat_ofNat]; omega
  · rw [e]
    have : ed ++ msg ++ dil ++ spx = (ed ++ msg) ++ (dil ++ spx) := by simp
    rw [this]
    exact slice_here rfl (by simp; omega)
  · rw [e]
    have : [2, BitVec.ofNat 8 msg.length] ++ (ed ++ msg ++ dil ++ spx) =
      ([2, BitVec.ofNat 8 msg.length] ++ (ed ++ msg)) ++ (dil ++ spx) := by simp
    rw [this]
    exact slice_here (by simp; omega) h2
  · rw [e]
    have : [2, BitVec.ofNat 8 msg.length] ++ (ed ++ msg ++ dil ++ spx) =
      ([2, BitVec.ofNat 8 msg.length] ++ (ed ++ msg ++ dil)) ++ spx := by simp
    rw [this]
    exact slice_last (by simp; omega) h3
  · rw [e]
    have : ed ++ msg ++ dil ++ spx = ed ++ (msg ++ (dil ++ spx)) := by simp
    rw [this]
    exact slice_here rfl h1

theorem wire_compact_slices {ed dil nonce msg : Bytes} (h1 : ed.length = 64) (h2 : dil.length = 2420)
    (h3 : nonce.length = 40) (hm : msg.length ≤ 64) :
    let sb := compactWire ed dil nonce msg
    sb.length = 2526 + msg.length ∧ sb.getD 0 0 = 1 ∧ (sb.getD 1 0).toNat = msg.length ∧
    slice sb 2 64 = ed ∧ slice sb 66 2420 = dil ∧ slice sb 2486 40 = nonce ∧ slice sb 2526 msg.length = msg := by
  intro sb
  have e : sb = [1, BitVec.ofNat 8 msg.length] ++ (ed ++ dil ++ nonce ++ msg) := rfl
  refine ⟨?_, rfl, ?_, ?_, ?_, ?_, ?_⟩
  · simp [sb, compactWire]; omega
  · show (BitVec.ofNat 8 msg.length).toNat = _
    rw [BitVec.toNat_ofNat]; omega
  · rw [e]
    have : ed ++ dil ++ nonce ++ msg = ed ++ (dil ++ nonce ++ msg) := by simp
    rw [this]
    exact slice_here rfl h1
  · rw [e]
    have : [1, BitVec.ofNat 8 msg.length] ++ (ed ++ dil ++ nonce ++ msg) =
      ([1, BitVec.ofNat 8 msg.length] ++ ed) ++ (dil ++ (nonce ++ msg)) := by simp
    rw [this]
    exact slice_here (by simp; omega) h2
  · rw [e]
    have : [1, BitVec.ofNat 8 msg.length] ++ (ed ++ dil ++ nonce ++ msg) =
      ([1, BitVec.ofNat 8 msg.length] ++ (ed ++ dil)) ++ (nonce ++ msg) := by simp
    rw [this]
    exact slice_here (by simp; omega) h3
  · rw [e]
    have : [1, BitVec.ofNat 8 msg.length] ++ (ed ++ dil ++ nonce ++ msg) =
      ([1, BitVec.ofNat 8 msg.length] ++ (ed ++ dil ++ nonce)) ++ msg := by simp
    rw [this]
    exact slice_last (by simp; omega) rfl

theorem fullOpen_iff (hE : P.EdShape) {sb pkb msg : Bytes} :
    fullOpen P sb pkb = .ok (.ok msg) ↔ FullValid P pkb msg sb := by
  constructor
  · intro h
    unfold fullOpen at h
    simp only at h
    split at h
    · simp at h
    rename_i c1
    split at h
    · simp at h
    rename_i c2
    split at h
    · simp at h
    rename_i c3
    split at h
    · simp at h
    rename_i c4
    simp only [not_not, not_or, Nat.not_lt, Nat.not_le] at c1 c2 c3 c4
    obtain ⟨⟨r1, out, l⟩, he, h⟩ := bind_eq_ok.1 h
    simp only at h
    split at h
    · simp at h
    split at h
    · simp at h
    rename_i c5 c6
    simp only [not_not] at c5 c6
    obtain ⟨r2, hd, h⟩ := bind_eq_ok.1 h
    split at h
    · simp at h
    rename_i c7
    obtain ⟨r3, hs, h⟩ := bind_eq_ok.1 h
    split at h
    · simp at h
    rename_i c8
    simp only [not_not] at c7 c8
    simp only [Except.ok.injEq] at h
    subst c5 c7 c8
    generalize hn : (sb.getD 1 0).toNat = n at *
    have hpad : splice (zeros 128) 0 (slice sb 2 (64 + n)) =
        slice sb 2 64 ++ slice sb 66 n ++ List.replicate (64 - n) 0 := by
      rw [splice_zeros_pad (by rw [length_slice (by omega)]; omega), length_slice (by omega), slice_append_slice]
      congr 2; omega
    rw [hpad] at he
    have l1 : (slice sb 2 64).length = 64 := length_slice (by omega)
    have l2 : (slice sb 66 n).length = n := length_slice (by omega)
    obtain ⟨hl, ho⟩ := hE.open_ _ _ _ _ _ (by simp [l1, l2]; omega) (by omega) (by omega) he
    have hl' : l = n := by omega
    subst hl'
    have ho' : out.take l = slice sb 66 l := by
      rw [ho, ← slice_eq, List.append_assoc]; exact slice_here l1 l2
    rw [ho'] at h hd hs
    subst h
    refine ⟨by omega, by omega, slice sb 2 64, slice sb (66 + l) 2420, slice sb (2486 + l) 49856, l1,
      length_slice (by omega), length_slice (by omega), ?_, ⟨out, l, ?_⟩, hd, hs⟩
    · rw [fullWire, l2, slice_append_slice, slice_append_slice' (by omega), slice_append_slice' (by omega)]
      conv_lhs => rw [cons2_drop (b := sb) (by omega)]
      congr 1
      · exact BitVec.eq_of_toNat_eq c2
      congr 1
      · apply BitVec.eq_of_toNat_eq; rw [hn, BitVec.toNat_ofNat]; omega
      · rw [slice_eq, List.take_of_length_le (by simp; omega)]
    · rw [l1, l2]; exact he
  · rintro ⟨h1, h2, ed, dil, spx, l1, l2, l3, rfl, ⟨out, len, he⟩, hd, hs⟩
    obtain ⟨e1, e2, e3, e4, e5, e6, -⟩ := wire_full_slices (msg := msg) l1 l2 l3 h2
    unfold fullOpen
    rw [if_neg (by rw [e1]; omega), if_neg (by rw [e2]; simp)]
    simp only
    rw [if_neg (by rw [e3]; omega), if_neg (by rw [e3]; omega), e3, e4, e5, e6]
    rw [splice_zeros_pad (by simp; omega)]
    have hlen : 128 - (ed ++ msg).length = 64 - msg.length := by simp; omega
    rw [l1] at he
    rw [hlen]
    obtain ⟨hl, ho⟩ := hE.open_ _ _ _ _ _ (by simp; omega) (by omega) (by omega) he
    have ho' : out.take msg.length = msg := by
      rw [show len = msg.length by omega] at ho
      rw [ho, ← slice_eq, List.append_assoc]; exact slice_here l1 rfl
    have he' : P.edOpen (zeros 128) 0 (ed ++ msg ++ List.replicate (64 - msg.length) 0) (64 + msg.length) (slice pkb 0 32) = .ok (0, out, len) := he
    rw [he']
    simp only [ok_bind]
    rw [if_neg (by simp), if_neg (by rw [show len = msg.length by omega, toInt32_small h2]; simp), ho']
    have hd' : P.dilVerify dil msg (slice pkb 32 1312) = .ok 0 := hd
    have hs' : P.spxVerify spx msg (slice pkb 1344 64) = .ok 0 := hs
    rw [hd', ok_bind, if_neg (by simp), hs', ok_bind, if_neg (by simp)]
where
  slice_append_slice' {b : Bytes} {o n k p : Nat} (h : o + n = p) : slice b o n ++ slice b p k = slice b o (n + k) := by
    subst h; exact slice_append_slice

theorem compactOpen_iff (hP : P.Sized) (hE : P.EdShape) {sb pkb msg : Bytes} :
    compactOpen P sb pkb = .ok (.ok msg) ↔ CompactValid P pkb msg sb := by
  constructor
  · intro h
    unfold compactOpen at h
    simp only at h
    split at h
    · simp at h
    rename_i c1
    split at h
    · simp at h
    rename_i c2
    split at h
    · simp at h
    rename_i c3
    split at h
    · simp at h
    rename_i c4
    simp only [not_not, not_or, Nat.not_lt, Nat.not_le] at c1 c2 c3 c4
    obtain ⟨⟨r1, out, l⟩, he, h⟩ := bind_eq_ok.1 h
    simp only at h
    split at h
    · simp at h
    split at h
    · simp at h
    split at h
    · simp at h
    rename_i c5 c6 c7
    simp only [not_not] at c5 c6
    obtain ⟨r2, hd, h⟩ := bind_eq_ok.1 h
    split at h
    · simp at h
    rename_i c8
    simp only [not_not] at c8
    simp only [Except.ok.injEq] at h
    subst c5 c8
    generalize hn : (sb.getD 1 0).toNat = n at *
    have l1 : (slice sb 2 64).length = 64 := length_slice (by omega)
    have l2 : (slice sb 66 2420).length = 2420 := length_slice (by omega)
    have l3 : (slice sb 2486 40).length = 40 := length_slice (by omega)
    have l4 : (slice sb 2526 n).length = n := length_slice (by omega)
    subst h
    refine ⟨by omega, by omega, slice sb 2 64, slice sb 66 2420, slice sb 2486 40, l1, l2, l3, ?_, ⟨out, l, ?_⟩, hd⟩
    · rw [compactWire, l4, slice_append_slice, slice_append_slice, slice_append_slice]
      conv_lhs => rw [cons2_drop (b := sb) (by omega)]
      congr 1
      · exact BitVec.eq_of_toNat_eq c2
      congr 1
      · apply BitVec.eq_of_toNat_eq; rw [hn, BitVec.toNat_ofNat]; omega
      · rw [slice_eq, List.take_of_length_le (by simp; omega)]
    · have : (compactHash P (slice sb 2486 40) (slice sb 2526 n) (pkSpx pkb)).length = 64 := hP.sha3_512 _
      rw [this, l1]
      simp only [Nat.sub_self, List.replicate_zero, List.append_nil]
      exact he
  · rintro ⟨h1, h2, ed, dil, nonce, l1, l2, l3, rfl, ⟨out, len, he⟩, hd⟩
    obtain ⟨e1, e2, e3, e4, e5, e6, e7⟩ := wire_compact_slices (msg := msg) l1 l2 l3 h2
    unfold compactOpen
    rw [if_neg (by rw [e1]; omega), if_neg (by rw [e2]; simp)]
    simp only
    rw [if_neg (by rw [e3]; omega), if_neg (by rw [e3]; omega), e3, e4, e5, e6, e7]
    have hh : (compactHash P nonce msg (pkSpx pkb)).length = 64 := hP.sha3_512 _
    rw [hh, l1] at he
    simp only [Nat.sub_self, List.replicate_zero, List.append_nil] at he
    obtain ⟨hl, ho⟩ := hE.open_ _ _ _ _ _ (by simp; omega) (by omega) (by omega) he
    subst hl
    have ho' : out.take 64 = compactHash P nonce msg (pkSpx pkb) := by
      rw [← slice_eq] at ho
      simpa using ho.trans (slice_last l1 hh)
    have he' : P.edOpen (zeros 128) 0 (ed ++ P.sha3_512 (nonce ++ msg ++ slice pkb 1344 64)) 128 (slice pkb 0 32) = .ok (0, out, 64) := he
    rw [he']
    simp only [ok_bind]
    rw [if_neg (by simp), if_neg (by simp), if_neg (not_not.2 (show out.take 64 = P.sha3_512 (nonce ++ msg ++ slice pkb 1344 64) from ho'))]
    have hd' : P.dilVerify dil (P.sha3_512 (nonce ++ msg ++ slice pkb 1344 64)) (slice pkb 32 1312) = .ok 0 := hd
    rw [hd', ok_bind, if_neg (by simp)]

/-! ### Signers -/

theorem liftCR_eq_ok {α : Type} {x : C α} {R R' : Rng} {a : α} (h : liftCR x R = .ok (a, R')) : x = .ok a ∧ R' = R := by
  unfold liftCR at h
  split at h
  · simp only [Except.ok.injEq, Prod.mk.injEq] at h; obtain ⟨rfl, rfl⟩ := h; exact ⟨rfl, rfl⟩
  · simp at h

theorem fullSig_ok (hP : P.Sized) (hE : P.EdShape) {mb skb sig : Bytes} {R R' : Rng} (hm : mb.length ≤ 64)
    (h : fullSig P mb skb R = .ok (.ok sig, R')) :
    ∃ b1 b2 b3, P.edSign (zeros 128) 0 mb (slice skb 0 64) = .ok (0, b1, 64 + mb.length) ∧
      P.dilSign (zeros 2420) 0 mb (slice skb 64 2560) = .ok (0, b2, 2420) ∧
      P.spxSign (zeros 49856) 0 mb (slice skb 3936 128) R = .ok ((0, b3, 49856), R') ∧
      sig = fullWire (b1.take 64) mb b2 b3 ∧ b1.length = 128 ∧ b2.length = 2420 ∧ b3.length = 49856 := by
  unfold fullSig at h
  simp only [RandM_bind_apply] at h
  obtain ⟨⟨⟨r1, b1, n1⟩, R1⟩, h1, ha⟩ := bind_eq_ok.1 h
  clear h
  obtain ⟨⟨⟨r2, b2, n2⟩, R2⟩, h2, hb⟩ := bind_eq_ok.1 ha
  clear ha
  obtain ⟨⟨⟨r3, b3, n3⟩, R3⟩, h3, h⟩ := bind_eq_ok.1 hb
  clear hb
  replace h1 := liftCR_eq_ok h1
  obtain ⟨h1, rfl⟩ := h1
  replace h2 := liftCR_eq_ok h2
  obtain ⟨h2, rfl⟩ := h2
  simp only at h h3
  split at h
  · simp at h
  split at h
  · simp at h
  split at h
  · simp at h
  split at h
  · simp at h
  split at h
  · simp at h
  split at h
  · simp at h
  rename_i c1 c2 c3 c4 c5 c6
  simp only [not_not] at c1 c2 c3 c4 c5 c6
  subst c1 c2 c3 c4 c5 c6
  simp only [RandM_pure_apply, Except.ok.injEq, Prod.mk.injEq] at h
  obtain ⟨h, rfl⟩ := h
  have hl1 := hP.edSign _ _ _ _ _ _ _ h1
  have hl2 := hP.dilSign _ _ _ _ _ _ _ h2
  have hl3 := hP.spxSign _ _ _ _ _ _ _ _ _ h3
  simp only [length_zeros] at hl1 hl2 hl3
  refine ⟨b1, b2, b3, h1, h2, h3, ?_, hl1, hl2, hl3⟩
  rw [← h, fullWire]
  obtain ⟨-, hs⟩ := hE.sign _ _ _ _ hm h1
  have : b1.take (64 + mb.length) = b1.take 64 ++ mb := by rw [List.take_add, hs]
  simp [this]

theorem compactSig_ok (hP : P.Sized) {mb skb sig : Bytes} {R R' : Rng}
    (h : compactSig P mb skb R = .ok (.ok sig, R')) :
    ∃ nonce b1 b2, R.draw R.log.length 40 = some nonce ∧ R' = { R with log := R.log ++ [(40, some nonce)] } ∧
      P.edSign (zeros 128) 0 (P.sha3_512 (nonce ++ mb ++ slice skb 4000 64)) (slice skb 0 64) = .ok (0, b1, 128) ∧
      P.dilSign (zeros 2420) 0 (P.sha3_512 (nonce ++ mb ++ slice skb 4000 64)) (slice skb 64 2560) = .ok (0, b2, 2420) ∧
      sig = compactWire (b1.take 64) b2 nonce mb ∧ b1.length = 128 ∧ b2.length = 2420 ∧ nonce.length = 40 := by
  unfold compactSig at h
  simp only [RandM_bind_apply] at h
  obtain ⟨⟨o, R1⟩, h0, ha⟩ := bind_eq_ok.1 h
  clear h
  simp only [randombytes, Except.ok.injEq, Prod.mk.injEq] at h0
  obtain ⟨h0, h0'⟩ := h0
  cases o with
  | none => simp at ha
  | some nonce =>
    simp only [RandM_bind_apply] at ha
    obtain ⟨⟨⟨r1, b1, n1⟩, R2⟩, h1, hb⟩ := bind_eq_ok.1 ha
    clear ha
    obtain ⟨⟨⟨r2, b2, n2⟩, R3⟩, h2, h⟩ := bind_eq_ok.1 hb
    clear hb
    replace h1 := liftCR_eq_ok h1
    obtain ⟨h1, rfl⟩ := h1
    replace h2 := liftCR_eq_ok h2
    obtain ⟨h2, rfl⟩ := h2
    simp only at h
    split at h
    · simp at h
    split at h
    · simp at h
    split at h
    · simp at h
    split at h
    · simp at h
    rename_i c1 c2 c3 c4
    simp only [not_not] at c1 c2 c3 c4
    subst c1 c2 c3 c4
    simp only [RandM_pure_apply, Except.ok.injEq, Prod.mk.injEq] at h
    obtain ⟨h, rfl⟩ := h
    have hl1 := hP.edSign _ _ _ _ _ _ _ h1
    have hl2 := hP.dilSign _ _ _ _ _ _ _ h2
    simp only [length_zeros] at hl1 hl2
    have hln := R.len_draw _ _ _ h0
    refine ⟨nonce, b1, b2, h0, by rw [← h0', h0], h1, h2, ?_, hl1, hl2, hln⟩
    rw [← h, compactWire]
    simp

/-! ### Calls that leave memory alone -/

/-- The computation does not change memory. -/
def Keeps {α : Type} (x : M α) : Prop := ∀ W a W', x W = .ok (a, W') → W'.mem = W.mem ∧ W'.sp = W.sp

/-- The computation does not change memory when it returns a nonzero code. -/
def FailKeeps (x : M Int) : Prop := ∀ W r W', x W = .ok (r, W') → r ≠ 0 → W'.mem = W.mem ∧ W'.sp = W.sp

theorem Keeps.bind {α β : Type} {x : M α} {f : α → M β} (hx : Keeps x) (hf : ∀ a, Keeps (f a)) : Keeps (x >>= f) := by
  intro W b W' h
  rw [M_bind_apply] at h
  obtain ⟨⟨a, W1⟩, h1, h2⟩ := bind_eq_ok.1 h
  obtain ⟨e1, e2⟩ := hx _ _ _ h1
  obtain ⟨e3, e4⟩ := hf _ _ _ _ h2
  exact ⟨e3.trans e1, e4.trans e2⟩

theorem Keeps.pure {α : Type} (a : α) : Keeps (pure a : M α) := by
  intro W b W' h
  simp only [M_pure_apply, Except.ok.injEq, Prod.mk.injEq] at h
  rw [h.2]; exact ⟨rfl, rfl⟩

theorem Keeps.liftC {α : Type} (x : C α) : Keeps (Verif.liftC x) := by
  intro W b W' h
  unfold Verif.liftC at h
  split at h
  · simp only [Except.ok.injEq, Prod.mk.injEq] at h; rw [h.2]; exact ⟨rfl, rfl⟩
  · simp at h

theorem Keeps.liftR {α : Type} (x : RandM α) : Keeps (Verif.liftR x) := by
  intro W b W' h
  unfold Verif.liftR at h
  split at h
  · simp only [Except.ok.injEq, Prod.mk.injEq] at h; rw [← h.2]; exact ⟨rfl, rfl⟩
  · simp at h

theorem Keeps.load (p : Ptr) (i : Nat) : Keeps (Verif.load p i) := by
  intro W b W' h
  unfold Verif.load at h
  split at h
  · simp at h
  · split at h
    · simp only [Except.ok.injEq, Prod.mk.injEq] at h; rw [h.2]; exact ⟨rfl, rfl⟩
    · simp at h

theorem Keeps.loopM {σ : Type} {f : Nat → σ → M σ} (hf : ∀ i s, Keeps (f i s)) (i n : Nat) (s : σ) :
    Keeps (Verif.loopM f i n s) := by
  induction n generalizing i s with
  | zero => exact Keeps.pure _
  | succ n ih => exact Keeps.bind (hf _ _) fun a => ih _ _

theorem Keeps.copyIn (dst : Bytes) (d : Nat) (p : Ptr) (o n : Nat) : Keeps (Verif.copyIn dst d p o n) :=
  Keeps.loopM (fun _ _ => Keeps.bind (Keeps.load _ _) fun _ => Keeps.liftC _) _ _ _

theorem Keeps.readMem (p : Ptr) (n : Nat) : Keeps (Verif.readMem p n) := Keeps.copyIn _ _ _ _ _

theorem Keeps.ite {α : Type} {c : Prop} [Decidable c] {x y : M α} (hx : Keeps x) (hy : Keeps y) :
    Keeps (if c then x else y) := by split <;> assumption

theorem FailKeeps.bind {α : Type} {x : M α} {f : α → M Int} (hx : Keeps x) (hf : ∀ a, FailKeeps (f a)) :
    FailKeeps (x >>= f) := by
  intro W b W' h hb
  rw [M_bind_apply] at h
  obtain ⟨⟨a, W1⟩, h1, h2⟩ := bind_eq_ok.1 h
  obtain ⟨e1, e2⟩ := hx _ _ _ h1
  obtain ⟨e3, e4⟩ := hf _ _ _ _ h2 hb
  exact ⟨e3.trans e1, e4.trans e2⟩

theorem FailKeeps.pure (a : Int) : FailKeeps (pure a : M Int) := fun W r W' h _ => Keeps.pure a W r W' h

theorem FailKeeps.ite {c : Prop} [Decidable c] {x y : M Int} (hx : FailKeeps x) (hy : FailKeeps y) :
    FailKeeps (if c then x else y) := by split <;> assumption

/-- A computation that can only return 0. -/
def OnlyZero (x : M Int) : Prop := ∀ W r W', x W = .ok (r, W') → r = 0

theorem OnlyZero.bind {α : Type} {x : M α} {f : α → M Int} (hf : ∀ a, OnlyZero (f a)) : OnlyZero (x >>= f) := by
  intro W b W' h
  rw [M_bind_apply] at h
  obtain ⟨⟨a, W1⟩, h1, h2⟩ := bind_eq_ok.1 h
  exact hf _ _ _ _ h2

theorem OnlyZero.pure : OnlyZero (pure 0 : M Int) := by
  intro W b W' h
  simp only [M_pure_apply, Except.ok.injEq, Prod.mk.injEq] at h
  exact h.1.symm

theorem OnlyZero.fail {x : M Int} (h : OnlyZero x) : FailKeeps x := fun W r W' e hr => absurd (h W r W' e) hr

theorem bind_eq_error {α β : Type} {x : C α} {f : α → C β} {e : Fault} :
    (x >>= f) = .error e ↔ x = .error e ∨ ∃ a, x = .ok a ∧ f a = .error e := by
  cases x with
  | error e => simp
  | ok a => simp

theorem fullSig_code {mb skb : Bytes} {R R' : Rng} {c : Int} (h : fullSig P mb skb R = .ok (.error c, R')) : c ≠ 0 := by
  unfold fullSig at h
  simp only [RandM_bind_apply] at h
  obtain ⟨⟨⟨r1, b1, n1⟩, R1⟩, h1, ha⟩ := bind_eq_ok.1 h
  obtain ⟨⟨⟨r2, b2, n2⟩, R2⟩, h2, hb⟩ := bind_eq_ok.1 ha
  obtain ⟨⟨⟨r3, b3, n3⟩, R3⟩, h3, hc⟩ := bind_eq_ok.1 hb
  simp only at hc
  split at hc
  · simp at hc; omega
  split at hc
  · simp at hc; omega
  split at hc
  · simp at hc; omega
  split at hc
  · simp at hc; omega
  split at hc
  · simp at hc; omega
  split at hc
  · simp at hc; omega
  simp at hc

theorem compactSig_code {mb skb : Bytes} {R R' : Rng} {c : Int} (h : compactSig P mb skb R = .ok (.error c, R')) : c ≠ 0 := by
  unfold compactSig at h
  simp only [RandM_bind_apply] at h
  obtain ⟨⟨o, R1⟩, h0, ha⟩ := bind_eq_ok.1 h
  cases o with
  | none => simp at ha; omega
  | some nonce =>
    simp only [RandM_bind_apply] at ha
    obtain ⟨⟨⟨r1, b1, n1⟩, R2⟩, h1, hb⟩ := bind_eq_ok.1 ha
    obtain ⟨⟨⟨r2, b2, n2⟩, R3⟩, h2, hc⟩ := bind_eq_ok.1 hb
    simp only at hc
    split at hc
    · simp at hc; omega
    split at hc
    · simp at hc; omega
    split at hc
    · simp at hc; omega
    split at hc
    · simp at hc; omega
    simp at hc

theorem liftCR_eq_error {α : Type} {x : C α} {R : Rng} {e : Fault} (h : liftCR x R = .error e) : x = .error e := by
  cases x with
  | ok a => simp at h
  | error e' => simpa [liftCR] using h

theorem view_write_same' {W : World} {p : Ptr} {x : Bytes} {n : Nat} (h : (W.view p n).isSome) (hn : x.length = n) :
    (W.write p x).view p n = some x := by
  obtain ⟨y, hy⟩ := Option.isSome_iff_exists.1 h
  exact view_write_same hy hn

theorem fullSig_length (hP : P.Sized) {mb skb sig : Bytes} {R R' : Rng} {mlen : Nat} (hm : mb.length = mlen) (hm64 : mlen ≤ 64)
    (h : fullSig P mb skb R = .ok (.ok sig, R')) : sig.length = 52342 + mlen := by
  unfold fullSig at h
  simp only [RandM_bind_apply] at h
  obtain ⟨⟨⟨r1, b1, n1⟩, R1⟩, h1, ha⟩ := bind_eq_ok.1 h
  obtain ⟨⟨⟨r2, b2, n2⟩, R2⟩, h2, hb⟩ := bind_eq_ok.1 ha
  obtain ⟨⟨⟨r3, b3, n3⟩, R3⟩, h3, hc⟩ := bind_eq_ok.1 hb
  simp only at hc
  split at hc
  · simp at hc
  split at hc
  · simp at hc
  split at hc
  · simp at hc
  split at hc
  · simp at hc
  split at hc
  · simp at hc
  split at hc
  · simp at hc
  simp only [RandM_pure_apply, Except.ok.injEq, Prod.mk.injEq] at hc
  have l1 := hP.edSign _ _ _ _ _ _ _ (liftCR_eq_ok h1).1
  have l2 := hP.dilSign _ _ _ _ _ _ _ (liftCR_eq_ok h2).1
  have l3 := hP.spxSign _ _ _ _ _ _ _ _ _ h3
  rw [length_zeros] at l1 l2 l3
  rw [← hc.1]
  simp only [List.length_append, List.length_take, List.length_cons, List.length_nil]
  omega

end Verif.Hybrid
