import Verif.Sphincs.ForgeSpec
import Verif.Sphincs.Props2

/-! What follows from an accepted SPHINCS+ signature (lemmas for C96). -/

namespace Verif.Sphincs
open Verif Spec

/-- Domination freeness (C44) for the specification. -/
theorem digit_lt_of_ne {m M : Bytes} (h : m.length = 32) (h' : M.length = 32) (hne : m ≠ M) : ∃ i, i < 67 ∧ digit m i < digit M i := by
  obtain ⟨l, l', e, e', -, -, -, -, i, x, y, hx, hy, hlt⟩ := wots_domination_free M m h' h (Ne.symm hne)
  rw [chainLengths_run h'] at e
  rw [chainLengths_run h] at e'
  cases e
  cases e'
  rw [List.getElem?_map] at hx hy
  obtain ⟨a, ha, rfl⟩ := Option.map_eq_some_iff.1 hx
  obtain ⟨b, hb, rfl⟩ := Option.map_eq_some_iff.1 hy
  obtain ⟨q, rfl⟩ := List.getElem?_eq_some_iff.1 ha
  obtain ⟨q', rfl⟩ := List.getElem?_eq_some_iff.1 hb
  rw [List.getElem_range] at hlt
  rw [List.length_range] at q
  exact ⟨i, q, hlt⟩

section
variable {H : Bytes → Nat → Bytes} (hH : ∀ m n, (H m n).length = n)
include hH

variable {s : Seeds} {C : List Call}

omit hH in
theorem inj_or {a : Adrs} {x y : Bytes} (h : Hashes H s a x) (hC : (a, y) ∈ C) (hl : y.length = x.length) (e : T H s.pub a y = T H s.pub a x) : SecondPreimage H s C ∨ y = x := by
  by_cases c : y = x
  · exact .inr c
  · exact .inl ⟨a, x, y, h, hC, c, hl, e⟩

omit hH in
theorem flatMap_inj {f g : Nat → Bytes} {n k : Nat} (hf : ∀ i, i < n → (f i).length = k) (hg : ∀ i, i < n → (g i).length = k)
    (h : (List.range n).flatMap f = (List.range n).flatMap g) : ∀ i, i < n → f i = g i := fun i hi => by
  rw [← slice_flatMap hf hi, h, slice_flatMap hg hi]

omit hH in
theorem flatMap_congr {f g : Nat → Bytes} {n : Nat} (h : ∀ i, i < n → f i = g i) : (List.range n).flatMap f = (List.range n).flatMap g := by
  rw [List.flatMap_def, List.flatMap_def, List.map_congr_left fun i hi => h i (List.mem_range.1 hi)]

omit hH in
/-- A string is the list of its pieces. -/
theorem eq_flatMap {b : Bytes} {n k : Nat} (h : b.length = n * k) : b = (List.range n).flatMap fun i => slice b (i * k) k := by
  induction n generalizing b with
  | zero => rw [Nat.zero_mul] at h; rw [List.length_eq_zero_iff.1 h]; rfl
  | succ n ih =>
    have hs : (n + 1) * k = n * k + k := by rw [Nat.add_mul, Nat.one_mul]
    have e := ih (b := b.take (n * k)) (by rw [List.length_take]; omega)
    rw [List.range_succ, List.flatMap_append, List.flatMap_singleton]
    have e2 : b.drop (n * k) = slice b (n * k) k := by rw [slice, List.take_of_length_le (by rw [List.length_drop]; omega)]
    rw [← e2]
    conv_lhs => rw [← List.take_append_drop (n * k) b, e]
    congr 1
    refine flatMap_congr fun i hi => ?_
    have hik : i * k + k ≤ n * k := by rw [← Nat.succ_mul]; exact Nat.mul_le_mul_right _ hi
    rw [slice, slice, List.drop_take, List.take_take, Nat.min_eq_left (by omega)]

/-! ### Trees -/

/-- A leaf and an authentication path that lead to the root of a tree are those of the tree, or there is a second preimage. -/
theorem climb_inv {adrs : Nat → Nat → Adrs} {leaf : Nat → Bytes} {D i : Nat} (hleaf : ∀ i, (leaf i).length = 32) {x auth : Bytes} (hx : x.length = 32)
    (ha : auth.length = D * 32) (hi : i < 2 ^ D)
    (hh : ∀ h j, h < D → j < 2 ^ (D - 1 - h) → Hashes H s (adrs (h + 1) j) (node H s.pub adrs leaf h (2 * j) ++ node H s.pub adrs leaf h (2 * j + 1)))
    (hC : climbCalls H s.pub adrs x auth i D ⊆ C) (e : climb H s.pub adrs x auth i D = node H s.pub adrs leaf D 0) : SecondPreimage H s C ∨ (x = leaf i ∧ auth = authPath H s.pub adrs leaf D i) := by
  by_cases hc : SecondPreimage H s C
  · exact .inl hc
  refine .inr ?_
  have step : ∀ h, h < D → climb H s.pub adrs x auth i (h + 1) = node H s.pub adrs leaf (h + 1) (i / 2 ^ (h + 1)) →
      climb H s.pub adrs x auth i h = node H s.pub adrs leaf h (i / 2 ^ h) ∧ slice auth (h * 32) 32 = node H s.pub adrs leaf h (sibling (i / 2 ^ h)) := by
    intro h hD e
    rw [climb, node] at e
    have hb : h * 32 + 32 ≤ auth.length := by rw [ha, ← Nat.succ_mul]; exact Nat.mul_le_mul_right _ hD
    have lc := length_climb hH (pub := s.pub) (adrs := adrs) (auth := auth) hx i h
    have ls : (slice auth (32 * h) 32).length = 32 := length_slice (by omega)
    have ln := length_node hH (pub := s.pub) (adrs := adrs) hleaf
    have hj : i / 2 ^ (h + 1) < 2 ^ (D - 1 - h) := by
      rw [Nat.div_lt_iff_lt_mul (Nat.two_pow_pos _), ← Nat.pow_add, show D - 1 - h + (h + 1) = D by omega]; exact hi
    have hdiv : i / 2 ^ (h + 1) = i / 2 ^ h / 2 := by rw [Nat.pow_succ, Nat.div_div_eq_div_mul]
    rcases inj_or (hh h _ hD hj) (hC (List.mem_map.2 ⟨h, List.mem_range.2 hD, rfl⟩)) (by split <;> simp only [List.length_append, lc, ls, ln]) e with c | c
    · exact absurd c hc
    · rw [hdiv] at c
      generalize i / 2 ^ h = j at *
      rw [Nat.mul_comm h 32]
      unfold sibling
      by_cases hp : j % 2 = 0
      · rw [if_pos hp] at c ⊢
        obtain ⟨c1, c2⟩ := List.append_inj c (by rw [lc, ln])
        rw [c1, c2, show 2 * (j / 2) = j by omega]
        exact ⟨rfl, rfl⟩
      · rw [if_neg hp] at c ⊢
        obtain ⟨c1, c2⟩ := List.append_inj c (by rw [ls, ln])
        rw [c1, c2, show 2 * (j / 2) + 1 = j by omega, show 2 * (j / 2) = j - 1 by omega]
        exact ⟨rfl, rfl⟩
  have down : ∀ k, k ≤ D → climb H s.pub adrs x auth i (D - k) = node H s.pub adrs leaf (D - k) (i / 2 ^ (D - k)) := by
    intro k
    induction k with
    | zero => intro _; rw [Nat.sub_zero, e, Nat.div_eq_of_lt hi]
    | succ k ih =>
      intro hk
      have := ih (by omega)
      rw [show D - k = D - (k + 1) + 1 by omega] at this
      exact (step _ (by omega) this).1
  constructor
  · have := down D (Nat.le_refl _)
    rwa [Nat.sub_self, climb, node, Nat.pow_zero, Nat.div_one] at this
  · rw [eq_flatMap ha, authPath]
    refine flatMap_congr fun h hh => (step h hh ?_).2
    have := down (D - (h + 1)) (by omega)
    rwa [show D - (D - (h + 1)) = h + 1 by omega] at this

/-! ### WOTS+ -/

/-- A value from which a chain ends at the end of the chain of the key is the value of that chain at this position, or there is a second preimage. -/
theorem chain_inv {l : Loc} (hl : l.In) {i : Nat} (hi : i < 67) {y : Bytes} (hy : y.length = 32) : ∀ (n k : Nat), n + k = 15 → chainCalls H s.pub (wotsAdrs l i) y k n ⊆ C →
    chain H s.pub (wotsAdrs l i) y k n = chain H s.pub (wotsAdrs l i) (wotsSk H s l i) 0 15 → SecondPreimage H s C ∨ y = chain H s.pub (wotsAdrs l i) (wotsSk H s l i) 0 k := by
  by_cases hc : SecondPreimage H s C
  · exact fun _ _ _ _ _ => .inl hc
  intro n k hnk hC e
  refine .inr ?_
  have down : ∀ j, j ≤ n → chain H s.pub (wotsAdrs l i) y k (n - j) = chain H s.pub (wotsAdrs l i) (wotsSk H s l i) 0 (15 - j) := by
    intro j
    induction j with
    | zero => intro _; exact e
    | succ j ih =>
      intro hj
      have h := ih (by omega)
      rw [show n - j = n - (j + 1) + 1 by omega, show 15 - j = 15 - (j + 1) + 1 by omega, chain, chain, show k + (n - (j + 1)) = 0 + (15 - (j + 1)) by omega, Nat.zero_add] at h
      rcases inj_or (Hashes.chain l i _ hl hi (by omega)) (hC (List.mem_map.2 ⟨n - (j + 1), List.mem_range.2 (by omega), by rw [show k + (n - (j + 1)) = 15 - (j + 1) by omega]⟩)) ((length_chain hH hy _ _).trans (length_chain hH (length_prf hH _ _) _ _).symm) h with c | c
      · exact absurd c hc
      · exact c
  have := down n (Nat.le_refl _)
  rwa [Nat.sub_self, chain, show 15 - n = k by omega] at this

/-- A one-time signature that leads to the public key is the honest one on the honest string, or it reveals an earlier chain value, or there is a second preimage. -/
theorem wots_inv {l : Loc} (hl : l.In) {sig m M : Bytes} (hs : sig.length = 2144) (hm : m.length = 32) (hM : M.length = 32)
    (hC : wotsCalls H s.pub l sig m ⊆ C) (e : Spec.wotsPkFromSig H s.pub l sig m = wotsPk H s l) : SecondPreimage H s C ∨
      (∃ i, i < 67 ∧ digit m i < digit M i ∧ slice sig (32 * i) 32 = chain H s.pub (wotsAdrs l i) (wotsSk H s l i) 0 (digit m i)) ∨
      (m = M ∧ sig = wotsSig H s l M) := by
  by_cases hc : SecondPreimage H s C
  · exact .inl hc
  refine .inr ?_
  have ls : ∀ i, i < 67 → (slice sig (32 * i) 32).length = 32 := fun i hi => length_slice (by omega)
  have vals : ∀ i, i < 67 → slice sig (32 * i) 32 = chain H s.pub (wotsAdrs l i) (wotsSk H s l i) 0 (digit m i) := by
    rw [Spec.wotsPkFromSig, wotsPk, wotsCompress, wotsCompress] at e
    have lx : ∀ i, i < 67 → (chain H s.pub (wotsAdrs l i) (slice sig (32 * i) 32) (digit m i) (15 - digit m i)).length = 32 := fun i hi => length_chain hH (ls i hi) _ _
    have ly : ∀ i, i < 67 → (chain H s.pub (wotsAdrs l i) (wotsSk H s l i) 0 15).length = 32 := fun i _ => length_chain hH (length_prf hH _ _) _ _
    rcases inj_or (Hashes.ends l hl) (hC (List.mem_append_right _ (List.mem_singleton.2 rfl))) (by rw [length_flatMap_const lx, length_flatMap_const ly]) e with c | c
    · exact absurd c hc
    intro i hi
    have hd := digit_lt m i
    rcases chain_inv hH hl hi (ls i hi) (15 - digit m i) (digit m i) (by omega)
        (fun _ h => hC (List.mem_append_left _ (List.mem_flatMap.2 ⟨i, List.mem_range.2 hi, h⟩))) (flatMap_inj lx ly c i hi) with c | c
    · exact absurd c hc
    · exact c
  by_cases hmM : m = M
  · refine .inr ⟨hmM, ?_⟩
    rw [← hmM, eq_flatMap (b := sig) (n := 67) (k := 32) (by omega), wotsSig]
    exact flatMap_congr fun i hi => by rw [Nat.mul_comm i 32]; exact vals i hi
  · obtain ⟨i, hi, hlt⟩ := digit_lt_of_ne hm hM hmM
    exact .inl ⟨i, hi, hlt, vals i hi⟩

theorem length_signed (l : Loc) : (signed H s l).length = 32 := by
  unfold signed
  split
  · exact length_forsPk hH _ _
  · exact length_xmssRoot hH _ _ _

theorem xmss_inv {l : Loc} (hl : l.In) {sig m : Bytes} (hs : sig.length = 2272) (hm : m.length = 32)
    (hC : xmssCalls H s.pub l.layer l.tree l.leaf sig m ⊆ C) (e : xmssRootFromSig H s.pub l.layer l.tree l.leaf sig m = xmssRoot H s l.layer l.tree) : SecondPreimage H s C ∨
      (∃ i k, i < 67 ∧ k < digit (signed H s l) i ∧ slice sig (32 * i) 32 = chain H s.pub (wotsAdrs l i) (wotsSk H s l i) 0 k) ∨
      (m = signed H s l ∧ sig = xmssSign H s l.layer l.tree l.leaf (signed H s l)) := by
  obtain ⟨la, tr, lf⟩ := l
  unfold xmssRootFromSig xmssRoot at e
  rcases climb_inv hH (fun i => length_wotsPk hH s ⟨la, tr, i⟩) (length_T hH _ _ _) (by rw [List.length_drop, hs]) hl.leaf
    (fun h j h1 h2 => Hashes.node la tr h j hl.layer hl.tree h1 h2) (fun _ h => hC (List.mem_append_right _ h)) e with c | ⟨c1, c2⟩
  · exact .inl c
  · have lt : (sig.take 2144).length = 2144 := by rw [List.length_take, hs]; rfl
    rcases wots_inv hH hl lt hm (length_signed hH ⟨la, tr, lf⟩) (fun _ h => hC (List.mem_append_left _ h)) c1 with c | ⟨i, hi, hd, hv⟩ | ⟨h1, h2⟩
    · exact .inl c
    · refine .inr (.inl ⟨i, _, hi, hd, ?_⟩)
      rw [← hv, slice, slice, List.drop_take, List.take_take, Nat.min_eq_left (by omega)]
    · refine .inr (.inr ⟨h1, ?_⟩)
      rw [xmssSign, ← h2, ← c2, List.take_append_drop]

/-! ### The hypertree -/

omit hH in
theorem way_zero (la tr lf : Nat) : Loc.way la tr lf 0 = ⟨la, tr, lf⟩ := by rw [Loc.way, if_pos rfl, Nat.pow_zero, Nat.div_one, Nat.add_zero]

omit hH in
theorem way_succ (la tr lf k : Nat) : Loc.way la tr lf (k + 1) = Loc.way (la + 1) (tr / 16) (tr % 16) k := by
  have : (if k = 0 then tr % 16 else tr / 16 / 16 ^ (k - 1) % 16) = tr / 16 ^ k % 16 := by
    cases k with
    | zero => rw [if_pos rfl, Nat.pow_zero, Nat.div_one]
    | succ k => rw [if_neg (by omega), Nat.add_sub_cancel, Nat.div_div_eq_div_mul, ← Nat.pow_succ']
  rw [Loc.way, Loc.way, this, if_neg (by omega : ¬ k + 1 = 0), Nat.add_sub_cancel, Nat.div_div_eq_div_mul, ← Nat.pow_succ', Nat.add_right_comm la 1 k, Nat.add_assoc la k 1]

theorem ht_inv : ∀ (n : Nat) {la tr lf : Nat} {sig m : Bytes}, la + n + 1 = 17 → Loc.In ⟨la, tr, lf⟩ → sig.length = (n + 1) * 2272 → m.length = 32 → htCalls H s.pub (n + 1) la tr lf sig m ⊆ C →
    htRootFromSig H s.pub (n + 1) la tr lf sig m = xmssRoot H s 16 (tr / 16 ^ n) → SecondPreimage H s C ∨
      (∃ k i j, k ≤ n ∧ i < 67 ∧ j < digit (signed H s (Loc.way la tr lf k)) i ∧
        slice sig (2272 * k + 32 * i) 32 = chain H s.pub (wotsAdrs (Loc.way la tr lf k) i) (wotsSk H s (Loc.way la tr lf k) i) 0 j) ∨
      (m = signed H s ⟨la, tr, lf⟩ ∧ sig = htSign H s (n + 1) la tr lf m) := by
  by_cases hc : SecondPreimage H s C
  · exact fun _ _ _ _ _ _ _ _ _ _ _ _ => .inl hc
  intro n
  induction n with
  | zero =>
    intro la tr lf sig m hn hl hs hm hC e
    rw [htCalls, List.take_of_length_le (by omega)] at hC
    rw [htRootFromSig, htRootFromSig, Nat.pow_zero, Nat.div_one, List.take_of_length_le (by omega)] at e
    obtain rfl : la = 16 := by omega
    rcases xmss_inv hH hl (by omega) hm (fun _ h => hC (List.mem_append_left _ h)) e with c | ⟨i, k, hi, hk, hv⟩ | ⟨h1, h2⟩
    · exact .inl c
    · refine .inr (.inl ⟨0, i, k, Nat.le_refl _, hi, ?_⟩)
      rw [way_zero, Nat.mul_zero, Nat.zero_add]
      exact ⟨hk, hv⟩
    · refine .inr (.inr ⟨h1, ?_⟩)
      rw [htSign, htSign, List.append_nil, h1]
      exact h2
  | succ n ih =>
    intro la tr lf sig m hn hl hs hm hC e
    rw [htRootFromSig] at e
    rw [htCalls] at hC
    have hd : tr / 16 ^ (n + 1) = tr / 16 / 16 ^ n := by rw [Nat.pow_succ, Nat.mul_comm, Nat.div_div_eq_div_mul]
    rw [hd] at e
    have htr : tr < 16 ^ (16 - la) := hl.tree
    have hup : Loc.In ⟨la + 1, tr / 16, tr % 16⟩ := ⟨by show la + 1 < 17; omega, by
      show tr / 16 < 16 ^ (16 - (la + 1))
      rw [Nat.div_lt_iff_lt_mul (by omega), ← Nat.pow_succ, show (16 - (la + 1)).succ = 16 - la by omega]; exact htr, Nat.mod_lt _ (by omega)⟩
    have lt : (sig.take 2272).length = 2272 := by rw [List.length_take]; omega
    rcases ih (by omega) hup (by rw [List.length_drop]; omega) (length_climb hH (length_T hH _ _ _) _ _) (fun _ h => hC (List.mem_append_right _ h)) e with c | ⟨k, i, j, h2, h3, h4, h5⟩ | ⟨h1, h2⟩
    · exact .inl c
    · refine .inr (.inl ⟨k + 1, i, j, by omega, h3, ?_⟩)
      rw [way_succ]
      refine ⟨h4, ?_⟩
      rw [← h5, slice, slice, List.drop_drop]
      congr 2
      omega
    · have eM : signed H s ⟨la + 1, tr / 16, tr % 16⟩ = xmssRoot H s la tr := by
        show xmssRoot H s la (16 * (tr / 16) + tr % 16) = _
        rw [Nat.div_add_mod]
      rw [eM] at h1
      rcases xmss_inv hH hl lt hm (fun _ h => hC (List.mem_append_left _ h)) h1 with c | ⟨i, k, hi, hk, hv⟩ | ⟨g1, g2⟩
      · exact .inl c
      · refine .inr (.inl ⟨0, i, k, Nat.zero_le _, hi, ?_⟩)
        rw [way_zero]
        refine ⟨hk, ?_⟩
        rw [Nat.mul_zero, Nat.zero_add, ← hv, slice, slice, List.drop_take, List.take_take, Nat.min_eq_left (by omega)]
      · refine .inr (.inr ⟨g1, ?_⟩)
        rw [h1] at h2
        rw [htSign, ← h2]
        conv_lhs => rw [← List.take_append_drop 2272 sig, g2]
        rw [g1]

/-! ### FORS -/

theorem fors_inv {l : Loc} (hl : l.In) (h0 : l.layer = 0) {sig md : Bytes} (hs : sig.length = 11200)
    (hC : forsCalls H s.pub l sig md ⊆ C) (e : Spec.forsPkFromSig H s.pub l sig md = forsPk H s l) : SecondPreimage H s C ∨ sig = Spec.forsSign H s l md := by
  by_cases hc : SecondPreimage H s C
  · exact .inl hc
  refine .inr ?_
  unfold Spec.forsPkFromSig forsPk forsCompress at e
  have hidx : ∀ t, forsIndex md t < 512 := fun t => Nat.mod_lt _ (by omega)
  have lx : ∀ t, t < 35 → (climb H s.pub (forsAdrs l t) (T H s.pub (forsAdrs l t 0 (forsIndex md t)) (slice sig (320 * t) 32)) (slice sig (320 * t + 32) 288) (forsIndex md t) 9).length = 32 :=
    fun t _ => length_climb hH (length_T hH _ _ _) _ _
  have ly : ∀ t, t < 35 → (node H s.pub (forsAdrs l t) (forsLeaf H s l t) 9 0).length = 32 := fun t _ => length_node hH (length_forsLeaf hH _ _ _) _ _
  rcases inj_or (Hashes.forsRoots l hl h0) (hC (List.mem_append_right _ (List.mem_singleton.2 rfl))) ((length_flatMap_const lx).trans (length_flatMap_const ly).symm) e with c | c
  · exact absurd c hc
  replace c : (List.range 35).flatMap (fun t => climb H s.pub (forsAdrs l t) (T H s.pub (forsAdrs l t 0 (forsIndex md t)) (slice sig (320 * t) 32)) (slice sig (320 * t + 32) 288) (forsIndex md t) 9) = _ := c
  rw [eq_flatMap (b := sig) (n := 35) (k := 320) (by omega), Spec.forsSign]
  refine flatMap_congr fun t ht => ?_
  rcases climb_inv hH (length_forsLeaf hH _ _ _) (length_T hH _ _ _) (D := 9) (length_slice (by omega)) (hidx t)
    (fun h j h1 h2 => Hashes.forsNode l t h j hl h0 ht h1 h2)
    (fun _ h => hC (List.mem_append_left _ (List.mem_flatMap.2 ⟨t, List.mem_range.2 ht, List.mem_cons_of_mem _ h⟩))) (flatMap_inj lx ly c t ht) with c | ⟨c1, c2⟩
  · exact absurd c hc
  rcases inj_or (Hashes.forsLeaf l t _ hl h0 ht (hidx t)) (hC (List.mem_append_left _ (List.mem_flatMap.2 ⟨t, List.mem_range.2 ht, List.mem_cons_self⟩))) (by rw [length_slice (by omega), length_forsSk hH]) c1 with c | c
  · exact absurd c hc
  rw [← c, ← c2, Nat.mul_comm t 320, slice, slice, slice, show 320 = 32 + 288 from rfl, List.take_add, List.drop_drop]

/-- An accepted signature. -/
theorem forge_inv (hp : s.pub.length = 32) {sig m : Bytes} (h : Valid H (publicKey H s) sig m) :
    SecondPreimage H s (verifyCalls H (publicKey H s) sig m) ∨ RevealsWots H s (digest H (sig.take 32) (publicKey H s) m) sig ∨ sig = signWith H s (sig.take 32) (publicKey H s) m := by
  obtain ⟨hs, e⟩ := h
  rw [rootFromSig, show (publicKey H s).take 32 = s.pub from List.take_left' hp, show (publicKey H s).drop 32 = xmssRoot H s 16 0 from List.drop_left' hp] at e
  obtain ⟨C, hCe⟩ : ∃ C, C = verifyCalls H (publicKey H s) sig m := ⟨_, rfl⟩
  have hC : ∀ c ∈ verifyCalls H (publicKey H s) sig m, c ∈ C := fun _ h => hCe ▸ h
  rw [← hCe]
  unfold verifyCalls at hC
  rw [show (publicKey H s).take 32 = s.pub from List.take_left' hp] at hC
  simp only at hC
  clear hCe
  unfold signWith
  generalize digest H (sig.take 32) (publicKey H s) m = d at *
  have htree : treeOf d < 16 ^ 16 := by
    have := ofBe_lt (slice d 40 8)
    have hl : (slice d 40 8).length ≤ 8 := by unfold slice; exact List.length_take_le _ _
    exact Nat.lt_of_lt_of_le this (Nat.le_trans (Nat.pow_le_pow_right (by omega) hl) (by decide))
  have hl : Loc.In ⟨0, treeOf d, leafOf d⟩ := ⟨by show 0 < 17; omega, htree, Nat.mod_lt _ (by omega)⟩
  have hz : treeOf d / 16 ^ 16 = 0 := Nat.div_eq_of_lt htree
  have e' : htRootFromSig H s.pub (16 + 1) 0 (treeOf d) (leafOf d) (sig.drop 11232) (Spec.forsPkFromSig H s.pub ⟨0, treeOf d, leafOf d⟩ (slice sig 32 11200) (mdOf d)) =
      xmssRoot H s 16 (treeOf d / 16 ^ 16) := by rw [hz]; exact e
  rcases ht_inv hH 16 rfl hl (by rw [List.length_drop, hs]) (length_T hH _ _ _) (fun _ h => hC _ (List.mem_append_right _ h)) e' with c | ⟨k, i, j, h2, h3, h4, h5⟩ | ⟨h1, h2⟩
  · exact .inl c
  · refine .inr (.inl ⟨k, i, j, by omega, h3, h4, ?_⟩)
    rw [Loc.used]
    rw [← h5, slice, slice, List.drop_drop]
    congr 2
    omega
  · rcases fors_inv hH hl rfl (length_slice (by omega)) (fun _ h => hC _ (List.mem_append_left _ h)) h1 with c | c
    · exact .inl c
    · refine .inr (.inr ?_)
      have e1 : signed H s ⟨0, treeOf d, leafOf d⟩ = forsPk H s ⟨0, treeOf d, leafOf d⟩ := rfl
      rw [h1, e1] at h2
      rw [← c, ← h2]
      conv_lhs => rw [← List.take_append_drop 11232 sig]
      congr 1
      rw [slice, ← List.take_add]

end
end Verif.Sphincs
