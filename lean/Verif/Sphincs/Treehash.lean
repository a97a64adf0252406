import Verif.Sphincs.Tree
import Verif.Sphincs.Exec

/-!
The function `treehash` of sphincs/utils.c, which no other function of the repository calls, and its invariant.
-/

namespace Verif.Sphincs
open Verif Spec

section
variable (shake : Bytes → Nat → Bytes)

/-- sphincs/utils.c:127-146, the inner loop of `treehash`: auth_path, stack, heights, offset, tree_addr.  `fuel` bounds the loop.  A shift of a 32-bit number by 32 or more is undefined. -/
def treehashMerge (ctx : Ctx) (leafIdx idxOffset idx : Nat) : (fuel : Nat) → (auth stack : Bytes) → (heights : List Nat) → (offset : Nat) → (addr : Bytes) →
    C (Bytes × Bytes × List Nat × Nat × Bytes)
  | 0, _, _, _, _, _ => .error .diverge
  | fuel + 1, auth, stack, heights, offset, addr =>
    if offset < 2 then .ok (auth, stack, heights, offset, addr) else do
      let a ← rd heights (offset - 1)
      let b ← rd heights (offset - 2)
      if a ≠ b then .ok (auth, stack, heights, offset, addr) else
      if 32 ≤ a + 1 then .error .ub else do
      let treeIdx := idx >>> (a + 1)
      let addr ← setTreeHeight addr (a + 1)
      let addr ← setTreeIndex addr ((treeIdx + (idxOffset >>> (a + 1))) % 2 ^ 32)
      let t ← thash shake stack ((offset - 2) * 32) 2 ctx addr
      let stack ← copy stack ((offset - 2) * 32) t 0 32
      let heights ← wr heights (offset - 2) (b + 1)
      let auth ← (if (leafIdx >>> (b + 1)) ^^^ 1 = treeIdx then copy auth ((b + 1) * 32) stack ((offset - 2) * 32) 32 else .ok auth : C Bytes)
      treehashMerge ctx leafIdx idxOffset idx fuel auth stack heights (offset - 1) addr

/-- sphincs/utils.c:100-148 `treehash`: root, auth_path, tree_addr.  `stack` and `heights` are the uninitialised local arrays.  The callback gets the index and the address and does not change the
address (it is const); `1 << tree_height` is undefined from 31 on. -/
def treehash (ctx : Ctx) (leafIdx idxOffset treeHeight : Nat) (genLeaf : Nat → Bytes → C Bytes) (auth stack : Bytes) (heights : List Nat) (addr : Bytes) : C (Bytes × Bytes × Bytes) :=
  if 31 ≤ treeHeight then .error .ub else do
  let (auth, stack, _, _, addr) ← loop (fun idx s => do
    let (auth, stack, heights, offset, addr) := (s : Bytes × Bytes × List Nat × Nat × Bytes)
    let leaf ← genLeaf ((idx + idxOffset) % 2 ^ 32) addr
    let stack ← copy stack (offset * 32) leaf 0 32
    let heights ← wr heights offset 0
    let auth ← (if leafIdx ^^^ 1 = idx then copy auth 0 stack (offset * 32) 32 else .ok auth : C Bytes)
    treehashMerge shake ctx leafIdx idxOffset idx (treeHeight + 1) auth stack heights (offset + 1) addr) 0 (2 ^ treeHeight) (auth, stack, heights, 0, addr)
  let root ← copy (zeroBytes 32) 0 stack 0 32
  .ok (root, auth, addr)

end

/-! ### Counting ones -/

/-- The number of ones of the binary representation: the height of the stack (compare sphincs/utils.c:112-147). -/
def ones (n : Nat) : Nat := if n = 0 then 0 else n % 2 + ones (n / 2)
termination_by n
decreasing_by omega

theorem ones_zero : ones 0 = 0 := by rw [ones, if_pos rfl]

theorem ones_step (n : Nat) : ones n = n % 2 + ones (n / 2) := by
  by_cases h : n = 0
  · subst h; rw [ones_zero]
  · rw [ones, if_neg h]

theorem ones_le {n k : Nat} (h : n < 2 ^ k) : ones n ≤ k := by
  induction k generalizing n with
  | zero => rw [show n = 0 by omega, ones_zero]
  | succ k ih =>
    rw [ones_step]
    have := ih (n := n / 2) (by rw [Nat.pow_succ] at h; omega)
    omega

theorem ones_mul_pow (n k : Nat) : ones (n * 2 ^ k) = ones n := by
  induction k with
  | zero => simp
  | succ k ih => rw [ones_step, show n * 2 ^ (k + 1) = 2 * (n * 2 ^ k) by rw [Nat.pow_succ]; ring, Nat.mul_mod_right, Nat.mul_div_cancel_left _ (by omega), ih, Nat.zero_add]

theorem ones_div_le (n h k : Nat) : ones (n / 2 ^ (h + k)) ≤ ones (n / 2 ^ h) := by
  induction k with
  | zero => exact Nat.le_refl _
  | succ k ih =>
    have := ones_step (n / 2 ^ (h + k))
    rw [← Nat.add_assoc, div_pow_succ]
    omega

theorem ones_lt {n h h' : Nat} (hh : h < h') (hb : n / 2 ^ h' % 2 = 1) : ones (n / 2 ^ (h' + 1)) < ones (n / 2 ^ (h + 1)) := by
  have h1 := ones_div_le n (h + 1) (h' - h - 1)
  rw [show h + 1 + (h' - h - 1) = h' by omega] at h1
  have h2 := ones_step (n / 2 ^ h')
  rw [← div_pow_succ] at h2
  omega

/-- The lowest one from bit `h` on. -/
theorem ones_lowest {n h : Nat} (hp : 0 < ones (n / 2 ^ h)) : ∃ j, h ≤ j ∧ n / 2 ^ j % 2 = 1 ∧ ones (n / 2 ^ (j + 1)) = ones (n / 2 ^ h) - 1 := by
  obtain ⟨N, hN⟩ : ∃ N, n / 2 ^ h < 2 ^ N := ⟨n / 2 ^ h, Nat.lt_two_pow_self⟩
  induction N generalizing h with
  | zero => rw [Nat.lt_one_iff.1 hN, ones_zero] at hp; omega
  | succ N ih =>
    have h2 := ones_step (n / 2 ^ h)
    rw [← div_pow_succ] at h2
    by_cases c : n / 2 ^ h % 2 = 1
    · exact ⟨h, Nat.le_refl _, c, by omega⟩
    · obtain ⟨j, hj, hb, e⟩ := ih (h := h + 1) (by omega) (by rw [div_pow_succ]; rw [Nat.pow_succ] at hN; omega)
      exact ⟨j, by omega, hb, by omega⟩

/-! ### The invariant -/

/-- Before leaf `idx` the stack holds, for every one of `idx` from bit `from` on, the left neighbour node of that height. -/
def StackIs (nd : Nat → Nat → Bytes) (height idx from_ : Nat) (stack : Bytes) (heights : List Nat) : Prop :=
  stack.length = (height + 1) * 32 ∧ heights.length = height + 1 ∧
    ∀ h, from_ ≤ h → h ≤ height → idx / 2 ^ h % 2 = 1 →
      slice stack (ones (idx / 2 ^ (h + 1)) * 32) 32 = nd h (2 * (idx / 2 ^ (h + 1))) ∧ heights[ones (idx / 2 ^ (h + 1))]? = some h

theorem xor_one_eq (x y : Nat) : x ^^^ 1 = y ↔ y = sibling x := by
  rw [← xor_eq_one_iff]
  constructor
  · intro e; rw [← e, Nat.xor_comm, ← Nat.xor_assoc, Nat.xor_self, Nat.zero_xor]
  · intro e; rw [← e, Nat.xor_comm, Nat.xor_assoc, Nat.xor_self, Nat.xor_zero]

theorem copy_past {α : Type} {dst src : List α} {d s n : Nat} (hs : s < src.length) (hn : 0 < n) (hd : dst.length ≤ d) : copy dst d src s n = .error .ub := by
  obtain ⟨k, rfl⟩ : ∃ k, n = k + 1 := ⟨n - 1, by omega⟩
  rw [copy, loop, Nat.add_zero, rd_ok hs, ok_bind, wr, if_neg (by omega)]
  rfl

theorem bit_le {idx height h : Nat} (hidx : idx < 2 ^ height) (hb : idx / 2 ^ h % 2 = 1) : h < height := by
  by_contra hc
  have : 2 ^ height ≤ 2 ^ h := Nat.pow_le_pow_right (by omega) (by omega)
  rw [Nat.div_eq_of_lt (by omega)] at hb
  omega

section
variable {shake : Bytes → Nat → Bytes} (hsh : ∀ m n, (shake m n).length = n)

theorem treehashMerge_stop {ctx : Ctx} {nd : Nat → Nat → Bytes} {off leafIdx height idx h fuel : Nat} {auth stack addr : Bytes} {heights : List Nat} (hidx : idx < 2 ^ height)
    (hlow : idx % 2 ^ h = 2 ^ h - 1) (ceven : idx / 2 ^ h % 2 = 0) (hle : h ≤ height)
    (htop : slice stack (ones (idx / 2 ^ h) * 32) 32 = nd h (idx / 2 ^ h)) (hht : heights[ones (idx / 2 ^ h)]? = some h)
    (hst : StackIs nd height idx h stack heights) (hau : AuthOk nd height leafIdx (fun h' => if h' < h + 1 then idx + 1 else idx) auth) :
    treehashMerge shake ctx leafIdx off idx (fuel + 1) auth stack heights (ones (idx / 2 ^ h) + 1) addr = .ok (auth, stack, heights, ones (idx + 1), addr) ∧
      AuthOk nd height leafIdx (fun _ => idx + 1) auth ∧ StackIs nd height (idx + 1) 0 stack heights := by
  have hne : ∀ h', h < h' → (idx + 1) % 2 ^ h' ≠ 0 := fun h' => low_ones_mod hlow ceven
  have e0 := ones_step (idx / 2 ^ h)
  have e1 : ones (idx + 1) = ones (idx / 2 ^ h) + 1 := by
    rw [low_ones hlow, ones_mul_pow, ones_step, show (idx / 2 ^ h + 1) / 2 = idx / 2 ^ h / 2 by omega]
    omega
  rw [e1]
  refine ⟨?_, ?_, hst.1, hst.2.1, ?_⟩
  · rw [treehashMerge]
    by_cases c : ones (idx / 2 ^ h) = 0
    · rw [if_pos (by omega)]
    · rw [if_neg (by omega)]
      obtain ⟨j, hj, hb, ej⟩ := ones_lowest (n := idx) (h := h) (by omega)
      have hne : j ≠ h := by rintro rfl; omega
      have hr := (hst.2.2 j hj (Nat.le_of_lt (bit_le hidx hb)) hb).2
      rw [ej] at hr
      rw [rd_eq_ok_iff.2 (by rw [Nat.add_sub_cancel]; exact hht), ok_bind, show ones (idx / 2 ^ h) + 1 - 2 = ones (idx / 2 ^ h) - 1 by omega, rd_eq_ok_iff.2 hr, ok_bind, if_pos (by omega)]
  · refine ⟨hau.1, fun h' h1 h2 => hau.2 h' h1 ?_⟩
    by_cases c : h' < h + 1
    · simp only [if_pos c]; exact h2
    · simp only [if_neg c]
      simp only at h2
      rcases Nat.lt_or_ge idx ((sibling (leafIdx / 2 ^ h') + 1) * 2 ^ h') with h3 | h3
      · have : idx + 1 = (sibling (leafIdx / 2 ^ h') + 1) * 2 ^ h' := by omega
        exfalso; apply hne h' (by omega); rw [this]; simp
      · exact h3
  · intro h' _ hh' hbit
    by_cases c : h' < h
    · exact absurd (low_ones_bit hlow c) (by omega)
    have h2 := succ_div_pow (hne (h' + 1) (by omega))
    rw [h2]
    by_cases c2 : h' = h
    · subst c2
      have e2 : ones (idx / 2 ^ (h' + 1)) = ones (idx / 2 ^ h') := by rw [div_pow_succ]; omega
      rw [e2]
      refine ⟨?_, hht⟩
      rw [htop, div_pow_succ]
      congr 1; omega
    · have h1 := succ_div_pow (hne h' (by omega))
      rw [h1] at hbit
      exact hst.2.2 h' (by omega) hh' hbit

include hsh
variable {pub : Bytes} (hpub : pub.length = 32) {sec : Option Bytes}
include hpub

set_option maxHeartbeats 1000000 in
theorem treehashMerge_run {base : Adrs} {off leafIdx height idx : Nat} {leaf : Nat → Bytes} (hleaf : ∀ i, (leaf i).length = 32)
    (hh : height < 31) (hidx : idx < 2 ^ height) (hoff : off + 2 ^ height < 2 ^ 32) :
    ∀ (k h : Nat), k + h = height → idx % 2 ^ h = 2 ^ h - 1 → ∀ (auth stack : Bytes) (heights : List Nat) (addr : Bytes),
      slice stack (ones (idx / 2 ^ h) * 32) 32 = node shake pub (treeAdrs base off) leaf h (idx / 2 ^ h) → heights[ones (idx / 2 ^ h)]? = some h →
      StackIs (node shake pub (treeAdrs base off) leaf) height idx h stack heights →
      AuthOk (node shake pub (treeAdrs base off) leaf) height leafIdx (fun h' => if h' < h + 1 then idx + 1 else idx) auth →
      AddrOk base addr →
      (leafIdx / 2 ^ height ≠ 1 ∨ idx + 1 < 2 ^ height → ∃ auth' stack' heights' addr', treehashMerge shake ⟨pub, sec⟩ leafIdx off idx (k + 1) auth stack heights (ones (idx / 2 ^ h) + 1) addr =
          .ok (auth', stack', heights', ones (idx + 1), addr') ∧
        AuthOk (node shake pub (treeAdrs base off) leaf) height leafIdx (fun _ => idx + 1) auth' ∧ AddrOk base addr' ∧
        StackIs (node shake pub (treeAdrs base off) leaf) height (idx + 1) 0 stack' heights') ∧
      (leafIdx / 2 ^ height = 1 → idx + 1 = 2 ^ height → 0 < k → treehashMerge shake ⟨pub, sec⟩ leafIdx off idx (k + 1) auth stack heights (ones (idx / 2 ^ h) + 1) addr = .error .ub) := by
  intro k
  induction k with
  | zero =>
    intro h hk hlow auth stack heights addr htop hht hst hau had
    have e0 : idx / 2 ^ h = 0 := Nat.div_eq_of_lt (by rw [show h = height by omega]; exact hidx)
    obtain ⟨e, h1, h2⟩ := treehashMerge_stop (shake := shake) (ctx := ⟨pub, sec⟩) (off := off) (fuel := 0) (addr := addr) hidx hlow (by rw [e0]) (by omega) htop hht hst hau
    exact ⟨fun _ => ⟨_, _, _, _, e, h1, had, h2⟩, fun _ _ h => absurd h (by omega)⟩
  | succ k ih =>
    intro h hk hlow auth stack heights addr htop hht hst hau had
    by_cases ceven : idx / 2 ^ h % 2 = 0
    · obtain ⟨e, h1, h2⟩ := treehashMerge_stop (shake := shake) (ctx := ⟨pub, sec⟩) (off := off) (fuel := k + 1) (addr := addr) hidx hlow ceven (by omega) htop hht hst hau
      refine ⟨fun _ => ⟨_, _, _, _, e, h1, had, h2⟩, fun _ hi _ => ?_⟩
      exact absurd (by rw [hi, Nat.mod_self]) (low_ones_mod hlow ceven (show h < height by omega))
    · have hodd : idx / 2 ^ h % 2 = 1 := by omega
      have hP : 0 < 2 ^ h := Nat.two_pow_pos h
      have hP1 : 2 ^ (h + 1) = 2 * 2 ^ h := by rw [Nat.pow_succ, Nat.mul_comm]
      have e0 : ones (idx / 2 ^ h) = 1 + ones (idx / 2 ^ (h + 1)) := by rw [ones_step, ← div_pow_succ]; omega
      obtain ⟨c, hc⟩ : ∃ c, c = ones (idx / 2 ^ (h + 1)) := ⟨_, rfl⟩
      rw [← hc] at e0
      rw [e0] at htop hht ⊢
      have hcle : c + 1 ≤ height := by
        have := ones_le (n := idx / 2 ^ (h + 1)) (k := height - (h + 1)) (by
          rw [Nat.div_lt_iff_lt_mul (Nat.two_pow_pos _), ← Nat.pow_add, show height - (h + 1) + (h + 1) = height by omega]; exact hidx)
        omega
      obtain ⟨hl1, hl2⟩ := hst.2.2 h (Nat.le_refl _) (by omega) hodd
      rw [← hc] at hl1 hl2
      have hb1 : idx / 2 ^ (h + 1) ≤ idx := Nat.div_le_self _ _
      have hb2 : off / 2 ^ (h + 1) ≤ off := Nat.div_le_self _ _
      have hsum : idx / 2 ^ (h + 1) + off / 2 ^ (h + 1) < 2 ^ 32 := by omega
      obtain ⟨ad, ea1, ea2, had2⟩ := had.set (h := h + 1) (i := idx / 2 ^ (h + 1) + off / 2 ^ (h + 1)) (by omega) hsum
      rw [treehashMerge, if_neg (by omega), show 1 + c + 1 - 1 = 1 + c by omega, show 1 + c + 1 - 2 = c by omega, rd_eq_ok_iff.2 hht, ok_bind, rd_eq_ok_iff.2 hl2, ok_bind, if_neg (by simp),
        if_neg (by omega)]
      simp only [Nat.shiftRight_eq_div_pow]
      rw [ea1, ok_bind, Nat.mod_eq_of_lt hsum, ea2, ok_bind, thash_T hpub (by rw [hst.1]; omega), ok_bind]
      have hll := length_node hsh (pub := pub) (adrs := treeAdrs base off) hleaf h (2 * (idx / 2 ^ (h + 1)))
      have hsl : slice stack (c * 32) (2 * 32) =
          node shake pub (treeAdrs base off) leaf h (2 * (idx / 2 ^ (h + 1))) ++ node shake pub (treeAdrs base off) leaf h (2 * (idx / 2 ^ (h + 1)) + 1) := by
        rw [← hl1, show 2 * (idx / 2 ^ (h + 1)) + 1 = idx / 2 ^ h by rw [div_pow_succ]; omega, ← htop, show (1 + c) * 32 = c * 32 + 32 by omega, slice, slice, slice, ← List.drop_drop]
        exact List.take_add (i := 32) (j := 32)
      rw [hsl]
      have hnode : T shake pub { base with w2 := h + 1, w3 := idx / 2 ^ (h + 1) + off / 2 ^ (h + 1) }
          (node shake pub (treeAdrs base off) leaf h (2 * (idx / 2 ^ (h + 1))) ++ node shake pub (treeAdrs base off) leaf h (2 * (idx / 2 ^ (h + 1)) + 1)) =
          node shake pub (treeAdrs base off) leaf (h + 1) (idx / 2 ^ (h + 1)) := by
        rw [node, treeAdrs]
      rw [hnode]
      have hnl := length_node hsh (pub := pub) (adrs := treeAdrs base off) hleaf (h + 1) (idx / 2 ^ (h + 1))
      obtain ⟨nd, hnd⟩ : ∃ nd, nd = node shake pub (treeAdrs base off) leaf (h + 1) (idx / 2 ^ (h + 1)) := ⟨_, rfl⟩
      rw [← hnd] at hnl ⊢
      rw [copy_all hnl (by rw [hst.1]; omega), ok_bind, wr_ok (by rw [hst.2.1]; omega), ok_bind]
      have hsl2 : slice (splice stack (c * 32) nd) (c * 32) 32 = nd := by
        rw [block_write hst.1 hnl (by omega), if_pos rfl]
      have hlen : (splice stack (c * 32) nd).length = (height + 1) * 32 := by rw [length_splice (by rw [hnl, hst.1]; omega), hst.1]
      have hlow' : idx % 2 ^ (h + 1) = 2 ^ (h + 1) - 1 := by
        have h2 := low_ones hlow
        have h3 : idx + 1 = (idx / 2 ^ (h + 1) + 1) * 2 ^ (h + 1) := by
          rw [h2, div_pow_succ, hP1, ← Nat.mul_assoc]; congr 1; omega
        have h4 := Nat.div_add_mod idx (2 ^ (h + 1))
        rw [Nat.add_mul, Nat.mul_comm] at h3
        omega
      have hst' : StackIs (node shake pub (treeAdrs base off) leaf) height idx (h + 1) (splice stack (c * 32) nd) (heights.set c (h + 1)) := by
        refine ⟨hlen, by rw [List.length_set, hst.2.1], fun h' h1 h2 h3 => ?_⟩
        have hlt := ones_lt (n := idx) (h := h) (h' := h') (by omega) h3
        rw [← hc] at hlt
        rw [block_write hst.1 hnl (by omega), if_neg (by omega), List.getElem?_set_ne (by omega)]
        exact hst.2.2 h' (by omega) h2 h3
      have hcond := xor_one_eq (leafIdx / 2 ^ (h + 1)) (idx / 2 ^ (h + 1))
      -- the authentication path
      have hpath : (h + 1 < height ∨ idx / 2 ^ (h + 1) ≠ sibling (leafIdx / 2 ^ (h + 1))) → ∃ auth1,
          (if leafIdx / 2 ^ (h + 1) ^^^ 1 = idx / 2 ^ (h + 1) then copy auth ((h + 1) * 32) (splice stack (c * 32) nd) (c * 32) 32 else .ok auth) = .ok auth1 ∧
          AuthOk (node shake pub (treeAdrs base off) leaf) height leafIdx (fun h' => if h' < h + 1 + 1 then idx + 1 else idx) auth1 := by
        intro hor
        by_cases cc : leafIdx / 2 ^ (h + 1) ^^^ 1 = idx / 2 ^ (h + 1)
        · have cs := hcond.1 cc
          have hlt : h + 1 < height := hor.resolve_right fun h => h cs
          have hle : (h + 1) * 32 + 32 ≤ auth.length := by rw [hau.1]; omega
          rw [if_pos cc, copy_ok (by rw [hlen]; omega) hle, hsl2]
          refine ⟨_, rfl, ?_, ?_⟩
          · rw [length_splice (by rw [hnl]; exact hle), hau.1]
          · intro h' hh' hb
            rw [block_write hau.1 hnl (by omega)]
            split
            · rename_i e; subst e; rw [hnd, cs]
            · apply hau.2 h' hh'
              by_cases c2 : h' < h + 1
              · simp only [if_pos c2, if_pos (show h' < h + 1 + 1 by omega)] at hb ⊢; exact hb
              · simp only [if_neg c2, if_neg (show ¬ h' < h + 1 + 1 by omega)] at hb ⊢; exact hb
        · have cs := fun h => cc (hcond.2 h)
          rw [if_neg cc]
          refine ⟨_, rfl, hau.1, ?_⟩
          intro h' hh' hb
          apply hau.2 h' hh'
          by_cases c2 : h' < h + 1
          · simp only [if_pos c2, if_pos (show h' < h + 1 + 1 by omega)] at hb ⊢; exact hb
          · simp only [if_neg c2]
            by_cases c3 : h' = h + 1
            · subst c3
              simp only [if_pos (show h + 1 < h + 1 + 1 by omega)] at hb
              by_contra hgt
              apply cs
              have e1 := (low_ones hlow').symm
              have h1 : (sibling (leafIdx / 2 ^ (h + 1)) + 1) * 2 ^ (h + 1) = idx + 1 := by omega
              have := Nat.eq_of_mul_eq_mul_right (Nat.two_pow_pos _) (e1.trans h1.symm)
              omega
            · simp only [if_neg (show ¬ h' < h + 1 + 1 by omega)] at hb; exact hb
      have hir : ∀ auth1, AuthOk (node shake pub (treeAdrs base off) leaf) height leafIdx (fun h' => if h' < h + 1 + 1 then idx + 1 else idx) auth1 → _ := fun auth1 hau1 =>
        ih (h + 1) (by omega) hlow' auth1 (splice stack (c * 32) nd) (heights.set c (h + 1)) _ (by rw [← hc, hsl2, hnd]) (by rw [← hc, List.getElem?_set_self (by rw [hst.2.1]; omega)]) hst' hau1 had2
      rw [← hc] at hir
      have hlast : h + 1 = height → idx / 2 ^ (h + 1) = 0 := fun e => Nat.div_eq_of_lt (e ▸ hidx)
      rw [show 1 + c = c + 1 by omega]
      refine ⟨fun hok => ?_, fun hbad hend _ => ?_⟩
      · obtain ⟨auth1, ep, hau1⟩ := hpath (by
          by_cases e : h + 1 = height
          · right
            rw [hlast e, e]
            have hi : idx + 1 = 2 ^ height := by
              have := low_ones hlow'
              rw [hlast e, e] at this
              omega
            have hne := hok.resolve_right (by omega)
            generalize leafIdx / 2 ^ height = x at hne
            rw [sibling]; split <;> omega
          · left; omega)
        rw [ep, ok_bind]
        exact (hir auth1 hau1).1 hok
      · by_cases e : h + 1 = height
        · rw [if_pos (hcond.2 (by rw [hlast e, e, hbad]; rfl)), copy_past (by rw [hlen]; omega) (by omega) (by rw [hau.1, e])]
          rfl
        · obtain ⟨auth1, ep, hau1⟩ := hpath (Or.inl (by omega))
          rw [ep, ok_bind]
          exact (hir auth1 hau1).2 hbad hend (by omega)

theorem treehash_outer {base : Adrs} {off leafIdx height : Nat} {leaf : Nat → Bytes} (hleaf : ∀ i, (leaf i).length = 32)
    (hh : height < 31) (hoff : off + 2 ^ height < 2 ^ 32) (genLeaf : Nat → Bytes → C Bytes)
    (hgen : ∀ i addr, i < 2 ^ height → AddrOk base addr → genLeaf (i + off) addr = .ok (leaf i)) :
    ∀ n idx, n + idx = 2 ^ height → ∀ (auth stack : Bytes) (heights : List Nat) (addr : Bytes),
      StackIs (node shake pub (treeAdrs base off) leaf) height idx 0 stack heights →
      AuthOk (node shake pub (treeAdrs base off) leaf) height leafIdx (fun _ => idx) auth → AddrOk base addr →
      let r := loop (fun idx s => do
        let (auth, stack, heights, offset, addr) := (s : Bytes × Bytes × List Nat × Nat × Bytes)
        let leaf ← genLeaf ((idx + off) % 2 ^ 32) addr
        let stack ← copy stack (offset * 32) leaf 0 32
        let heights ← wr heights offset 0
        let auth ← (if leafIdx ^^^ 1 = idx then copy auth 0 stack (offset * 32) 32 else .ok auth : C Bytes)
        treehashMerge shake ⟨pub, sec⟩ leafIdx off idx (height + 1) auth stack heights (offset + 1) addr) idx n (auth, stack, heights, ones idx, addr)
      (leafIdx / 2 ^ height ≠ 1 → ∃ auth' stack' heights' addr', r = .ok (auth', stack', heights', ones (2 ^ height), addr') ∧
        AuthOk (node shake pub (treeAdrs base off) leaf) height leafIdx (fun _ => 2 ^ height) auth' ∧ AddrOk base addr' ∧
        StackIs (node shake pub (treeAdrs base off) leaf) height (2 ^ height) 0 stack' heights') ∧
      (leafIdx / 2 ^ height = 1 → 0 < n → r = .error .ub) := by
  intro n
  induction n with
  | zero =>
    intro idx hn auth stack heights addr hst hau had
    obtain rfl : idx = 2 ^ height := by omega
    exact ⟨fun _ => ⟨_, _, _, _, rfl, hau, had, hst⟩, fun _ h => absurd h (by omega)⟩
  | succ n ih =>
    intro idx hn auth stack heights addr hst hau had r
    have hm : (idx + off) % 2 ^ 32 = idx + off := Nat.mod_eq_of_lt (by omega)
    have hidx : idx < 2 ^ height := by omega
    have hol := ones_le hidx
    have hnl := hleaf idx
    have hlen : (splice stack (ones idx * 32) (leaf idx)).length = (height + 1) * 32 := by rw [length_splice (by rw [hnl, hst.1]; omega), hst.1]
    have hsl : slice (splice stack (ones idx * 32) (leaf idx)) (ones idx * 32) 32 = leaf idx := by rw [block_write hst.1 hnl (by omega), if_pos rfl]
    have hst' : StackIs (node shake pub (treeAdrs base off) leaf) height idx 0 (splice stack (ones idx * 32) (leaf idx)) (heights.set (ones idx) 0) := by
      refine ⟨hlen, by rw [List.length_set, hst.2.1], fun h' _ h2 h3 => ?_⟩
      have hlt : ones (idx / 2 ^ (h' + 1)) < ones idx := by
        have h1 := ones_div_le idx 0 h'
        have h2 := ones_step (idx / 2 ^ h')
        rw [← div_pow_succ] at h2
        simp only [Nat.zero_add, Nat.pow_zero, Nat.div_one] at h1
        omega
      rw [block_write hst.1 hnl (by omega), if_neg (by omega), List.getElem?_set_ne (by omega)]
      exact hst.2.2 h' (by omega) h2 h3
    have hcond := xor_one_eq leafIdx idx
    have hr : r = (do
        let auth ← (if leafIdx ^^^ 1 = idx then copy auth 0 (splice stack (ones idx * 32) (leaf idx)) (ones idx * 32) 32 else .ok auth : C Bytes)
        let s ← treehashMerge shake ⟨pub, sec⟩ leafIdx off idx (height + 1) auth (splice stack (ones idx * 32) (leaf idx)) (heights.set (ones idx) 0) (ones idx + 1) addr
        loop (fun idx s => do
          let (auth, stack, heights, offset, addr) := (s : Bytes × Bytes × List Nat × Nat × Bytes)
          let leaf ← genLeaf ((idx + off) % 2 ^ 32) addr
          let stack ← copy stack (offset * 32) leaf 0 32
          let heights ← wr heights offset 0
          let auth ← (if leafIdx ^^^ 1 = idx then copy auth 0 stack (offset * 32) 32 else .ok auth : C Bytes)
          treehashMerge shake ⟨pub, sec⟩ leafIdx off idx (height + 1) auth stack heights (offset + 1) addr) (idx + 1) n s) := by
      show loop _ _ _ _ = _
      rw [loop]
      simp only []
      rw [hm, hgen idx addr hidx had, ok_bind, copy_all hnl (by rw [hst.1]; omega), ok_bind, wr_ok (by rw [hst.2.1]; omega), ok_bind, bind_assoc]
    rw [hr]
    by_cases h0 : height = 0 ∧ leafIdx ^^^ 1 = idx
    · obtain ⟨h0, cc⟩ := h0
      subst h0
      have hi0 : idx = 0 := by omega
      have hl1 : leafIdx = 1 := by
        have := hcond.1 cc
        rw [sibling] at this
        split at this <;> omega
      refine ⟨fun h => absurd (by rw [hl1, Nat.pow_zero]) h, fun _ _ => ?_⟩
      rw [if_pos cc, copy_past (by rw [hlen]; omega) (by omega) (by rw [hau.1])]
      rfl
    obtain ⟨auth1, ep, hau1⟩ : ∃ auth1, (if leafIdx ^^^ 1 = idx then copy auth 0 (splice stack (ones idx * 32) (leaf idx)) (ones idx * 32) 32 else .ok auth : C Bytes) = .ok auth1 ∧
        AuthOk (node shake pub (treeAdrs base off) leaf) height leafIdx (fun h' => if h' < 0 + 1 then idx + 1 else idx) auth1 := by
      by_cases cc : leafIdx ^^^ 1 = idx
      · have cs := hcond.1 cc
        have hle : 0 * 32 + 32 ≤ auth.length := by rw [hau.1]; omega
        rw [if_pos cc, copy_ok (by rw [hlen]; omega) (by omega), hsl]
        refine ⟨_, rfl, ?_, ?_⟩
        · rw [length_splice (by omega), hau.1]
        · intro h' hh' hb
          have hbw := block_write (h := 0) (h' := h') hau.1 hnl (by omega)
          rw [Nat.zero_mul] at hbw
          rw [hbw]
          split
          · rename_i e; subst e
            rw [Nat.pow_zero, Nat.div_one, ← cs, node]
          · rename_i e
            apply hau.2 h' hh'
            simp only [if_neg (show ¬ h' < 0 + 1 by omega)] at hb; exact hb
      · have cs := fun h => cc (hcond.2 h)
        rw [if_neg cc]
        refine ⟨_, rfl, hau.1, ?_⟩
        intro h' hh' hb
        apply hau.2 h' hh'
        by_cases c3 : h' = 0
        · subst c3
          simp only [Nat.zero_add, Nat.zero_lt_one, if_true, Nat.pow_zero, Nat.div_one, Nat.mul_one] at hb ⊢
          omega
        · simp only [if_neg (show ¬ h' < 0 + 1 by omega)] at hb; exact hb
    rw [ep, ok_bind]
    obtain ⟨hA, hB⟩ := treehashMerge_run hsh hpub (sec := sec) (base := base) (off := off) (leafIdx := leafIdx) hleaf hh hidx hoff height 0 (by omega) (by simp [Nat.mod_one]) auth1
      (splice stack (ones idx * 32) (leaf idx)) (heights.set (ones idx) 0) addr (by rw [Nat.pow_zero, Nat.div_one, hsl, node])
      (by rw [Nat.pow_zero, Nat.div_one, List.getElem?_set_self (by rw [hst.2.1]; omega)]) hst' hau1 had
    rw [Nat.pow_zero, Nat.div_one] at hA hB
    refine ⟨fun hok => ?_, fun hbad _ => ?_⟩
    · obtain ⟨auth2, stack2, heights2, addr2, e, hau2, had2, hst2⟩ := hA (Or.inl hok)
      rw [e, ok_bind]
      exact (ih (idx + 1) (by omega) auth2 stack2 heights2 addr2 hst2 hau2 had2).1 hok
    · by_cases he : idx + 1 = 2 ^ height
      · have hpos : 0 < height := by
          rcases Nat.eq_zero_or_pos height with e | e
          · exfalso
            subst e
            apply h0 ⟨rfl, hcond.2 ?_⟩
            rw [Nat.pow_zero, Nat.div_one] at hbad
            rw [hbad]
            have : idx = 0 := by omega
            rw [this]; rfl
          · exact e
        rw [hB hbad he hpos]
        rfl
      · obtain ⟨auth2, stack2, heights2, addr2, e, hau2, had2, hst2⟩ := hA (Or.inr (by omega))
        rw [e, ok_bind]
        exact (ih (idx + 1) (by omega) auth2 stack2 heights2 addr2 hst2 hau2 had2).2 hbad (by omega)

theorem treehash_run {base : Adrs} {off leafIdx height : Nat} {leaf : Nat → Bytes} (hleaf : ∀ i, (leaf i).length = 32)
    (hh : height < 31) (hoff : off + 2 ^ height < 2 ^ 32) (genLeaf : Nat → Bytes → C Bytes)
    (hgen : ∀ i addr, i < 2 ^ height → AddrOk base addr → genLeaf (i + off) addr = .ok (leaf i))
    {auth stack addr : Bytes} {heights : List Nat} (hau : auth.length = height * 32) (hst : stack.length = (height + 1) * 32) (hht : heights.length = height + 1) (had : AddrOk base addr) :
    (leafIdx / 2 ^ height ≠ 1 → ∃ auth' addr', treehash shake ⟨pub, sec⟩ leafIdx off height genLeaf auth stack heights addr =
        .ok (node shake pub (treeAdrs base off) leaf height 0, auth', addr') ∧ auth'.length = height * 32 ∧
      (leafIdx < 2 ^ height → auth' = authPath shake pub (treeAdrs base off) leaf height leafIdx) ∧ AddrOk base addr') ∧
    (leafIdx / 2 ^ height = 1 → treehash shake ⟨pub, sec⟩ leafIdx off height genLeaf auth stack heights addr = .error .ub) := by
  obtain ⟨hA, hB⟩ := treehash_outer hsh hpub (sec := sec) (base := base) (off := off) (leafIdx := leafIdx) hleaf hh hoff genLeaf hgen (2 ^ height) 0 (by omega) auth stack heights addr
    ⟨hst, hht, fun h _ _ hb => by simp at hb⟩ ⟨hau, fun h _ hb => by
      have := Nat.two_pow_pos h
      have := Nat.mul_le_mul_left (sibling (leafIdx / 2 ^ h) + 1) this
      have hb' : (sibling (leafIdx / 2 ^ h) + 1) * 2 ^ h ≤ 0 := hb
      omega⟩ had
  rw [ones_zero] at hA hB
  refine ⟨fun hok => ?_, fun hbad => ?_⟩
  · obtain ⟨auth', stack', heights', addr', e, h1, h2, h3⟩ := hA hok
    have hroot := (h3.2.2 height (by omega) (Nat.le_refl _) (by rw [Nat.div_self (Nat.two_pow_pos _)])).1
    rw [Nat.div_eq_of_lt (by rw [Nat.pow_succ]; have := Nat.two_pow_pos height; omega), ones_zero, Nat.zero_mul] at hroot
    refine ⟨auth', addr', ?_, h1.1, fun hl => ?_, h2⟩
    · rw [treehash, if_neg (by omega), e, ok_bind]
      simp only []
      rw [copy_fresh (by rw [h3.1]; omega), ok_bind, hroot]
    · apply blocks_ext h1.1
      intro h hlt
      apply h1.2 h hlt
      have e2 : 2 ^ height = 2 ^ (height - 1 - h + 1) * 2 ^ h := by rw [← Nat.pow_add]; congr 1; omega
      have h4 : leafIdx / 2 ^ h < 2 ^ (height - 1 - h + 1) := by
        rw [Nat.div_lt_iff_lt_mul (Nat.two_pow_pos h), ← e2]; exact hl
      have := sibling_lt h4
      show _ ≤ 2 ^ height
      rw [e2]
      exact Nat.mul_le_mul_right _ this
  · rw [treehash, if_neg (by omega), hB hbad (Nat.two_pow_pos _)]
    rfl

end
end Verif.Sphincs
