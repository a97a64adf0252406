import Verif.Sphincs.Lemmas

/-! `treehashx1` and `compute_root` against the recursive definition of the hash tree. -/

namespace Verif.Sphincs
open Verif Spec

theorem sibling_mod (y : Nat) : sibling y / 2 = y / 2 ∧ sibling y ≠ y := by
  rw [sibling]; split <;> omega

theorem mod_two_xor (x y : Nat) : (x ^^^ y) % 2 = (x + y) % 2 := by
  have h := Nat.testBit_xor x y 0
  simp only [Nat.testBit_zero] at h
  have hx := Nat.mod_two_eq_zero_or_one x
  have hy := Nat.mod_two_eq_zero_or_one y
  have hz := Nat.mod_two_eq_zero_or_one (x ^^^ y)
  rcases hx with hx | hx <;> rcases hy with hy | hy <;> rcases hz with hz | hz <;> simp [hx, hy, hz] at h <;> omega

theorem xor_eq_one_iff (x y : Nat) : x ^^^ y = 1 ↔ x = sibling y := by
  have h1 : (x ^^^ y) / 2 = (x / 2) ^^^ (y / 2) := Nat.xor_div_two
  have h2 : (x ^^^ y) % 2 = (x + y) % 2 := mod_two_xor x y
  constructor
  · intro h
    rw [h] at h1 h2
    have h3 : (x / 2) ^^^ (y / 2) = 0 := by rw [← h1]
    have h4 : x / 2 = y / 2 := by
      have h5 := congrArg (fun t => t ^^^ y / 2) h3
      simpa [Nat.xor_assoc] using h5
    rw [sibling]; split <;> omega
  · intro h
    have := sibling_mod y
    rw [h] at h1 h2 ⊢
    rw [this.1, Nat.xor_self] at h1
    have h5 : (sibling y + y) % 2 = 1 := by rw [sibling]; split <;> omega
    omega

theorem and_one_eq (x : Nat) : x &&& 1 = x % 2 := Nat.and_one_is_mod x

theorem succ_div_pow {i k : Nat} (h : (i + 1) % 2 ^ k ≠ 0) : (i + 1) / 2 ^ k = i / 2 ^ k := by
  rw [Nat.succ_div, if_neg (fun hd => h (Nat.mod_eq_zero_of_dvd hd)), Nat.add_zero]

theorem low_ones {i h : Nat} (hl : i % 2 ^ h = 2 ^ h - 1) : i + 1 = (i / 2 ^ h + 1) * 2 ^ h := by
  have := Nat.div_add_mod i (2 ^ h)
  have hP := Nat.two_pow_pos h
  rw [Nat.add_mul, Nat.mul_comm]; omega

theorem low_ones_mod {i h h' : Nat} (hl : i % 2 ^ h = 2 ^ h - 1) (he : i / 2 ^ h % 2 = 0) (hh : h < h') : (i + 1) % 2 ^ h' ≠ 0 := by
  intro h0
  have h1 : (i + 1) % 2 ^ (h + 1) = 0 :=
    Nat.mod_eq_zero_of_dvd (Nat.dvd_trans (Nat.pow_dvd_pow 2 hh) (Nat.dvd_of_mod_eq_zero h0))
  rw [low_ones hl, Nat.pow_succ, Nat.mul_comm (2 ^ h) 2, Nat.mul_mod_mul_right] at h1
  have hP := Nat.two_pow_pos h
  rcases Nat.mul_eq_zero.1 h1 with h2 | h2 <;> omega

theorem low_ones_bit {i h h' : Nat} (hl : i % 2 ^ h = 2 ^ h - 1) (hh : h' < h) : (i + 1) / 2 ^ h' % 2 = 0 := by
  have e : (i + 1) / 2 ^ h' = (i / 2 ^ h + 1) * 2 ^ (h - h' - 1) * 2 := by
    rw [Nat.mul_assoc, ← Nat.pow_succ, low_ones hl]
    apply Nat.div_eq_of_eq_mul_left (Nat.two_pow_pos h')
    rw [Nat.mul_assoc, ← Nat.pow_add, show h - h' - 1 + 1 + h' = h by omega]
  rw [e]; omega

theorem div_pow_succ (i h : Nat) : i / 2 ^ (h + 1) = i / 2 ^ h / 2 := by rw [Nat.pow_succ, Nat.div_div_eq_div_mul]

section
variable {shake : Bytes → Nat → Bytes} (hsh : ∀ m n, (shake m n).length = n)
include hsh

theorem length_T (pub : Bytes) (a : Adrs) (m : Bytes) : (T shake pub a m).length = 32 := hsh _ _
theorem length_prf (s : Seeds) (a : Adrs) : (prf shake s a).length = 32 := hsh _ _

theorem length_node {pub : Bytes} {adrs : Nat → Nat → Adrs} {leaf : Nat → Bytes} (hl : ∀ i, (leaf i).length = 32) (h i : Nat) :
    (node shake pub adrs leaf h i).length = 32 := by
  cases h with
  | zero => exact hl i
  | succ h => exact length_T hsh _ _ _

theorem length_climb {pub : Bytes} {adrs : Nat → Nat → Adrs} {leaf auth : Bytes} (hl : leaf.length = 32) (i h : Nat) :
    (climb shake pub adrs leaf auth i h).length = 32 := by
  cases h with
  | zero => exact hl
  | succ h => exact length_T hsh _ _ _

/-- Addresses of tree nodes: a base address with height and offset index. -/
def treeAdrs (base : Adrs) (off h i : Nat) : Adrs := { base with w2 := h, w3 := i + off / 2 ^ h }

omit hsh in
theorem block_write {b c : Bytes} {h h' n : Nat} (hb : b.length = n * 32) (hc : c.length = 32) (hh : h < n) :
    slice (splice b (h * 32) c) (h' * 32) 32 = if h' = h then c else slice b (h' * 32) 32 := by
  by_cases e : h' = h
  · subst e
    rw [if_pos rfl, ← hc, hc]
    have := slice_splice_same (b := b) (x := c) (o := h' * 32) (by omega)
    rwa [hc] at this
  · rw [if_neg e, slice_splice_out (by omega) (by rw [hc]; omega)]

/-- What is on the stack before leaf `idx` is processed: for every bit of `idx` that is one, the left neighbour node. -/
def StackOk (nd : Nat → Nat → Bytes) (height idx : Nat) (stack : Bytes) : Prop :=
  stack.length = height * 32 ∧ ∀ h, h < height → idx / 2 ^ h % 2 = 1 → slice stack (h * 32) 32 = nd h (2 * (idx / 2 ^ (h + 1)))

/-- What has been written to the authentication path: the siblings that end before leaf `bound h`. -/
def AuthOk (nd : Nat → Nat → Bytes) (height leafIdx : Nat) (bound : Nat → Nat) (auth : Bytes) : Prop :=
  auth.length = height * 32 ∧ ∀ h, h < height → (sibling (leafIdx / 2 ^ h) + 1) * 2 ^ h ≤ bound h →
    slice auth (h * 32) 32 = nd h (sibling (leafIdx / 2 ^ h))

/-- The address used last for a node of the tree. -/
def AddrOk (base : Adrs) (addr : Bytes) : Prop := ∃ h i, Small { base with w2 := h, w3 := i } ∧ addr = { base with w2 := h, w3 := i }.bytes

omit hsh in
theorem AddrOk.set {base : Adrs} {addr : Bytes} (ha : AddrOk base addr) {h i : Nat} (hh : h < 256) (hi : i < 2 ^ 32) :
    ∃ ad, setTreeHeight addr h = .ok ad ∧ setTreeIndex ad i = .ok { base with w2 := h, w3 := i }.bytes ∧
      AddrOk base { base with w2 := h, w3 := i }.bytes := by
  obtain ⟨h0, i0, hs, rfl⟩ := ha
  have h1 := setHeight_run hs hh
  have h2 := setIndex_run h1.2 hi
  exact ⟨_, h1.1, h2.1, h, i, h2.2, rfl⟩

variable {pub : Bytes} (hpub : pub.length = 32) {sec : Option Bytes}
include hpub

set_option maxHeartbeats 1000000 in
theorem treehashInner_run {base : Adrs} {off leafIdx height idx : Nat} {leaf : Nat → Bytes} (hleaf : ∀ i, (leaf i).length = 32)
    (hh : height < 32) (hidx : idx < 2 ^ height) (hoff : off + 2 ^ height < 2 ^ 32) :
    ∀ (k h : Nat), k + h = height → idx % 2 ^ h = 2 ^ h - 1 → ∀ (auth stack current addr : Bytes),
      current.length = 64 → current.drop 32 = node shake pub (treeAdrs base off) leaf h (idx / 2 ^ h) →
      StackOk (node shake pub (treeAdrs base off) leaf) height idx stack →
      AuthOk (node shake pub (treeAdrs base off) leaf) height leafIdx (fun h' => if h' < h then idx + 1 else idx) auth →
      AddrOk base addr →
      ∃ r auth' stack' addr', treehashInner shake ⟨pub, sec⟩ height idx (k + 1) h (idx / 2 ^ h) (leafIdx / 2 ^ h) (off / 2 ^ h)
          auth stack current addr = .ok (r, auth', stack', addr') ∧
        AuthOk (node shake pub (treeAdrs base off) leaf) height leafIdx (fun _ => idx + 1) auth' ∧ AddrOk base addr' ∧
        ((idx + 1 = 2 ^ height ∧ r = some (node shake pub (treeAdrs base off) leaf height 0)) ∨
         (idx + 1 < 2 ^ height ∧ r = none ∧ StackOk (node shake pub (treeAdrs base off) leaf) height (idx + 1) stack')) := by
  intro k
  induction k with
  | zero =>
    intro h hk hlow auth stack current addr hc hcur hst hau had
    have hhh : h = height := by omega
    subst hhh
    have hi0 : idx / 2 ^ h = 0 := Nat.div_eq_of_lt hidx
    have hmod : idx % 2 ^ h = idx := Nat.mod_eq_of_lt hidx
    rw [treehashInner, if_pos rfl, copy_ok (by omega) (by simp [zeroBytes]), ok_bind]
    refine ⟨_, _, _, _, rfl, ?_, had, Or.inl ⟨by omega, ?_⟩⟩
    · refine ⟨hau.1, fun h' h1 h2 => hau.2 h' h1 ?_⟩
      simp only [if_pos h1]; exact h2
    · have hl : (slice current 32 32).length = 32 := length_slice (by omega)
      rw [splice_all (by simp [zeroBytes, hl]), slice, hcur, List.take_of_length_le (by rw [length_node hsh hleaf]), hi0]
  | succ k ih =>
    intro h hk hlow auth stack current addr hc hcur hst hau had
    have hP : 0 < 2 ^ h := Nat.two_pow_pos h
    have hP1 : 2 ^ (h + 1) = 2 * 2 ^ h := by rw [Nat.pow_succ, Nat.mul_comm]
    have hdm := Nat.div_add_mod idx (2 ^ h)
    have hcur' : slice current 32 32 = node shake pub (treeAdrs base off) leaf h (idx / 2 ^ h) := by
      rw [slice, hcur, List.take_of_length_le (by rw [length_node hsh hleaf])]
    have hnl := length_node hsh (pub := pub) (adrs := treeAdrs base off) hleaf h (idx / 2 ^ h)
    rw [treehashInner, if_neg (by omega)]
    -- the authentication path
    obtain ⟨auth1, e1, hau1⟩ : ∃ auth1, (if idx / 2 ^ h ^^^ leafIdx / 2 ^ h = 1 then copy auth (h * 32) current 32 32 else pure auth) = .ok auth1 ∧
        AuthOk (node shake pub (treeAdrs base off) leaf) height leafIdx (fun h' => if h' < h + 1 then idx + 1 else idx) auth1 := by
      by_cases c : idx / 2 ^ h ^^^ leafIdx / 2 ^ h = 1
      · have hle : h * 32 + 32 ≤ auth.length := by rw [hau.1]; omega
        rw [if_pos c, copy_ok (by omega) hle, hcur']
        refine ⟨_, rfl, ?_, ?_⟩
        · rw [length_splice (by rw [hnl]; exact hle), hau.1]
        · intro h' hh' hb
          rw [block_write hau.1 hnl (by omega)]
          rw [xor_eq_one_iff] at c
          split
          · rename_i e; subst e; rw [c]
          · rename_i e
            apply hau.2 h' hh'
            by_cases c2 : h' < h
            · simp only [if_pos c2, if_pos (show h' < h + 1 by omega)] at hb ⊢; exact hb
            · simp only [if_neg c2, if_neg (show ¬ h' < h + 1 by omega)] at hb ⊢; exact hb
      · rw [if_neg c]
        refine ⟨_, rfl, hau.1, ?_⟩
        intro h' hh' hb
        apply hau.2 h' hh'
        by_cases c2 : h' < h
        · simp only [if_pos c2, if_pos (show h' < h + 1 by omega)] at hb ⊢; exact hb
        · simp only [if_neg c2]
          by_cases c3 : h' = h
          · subst c3
            simp only [if_pos (show h' < h' + 1 by omega)] at hb
            rw [xor_eq_one_iff] at c
            by_contra hgt
            apply c
            have e1 := (low_ones hlow).symm
            have h1 : (sibling (leafIdx / 2 ^ h') + 1) * 2 ^ h' = idx + 1 := by omega
            have := Nat.eq_of_mul_eq_mul_right hP (e1.trans h1.symm)
            omega
          · simp only [if_neg (show ¬ h' < h + 1 by omega)] at hb; exact hb
    rw [e1, ok_bind]
    by_cases ceven : idx / 2 ^ h % 2 = 0
    · -- left child
      have hne : ∀ h', h < h' → (idx + 1) % 2 ^ h' ≠ 0 := fun h' => low_ones_mod hlow ceven
      have hlt : idx + 1 < 2 ^ height := by
        rcases Nat.lt_or_ge (idx + 1) (2 ^ height) with h1 | h1
        · exact h1
        · have h2 : idx + 1 = 2 ^ height := by omega
          exact absurd (by rw [h2, Nat.mod_self]) (hne height (by omega))
      rw [if_pos ⟨by rw [and_one_eq]; exact ceven, by omega⟩, copy_ok (by omega) (by rw [hst.1]; omega), ok_bind, hcur']
      refine ⟨_, _, _, _, rfl, ?_, had, Or.inr ⟨hlt, rfl, ?_, ?_⟩⟩
      · refine ⟨hau1.1, fun h' h1 h2 => hau1.2 h' h1 ?_⟩
        by_cases c : h' < h + 1
        · simp only [if_pos c]; exact h2
        · simp only [if_neg c]
          simp only at h2
          rcases Nat.lt_or_ge idx ((sibling (leafIdx / 2 ^ h') + 1) * 2 ^ h') with h3 | h3
          · have : idx + 1 = (sibling (leafIdx / 2 ^ h') + 1) * 2 ^ h' := by omega
            exfalso; apply hne h' (by omega); rw [this]; simp
          · exact h3
      · rw [length_splice (by rw [hnl, hst.1]; omega), hst.1]
      · intro h' hh' hbit
        rw [block_write hst.1 hnl (by omega)]
        split
        · rename_i e; subst e
          rw [succ_div_pow (hne _ (by omega)), div_pow_succ]
          congr 1; omega
        · rename_i e
          by_cases c : h' < h
          · exact absurd (low_ones_bit hlow c) (by omega)
          · have h1 := succ_div_pow (hne h' (by omega))
            have h2 := succ_div_pow (hne (h' + 1) (by omega))
            rw [h1] at hbit
            rw [h2]
            exact hst.2 h' hh' hbit
    · -- right child
      have hodd : idx / 2 ^ h % 2 = 1 := by omega
      rw [if_neg (by rw [and_one_eq, hodd]; omega)]
      have hb1 : idx / 2 ^ h / 2 < 2 ^ height := by
        have : idx / 2 ^ h ≤ idx := Nat.div_le_self _ _
        omega
      have hb2 : off / 2 ^ (h + 1) ≤ off := Nat.div_le_self _ _
      have hsum : idx / 2 ^ h / 2 + off / 2 ^ (h + 1) < 2 ^ 32 := by omega
      obtain ⟨ad, ea1, ea2, had2⟩ := had.set (h := h + 1) (i := idx / 2 ^ h / 2 + off / 2 ^ (h + 1)) (by omega) hsum
      simp only [Nat.shiftRight_eq_div_pow, Nat.pow_one, ← div_pow_succ off h]
      have hpw : (idx / 2 ^ h / 2 + off / 2 ^ (h + 1)) % 2 ^ 32 = idx / 2 ^ h / 2 + off / 2 ^ (h + 1) := Nat.mod_eq_of_lt hsum
      rw [ea1, ok_bind, hpw, ea2, ok_bind, copy_ok (by rw [hst.1]; omega) (by omega), ok_bind, hst.2 h (by omega) hodd]
      have hll := length_node hsh (pub := pub) (adrs := treeAdrs base off) hleaf h (2 * (idx / 2 ^ (h + 1)))
      have hcl : (splice current 0 (node shake pub (treeAdrs base off) leaf h (2 * (idx / 2 ^ (h + 1))))).length = 64 := by
        rw [length_splice (by omega), hc]
      rw [thash_T hpub (by rw [hcl]), ok_bind]
      have hT := length_T hsh pub { base with w2 := h + 1, w3 := idx / 2 ^ h / 2 + off / 2 ^ (h + 1) }
      rw [copy_ok (by rw [hT]) (by rw [hcl]), ok_bind]
      have hsl : slice (splice current 0 (node shake pub (treeAdrs base off) leaf h (2 * (idx / 2 ^ (h + 1))))) 0 (2 * 32) =
          node shake pub (treeAdrs base off) leaf h (2 * (idx / 2 ^ (h + 1))) ++ node shake pub (treeAdrs base off) leaf h (2 * (idx / 2 ^ (h + 1)) + 1) := by
        rw [slice, List.take_of_length_le (by simp [hcl]), List.drop_zero, splice, List.take_zero, List.nil_append, hll, Nat.zero_add, hcur]
        congr 2
        rw [div_pow_succ]; omega
      rw [hsl]
      have hnode : T shake pub { base with w2 := h + 1, w3 := idx / 2 ^ h / 2 + off / 2 ^ (h + 1) }
          (node shake pub (treeAdrs base off) leaf h (2 * (idx / 2 ^ (h + 1))) ++ node shake pub (treeAdrs base off) leaf h (2 * (idx / 2 ^ (h + 1)) + 1)) =
          node shake pub (treeAdrs base off) leaf (h + 1) (idx / 2 ^ (h + 1)) := by
        rw [node, treeAdrs, div_pow_succ idx]
      rw [hnode]
      have hnl2 := length_node hsh (pub := pub) (adrs := treeAdrs base off) hleaf (h + 1) (idx / 2 ^ (h + 1))
      have hs2 : slice (node shake pub (treeAdrs base off) leaf (h + 1) (idx / 2 ^ (h + 1))) 0 32 =
          node shake pub (treeAdrs base off) leaf (h + 1) (idx / 2 ^ (h + 1)) := by
        conv_lhs => rw [← hnl2]
        exact slice_zero_length _
      rw [hs2, ← div_pow_succ idx, ← div_pow_succ leafIdx]
      have hlow' : idx % 2 ^ (h + 1) = 2 ^ (h + 1) - 1 := by
        have h2 := low_ones hlow
        have h3 : idx + 1 = (idx / 2 ^ (h + 1) + 1) * 2 ^ (h + 1) := by
          rw [h2, div_pow_succ, hP1, ← Nat.mul_assoc]; congr 1; omega
        have h4 := Nat.div_add_mod idx (2 ^ (h + 1))
        rw [Nat.add_mul, Nat.mul_comm] at h3
        omega
      exact ih (h + 1) (by omega) hlow' auth1 stack _ _
        (by rw [length_splice (by rw [hnl2, hcl]), hcl])
        (by
          rw [splice, List.drop_append_of_le_length (by simp [hcl, hnl2]), List.drop_append_of_le_length (by simp [hcl])]
          simp [hcl, hnl2]) hst hau1 (by rw [div_pow_succ idx]; exact had2)

theorem treehashOuter_run {ι : Type} {base : Adrs} {off leafIdx height : Nat} {leaf : Nat → Bytes} (hleaf : ∀ i, (leaf i).length = 32)
    (hh : height < 32) (hoff : off + 2 ^ height < 2 ^ 32) (J : Nat → ι → Prop) (genLeaf : Nat → ι → C (Bytes × ι))
    (hgen : ∀ i info, i < 2 ^ height → J i info → ∃ info', genLeaf (i + off) info = .ok (leaf i, info') ∧ J (i + 1) info') :
    ∀ n idx, n + idx = 2 ^ height → 0 < n → ∀ (auth stack addr : Bytes) (info : ι),
      StackOk (node shake pub (treeAdrs base off) leaf) height idx stack →
      AuthOk (node shake pub (treeAdrs base off) leaf) height leafIdx (fun _ => idx) auth → AddrOk base addr → J idx info →
      ∃ auth' addr' info', treehashOuter shake ⟨pub, sec⟩ leafIdx off height genLeaf n idx auth stack addr info =
          .ok (node shake pub (treeAdrs base off) leaf height 0, auth', addr', info') ∧
        AuthOk (node shake pub (treeAdrs base off) leaf) height leafIdx (fun _ => 2 ^ height) auth' ∧ AddrOk base addr' ∧
        J (2 ^ height) info' := by
  intro n
  induction n with
  | zero => intro _ _ h; omega
  | succ n ih =>
    intro idx hn _ auth stack addr info hst hau had hJ
    obtain ⟨info1, eg, hJ1⟩ := hgen idx info (by omega) hJ
    have hm : (idx + off) % 2 ^ 32 = idx + off := Nat.mod_eq_of_lt (by omega)
    have hl := hleaf idx
    have hsl : slice (leaf idx) 0 32 = leaf idx := by rw [← hl]; exact slice_zero_length _
    rw [treehashOuter, hm, eg, ok_bind]
    simp only
    rw [copy_ok (by omega) (by simp [zeroBytes]), ok_bind, hsl]
    obtain ⟨r, auth1, stack1, addr1, e, hau1, had1, hr⟩ := treehashInner_run hsh hpub (sec := sec) (base := base) (off := off)
      (leafIdx := leafIdx) hleaf hh (idx := idx) (by omega) hoff height 0 (by omega) (by simp [Nat.mod_one]) auth stack
      (splice (zeroBytes 64) 32 (leaf idx)) addr (by rw [length_splice (by simp [zeroBytes, hl])]; simp [zeroBytes])
      (by simp [splice, zeroBytes, hl, node]) hst (by simpa using hau) had
    simp only [Nat.pow_zero, Nat.div_one] at e
    rw [e, ok_bind]
    rcases hr with ⟨h1, rfl⟩ | ⟨h1, rfl, hst1⟩
    · rw [h1] at hau1 hJ1
      exact ⟨_, _, _, rfl, hau1, had1, hJ1⟩
    · exact ih (idx + 1) (by omega) (by omega) auth1 stack1 addr1 info1 hst1 hau1 had1 hJ1

omit hsh hpub in
theorem sibling_lt {i n : Nat} (h : i < 2 ^ (n + 1)) : sibling i < 2 ^ (n + 1) := by
  have := Nat.pow_succ 2 n
  rw [sibling]; split <;> omega

/-- `treehashx1` returns the root of the tree over the leaves that the callback produces and the authentication path of the selected
leaf (when the selected number is a leaf). -/
theorem treehashx1_run {ι : Type} {base : Adrs} {off leafIdx height : Nat} {leaf : Nat → Bytes} (hleaf : ∀ i, (leaf i).length = 32)
    (hh : height < 32) (hoff : off + 2 ^ height < 2 ^ 32) (J : Nat → ι → Prop) (genLeaf : Nat → ι → C (Bytes × ι))
    (hgen : ∀ i info, i < 2 ^ height → J i info → ∃ info', genLeaf (i + off) info = .ok (leaf i, info') ∧ J (i + 1) info')
    {auth stack addr : Bytes} {info : ι} (hau : auth.length = height * 32) (hst : stack.length = height * 32) (had : AddrOk base addr)
    (hJ : J 0 info) :
    ∃ auth' addr' info', treehashx1 shake ⟨pub, sec⟩ leafIdx off height genLeaf auth stack addr info =
        .ok (node shake pub (treeAdrs base off) leaf height 0, auth', addr', info') ∧ auth'.length = height * 32 ∧
      (leafIdx < 2 ^ height → auth' = authPath shake pub (treeAdrs base off) leaf height leafIdx) ∧ AddrOk base addr' ∧ J (2 ^ height) info' := by
  obtain ⟨auth', addr', info', e, h1, h2, h3⟩ := treehashOuter_run hsh hpub (sec := sec) (base := base) (leafIdx := leafIdx) hleaf hh hoff J genLeaf hgen
    (2 ^ height) 0 (by omega) (Nat.two_pow_pos _) auth stack addr info
    ⟨hst, fun h _ hb => by simp at hb⟩ ⟨hau, fun h _ hb => by
      have := Nat.two_pow_pos h
      have := Nat.mul_le_mul_left (sibling (leafIdx / 2 ^ h) + 1) this
      have hb' : (sibling (leafIdx / 2 ^ h) + 1) * 2 ^ h ≤ 0 := hb
      omega⟩ had hJ
  refine ⟨auth', addr', info', e, h1.1, fun hl => ?_, h2, h3⟩
  apply blocks_ext h1.1
  intro h hlt
  apply h1.2 h hlt
  have e2 : 2 ^ height = 2 ^ (height - 1 - h + 1) * 2 ^ h := by rw [← Nat.pow_add]; congr 1; omega
  have h4 : leafIdx / 2 ^ h < 2 ^ (height - 1 - h + 1) := by
    rw [Nat.div_lt_iff_lt_mul (Nat.two_pow_pos h), ← e2]; exact hl
  have := sibling_lt h4
  show _ ≤ 2 ^ height
  rw [e2]
  exact Nat.mul_le_mul_right _ this

omit hsh hpub in
theorem slice_slice {b : Bytes} {o n o' n' : Nat} (h : o' + n' ≤ n) : slice (slice b o n) o' n' = slice b (o + o') n' := by
  apply List.ext_getElem?
  intro i
  rw [getElem?_slice, getElem?_slice, getElem?_slice]
  by_cases c : i < n'
  · rw [if_pos c, if_pos c, if_pos (by omega), Nat.add_assoc]
  · rw [if_neg c, if_neg c]

omit hsh hpub in
theorem pair_left {x y : Bytes} (hx : x.length = 32) (hy : y.length = 32) {b : Bytes} (hb : b.length = 64) :
    splice (splice b 0 x) 32 y = x ++ y := by
  have := splice_append (h := b) (x := x) (y := y) (o := 0) (by omega)
  rw [hx, Nat.zero_add] at this
  rw [this, splice_all (by simp [hx, hy, hb])]

omit hsh hpub in
theorem pair_right {x y : Bytes} (hx : x.length = 32) (hy : y.length = 32) {b : Bytes} (hb : b.length = 64) :
    splice (splice b 32 x) 0 y = y ++ x := by
  simp only [splice, List.take_zero, List.nil_append, hy, hx, Nat.zero_add]
  rw [List.drop_append_of_le_length (by simp; omega), List.drop_append_of_le_length (by simp; omega)]
  simp [hb]

/-- `compute_root` climbs along the authentication path. -/
theorem computeRoot_run {base : Adrs} {off leafIdx height o : Nat} {leaf auth addr : Bytes} (hleaf : leaf.length = 32)
    (hh : height < 31) (hoff : off + leafIdx < 2 ^ 32) (hau : o + (height + 1) * 32 ≤ auth.length) (had : AddrOk base addr) :
    ∃ addr', computeRoot shake leaf leafIdx off auth o (height + 1) ⟨pub, sec⟩ addr =
      .ok (climb shake pub (treeAdrs base off) leaf (slice auth o ((height + 1) * 32)) leafIdx (height + 1), addr') ∧ AddrOk base addr' := by
  obtain ⟨y, hy⟩ : ∃ y : Nat → Bytes, ∀ i, y i = slice (slice auth o ((height + 1) * 32)) (32 * i) 32 := ⟨_, fun _ => rfl⟩
  obtain ⟨x, hx⟩ : ∃ x : Nat → Bytes, ∀ i, x i = climb shake pub (treeAdrs base off) leaf (slice auth o ((height + 1) * 32)) leafIdx i :=
    ⟨_, fun _ => rfl⟩
  have hya : ∀ i, i ≤ height → slice auth (o + 32 * i) 32 = y i := fun i hi => by rw [hy, slice_slice (by omega)]
  have hyl : ∀ i, i ≤ height → (y i).length = 32 := fun i hi => by rw [← hya i hi, length_slice (by omega)]
  have hxl : ∀ i, (x i).length = 32 := fun i => by rw [hx]; exact length_climb hsh hleaf _ _
  have hx0 : x 0 = leaf := by rw [hx, climb]
  have hxs : ∀ i, x (i + 1) = T shake pub (treeAdrs base off (i + 1) (leafIdx / 2 ^ (i + 1))) (if leafIdx / 2 ^ i % 2 = 0 then x i ++ y i else y i ++ x i) := by
    intro i; rw [hx, climb, ← hx, ← hy]
  have hz : (zeroBytes 64).length = 64 := by simp [zeroBytes]
  rw [← hx]
  have step : ∀ i b, i ≤ height → b.length = 64 → (if leafIdx / 2 ^ i &&& 1 ≠ 0 then do
        let b ← copy b 32 (x i) 0 32
        copy b 0 auth (o + 32 * i) 32
      else do
        let b ← copy b 0 (x i) 0 32
        copy b 32 auth (o + 32 * i) 32 : C Bytes) = .ok (if leafIdx / 2 ^ i % 2 = 0 then x i ++ y i else y i ++ x i) := by
    intro i b hi hb
    have hsx : slice (x i) 0 32 = x i := by
      conv_lhs => rw [← hxl i]
      exact slice_zero_length _
    rw [and_one_eq]
    by_cases c : leafIdx / 2 ^ i % 2 = 0
    · rw [if_neg (by omega), if_pos c, copy_ok (by rw [hxl]) (by omega), ok_bind, hsx,
        copy_ok (by omega) (by rw [length_splice (by rw [hxl]; omega), hb]), hya i hi, pair_left (hxl i) (hyl i hi) hb]
    · rw [if_pos (by omega), if_neg c, copy_ok (by rw [hxl]) (by omega), ok_bind, hsx,
        copy_ok (by omega) (by rw [length_splice (by rw [hxl]; omega), hb]; omega), hya i hi, pair_right (hxl i) (hyl i hi) hb]
  have hbl : ∀ i, i ≤ height → (if leafIdx / 2 ^ i % 2 = 0 then x i ++ y i else y i ++ x i).length = 64 := by
    intro i hi; split <;> simp [hxl, hyl i hi]
  have hidx : ∀ i, leafIdx / 2 ^ i + off / 2 ^ i < 2 ^ 32 := fun i => by
    have h1 := Nat.div_le_self leafIdx (2 ^ i)
    have h2 := Nat.div_le_self off (2 ^ i)
    omega
  have hash : ∀ i addr, i ≤ height → AddrOk base addr → ∃ ad ad2, setTreeHeight addr (i + 1) = .ok ad ∧
      setTreeIndex ad ((leafIdx / 2 ^ (i + 1) + off / 2 ^ (i + 1)) % 2 ^ 32) = .ok ad2 ∧ AddrOk base ad2 ∧
      thash shake (if leafIdx / 2 ^ i % 2 = 0 then x i ++ y i else y i ++ x i) 0 2 ⟨pub, sec⟩ ad2 = .ok (x (i + 1)) := by
    intro i addr hi ha
    obtain ⟨ad, e1, e2, h3⟩ := ha.set (h := i + 1) (i := leafIdx / 2 ^ (i + 1) + off / 2 ^ (i + 1)) (by omega) (hidx _)
    refine ⟨ad, _, e1, by rw [Nat.mod_eq_of_lt (hidx _)]; exact e2, h3, ?_⟩
    rw [thash_T hpub (by rw [hbl i hi]), hxs]
    congr 2
    rw [slice, List.drop_zero, List.take_of_length_le (by rw [hbl i hi])]
  rw [computeRoot]
  have s0 := step 0 (zeroBytes 64) (by omega) hz
  simp only [Nat.pow_zero, Nat.div_one, Nat.mul_zero, Nat.add_zero, hx0] at s0
  rw [s0, ok_bind]
  obtain ⟨⟨b, li, of, ad⟩, el, h1, h2, h3, h4⟩ := loop_inv (fun i (s : Bytes × Nat × Nat × Bytes) =>
      s.1 = (if leafIdx / 2 ^ i % 2 = 0 then x i ++ y i else y i ++ x i) ∧ s.2.1 = leafIdx / 2 ^ i ∧ s.2.2.1 = off / 2 ^ i ∧ AddrOk base s.2.2.2)
    (fun i s => do
      let (buffer, li, off, addr) := (s : Bytes × Nat × Nat × Bytes)
      let li := li >>> 1
      let off := off >>> 1
      let addr ← setTreeHeight addr (i + 1)
      let addr ← setTreeIndex addr ((li + off) % 2 ^ 32)
      let t ← thash shake buffer 0 2 ⟨pub, sec⟩ addr
      let buffer ←
        (if li &&& 1 ≠ 0 then do
          let b ← copy buffer 32 t 0 32
          copy b 0 auth (o + 32 * (i + 1)) 32
        else do
          let b ← copy buffer 0 t 0 32
          copy b 32 auth (o + 32 * (i + 1)) 32 : C Bytes)
      pure (buffer, li, off, addr)) 0 height ((if leafIdx % 2 = 0 then leaf ++ y 0 else y 0 ++ leaf), leafIdx, off, addr)
    ⟨by simp [hx0], by simp, by simp, had⟩ (by
      rintro i ⟨b, li, of, ad⟩ _ hi ⟨h1, h2, h3, h4⟩
      simp only at h1 h2 h3 h4
      subst h1 h2 h3
      obtain ⟨ad1, ad2, e1, e2, h5, e3⟩ := hash i ad (by omega) h4
      simp only [Nat.shiftRight_eq_div_pow, Nat.pow_one, ← div_pow_succ]
      rw [e1, ok_bind, e2, ok_bind, e3, ok_bind, step (i + 1) _ (by omega) (hbl i (by omega)), ok_bind]
      exact ⟨_, rfl, rfl, rfl, rfl, h5⟩)
  rw [Nat.zero_add] at h1 h2 h3
  simp only at h1 h2 h3 h4
  subst h1 h2 h3
  rw [show height + 1 - 1 = height by omega, el, ok_bind]
  obtain ⟨ad1, ad2, e1, e2, h5, e3⟩ := hash height ad (by omega) h4
  simp only [Nat.shiftRight_eq_div_pow, Nat.pow_one, ← div_pow_succ]
  rw [e1, ok_bind, e2, ok_bind, e3, ok_bind]
  exact ⟨_, rfl, h5⟩

omit hpub in
/-- Climbing from a leaf along its own authentication path gives the node of the tree. -/
theorem climb_authPath {adrs : Nat → Nat → Adrs} {leaf : Nat → Bytes} (hleaf : ∀ i, (leaf i).length = 32) {height i : Nat} :
    ∀ h, h ≤ height → climb shake pub adrs (leaf i) (authPath shake pub adrs leaf height i) i h = node shake pub adrs leaf h (i / 2 ^ h) := by
  intro h
  induction h with
  | zero => intro _; simp [climb, node]
  | succ h ih =>
    intro hh
    rw [climb, node]
    rw [ih (by omega)]
    have hb : slice (authPath shake pub adrs leaf height i) (32 * h) 32 = node shake pub adrs leaf h (sibling (i / 2 ^ h)) := by
      rw [Nat.mul_comm]
      exact slice_flatMap (fun j _ => length_node hsh hleaf _ _) (by omega)
    rw [hb, div_pow_succ]
    congr 1
    rw [sibling]
    generalize i / 2 ^ h = z
    by_cases c : z % 2 = 0
    · rw [if_pos c, if_pos c, show 2 * (z / 2) = z by omega]
    · rw [if_neg c, if_neg c, show 2 * (z / 2) = z - 1 by omega, show z - 1 + 1 = z by omega]
end

end Verif.Sphincs
