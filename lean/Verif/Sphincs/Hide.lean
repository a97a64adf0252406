import Verif.Sphincs.HideSpec
import Verif.Sphincs.Forge
import Verif.Sphincs.Props2

/-! Helper lemmas for C121. -/

namespace Verif.Sphincs
open Verif Spec

/-- Fields of two addresses with the same bytes. -/
theorem bytes_fields {a b : Adrs} (e : a.bytes = b.bytes) : a.type % 2 ^ 32 = b.type % 2 ^ 32 ∧ a.w2 % 2 ^ 32 = b.w2 % 2 ^ 32 := by
  unfold Adrs.bytes at e
  simp only [List.append_assoc] at e
  obtain ⟨e1, e⟩ := List.append_inj e (by rw [length_be, length_be])
  obtain ⟨e2, e⟩ := List.append_inj e (by rw [length_be, length_be])
  obtain ⟨e3, e⟩ := List.append_inj e (by rw [length_be, length_be])
  obtain ⟨e4, e⟩ := List.append_inj e (by rw [length_be, length_be])
  obtain ⟨e5, e6⟩ := List.append_inj e (by rw [length_be, length_be])
  have h3 := congrArg ofBe e3
  have h5 := congrArg ofBe e5
  rw [ofBe_be, ofBe_be] at h3 h5
  exact ⟨h3, h5⟩

theorem string_inj {pub : Bytes} {a b : Adrs} {x y : Bytes} (e : pub ++ a.bytes ++ x = pub ++ b.bytes ++ y) : a.bytes = b.bytes ∧ x = y := by
  rw [List.append_assoc, List.append_assoc] at e
  exact List.append_inj (List.append_cancel_left e) (by rw [length_bytes, length_bytes])

theorem in_tree_lt {l : Loc} (h : l.In) : l.tree < 2 ^ 64 :=
  Nat.lt_of_lt_of_le h.tree (Nat.le_trans (Nat.pow_le_pow_right (by decide) (Nat.sub_le 16 _)) (by decide))

/-- Within range the bytes determine the place. -/
theorem place_inj {l l' : Loc} (h : l.In) (h' : l'.In) {ty ty' y y' z z' : Nat} (hty : ty < 7) (hty' : ty' < 7) (hy : y < 67) (hy' : y' < 67) (hz : z < 17920) (hz' : z' < 17920)
    (e : (⟨l.layer, l.tree, ty, l.leaf, y, z⟩ : Adrs).bytes = (⟨l'.layer, l'.tree, ty', l'.leaf, y', z'⟩ : Adrs).bytes) : l = l' ∧ ty = ty' ∧ y = y' ∧ z = z' := by
  have a1 := h.layer; have a2 := h'.layer; have a3 := in_tree_lt h; have a4 := in_tree_lt h'; have a5 := h.leaf; have a6 := h'.leaf
  have := address_injective _ _ (by show l.layer < _; omega) (by show l'.layer < _; omega) (by show l.tree < _; omega) (by show l'.tree < _; omega) (by show ty < _; omega) (by show ty' < _; omega)
    (by show l.leaf < _; omega) (by show l'.leaf < _; omega) (by show y < _; omega) (by show y' < _; omega) (by show z < _; omega) (by show z' < _; omega) e
  injection this with e1 e2 e3 e4 e5 e6
  cases l; cases l'
  simp only at e1 e2 e4
  subst e1 e2 e4
  exact ⟨rfl, e3, e5, e6⟩

variable {H : Bytes → Nat → Bytes} {s : Seeds} {w u : Loc → Nat → Nat → Bytes} {O : Loc → Nat → Nat → Prop}

theorem depth_lt (l : Loc) (i : Nat) : depth H s l i < 16 := digit_lt _ _

/-- A replaced string has a place, a type and numbers in range. -/
theorem replaced_shape {x v : Bytes} (h : Replaced H s w u O x v) : ∃ (l : Loc) (ty y z : Nat) (r : Bytes), l.In ∧ y < 67 ∧ z < 17920 ∧ x = s.pub ++ (⟨l.layer, l.tree, ty, l.leaf, y, z⟩ : Adrs).bytes ++ r ∧
    ((ty = 5 ∧ z = 0 ∧ r = s.sec ∧ 0 < depth H s l y ∧ v = w l y 0) ∨
     (ty = 0 ∧ z < depth H s l y ∧ r = w l y z ∧ v = if z + 1 = depth H s l y then chain H s.pub (wotsAdrs l y) (wotsSk H s l y) 0 (z + 1) else w l y (z + 1)) ∨
     (ty = 6 ∧ y = 0 ∧ r = s.sec ∧ ∃ t j, z = t * 512 + j ∧ j < 512 ∧ ¬O l t j ∧ v = u l t j) ∨
     (ty = 3 ∧ y = 0 ∧ ∃ t j, z = t * 512 + j ∧ j < 512 ∧ r = u l t j ∧ ¬O l t j ∧ v = forsLeaf H s l t j)) := by
  cases h with
  | @start l i hl hi hd => exact ⟨l, 5, i, 0, _, hl, hi, by omega, rfl, .inl ⟨rfl, rfl, rfl, hd, rfl⟩⟩
  | @step l i k hl hi hd =>
    have := depth_lt (H := H) (s := s) l i
    exact ⟨l, 0, i, k, _, hl, hi, by omega, rfl, .inr (.inl ⟨rfl, by omega, rfl, by rw [if_neg (by omega)]⟩)⟩
  | @last l i k hl hi hd =>
    have := depth_lt (H := H) (s := s) l i
    exact ⟨l, 0, i, k, _, hl, hi, by omega, rfl, .inr (.inl ⟨rfl, by omega, rfl, by rw [if_pos hd]⟩)⟩
  | @fors l t j hl h0 ht hj ho => exact ⟨l, 6, 0, t * 512 + j, _, hl, by omega, by omega, rfl, .inr (.inr (.inl ⟨rfl, rfl, rfl, t, j, rfl, hj, ho, rfl⟩))⟩
  | @leaf l t j hl h0 ht hj ho => exact ⟨l, 3, 0, t * 512 + j, _, hl, by omega, by omega, rfl, .inr (.inr (.inr ⟨rfl, rfl, t, j, rfl, hj, rfl, ho, rfl⟩))⟩

/-- A string is replaced by at most one value. -/
theorem replaced_unique {x v v' : Bytes} (h : Replaced H s w u O x v) (h' : Replaced H s w u O x v') : v = v' := by
  obtain ⟨l, ty, y, z, r, hl, hy, hz, e, c⟩ := replaced_shape h
  obtain ⟨l', ty', y', z', r', hl', hy', hz', e', c'⟩ := replaced_shape h'
  have t1 : ty < 7 := by rcases c with ⟨c, -⟩ | ⟨c, -⟩ | ⟨c, -⟩ | ⟨c, -⟩ <;> omega
  have t2 : ty' < 7 := by rcases c' with ⟨c, -⟩ | ⟨c, -⟩ | ⟨c, -⟩ | ⟨c, -⟩ <;> omega
  obtain ⟨rfl, rfl, rfl, rfl⟩ := place_inj hl hl' t1 t2 hy hy' hz hz' (string_inj (e.symm.trans e')).1
  rcases c with ⟨c0, -, -, -, c⟩ | ⟨c0, -, -, c⟩ | ⟨c0, -, -, t, j, c1, c2, -, c⟩ | ⟨c0, -, t, j, c1, c2, -, -, c⟩ <;>
  rcases c' with ⟨d0, -, -, -, d⟩ | ⟨d0, -, -, d⟩ | ⟨d0, -, -, t', j', d1, d2, -, d⟩ | ⟨d0, -, t', j', d1, d2, -, -, d⟩ <;> first | omega | skip
  · rw [c, d]
  · rw [c, d]
  · obtain ⟨rfl, rfl⟩ : t = t' ∧ j = j' := by omega
    rw [c, d]
  · obtain ⟨rfl, rfl⟩ : t = t' ∧ j = j' := by omega
    rw [c, d]

open Classical in
/-- The hash function with the replaced values (no line of its own). -/
noncomputable def patched (H : Bytes → Nat → Bytes) (s : Seeds) (w u : Loc → Nat → Nat → Bytes) (O : Loc → Nat → Nat → Prop) (x : Bytes) (n : Nat) : Bytes :=
  if h : n = 32 ∧ ∃ v, Replaced H s w u O x v then h.2.choose else H x n

theorem patched_of {x v : Bytes} (h : Replaced H s w u O x v) : patched H s w u O x 32 = v := by
  have c : (32 : Nat) = 32 ∧ ∃ v, Replaced H s w u O x v := ⟨rfl, v, h⟩
  rw [patched, dif_pos c]
  exact replaced_unique c.2.choose_spec h

theorem patched_not {x : Bytes} (h : ∀ v, ¬Replaced H s w u O x v) (n : Nat) : patched H s w u O x n = H x n := by
  rw [patched, dif_neg fun c => h _ c.2.choose_spec]

section
variable {H' : Bytes → Nat → Bytes} (hH : ∀ m n, (H m n).length = n) (h1 : ∀ x v, Replaced H s w u O x v → H' x 32 = v) (h2 : ∀ x n, (∀ v, ¬Replaced H s w u O x v) → H' x n = H x n)
include h2

/-- Other types of addresses, and nodes of FORS trees, are left alone. -/
theorem T_same {a : Adrs} {m : Bytes} (h : a.type = 1 ∨ a.type = 2 ∨ a.type = 4 ∨ (a.type = 3 ∧ 0 < a.w2 ∧ a.w2 < 2 ^ 32)) : T H' s.pub a m = T H s.pub a m := by
  unfold T
  refine h2 _ _ fun v hv => ?_
  obtain ⟨l, ty, y, z, r, hl, hy, hz, e, c⟩ := replaced_shape hv
  obtain ⟨e1, e2⟩ := bytes_fields (string_inj e).1
  simp only at e1 e2
  rcases h with h | h | h | ⟨h, h', h''⟩ <;> rcases c with ⟨rfl, -⟩ | ⟨rfl, -⟩ | ⟨rfl, -⟩ | ⟨rfl, rfl, -⟩ <;> rw [h] at e1 <;> omega

omit h2 in
theorem node_same {adrs : Nat → Nat → Adrs} {leaf leaf' : Nat → Bytes} {D : Nat} (ha : ∀ h i m, h < D → T H' s.pub (adrs (h + 1) i) m = T H s.pub (adrs (h + 1) i) m) :
    ∀ h i, h ≤ D → (∀ j, j < (i + 1) * 2 ^ h → leaf' j = leaf j) → node H' s.pub adrs leaf' h i = node H s.pub adrs leaf h i := by
  intro h
  induction h with
  | zero => intro i _ hl; exact hl i (by omega)
  | succ h ih =>
    intro i hD hl
    have p : (i + 1) * 2 ^ (h + 1) = (2 * i + 1 + 1) * 2 ^ h := by rw [Nat.pow_succ]; ring
    rw [node, node, ha _ _ _ (by omega), ih (2 * i) (by omega) fun j hj => hl j (by rw [p, Nat.add_mul]; omega), ih (2 * i + 1) (by omega) fun j hj => hl j (by rw [p]; exact hj)]

omit h2 in
theorem authPath_same {adrs : Nat → Nat → Adrs} {leaf leaf' : Nat → Bytes} {D i : Nat} (ha : ∀ h i m, h < D → T H' s.pub (adrs (h + 1) i) m = T H s.pub (adrs (h + 1) i) m) (hi : i < 2 ^ D)
    (hl : ∀ j, j < 2 ^ D → leaf' j = leaf j) : authPath H' s.pub adrs leaf' D i = authPath H s.pub adrs leaf D i := by
  unfold authPath
  refine flatMap_congr fun h hh => node_same ha _ _ (by omega) fun j hj => hl j ?_
  have e : 2 ^ D = 2 ^ (D - h - 1 + 1) * 2 ^ h := by rw [← Nat.pow_add]; congr 1; omega
  have := sibling_lt (i := i / 2 ^ h) (n := D - h - 1) (by rw [Nat.div_lt_iff_lt_mul (Nat.pow_pos (by decide)), ← e]; exact hi)
  rw [e]
  exact Nat.lt_of_lt_of_le hj (Nat.mul_le_mul_right _ this)

include h1

omit h2 in
/-- Below the depth the chain has the new values. -/
theorem chain_new {l : Loc} (hl : l.In) {i : Nat} (hi : i < 67) : ∀ k, k < depth H s l i → chain H' s.pub (wotsAdrs l i) (wotsSk H' s l i) 0 k = w l i k := by
  intro k
  induction k with
  | zero => intro hd; exact h1 _ _ (.start hl hi hd)
  | succ k ih =>
    intro hd
    rw [chain, ih (by omega), Nat.zero_add]
    exact h1 _ _ (.step hl hi hd)

/-- From the depth on it has the old ones. -/
theorem chain_old {l : Loc} (hl : l.In) {i : Nat} (hi : i < 67) : ∀ k, depth H s l i ≤ k → k ≤ 15 →
    chain H' s.pub (wotsAdrs l i) (wotsSk H' s l i) 0 k = chain H s.pub (wotsAdrs l i) (wotsSk H s l i) 0 k := by
  intro k
  induction k with
  | zero =>
    intro hd _
    refine h2 _ _ fun v hv => ?_
    obtain ⟨l', ty, y, z, r, hl', hy, hz, e, c⟩ := replaced_shape hv
    obtain ⟨rfl, rfl, rfl, rfl⟩ := place_inj hl hl' (by omega) (by omega) hi hy (by omega) hz (string_inj e).1
    omega
  | succ k ih =>
    intro hd hk
    by_cases c : depth H s l i = k + 1
    · rw [chain, chain_new h1 hl hi k (by omega), Nat.zero_add]
      exact h1 _ _ (.last hl hi c.symm)
    · rw [chain, chain, ih (by omega) (by omega), Nat.zero_add]
      refine h2 _ _ fun v hv => ?_
      obtain ⟨l', ty, y, z, r, hl', hy, hz, e, c⟩ := replaced_shape hv
      obtain ⟨rfl, rfl, rfl, rfl⟩ := place_inj hl hl' (ty := 0) (y := i) (z := k) (by omega) (by omega) hi hy (by omega) hz (string_inj e).1
      omega

theorem wotsPk_same {l : Loc} (hl : l.In) : wotsPk H' s l = wotsPk H s l := by
  unfold wotsPk wotsCompress
  rw [T_same h2 (.inl rfl), flatMap_congr fun i hi => chain_old h1 h2 hl hi 15 (by have := depth_lt (H := H) (s := s) l i; omega) (Nat.le_refl _)]

theorem wotsSig_same {l : Loc} (hl : l.In) : wotsSig H' s l (signed H s l) = wotsSig H s l (signed H s l) :=
  flatMap_congr fun i hi => chain_old h1 h2 hl hi _ (Nat.le_refl _) (by have := digit_lt (signed H s l) i; omega)

theorem xmssRoot_same {layer tree : Nat} (hl : layer < 17) (ht : tree < 16 ^ (16 - layer)) : xmssRoot H' s layer tree = xmssRoot H s layer tree :=
  node_same (D := 4) (fun _ _ _ _ => T_same h2 (.inr (.inl rfl))) _ _ (Nat.le_refl _) fun j hj => wotsPk_same h1 h2 ⟨hl, ht, by simpa using hj⟩

theorem xmssSign_same {l : Loc} (hl : l.In) : xmssSign H' s l.layer l.tree l.leaf (signed H s l) = xmssSign H s l.layer l.tree l.leaf (signed H s l) := by
  unfold xmssSign
  have e := authPath_same (adrs := xmssAdrs l.layer l.tree) (leaf' := fun i => wotsPk H' s ⟨l.layer, l.tree, i⟩) (leaf := fun i => wotsPk H s ⟨l.layer, l.tree, i⟩) (D := 4) (i := l.leaf)
    (fun _ _ _ _ => T_same h2 (.inr (.inl rfl))) hl.leaf fun j hj => wotsPk_same h1 h2 (l := ⟨l.layer, l.tree, j⟩) ⟨hl.layer, hl.tree, hj⟩
  rw [show (⟨l.layer, l.tree, l.leaf⟩ : Loc) = l from rfl, wotsSig_same h1 h2 hl, e]

omit h2 in
/-- Secrets of FORS leaves. -/
theorem forsSk_new {l : Loc} (hl : l.In) (h0 : l.layer = 0) {t j : Nat} (ht : t < 35) (hj : j < 512) (ho : ¬O l t j) : forsSk H' s l t j = u l t j :=
  h1 _ _ (.fors hl h0 ht hj ho)

omit h1 in
theorem forsSk_old {l : Loc} (hl : l.In) {t j : Nat} (ht : t < 35) (hj : j < 512) (ho : O l t j) : forsSk H' s l t j = forsSk H s l t j := by
  refine h2 _ _ fun v hv => ?_
  obtain ⟨l', ty, y, z, r, hl', hy, hz, e, c⟩ := replaced_shape hv
  obtain ⟨rfl, rfl, rfl, rfl⟩ := place_inj hl hl' (ty := 6) (y := 0) (z := t * 512 + j) (by omega) (by omega) (by omega) hy (by omega) hz (string_inj e).1
  rcases c with ⟨c, -⟩ | ⟨c, -⟩ | ⟨-, -, -, t', j', c1, c2, c3, -⟩ | ⟨c, -⟩ <;> try omega
  obtain ⟨rfl, rfl⟩ : t = t' ∧ j = j' := by omega
  exact c3 ho

theorem forsLeaf_same {l : Loc} (hl : l.In) (h0 : l.layer = 0) {t j : Nat} (ht : t < 35) (hj : j < 512) : forsLeaf H' s l t j = forsLeaf H s l t j := by
  by_cases ho : O l t j
  · unfold forsLeaf T
    rw [forsSk_old h2 hl ht hj ho]
    refine h2 _ _ fun v hv => ?_
    obtain ⟨l', ty, y, z, r, hl', hy, hz, e, c⟩ := replaced_shape hv
    obtain ⟨rfl, rfl, rfl, rfl⟩ := place_inj hl hl' (ty := 3) (y := 0) (z := t * 512 + j) (by omega) (by omega) (by omega) hy (by omega) hz (string_inj e).1
    rcases c with ⟨c, -⟩ | ⟨c, -⟩ | ⟨c, -⟩ | ⟨-, -, t', j', c1, c2, -, c3, -⟩ <;> try omega
    obtain ⟨rfl, rfl⟩ : t = t' ∧ j = j' := by omega
    exact c3 ho
  · rw [forsLeaf, forsSk_new h1 hl h0 ht hj ho]
    exact h1 _ _ (.leaf hl h0 ht hj ho)

omit h1 in
theorem fors_adrs (l : Loc) (t : Nat) (h i : Nat) (m : Bytes) (hh : h < 9) : T H' s.pub (forsAdrs l t (h + 1) i) m = T H s.pub (forsAdrs l t (h + 1) i) m :=
  T_same h2 (.inr (.inr (.inr ⟨rfl, Nat.succ_pos h, by show h + 1 < _; omega⟩)))

theorem forsPk_same {l : Loc} (hl : l.In) (h0 : l.layer = 0) : forsPk H' s l = forsPk H s l := by
  unfold forsPk forsCompress
  rw [T_same h2 (.inr (.inr (.inl rfl))), flatMap_congr fun t ht => node_same (D := 9) (fors_adrs h2 l t) 9 0 (Nat.le_refl _) fun j hj => forsLeaf_same h1 h2 hl h0 ht (by simpa using hj)]

theorem forsSign_same {l : Loc} (hl : l.In) (h0 : l.layer = 0) {md : Bytes} (ho : ∀ t, t < 35 → O l t (forsIndex md t)) : Spec.forsSign H' s l md = Spec.forsSign H s l md := by
  have hf : ∀ t, forsIndex md t < 512 := fun t => Nat.mod_lt _ (by decide)
  unfold Spec.forsSign
  refine flatMap_congr fun t ht => ?_
  rw [forsSk_old h2 hl ht (hf t) (ho t ht), authPath_same (D := 9) (fors_adrs h2 l t) (hf t) fun j hj => forsLeaf_same h1 h2 hl h0 ht hj]

theorem htSign_same : ∀ (n : Nat) {la tr lf : Nat}, la + n = 17 → (n ≠ 0 → Loc.In ⟨la, tr, lf⟩) → htSign H' s n la tr lf (signed H s ⟨la, tr, lf⟩) = htSign H s n la tr lf (signed H s ⟨la, tr, lf⟩) := by
  intro n
  induction n with
  | zero => intros; rfl
  | succ n ih =>
    intro la tr lf h hl
    have hl := hl (by omega)
    have e : xmssRoot H s la tr = signed H s ⟨la + 1, tr / 16, tr % 16⟩ := by
      show _ = xmssRoot H s la (16 * (tr / 16) + tr % 16)
      rw [Nat.div_add_mod]
    rw [htSign, htSign, xmssRoot_same h1 h2 hl.layer hl.tree, e, ih (by omega)]
    · have := xmssSign_same h1 h2 hl
      rw [this]
    · intro hn
      refine ⟨by show la + 1 < 17; omega, ?_, Nat.mod_lt _ (by decide)⟩
      have := hl.tree
      simp only at this ⊢
      rw [show 16 - la = 16 - (la + 1) + 1 by omega, Nat.pow_succ] at this
      omega

/-- The whole signature. -/
theorem sign_same (hp : s.pub.length = 32) (hs : s.sec.length = 32) (hw : ∀ l i k, (w l i k).length = 32) (hu : ∀ l t j, (u l t j).length = 32) {skPrf pk opt m : Bytes} (lp : skPrf.length = 32)
    (lk : pk.length = 64) (hH : ∀ m n, (H m n).length = n) (hne : skPrf ≠ s.pub) (hm : m ≠ []) (ho : ∀ l t j, opens H skPrf pk opt m l t j → O l t j) : sign H' s skPrf pk opt m = sign H s skPrf pk opt m := by
  have e1 : H' (skPrf ++ opt ++ m) 32 = H (skPrf ++ opt ++ m) 32 := by
    refine h2 _ _ fun v hv => ?_
    obtain ⟨l', ty, y, z, r, -, -, -, e, -⟩ := replaced_shape hv
    have := congrArg (List.take 32) e
    rw [List.append_assoc, List.append_assoc, List.take_left' lp, List.take_left' hp] at this
    exact hne this
  have e2 : digest H' (H (skPrf ++ opt ++ m) 32) pk m = digest H (H (skPrf ++ opt ++ m) 32) pk m := by
    refine h2 _ _ fun v hv => ?_
    have lm := List.length_pos_iff.2 hm
    have : (H (skPrf ++ opt ++ m) 32 ++ pk ++ m).length = 96 := by
      obtain ⟨l', ty, y, z, r, -, -, -, e, c⟩ := replaced_shape hv
      have lr : r.length = 32 := by
        rcases c with ⟨-, -, rfl, -⟩ | ⟨-, -, rfl, -⟩ | ⟨-, -, rfl, -⟩ | ⟨-, -, t, j, -, -, rfl, -⟩
        · exact hs
        · exact hw _ _ _
        · exact hs
        · exact hu _ _ _
      rw [e, List.length_append, List.length_append, hp, length_bytes, lr]
    rw [List.length_append, List.length_append, hH, lk] at this
    omega
  unfold sign
  simp only
  rw [e1, e2]
  generalize hd : digest H (H (skPrf ++ opt ++ m) 32) pk m = d at ho
  have hl : Loc.In ⟨0, treeOf d, leafOf d⟩ := ⟨by show 0 < 17; decide, treeOf_lt d, leafOf_lt d⟩
  rw [forsSign_same h1 h2 hl rfl fun t ht => ho _ _ _ (by rw [opens, hd]; exact ⟨rfl, ht, rfl⟩), forsPk_same h1 h2 hl rfl]
  have := htSign_same h1 h2 17 (la := 0) (tr := treeOf d) (lf := leafOf d) rfl fun _ => hl
  exact congrArg _ this

end

end Verif.Sphincs
