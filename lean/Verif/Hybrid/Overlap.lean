import Verif.Hybrid.Props2

/-!
Copy loops between buffers that overlap, and the functions of the hybrid layer that have such loops.
-/

namespace Verif.Hybrid
open Verif Toy

variable {P : Prims}

/-- A forward copy of `n` bytes from `q` to `p` reads no byte after writing it (compare hybrid-dilithium-sphincs/hybrid.c:659-662): the ranges are apart or the target begins no later than the source. -/
def Fwd (p q : Ptr) (n : Nat) : Prop := p.blk ≠ q.blk ∨ p.off ≤ q.off ∨ q.off + n ≤ p.off

theorem Disj.fwd {p q : Ptr} {n k l j : Nat} (h : Disj p n q k) (hl : l ≤ n) (hk : j + l ≤ k) (hl0 : 0 < l) : Fwd p (q.add j) l := by
  rcases h with h | h | h
  · exact .inl h
  · exact .inr (.inl (by simp only [Ptr.add]; omega))
  · exact .inr (.inr (by simp only [Ptr.add]; omega))

theorem Fwd.refl (p : Ptr) (n : Nat) : Fwd p p n := .inr (.inl (Nat.le_refl _))

/-- One round of a copy loop. -/
theorem copy_step {W : World} {p q : Ptr} {o s n k : Nat} {y : Bytes} {v : Byte} (h : (W.view (p.add o) n).isSome) (hy : y.length = k) (hk : k < n)
    (hv : (W.write (p.add o) y).view ((q.add s).add k) 1 = some [v]) :
    (do let v ← load q (s + k); store p (o + k) v) (W.write (p.add o) y) = .ok ((), W.write (p.add o) (y ++ [v])) := by
  have hld : load q (s + k) (W.write (p.add o) y) = .ok (v, W.write (p.add o) y) := by
    have := load_ok hv (i := 0) (by omega)
    unfold load at this ⊢
    simp only [Ptr.add, Nat.add_zero, Nat.add_assoc] at this ⊢
    exact this
  rw [M_bind_apply, hld]
  simp only [ok_bind]
  rw [← store_append (v := v) h hy hk]
  unfold store
  simp only [Ptr.add, Nat.add_assoc]

/-- Copying forward between two ranges of caller memory: what is written is what was there before the loop. -/
theorem copyMem_fwd {W : World} {p q : Ptr} {o s n : Nat} {x : Bytes} (h : (W.view (p.add o) n).isSome) (hq : W.view (q.add s) n = some x)
    (hd : Fwd (p.add o) (q.add s) n) : copyMem p o q s n W = .ok ((), W.write (p.add o) x) := by
  have hx := length_of_view hq
  unfold copyMem
  obtain ⟨u, W', e, hW⟩ := loopM_ok (fun k _ W' => W' = W.write (p.add o) (x.take k))
    (fun i (_ : Unit) => do let v ← load q (s + i); store p (o + i) v) 0 n () W
    (by simp [write_nil])
    (by
      rintro k c W' _ hk rfl
      have hl : (x.take k).length = k := by rw [List.length_take]; omega
      refine ⟨(), _, copy_step (v := x[k]'(by omega)) h hl (by omega) ?_, ?_⟩
      · rw [view_write_disj, view_sub hq (by omega)]
        · rw [slice_eq, List.drop_eq_getElem_cons (by omega : k < x.length)]; rfl
        · rw [hl]
          rcases hd with hd | hd | hd
          · exact Or.inl hd
          · exact Or.inr (Or.inl (by simp only [Ptr.add] at hd ⊢; omega))
          · exact Or.inr (Or.inr (by simp only [Ptr.add] at hd ⊢; omega))
      · rw [List.take_succ_eq_append_getElem (by omega : k < x.length)])
  rw [e, hW, Nat.zero_add, List.take_of_length_le (by omega)]

/-- Copying forward to a place `d` bytes after the source, `0 < d`: the first `d` bytes are repeated. -/
theorem copyMem_period {W : World} {p q : Ptr} {o s n d : Nat} {x : Bytes} (h : (W.view (p.add o) n).isSome) (hq : W.view (q.add s) n = some x)
    (hb : p.blk = q.blk) (ho : p.off + o = q.off + s + d) (hd : 0 < d) :
    copyMem p o q s n W = .ok ((), W.write (p.add o) ((List.range n).map fun i => x.getD (i % d) 0)) := by
  have hx := length_of_view hq
  unfold copyMem
  obtain ⟨u, W', e, hW⟩ := loopM_ok (fun k _ W' => W' = W.write (p.add o) ((List.range k).map fun i => x.getD (i % d) 0))
    (fun i (_ : Unit) => do let v ← load q (s + i); store p (o + i) v) 0 n () W
    (by simp [write_nil])
    (by
      rintro k c W' _ hk rfl
      refine ⟨(), _, copy_step (v := x.getD (k % d) 0) h (by simp) (by omega) ?_, by simp [List.range_succ]⟩
      by_cases hkd : k < d
      · rw [view_write_disj, view_sub hq (by omega), Nat.mod_eq_of_lt hkd]
        · rw [slice_eq, List.drop_eq_getElem_cons (by omega : k < x.length)]
          rw [List.getD, List.getElem?_eq_getElem (by omega : k < x.length)]; rfl
        · exact Or.inr (Or.inr (by simp only [Ptr.add]; omega))
      · have hs := view_write_same' (x := (List.range k).map fun i => x.getD (i % d) 0) (view_isSome_sub (o := 0) h (by omega : 0 + k ≤ n)) (by simp)
        have hs2 := view_sub hs (o := k - d) (k := 1) (by omega)
        have hp : (q.add s).add k = ((p.add o).add 0).add (k - d) := by
          simp only [Ptr.add, Ptr.mk.injEq]
          exact ⟨hb.symm, by omega⟩
        rw [hp]
        refine hs2.trans ?_
        rw [slice_eq, List.drop_eq_getElem_cons (by simp; omega)]
        simp only [List.take_succ_cons, List.take_zero, List.getElem_map, List.getElem_range, Option.some.injEq, List.cons.injEq, and_true]
        congr 1
        conv_rhs => rw [show k = (k - d) + d by omega, Nat.add_mod_right])
  rw [e, hW, Nat.zero_add]

/-- The bytes that a forward copy of `x` from `q` to `p` leaves at `p` (compare hybrid-dilithium-sphincs/hybrid.c:659-662): `x` itself, unless the target begins inside the source, where the bytes in
front of the target are repeated. -/
def forward (p q : Ptr) (x : Bytes) : Bytes :=
  if p.blk = q.blk ∧ q.off < p.off ∧ p.off < q.off + x.length then (List.range x.length).map fun i => x.getD (i % (p.off - q.off)) 0 else x

theorem forward_of_fwd {p q : Ptr} {x : Bytes} (h : Fwd p q x.length) : forward p q x = x := by
  unfold forward
  rw [if_neg]
  rintro ⟨a, b, c⟩
  rcases h with h | h | h
  · exact h a
  · omega
  · omega

theorem length_forward (p q : Ptr) (x : Bytes) : (forward p q x).length = x.length := by
  unfold forward
  split <;> simp

/-- Copying between two ranges of caller memory, whatever their placement. -/
theorem copyMem_any {W : World} {p q : Ptr} {o s n : Nat} {x : Bytes} (h : (W.view (p.add o) n).isSome) (hq : W.view (q.add s) n = some x) :
    copyMem p o q s n W = .ok ((), W.write (p.add o) (forward (p.add o) (q.add s) x)) := by
  have hx := length_of_view hq
  unfold forward
  split
  · rename_i c
    obtain ⟨a, b, c⟩ := c
    have := copyMem_period (d := (p.add o).off - (q.add s).off) h hq a (by simp only [Ptr.add] at b ⊢; omega) (by omega)
    rw [this, hx]
  · rename_i c
    refine copyMem_fwd h hq ?_
    by_cases e : (p.add o).blk = (q.add s).blk
    · exact .inr (by omega)
    · exact .inl e

end Verif.Hybrid
