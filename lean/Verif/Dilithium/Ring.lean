import Verif.Dilithium.Sample

/-! Polynomial and vector operations of poly.c and polyvec.c against the ring of the specification. -/

namespace Verif.Dilithium
open Verif Spec

/-- A polynomial with coefficients below `B` in absolute value. -/
def PB (a : Poly) (B : Int) : Prop := a.length = 256 ∧ ∀ j, j < 256 → -B < co a j ∧ co a j < B
/-- Four such polynomials. -/
def VB (v : Vec) (B : Int) : Prop := v.length = 4 ∧ ∀ i, i < 4 → PB (at_ v i) B

theorem PB.mono {a : Poly} {B B' : Int} (h : PB a B) (hB : B ≤ B') : PB a B' := ⟨h.1, fun j hj => by have := h.2 j hj; omega⟩
theorem VB.mono {v : Vec} {B B' : Int} (h : VB v B) (hB : B ≤ B') : VB v B' := ⟨h.1, fun i hi => (h.2 i hi).mono hB⟩

theorem build_mk {f : Nat → C Int} (g : Nat → Int) (h : ∀ i, i < 256 → f i = .ok (g i)) : build 256 0 f = .ok (mk g) := build_ok g h

theorem length_vec {α : Type} (f : Nat → α) : (vec f).length = 4 := by simp [vec]
theorem at_vec {α : Type} (f : Nat → List α) {i : Nat} (hi : i < 4) : at_ (vec f) i = f i := by
  unfold at_ vec
  rw [List.getD_eq_getElem?_getD, List.getElem?_map, List.getElem?_range hi]; rfl

theorem vec_ext {α : Type} {u v : List (List α)} (hu : u.length = 4) (hv : v.length = 4) (h : ∀ i, i < 4 → at_ u i = at_ v i) : u = v := by
  apply List.ext_getElem (by omega)
  intro i h1 h2
  have := h i (by omega)
  unfold at_ at this
  rwa [List.getD_eq_getElem?_getD, List.getD_eq_getElem?_getD, List.getElem?_eq_getElem h1, List.getElem?_eq_getElem h2] at this

theorem PB_mk {g : Nat → Int} {B : Int} (h : ∀ j, j < 256 → -B < g j ∧ g j < B) : PB (mk g) B := ⟨length_mk g, fun j hj => by rw [co_mk _ hj]; exact h j hj⟩

/-! ### poly.c -/

theorem polyReduce_ok {a : Poly} (h : PB a 2143289344) :
    ∃ y, polyReduce a = .ok y ∧ PB y 6283010 ∧ ∀ j, j < 256 → co y j % 8380417 = co a j % 8380417 := by
  have hr : ∀ j, j < 256 → reduce32 (co a j) = .ok (co a j - (co a j + 4194304) / 8388608 * 8380417) := by
    intro j hj
    have := h.2 j hj
    unfold reduce32 Q
    rw [i32_ok (by omega) (by omega), ok_bind]
    simp only
    rw [shr_eq, show (2 : Int) ^ 23 = 8388608 by decide, i32_ok (by omega) (by omega), ok_bind, i32_ok (by omega) (by omega)]
  refine ⟨mk fun j => co a j - (co a j + 4194304) / 8388608 * 8380417, ?_, ⟨length_mk _, fun j hj => ?_⟩, fun j hj => ?_⟩
  · unfold polyReduce
    refine build_mk _ fun i hi => ?_
    rw [rd_co (by rw [h.1]; exact hi), ok_bind, hr i hi]
  · rw [co_mk _ hj]; have := h.2 j hj; omega
  · rw [co_mk _ hj]; omega

theorem polyCaddq_ok {a : Poly} (h : PB a 8380417) : polyCaddq a = .ok (mk fun j => co a j % 8380417) := by
  unfold polyCaddq
  refine build_mk _ fun i hi => ?_
  have := h.2 i hi
  rw [rd_co (by rw [h.1]; exact hi), ok_bind, caddq_ok (by omega) (by omega)]
  refine congrArg _ ?_
  split <;> omega

theorem polyAdd_ok {a b : Poly} {A B : Int} (ha : PB a A) (hb : PB b B) (h : A + B ≤ 2147483648) : polyAdd a b = .ok (mk fun j => co a j + co b j) := by
  unfold polyAdd
  refine build_mk _ fun i hi => ?_
  have := ha.2 i hi; have := hb.2 i hi
  rw [rd_co (by rw [ha.1]; exact hi), ok_bind, rd_co (by rw [hb.1]; exact hi), ok_bind, i32_ok (by omega) (by omega)]

theorem polySub_ok {a b : Poly} {A B : Int} (ha : PB a A) (hb : PB b B) (h : A + B ≤ 2147483648) : polySub a b = .ok (mk fun j => co a j - co b j) := by
  unfold polySub
  refine build_mk _ fun i hi => ?_
  have := ha.2 i hi; have := hb.2 i hi
  rw [rd_co (by rw [ha.1]; exact hi), ok_bind, rd_co (by rw [hb.1]; exact hi), ok_bind, i32_ok (by omega) (by omega)]

theorem polyShiftl_ok {a : Poly} (h : PB a 1024) : polyShiftl a = .ok (mk fun j => co a j * 8192) := by
  unfold polyShiftl
  refine build_mk _ fun i hi => ?_
  have := h.2 i hi
  rw [rd_co (by rw [h.1]; exact hi), ok_bind, i32_ok (by omega) (by omega)]

theorem polyPointwise_ok {a b : Poly} {A B : Int} (ha : PB a A) (hb : PB b B) (h : A * B ≤ 17996808470921216) :
    ∃ y, polyPointwise a b = .ok y ∧ PB y 8380417 ∧ ∀ j, j < 256 → cf y j = cf a j * cf b j * Rinv := by
  have hp : ∀ j, j < 256 → -17996808470921216 < co a j * co b j ∧ co a j * co b j < 17996808470921216 := by
    intro j hj
    have h1 := ha.2 j hj; have h2 := hb.2 j hj
    have e1 : |co a j| ≤ A - 1 := abs_le.2 ⟨by omega, by omega⟩
    have e2 : |co b j| ≤ B - 1 := abs_le.2 ⟨by omega, by omega⟩
    have e3 : |co a j * co b j| ≤ (A - 1) * (B - 1) := by
      rw [abs_mul]; exact mul_le_mul e1 e2 (abs_nonneg _) (by omega)
    have e4 := abs_le.1 e3
    have e5 : (A - 1) * (B - 1) = A * B - A - B + 1 := by ring
    constructor <;> omega
  refine ⟨mk fun j => mont (co a j * co b j), ?_, ⟨length_mk _, fun j hj => ?_⟩, fun j hj => ?_⟩
  · unfold polyPointwise
    refine build_mk _ fun i hi => ?_
    have := hp i hi
    rw [rd_co (by rw [ha.1]; exact hi), ok_bind, rd_co (by rw [hb.1]; exact hi), ok_bind, i64_ok (by omega) (by omega), ok_bind,
      (montgomeryReduce_ok (by omega) (by omega)).1]
  · rw [co_mk _ hj]
    have := hp j hj
    exact (montgomeryReduce_ok (by omega) (by omega)).2
  · unfold cf
    rw [co_mk _ hj, cast_mont, Int.cast_mul]

theorem polyChknorm_ok {a : Poly} {B : Int} (h : PB a 1073741824) (hB : B ≤ 1047552) :
    ∃ b, polyChknorm a B = .ok b ∧ (b = false ↔ ∀ j, j < 256 → -B < co a j ∧ co a j < B) := by
  unfold polyChknorm
  rw [if_neg (by omega)]
  obtain ⟨b, e, hb⟩ := anyBad_ok (f := coeffBad a B) (g := fun j => decide (B ≤ (if co a j < 0 then -co a j else co a j))) 0 256 (fun k _ hk => by
    have := h.2 k (by omega)
    unfold coeffBad
    rw [rd_co (by rw [h.1]; omega), ok_bind, i32_ok (by omega) (by omega), ok_bind, mask_val (by omega) (by omega) (by omega) (by omega),
      i32_ok (by split <;> omega) (by split <;> omega), ok_bind]
    refine congrArg _ (congrArg (fun t => decide (B ≤ t)) ?_)
    split <;> omega)
  refine ⟨b, e, ?_⟩
  constructor
  · rintro rfl j hj
    have : ¬ (B ≤ if co a j < 0 then -co a j else co a j) := fun c => by
      have := hb.2 ⟨j, by omega, by omega, by simpa using c⟩; cases this
    split at this <;> omega
  · intro hall
    cases b with
    | false => rfl
    | true =>
      obtain ⟨k, _, hk, hbad⟩ := hb.1 rfl
      have := hall k (by omega)
      have hbad : B ≤ if co a k < 0 then -co a k else co a k := by simpa using hbad
      split at hbad <;> omega

theorem polyMakeHint_ok {a b : Poly} (ha : a.length = 256) (hb : b.length = 256) :
    polyMakeHint a b = .ok (mk fun j => hintBit (co a j) (co b j)) := by
  unfold polyMakeHint
  refine build_mk _ fun i hi => ?_
  rw [rd_co (by omega), ok_bind, rd_co (by omega), ok_bind]
  rfl

theorem polyUseHint_ok {a h : Poly} (ha : a.length = 256) (hb : ∀ j, j < 256 → 0 ≤ co a j ∧ co a j < 8380417) (hh : h.length = 256)
    (hhb : ∀ j, j < 256 → co h j = 0 ∨ co h j = 1) : polyUseHint a h = .ok (mk fun j => Spec.useHint (co h j) (co a j)) := by
  unfold polyUseHint
  refine build_mk _ fun i hi => ?_
  rw [rd_co (by omega), ok_bind, rd_co (by omega), ok_bind, useHint_ok (hb i hi).1 (hb i hi).2 (hhb i hi)]

/-! ### polyvec.c -/

theorem vmap_ok {f : Poly → C Poly} {v : Vec} (hv : v.length = 4) (P : Nat → Poly → Prop) (h : ∀ i, i < 4 → ∃ y, f (at_ v i) = .ok y ∧ P i y) :
    ∃ w, vmap f v = .ok w ∧ w.length = 4 ∧ ∀ i, i < 4 → P i (at_ w i) := by
  have : ∀ i, ∃ y, i < 4 → f (at_ v i) = .ok y ∧ P i y := fun i => by
    by_cases hi : i < 4
    · obtain ⟨y, hy⟩ := h i hi; exact ⟨y, fun _ => hy⟩
    · exact ⟨[], fun h => absurd h hi⟩
  choose g hg using this
  refine ⟨vec g, ?_, length_vec g, fun i hi => by rw [at_vec g hi]; exact (hg i hi).2⟩
  unfold vmap
  exact build_ok g fun i hi => by rw [rd_at (by omega), ok_bind, (hg i hi).1]

theorem vzip_ok {f : Poly → Poly → C Poly} {u v : Vec} (hu : u.length = 4) (hv : v.length = 4) (P : Nat → Poly → Prop)
    (h : ∀ i, i < 4 → ∃ y, f (at_ u i) (at_ v i) = .ok y ∧ P i y) :
    ∃ w, vzip f u v = .ok w ∧ w.length = 4 ∧ ∀ i, i < 4 → P i (at_ w i) := by
  have : ∀ i, ∃ y, i < 4 → f (at_ u i) (at_ v i) = .ok y ∧ P i y := fun i => by
    by_cases hi : i < 4
    · obtain ⟨y, hy⟩ := h i hi; exact ⟨y, fun _ => hy⟩
    · exact ⟨[], fun h => absurd h hi⟩
  choose g hg using this
  refine ⟨vec g, ?_, length_vec g, fun i hi => by rw [at_vec g hi]; exact (hg i hi).2⟩
  unfold vzip
  exact build_ok g fun i hi => by rw [rd_at (by omega), ok_bind, rd_at (by omega), ok_bind, (hg i hi).1]

theorem vmap_eq {f : Poly → C Poly} {v : Vec} (hv : v.length = 4) (g : Poly → Poly) (h : ∀ i, i < 4 → f (at_ v i) = .ok (g (at_ v i))) :
    vmap f v = .ok (vec fun i => g (at_ v i)) := by
  unfold vmap
  exact build_ok (fun i => g (at_ v i)) fun i hi => by rw [rd_at (by omega), ok_bind, h i hi]

theorem vzip_eq {f : Poly → Poly → C Poly} {u v : Vec} (hu : u.length = 4) (hv : v.length = 4) (g : Poly → Poly → Poly)
    (h : ∀ i, i < 4 → f (at_ u i) (at_ v i) = .ok (g (at_ u i) (at_ v i))) : vzip f u v = .ok (vec fun i => g (at_ u i) (at_ v i)) := by
  unfold vzip
  exact build_ok (fun i => g (at_ u i) (at_ v i)) fun i hi => by rw [rd_at (by omega), ok_bind, rd_at (by omega), ok_bind, h i hi]

theorem vecNtt_ok {v : Vec} {B : Int} (h : VB v B) (hB : B + 67043336 ≤ 2147483648) :
    ∃ w, vecNtt v = .ok w ∧ VB w (B + 67043336) ∧ ∀ i, i < 4 → ∀ j, j < 256 → cf (at_ w i) j = evalAt (cf (at_ v i)) (root j) := by
  obtain ⟨w, e, l, p⟩ := vmap_ok (f := ntt) h.1 (fun i y => PB y (B + 67043336) ∧ ∀ j, j < 256 → cf y j = evalAt (cf (at_ v i)) (root j)) (fun i hi => by
    obtain ⟨y, e, l, c, b⟩ := ntt_ok (h.2 i hi).1 hB (h.2 i hi).2
    exact ⟨y, e, ⟨l, b⟩, c⟩)
  exact ⟨w, e, ⟨l, fun i hi => (p i hi).1⟩, fun i hi => (p i hi).2⟩

theorem vecInvntt_ok {v : Vec} (h : VB v 8380417) :
    ∃ w, vecInvntt v = .ok w ∧ VB w 4211178 ∧ ∀ i, i < 4 → ∀ j, j < 256 → evalAt (cf (at_ w i)) (root j) = Rm * cf (at_ v i) j := by
  obtain ⟨w, e, l, p⟩ := vmap_ok (f := invntt) h.1 (fun i y => PB y 4211178 ∧ ∀ j, j < 256 → evalAt (cf y) (root j) = Rm * cf (at_ v i) j) (fun i hi => by
    obtain ⟨y, e, l, c, b⟩ := invntt_ok (h.2 i hi).1 (h.2 i hi).2
    exact ⟨y, e, ⟨l, b⟩, c⟩)
  exact ⟨w, e, ⟨l, fun i hi => (p i hi).1⟩, fun i hi => (p i hi).2⟩

theorem vecReduce_ok {v : Vec} (h : VB v 2143289344) :
    ∃ w, vecReduce v = .ok w ∧ VB w 6283010 ∧ ∀ i, i < 4 → ∀ j, j < 256 → co (at_ w i) j % 8380417 = co (at_ v i) j % 8380417 := by
  obtain ⟨w, e, l, p⟩ := vmap_ok (f := polyReduce) h.1 (fun i y => PB y 6283010 ∧ ∀ j, j < 256 → co y j % 8380417 = co (at_ v i) j % 8380417) (fun i hi => by
    obtain ⟨y, e, b, c⟩ := polyReduce_ok (h.2 i hi)
    exact ⟨y, e, b, c⟩)
  exact ⟨w, e, ⟨l, fun i hi => (p i hi).1⟩, fun i hi => (p i hi).2⟩

theorem vecCaddq_ok {v : Vec} (h : VB v 8380417) : vecCaddq v = .ok (vec fun i => mk fun j => co (at_ v i) j % 8380417) :=
  vmap_eq h.1 (fun a => mk fun j => co a j % 8380417) fun i hi => polyCaddq_ok (h.2 i hi)

theorem vecAdd_ok {u v : Vec} {A B : Int} (hu : VB u A) (hv : VB v B) (h : A + B ≤ 2147483648) :
    vecAdd u v = .ok (vec fun i => mk fun j => co (at_ u i) j + co (at_ v i) j) :=
  vzip_eq hu.1 hv.1 (fun a b => mk fun j => co a j + co b j) fun i hi => polyAdd_ok (hu.2 i hi) (hv.2 i hi) h

theorem vecSub_ok {u v : Vec} {A B : Int} (hu : VB u A) (hv : VB v B) (h : A + B ≤ 2147483648) :
    vecSub u v = .ok (vec fun i => mk fun j => co (at_ u i) j - co (at_ v i) j) :=
  vzip_eq hu.1 hv.1 (fun a b => mk fun j => co a j - co b j) fun i hi => polySub_ok (hu.2 i hi) (hv.2 i hi) h

theorem vecShiftl_ok {v : Vec} (h : VB v 1024) : vecShiftl v = .ok (vec fun i => mk fun j => co (at_ v i) j * 8192) :=
  vmap_eq h.1 (fun a => mk fun j => co a j * 8192) fun i hi => polyShiftl_ok (h.2 i hi)

theorem VB_vec {g : Nat → Nat → Int} {B : Int} (h : ∀ i, i < 4 → ∀ j, j < 256 → -B < g i j ∧ g i j < B) : VB (vec fun i => mk (g i)) B :=
  ⟨length_vec _, fun i hi => by rw [at_vec _ hi]; exact PB_mk (h i hi)⟩

theorem vecPointwisePoly_ok {a : Poly} {v : Vec} {A B : Int} (ha : PB a A) (hv : VB v B) (h : A * B ≤ 17996808470921216) :
    ∃ w, vecPointwisePoly a v = .ok w ∧ VB w 8380417 ∧ ∀ i, i < 4 → ∀ j, j < 256 → cf (at_ w i) j = cf a j * cf (at_ v i) j * Rinv := by
  obtain ⟨w, e, l, p⟩ := vmap_ok (f := polyPointwise a) hv.1 (fun i y => PB y 8380417 ∧ ∀ j, j < 256 → cf y j = cf a j * cf (at_ v i) j * Rinv) (fun i hi => by
    obtain ⟨y, e, b, c⟩ := polyPointwise_ok ha (hv.2 i hi) h
    exact ⟨y, e, b, c⟩)
  exact ⟨w, e, ⟨l, fun i hi => (p i hi).1⟩, fun i hi => (p i hi).2⟩

theorem pointwiseAcc_ok {u v : Vec} {A B : Int} (hu : VB u A) (hv : VB v B) (h : A * B ≤ 17996808470921216) :
    ∃ y, pointwiseAcc u v = .ok y ∧ PB y 33521668 ∧
      ∀ j, j < 256 → cf y j = ((List.range 4).map fun i => cf (at_ u i) j * cf (at_ v i) j * Rinv).sum := by
  have hp := fun i (hi : i < 4) => polyPointwise_ok (hu.2 i hi) (hv.2 i hi) h
  obtain ⟨y0, e0, b0, c0⟩ := hp 0 (by omega)
  obtain ⟨y1, e1, b1, c1⟩ := hp 1 (by omega)
  obtain ⟨y2, e2, b2, c2⟩ := hp 2 (by omega)
  obtain ⟨y3, e3, b3, c3⟩ := hp 3 (by omega)
  unfold pointwiseAcc
  have hul := hu.1; have hvl := hv.1
  have step : ∀ (i n : Nat) (w t r : Poly), i < 4 → polyPointwise (at_ u i) (at_ v i) = .ok t → polyAdd w t = .ok r →
      loop (fun i w => do
        let x ← rd u i
        let y ← rd v i
        let t ← polyPointwise x y
        polyAdd w t) i (n + 1) w = loop (fun i w => do
        let x ← rd u i
        let y ← rd v i
        let t ← polyPointwise x y
        polyAdd w t) (i + 1) n r := by
    intro i n w t r hi h1 h2
    rw [loop_succ, rd_at (by omega), ok_bind, rd_at (by omega), ok_bind, h1, ok_bind, h2, ok_bind]
  have a1 := polyAdd_ok b0 b1 (by omega)
  have p1 : PB (mk fun j => co y0 j + co y1 j) 16760834 := PB_mk fun j hj => by have := b0.2 j hj; have := b1.2 j hj; omega
  have a2 := polyAdd_ok p1 b2 (by omega)
  have p2 : PB (mk fun j => co (mk fun j => co y0 j + co y1 j) j + co y2 j) 25141251 := PB_mk fun j hj => by have := p1.2 j hj; have := b2.2 j hj; omega
  have a3 := polyAdd_ok p2 b3 (by omega)
  have p3 : PB (mk fun j => co (mk fun j => co (mk fun j => co y0 j + co y1 j) j + co y2 j) j + co y3 j) 33521668 :=
    PB_mk fun j hj => by have := p2.2 j hj; have := b3.2 j hj; omega
  rw [rd_at (by omega), ok_bind, rd_at (by omega), ok_bind, e0, ok_bind, step 1 2 _ _ _ (by omega) e1 a1, step 2 1 _ _ _ (by omega) e2 a2,
    step 3 0 _ _ _ (by omega) e3 a3, loop_zero]
  refine ⟨_, rfl, p3, fun j hj => ?_⟩
  have : ((List.range 4).map fun i => cf (at_ u i) j * cf (at_ v i) j * Rinv).sum =
      cf (at_ u 0) j * cf (at_ v 0) j * Rinv + (cf (at_ u 1) j * cf (at_ v 1) j * Rinv + (cf (at_ u 2) j * cf (at_ v 2) j * Rinv + cf (at_ u 3) j * cf (at_ v 3) j * Rinv)) := by
    simp [List.range_succ]
  rw [this, ← c0 j hj, ← c1 j hj, ← c2 j hj, ← c3 j hj]
  unfold cf
  rw [co_mk _ hj, co_mk _ hj, co_mk _ hj]
  push_cast; ring

/-- A matrix of four rows. -/
def MB (A : List Vec) : Prop := A.length = 4 ∧ ∀ i, i < 4 → VB (at_ A i) 8380417

theorem matrixPointwise_ok {A : List Vec} {v : Vec} {B : Int} (hA : MB A) (hv : VB v B) (h : 8380417 * B ≤ 17996808470921216) :
    ∃ w, matrixPointwise A v = .ok w ∧ VB w 33521668 ∧
      ∀ i, i < 4 → ∀ j, j < 256 → cf (at_ w i) j = ((List.range 4).map fun k => cf (at_ (at_ A i) k) j * cf (at_ v k) j * Rinv).sum := by
  have hp := fun i (hi : i < 4) => pointwiseAcc_ok (hA.2 i hi) hv h
  have : ∀ i, ∃ y, i < 4 → pointwiseAcc (at_ A i) v = .ok y ∧ PB y 33521668 ∧
      ∀ j, j < 256 → cf y j = ((List.range 4).map fun k => cf (at_ (at_ A i) k) j * cf (at_ v k) j * Rinv).sum := fun i => by
    by_cases hi : i < 4
    · obtain ⟨y, hy⟩ := hp i hi; exact ⟨y, fun _ => hy⟩
    · exact ⟨[], fun h => absurd h hi⟩
  choose g hg using this
  refine ⟨vec g, ?_, ⟨length_vec g, fun i hi => by rw [at_vec g hi]; exact (hg i hi).2.1⟩, fun i hi j hj => by rw [at_vec g hi]; exact (hg i hi).2.2 j hj⟩
  unfold matrixPointwise
  exact build_ok g fun i hi => by rw [show rd A i = .ok (at_ A i) from rd_at (by rw [hA.1]; exact hi), ok_bind, (hg i hi).1]

theorem vecChknorm_ok {v : Vec} {B : Int} (h : VB v 1073741824) (hB : B ≤ 1047552) :
    ∃ b, vecChknorm v B = .ok b ∧ (b = false ↔ ∀ i, i < 4 → ∀ j, j < 256 → -B < co (at_ v i) j ∧ co (at_ v i) j < B) := by
  have hp := fun i (hi : i < 4) => polyChknorm_ok (h.2 i hi) hB
  have : ∀ i, ∃ b, i < 4 → polyChknorm (at_ v i) B = .ok b ∧ (b = false ↔ ∀ j, j < 256 → -B < co (at_ v i) j ∧ co (at_ v i) j < B) := fun i => by
    by_cases hi : i < 4
    · obtain ⟨y, hy⟩ := hp i hi; exact ⟨y, fun _ => hy⟩
    · exact ⟨true, fun h => absurd h hi⟩
  choose g hg using this
  have hl := h.1
  obtain ⟨b, e, hb⟩ := anyBad_ok (f := fun i => do let x ← rd v i; polyChknorm x B) (g := g) 0 4 (fun k _ hk => by
    rw [rd_at (by omega), ok_bind, (hg k (by omega)).1])
  refine ⟨b, e, ?_⟩
  constructor
  · rintro rfl i hi
    refine (hg i hi).2.1 ?_
    cases hgi : g i with
    | false => rfl
    | true => have := hb.2 ⟨i, by omega, by omega, hgi⟩; cases this
  · intro hall
    cases b with
    | false => rfl
    | true =>
      obtain ⟨k, _, hk, hbad⟩ := hb.1 rfl
      rw [(hg k (by omega)).2.2 (hall k (by omega))] at hbad
      cases hbad

/-! ### Comparison with the ring of the specification -/

theorem cf_eq_iff {a b : List Int} {j : Nat} : cf a j = cf b j ↔ co a j % 8380417 = co b j % 8380417 := cast_eq

/-- Residues: what a polynomial in standard representation looks like. -/
def Res (a : List Int) : Prop := a.length = 256 ∧ ∀ j, j < 256 → 0 ≤ co a j ∧ co a j < 8380417

theorem res_mk (g : Nat → Int) : Res (mk fun j => g j % q) := ⟨length_mk _, fun j hj => by rw [co_mk _ hj]; unfold q; omega⟩

theorem res_ext {a b : List Int} (ha : Res a) (hb : Res b) (h : ∀ j, j < 256 → cf a j = cf b j) : a = b :=
  co_ext ha.1 hb.1 fun j hj => by
    have := cf_eq_iff.1 (h j hj)
    have := ha.2 j hj; have := hb.2 j hj; omega

theorem cast_emod' (x : Int) : ((x % 8380417 : Int) : Zq) = x := cast_emod x

theorem matVec_eval (A : List Vec) (v : Vec) {i j : Nat} (hi : i < 4) (hj : j < 256) :
    evalAt (cf (at_ (matVec A v) i)) (root j) = ((List.range 4).map fun k => cf (at_ (at_ A i) k) j * evalAt (cf (at_ v k)) (root j)).sum := by
  have h : ∀ t, t < 256 → cf (at_ (matVec A v) i) t =
      mulZ (cf (invNtt (at_ (at_ A i) 0))) (cf (at_ v 0)) t + mulZ (cf (invNtt (at_ (at_ A i) 1))) (cf (at_ v 1)) t +
      mulZ (cf (invNtt (at_ (at_ A i) 2))) (cf (at_ v 2)) t + mulZ (cf (invNtt (at_ (at_ A i) 3))) (cf (at_ v 3)) t := by
    intro t ht
    unfold matVec
    rw [at_vec _ hi]
    unfold cf
    rw [co_mk _ ht, cast_emod, cast_sum]
    have : ∀ k, ((co (Spec.mul (invNtt (at_ (at_ A i) k)) (at_ v k)) t : Int) : Zq) = mulZ (cf (invNtt (at_ (at_ A i) k))) (cf (at_ v k)) t :=
      fun k => cf_mul _ _ ht
    simp only [Finset.sum_range_succ, Finset.sum_range_zero, zero_add, this]
    rfl
  rw [evalAt_congr h, evalAt_add, evalAt_add, evalAt_add, evalAt_mulZ _ _ (root_pow hj), evalAt_mulZ _ _ (root_pow hj), evalAt_mulZ _ _ (root_pow hj),
    evalAt_mulZ _ _ (root_pow hj), eval_invNtt _ hj, eval_invNtt _ hj, eval_invNtt _ hj, eval_invNtt _ hj]
  simp only [List.range_succ, List.range_zero, List.nil_append, List.map_append, List.map_cons, List.map_nil, List.sum_append, List.sum_cons, List.sum_nil]
  ring

theorem mul_eval (a b : List Int) {j : Nat} (hj : j < 256) : evalAt (cf (Spec.mul a b)) (root j) = evalAt (cf a) (root j) * evalAt (cf b) (root j) := by
  rw [evalAt_congr (fun t ht => cf_mul a b ht), evalAt_mulZ _ _ (root_pow hj)]

theorem matVec_res (A : List Vec) (v : Vec) {i : Nat} (hi : i < 4) : Res (at_ (matVec A v) i) := by
  unfold matVec; rw [at_vec _ hi]; exact res_mk _

theorem sum_Rinv (f g : Nat → Zq) : Rm * ((List.range 4).map fun k => f k * g k * Rinv).sum = ((List.range 4).map fun k => f k * g k).sum := by
  simp only [List.range_succ, List.range_zero, List.nil_append, List.map_append, List.map_cons, List.map_nil, List.sum_append, List.sum_cons, List.sum_nil]
  linear_combination (f 0 * g 0 + f 1 * g 1 + f 2 * g 2 + f 3 * g 3) * Rm_Rinv

/-- The sequence NTT, matrix product, reduction, inverse NTT computes the matrix-vector product. -/
theorem matVec_run {A : List Vec} {v zh w w' r : Vec} (_hv : v.length = 4)
    (hz : ∀ i, i < 4 → ∀ j, j < 256 → cf (at_ zh i) j = evalAt (cf (at_ v i)) (root j))
    (hw : ∀ i, i < 4 → ∀ j, j < 256 → cf (at_ w i) j = ((List.range 4).map fun k => cf (at_ (at_ A i) k) j * cf (at_ zh k) j * Rinv).sum)
    (hw' : ∀ i, i < 4 → ∀ j, j < 256 → co (at_ w' i) j % 8380417 = co (at_ w i) j % 8380417)
    (hr : ∀ i, i < 4 → ∀ j, j < 256 → evalAt (cf (at_ r i)) (root j) = Rm * cf (at_ w' i) j) :
    ∀ i, i < 4 → ∀ j, j < 256 → cf (at_ r i) j = cf (at_ (matVec A v) i) j := by
  intro i hi
  refine evalAt_inj fun j hj => ?_
  rw [hr i hi j hj, cf_eq_iff.2 (hw' i hi j hj), hw i hi j hj, sum_Rinv, matVec_eval A v hi hj]
  refine congrArg _ (List.map_congr_left fun k hk => ?_)
  rw [hz k (List.mem_range.1 hk) j hj]

/-- The sequence NTT, pointwise product, inverse NTT computes the product. -/
theorem mul_run {c ch s sh w r : Poly} (hc : ∀ j, j < 256 → cf ch j = evalAt (cf c) (root j)) (hs : ∀ j, j < 256 → cf sh j = evalAt (cf s) (root j))
    (hw : ∀ j, j < 256 → cf w j = cf ch j * cf sh j * Rinv) (hr : ∀ j, j < 256 → evalAt (cf r) (root j) = Rm * cf w j) :
    ∀ j, j < 256 → cf r j = cf (Spec.mul c s) j := by
  refine evalAt_inj fun j hj => ?_
  rw [hr j hj, hw j hj, hc j hj, hs j hj, mul_eval c s hj]
  linear_combination (evalAt (cf c) (root j) * evalAt (cf s) (root j)) * Rm_Rinv

theorem cmod_of {r x : Int} (h : r % 8380417 = x % 8380417) (hr : -4190208 ≤ r ∧ r ≤ 4190208) : cmod x 8380417 = r := by
  unfold cmod
  split <;> omega

theorem cmod_mod (x : Int) : cmod x 8380417 % 8380417 = x % 8380417 := by unfold cmod; split <;> omega
theorem cmod_range (x : Int) : -4190208 ≤ cmod x 8380417 ∧ cmod x 8380417 ≤ 4190208 := by unfold cmod; split <;> omega

theorem norm_iff {r x B : Int} (h : r % 8380417 = x % 8380417) (hr : -6283010 < r ∧ r < 6283010) (hB : B ≤ 131072) :
    (-B < r ∧ r < B) ↔ (-B < cmod x q ∧ cmod x q < B) := by
  have h1 := cmod_mod x
  have h2 := cmod_range x
  unfold q
  generalize cmod x 8380417 = t at *
  constructor
  · intro ⟨_, _⟩
    have : t = r := by omega
    omega
  · intro ⟨_, _⟩
    have : t = r := by omega
    omega

end Verif.Dilithium
