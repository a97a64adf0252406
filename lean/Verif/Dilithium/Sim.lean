import Verif.Dilithium.SimSpec
import Verif.Dilithium.UnbiasedBall
import Verif.Dilithium.Final

/-! Helper lemmas for the simulation of signatures (dilithium2/sign.c:149-205). -/

namespace Verif.Dilithium
open Verif Spec

/-! ### Products with a challenge are small -/

theorem abs_sum_le (f : Nat → Int) (g : Nat → Int) (n : Nat) (h : ∀ i, i < n → -g i ≤ f i ∧ f i ≤ g i) :
    -((List.range n).map g).sum ≤ ((List.range n).map f).sum ∧ ((List.range n).map f).sum ≤ ((List.range n).map g).sum := by
  induction n with
  | zero => simp
  | succ n ih =>
    have := ih fun i hi => h i (by omega)
    have := h n (by omega)
    simp only [List.range_succ, List.map_append, List.sum_append, List.map_cons, List.map_nil, List.sum_cons, List.sum_nil]
    omega

theorem range_co {c : List Int} (hc : c.length = 256) : (List.range 256).map (co c) = c := by
  refine List.ext_getElem (by simp [hc]) fun k h1 h2 => ?_
  rw [List.getElem_map, List.getElem_range, ← getElem_co]

theorem ball_sum {c : List Int} (h : BallElement c) : ((List.range 256).map fun i => 2 * |co c i|).sum = 78 := by
  obtain ⟨h1, h2, h3⟩ := h
  have key : ∀ l : List Int, (∀ x ∈ l, x = 0 ∨ x = 1 ∨ x = -1) → (l.map fun x : Int => 2 * |x|).sum = 2 * ((l.countP fun x : Int => decide (x ≠ 0) : Nat) : Int) := by
    intro l hl
    induction l with
    | nil => rfl
    | cons x l ih =>
      rw [List.map_cons, List.sum_cons, ih fun y hy => hl y (List.mem_cons_of_mem _ hy), List.countP_cons]
      rcases hl x (List.mem_cons_self ..) with rfl | rfl | rfl
      · simp
      · simp; omega
      · simp; omega
  have e := key c h2
  rw [h3] at e
  have e2 : ((List.range 256).map fun i => 2 * |co c i|) = ((List.range 256).map (co c)).map fun x : Int => 2 * |x| := by rw [List.map_map]; rfl
  rw [e2, range_co h1, e]
  rfl

theorem mul_small {c s : List Int} (hc : BallElement c) (hs : PolyIn (-2) 2 s) {j : Nat} (hj : j < 256) :
    ∃ e : Int, -78 ≤ e ∧ e ≤ 78 ∧ co (Spec.mul c s) j % 8380417 = e % 8380417 := by
  have hco : ∀ k, -2 ≤ co s k ∧ co s k ≤ 2 := by
    intro k
    by_cases hk : k < s.length
    · have := hs.2 s[k] (List.getElem_mem _)
      rwa [getElem_co hk] at this
    · unfold co; rw [List.getD_eq_getElem?_getD, List.getElem?_eq_none (by omega)]; simp
  unfold Spec.mul
  rw [co_mk _ hj]
  have := abs_sum_le (fun i => co c i * (if i ≤ j then co s (j - i) else -co s (256 + j - i))) (fun i => 2 * |co c i|) 256 (by
    intro i _
    have hb : -2 ≤ (if i ≤ j then co s (j - i) else -co s (256 + j - i)) ∧ (if i ≤ j then co s (j - i) else -co s (256 + j - i)) ≤ 2 := by
      split
      · exact hco _
      · have := hco (256 + j - i); omega
    generalize (if i ≤ j then co s (j - i) else -co s (256 + j - i)) = b at *
    have h1 : |co c i * b| ≤ 2 * |co c i| := by
      rw [abs_mul, mul_comm]
      exact mul_le_mul_of_nonneg_right (abs_le.2 hb) (abs_nonneg _)
    exact abs_le.1 h1)
  rw [ball_sum hc] at this
  exact ⟨_, this.1, this.2, by rw [Int.emod_emod]⟩

/-! ### One coefficient -/

theorem remainder_iff {w v e : Int} (hw : 0 ≤ w ∧ w < 8380417) (hv : 0 ≤ v ∧ v < 8380417) (he : -78 ≤ e ∧ e ≤ 78) (h : v % 8380417 = (w - e) % 8380417) :
    ((-95154 < lowBits w - e ∧ lowBits w - e < 95154) ↔ (-95154 < lowBits v ∧ lowBits v < 95154)) ∧
    ((-95154 < lowBits w - e ∧ lowBits w - e < 95154) → highBits w = highBits v ∧ lowBits w - e = lowBits v) := by
  have dw := decompose_spec w hw.1 hw.2
  have dv := decompose_spec v hv.1 hv.2
  have fwd : (-95154 < lowBits w - e ∧ lowBits w - e < 95154) → highBits v = highBits w ∧ lowBits v = lowBits w - e := by
    intro hb
    refine decompose_unique hv.1 hv.2 dw.1 (by omega) ?_
    generalize highBits w = a at *
    generalize lowBits w = b at *
    omega
  have bwd : (-95154 < lowBits v ∧ lowBits v < 95154) → highBits w = highBits v ∧ lowBits w = lowBits v + e := by
    intro hb
    refine decompose_unique hw.1 hw.2 dv.1 (by omega) ?_
    generalize highBits v = a at *
    generalize lowBits v = b at *
    omega
  refine ⟨⟨fun hb => ?_, fun hb => ?_⟩, fun hb => ?_⟩
  · rw [(fwd hb).2]; exact hb
  · rw [(bwd hb).2]; omega
  · have := fwd hb
    exact ⟨this.1.symm, this.2.symm⟩

theorem cmod_small {x y : Int} (h : x % 8380417 = y % 8380417) (hy : -4190208 ≤ y ∧ y ≤ 4190208) : cmod x q = y := cmod_of h.symm hy

/-! ### The response -/

theorem polyIn_co {lo hi : Int} {p : List Int} (h : PolyIn lo hi p) {j : Nat} (hj : j < 256) : lo ≤ co p j ∧ co p j ≤ hi := by
  have hj' : j < p.length := by rw [h.1]; exact hj
  have := h.2 p[j] (List.getElem_mem _)
  rwa [getElem_co hj'] at this

theorem polyIn_of {lo hi : Int} {p : List Int} (h : p.length = 256) (hc : ∀ j, j < 256 → lo ≤ co p j ∧ co p j ≤ hi) : PolyIn lo hi p := by
  refine ⟨h, fun x hx => ?_⟩
  obtain ⟨j, hj, rfl⟩ := mem_co hx
  exact hc j (by omega)

theorem response_co {s1 y : List (List Int)} {c : List Int} (hs : SmallVec s1) (hy : MaskVec y) (hc : BallElement c) {i : Nat} (hi : i < 4) {j : Nat} (hj : j < 256) :
    ∃ e : Int, -78 ≤ e ∧ e ≤ 78 ∧ co (Spec.mul c (at_ s1 i)) j % 8380417 = e % 8380417 ∧ co (at_ (responseOf s1 y c) i) j = e + co (at_ y i) j := by
  obtain ⟨e, h1, h2, h3⟩ := mul_small hc (hs.2 _ (at_mem (by rw [hs.1]; exact hi))) hj
  refine ⟨e, h1, h2, h3, ?_⟩
  have hb := polyIn_co (hy.2 _ (at_mem (by rw [hy.1]; exact hi))) hj
  unfold responseOf
  rw [at_vec _ hi, co_mk _ hj]
  refine cmod_small ?_ (by omega)
  omega

theorem response_norm {s1 y : List (List Int)} {c : List Int} : NormLt (responseOf s1 y c) (131072 - 78) ↔
    (responseOf s1 y c).length = 4 ∧ ∀ p ∈ responseOf s1 y c, PolyIn (-(131072 - 78 - 1)) (131072 - 78 - 1) p := by
  have hco : ∀ i, i < 4 → ∀ j, j < 256 → cmod (co (at_ (responseOf s1 y c) i) j) q = co (at_ (responseOf s1 y c) i) j := by
    intro i hi j hj
    unfold responseOf
    rw [at_vec _ hi, co_mk _ hj, cmod_cmod]
  constructor
  · intro h
    refine ⟨length_vec _, fun p hp => ?_⟩
    obtain ⟨i, hi, rfl⟩ := mem_at hp
    have hi : i < 4 := by rwa [show (responseOf s1 y c).length = 4 from length_vec _] at hi
    refine polyIn_of (by unfold responseOf; rw [at_vec _ hi]; exact length_mk _) fun j hj => ?_
    have := h i hi j hj
    rw [hco i hi j hj] at this
    omega
  · rintro ⟨h1, h2⟩ i hi j hj
    have := polyIn_co (h2 _ (at_mem (by rw [h1]; exact hi))) hj
    rw [hco i hi j hj]
    omega

/-- The mask that leads to a response (no line of its own; helper). -/
def maskFor (s1 z : List (List Int)) (c : List Int) : List (List Int) :=
  vec fun i => mk fun j => co (at_ z i) j - cmod (co (Spec.mul c (at_ s1 i)) j) q

theorem response_bij {s1 : List (List Int)} {c : List Int} (hs : SmallVec s1) (hc : BallElement c) {z : List (List Int)}
    (hz : z.length = 4 ∧ ∀ p ∈ z, PolyIn (-(131072 - 78 - 1)) (131072 - 78 - 1) p) (y : List (List Int)) :
    MaskVec y ∧ responseOf s1 y c = z ↔ y = maskFor s1 z c := by
  constructor
  · rintro ⟨hy, rfl⟩
    refine vec_ext hy.1 (length_vec _) fun i hi => ?_
    unfold maskFor
    rw [at_vec _ hi]
    refine co_ext (hy.2 _ (at_mem (by rw [hy.1]; exact hi))).1 (length_mk _) fun j hj => ?_
    rw [co_mk _ hj]
    obtain ⟨e, h1, h2, h3, h4⟩ := response_co hs hy hc hi hj
    rw [h4, cmod_small h3 (by omega)]
    omega
  · rintro rfl
    have hy : MaskVec (maskFor s1 z c) := by
      refine ⟨length_vec _, fun p hp => ?_⟩
      obtain ⟨i, hi, rfl⟩ := mem_at hp
      have hi : i < 4 := by rwa [show (maskFor s1 z c).length = 4 from length_vec _] at hi
      refine polyIn_of (by unfold maskFor; rw [at_vec _ hi]; exact length_mk _) fun j hj => ?_
      obtain ⟨e, h1, h2, h3⟩ := mul_small hc (hs.2 _ (at_mem (by rw [hs.1]; exact hi))) hj
      have := polyIn_co (hz.2 _ (at_mem (by rw [hz.1]; exact hi))) hj
      unfold maskFor
      rw [at_vec _ hi, co_mk _ hj, cmod_small h3 (by omega)]
      omega
    refine ⟨hy, vec_ext (length_vec _) hz.1 fun i hi => ?_⟩
    refine co_ext (by unfold responseOf; rw [at_vec _ hi]; exact length_mk _) (hz.2 _ (at_mem (by rw [hz.1]; exact hi))).1 fun j hj => ?_
    obtain ⟨e, h1, h2, h3, h4⟩ := response_co hs hy hc hi hj
    rw [h4]
    unfold maskFor
    rw [at_vec _ hi, co_mk _ hj, cmod_small h3 (by omega)]
    omega

/-! ### The other parts -/

theorem sim_identity {A : List Vec} {s1 s2 y : Vec} {c : List Int} {i : Nat} (hi : i < 4) {j : Nat} (hj : j < 256) :
    co (at_ (simW A (tOf A s1 s2) c (responseOf s1 y c)) i) j % 8380417 = (co (at_ (matVec A y) i) j - co (Spec.mul c (at_ s2 i)) j) % 8380417 := by
  apply cast_eq.1
  rw [Int.cast_sub]
  have e' : at_ (simW A (tOf A s1 s2) c (responseOf s1 y c)) i = Spec.sub (at_ (matVec A (responseOf s1 y c)) i) (Spec.mul c (at_ (tOf A s1 s2) i)) := at_vec _ hi
  have et : at_ (tOf A s1 s2) i = Spec.add (at_ (matVec A s1) i) (at_ s2 i) := at_vec _ hi
  rw [e', et]
  refine evalAt_inj (f := fun j => cf (Spec.sub (at_ (matVec A (responseOf s1 y c)) i) (Spec.mul c (Spec.add (at_ (matVec A s1) i) (at_ s2 i)))) j)
    (h := fun j => cf (at_ (matVec A y) i) j - cf (Spec.mul c (at_ s2 i)) j) (fun j hj => ?_) j hj
  have ez : ∀ k, k < 4 → evalAt (cf (at_ (responseOf s1 y c) k)) (root j) = evalAt (cf c) (root j) * evalAt (cf (at_ s1 k)) (root j) + evalAt (cf (at_ y k)) (root j) := fun k hk => by
    rw [evalAt_congr (f := cf (at_ (responseOf s1 y c) k)) (g := fun j => cf (Spec.mul c (at_ s1 k)) j + cf (at_ y k) j) (fun j hj => by
      unfold responseOf cf
      rw [at_vec _ hk, co_mk _ hj, ← Int.cast_add]
      exact cast_eq.2 (cmod_mod _)), evalAt_add, mul_eval _ _ hj]
  rw [evalAt_congr (fun t ht => cf_sub _ _ ht), evalAt_sub, evalAt_sub, matVec_eval A _ hi hj, matVec_eval A y hi hj, mul_eval _ _ hj, mul_eval _ _ hj,
    evalAt_congr (f := cf (Spec.add (at_ (matVec A s1) i) (at_ s2 i))) (fun t ht => cf_add _ _ ht), evalAt_add, matVec_eval A s1 hi hj, sum4, sum4, sum4,
    ez 0 (by omega), ez 1 (by omega), ez 2 (by omega), ez 3 (by omega)]
  ring

theorem simW_res (A : List Vec) (t : Vec) (c : List Int) (z : Vec) : VRes (simW A t c z) :=
  ⟨length_vec _, fun i hi => by unfold simW; rw [at_vec _ hi]; exact res_mk _⟩

theorem releases_iff {A : List Vec} {s1 s2 y : Vec} {c : List Int} (hs2 : SmallVec s2) (hc : BallElement c) :
    (Releases A s1 s2 y c ↔ SimReleases A (tOf A s1 s2) c (responseOf s1 y c)) ∧
    (Releases A s1 s2 y c → commitOf A y = simCommit A (tOf A s1 s2) c (responseOf s1 y c) ∧ hintsOf A s1 s2 y c = simHints A (tOf A s1 s2) c (responseOf s1 y c)) := by
  have key : ∀ i, i < 4 → ∀ j, j < 256 → ∃ e : Int, co (at_ (remainderOf A s2 y c) i) j = lowBits (co (at_ (matVec A y) i) j) - e ∧
      cmod (co (at_ (remainderOf A s2 y c) i) j) q = lowBits (co (at_ (matVec A y) i) j) - e ∧
      ((-95154 < lowBits (co (at_ (matVec A y) i) j) - e ∧ lowBits (co (at_ (matVec A y) i) j) - e < 95154) ↔
        (-95154 < lowBits (co (at_ (simW A (tOf A s1 s2) c (responseOf s1 y c)) i) j) ∧ lowBits (co (at_ (simW A (tOf A s1 s2) c (responseOf s1 y c)) i) j) < 95154)) ∧
      ((-95154 < lowBits (co (at_ (matVec A y) i) j) - e ∧ lowBits (co (at_ (matVec A y) i) j) - e < 95154) →
        highBits (co (at_ (matVec A y) i) j) = highBits (co (at_ (simW A (tOf A s1 s2) c (responseOf s1 y c)) i) j) ∧
        lowBits (co (at_ (matVec A y) i) j) - e = lowBits (co (at_ (simW A (tOf A s1 s2) c (responseOf s1 y c)) i) j)) := by
    intro i hi j hj
    obtain ⟨e, h1, h2, h3⟩ := mul_small hc (hs2.2 _ (at_mem (by rw [hs2.1]; exact hi))) hj
    have hw := ((matVec_VRes A y).2 i hi).2 j hj
    have hv := ((simW_res A (tOf A s1 s2) c (responseOf s1 y c)).2 i hi).2 j hj
    have hid := sim_identity (A := A) (s1 := s1) (s2 := s2) (y := y) (c := c) hi hj
    have hr : co (at_ (remainderOf A s2 y c) i) j = lowBits (co (at_ (matVec A y) i) j) - e := by
      unfold remainderOf
      rw [at_vec _ hi, co_mk _ hj]
      have := decompose_spec _ hw.1 hw.2
      refine cmod_small ?_ (by omega)
      omega
    have hm := remainder_iff hw hv ⟨h1, h2⟩ (by rw [hid]; omega)
    refine ⟨e, hr, ?_, hm.1, hm.2⟩
    rw [hr]
    have := decompose_spec _ hw.1 hw.2
    exact cmod_small rfl (by omega)
  have hn : NormLt (remainderOf A s2 y c) (95232 - 78) ↔ ∀ i, i < 4 → ∀ j, j < 256 →
      -(95232 - 78) < lowBits (co (at_ (simW A (tOf A s1 s2) c (responseOf s1 y c)) i) j) ∧ lowBits (co (at_ (simW A (tOf A s1 s2) c (responseOf s1 y c)) i) j) < 95232 - 78 := by
    unfold NormLt
    refine forall_congr' fun i => forall_congr' fun hi => forall_congr' fun j => forall_congr' fun hj => ?_
    obtain ⟨e, e1, e2, e3, _⟩ := key i hi j hj
    rw [e2]
    exact e3
  have hh : NormLt (remainderOf A s2 y c) (95232 - 78) →
      commitOf A y = simCommit A (tOf A s1 s2) c (responseOf s1 y c) ∧ hintsOf A s1 s2 y c = simHints A (tOf A s1 s2) c (responseOf s1 y c) := by
    intro h
    have hp : ∀ i, i < 4 → ∀ j, j < 256 → highBits (co (at_ (matVec A y) i) j) = highBits (co (at_ (simW A (tOf A s1 s2) c (responseOf s1 y c)) i) j) ∧
        co (at_ (remainderOf A s2 y c) i) j = lowBits (co (at_ (simW A (tOf A s1 s2) c (responseOf s1 y c)) i) j) := by
      intro i hi j hj
      obtain ⟨e, e1, e2, _, e4⟩ := key i hi j hj
      have := h i hi j hj
      rw [e2] at this
      rw [e1]
      exact e4 this
    constructor
    · unfold commitOf simCommit
      rw [map_map_vec _ _ (matVec_VRes A y).1 fun i hi => ((matVec_VRes A y).2 i hi).1,
        map_map_vec _ _ (simW_res A _ c _).1 fun i hi => ((simW_res A _ c _).2 i hi).1]
      refine vec_ext (length_vec _) (length_vec _) fun i hi => ?_
      rw [at_vec _ hi, at_vec _ hi]
      refine co_ext (length_mk _) (length_mk _) fun j hj => ?_
      rw [co_mk _ hj, co_mk _ hj, (hp i hi j hj).1]
    · unfold hintsOf simHints
      refine vec_ext (length_vec _) (length_vec _) fun i hi => ?_
      rw [at_vec _ hi, at_vec _ hi]
      refine co_ext (length_mk _) (length_mk _) fun j hj => ?_
      rw [co_mk _ hj, co_mk _ hj, (hp i hi j hj).1, (hp i hi j hj).2]
  refine ⟨⟨fun ⟨a, b, d, e⟩ => ⟨response_norm.1 a, hn.1 b, d, ?_⟩, fun ⟨a, b, d, e⟩ => ⟨response_norm.2 a, hn.2 b, d, ?_⟩⟩, fun h => hh h.2.1⟩
  · rw [← (hh b).2]; exact e
  · rw [(hh (hn.2 b)).2]; exact e

end Verif.Dilithium
