import Verif.Dilithium.Ring

/-! The pieces of key generation, signing and verification, executed symbolically. -/

namespace Verif.Dilithium
open Verif Spec Keccak

/-! ### Ranges of the samples -/

theorem first256_some {l : List Int} {a : List Int} (h : first256 l = some a) : a.length = 256 ∧ ∀ x ∈ a, x ∈ l := by
  unfold first256 at h
  split at h
  · next hl => cases h; exact ⟨by rw [List.length_take]; omega, fun x hx => List.mem_of_mem_take hx⟩
  · cases h

theorem uniform_res {s : Bytes} {n : Nat} {a : List Int} (h : IsUniform S128 s n a) : Res a := by
  obtain ⟨N, h⟩ := h
  obtain ⟨hl, hm⟩ := first256_some h
  refine ⟨hl, fun j hj => ?_⟩
  have := hm _ (co_mem (a := a) (i := j) (by omega))
  rw [List.mem_map] at this
  obtain ⟨t, ht, e⟩ := this
  have := (List.mem_filter.1 ht).2
  have h1 : t < 8380417 := by simpa using this
  omega

theorem eta_range {s : Bytes} {n : Nat} {a : List Int} (h : IsEta S256 s n a) : a.length = 256 ∧ ∀ x ∈ a, -2 ≤ x ∧ x ≤ 2 := by
  obtain ⟨N, h⟩ := h
  obtain ⟨hl, hm⟩ := first256_some h
  refine ⟨hl, fun x hx => ?_⟩
  have := hm _ hx
  rw [List.mem_map] at this
  obtain ⟨t, ht, e⟩ := this
  omega

theorem PB_of_mem {a : List Int} {B : Int} (hl : a.length = 256) (h : ∀ x ∈ a, -B < x ∧ x < B) : PB a B :=
  ⟨hl, fun j hj => h _ (co_mem (by omega))⟩

theorem Res.PB {a : List Int} (h : Res a) : PB a 8380417 := ⟨h.1, fun j hj => by have := h.2 j hj; omega⟩

theorem mask_range (s : Bytes) (n : Nat) : (mask S256 s n).length = 256 ∧ ∀ x ∈ mask S256 s n, -131072 < x ∧ x ≤ 131072 := by
  refine ⟨length_unpackAt, fun x hx => ?_⟩
  have := unpackAt_bound (w := 18) (c := 131072) x hx
  omega

theorem ballLoop_range (n : Nat) : ∀ (i s : Nat) (b : Bytes) (c c' : List Int), (c.length = 256 ∧ ∀ x ∈ c, x = 0 ∨ x = 1 ∨ x = -1) → ballLoop n i s b c = some c' →
    c'.length = 256 ∧ ∀ x ∈ c', x = 0 ∨ x = 1 ∨ x = -1 := by
  induction n with
  | zero => intro i s b c c' h e; cases e; exact h
  | succ n ih =>
    intro i s b c c' h e
    unfold ballLoop at e
    split at e
    · cases e
    · next j b' hf =>
      refine ih _ _ _ _ _ ⟨by simp [h.1], fun x hx => ?_⟩ e
      rcases List.mem_or_eq_of_mem_set hx with hx | rfl
      · rcases List.mem_or_eq_of_mem_set hx with hx | rfl
        · exact h.2 x hx
        · by_cases hj : j < 256
          · exact h.2 _ (co_mem (by omega))
          · left; unfold co; rw [List.getD_eq_getElem?_getD, List.getElem?_eq_none (by omega)]; rfl
      · split <;> simp

theorem ball_range {s : Bytes} {c : List Int} (h : IsBall S256 s c) : c.length = 256 ∧ ∀ x ∈ c, x = 0 ∨ x = 1 ∨ x = -1 := by
  obtain ⟨N, h⟩ := h
  unfold ballOf at h
  split at h
  · refine ballLoop_range 39 _ _ _ _ _ ⟨List.length_replicate .., fun x hx => ?_⟩ h
    exact Or.inl (List.eq_of_mem_replicate hx)
  · cases h

theorem ball_PB {s : Bytes} {c : List Int} (h : IsBall S256 s c) : PB c 2 :=
  PB_of_mem (ball_range h).1 fun x hx => by rcases (ball_range h).2 x hx with rfl | rfl | rfl <;> decide

/-! ### Hashing -/

theorem shake256_ok {out : Bytes} (n : Nat) (inp : Bytes) (mlen : Nat) (hm : mlen = inp.length) (hn : n = out.length) :
    shake256 out n inp mlen = .ok (S256 inp n) := by
  subst hm hn
  have := shake_run (r := 136) (by omega) (by omega) (by decide) out inp out.length (by omega)
  unfold shake256
  rw [this, splice_all (length_stream ..)]

theorem shake256_take {out : Bytes} (n : Nat) (inp : Bytes) (mlen : Nat) (hm : mlen ≤ inp.length) (hlt : mlen < 136) (hn : n = out.length) :
    shake256 out n inp mlen = .ok (S256 (inp.take mlen) n) := by
  have hl : mlen = (inp.take mlen).length := by rw [List.length_take]; omega
  rw [← shake256_ok n (inp.take mlen) mlen hl hn]
  unfold shake256 shake
  have : absorb 136 inp mlen 0x1F = absorb 136 (inp.take mlen) mlen 0x1F := by
    unfold absorb
    have e : ∀ m s o, absorbLoop 136 m s o mlen = .ok (s, o, mlen) := fun m s o => by rw [absorbLoop, if_neg (by omega)]
    simp only [e, ok_bind]
    refine congrArg _ (funext fun t => ?_)
    have e2 : loop (fun i t => do
        let b ← rd inp (0 + i)
        wr t i b) 0 mlen t = loop (fun i t => do
        let b ← rd (inp.take mlen) (0 + i)
        wr t i b) 0 mlen t := loop_congr 0 mlen t fun i t _ hi => by
      have : rd inp (0 + i) = rd (inp.take mlen) (0 + i) := by
        unfold rd
        rw [List.getElem?_take_of_lt (by omega)]
      rw [this]
    rw [e2]
  rw [this]

theorem shake256Inc2_ok {x y out : Bytes} {xl yl n : Nat} (hx : xl = x.length) (hy : yl ≤ y.length) (hn : n ≤ out.length) :
    shake256Inc2 x xl y yl out n = .ok (splice out 0 (S256 (x ++ y.take yl) n)) := by
  unfold shake256Inc2
  subst hx
  rw [incAbsorb_run (incInit_ok (by omega)) (by omega) (by omega), ok_bind, List.take_length,
    incAbsorb_run (feedAll_ok (incInit_ok (by omega)) (by omega) _) (by omega) hy, ok_bind, ← feedAll_append,
    incFinalize_run (by omega) (by omega) (by decide), ok_bind]
  have := incSqueeze_run (h := out) (n := n) (after_ok (r := 136) (by omega) (by omega) (x ++ y.take yl) 0) (by omega) (by omega) hn
  have e0 : (⟨padded 136 0x1F (x ++ y.take yl), 0⟩ : Inc) = after 136 (x ++ y.take yl) 0 := rfl
  rw [e0, this, ok_bind]
  rfl

theorem polyChallenge_take (fuel : Nat) {seed : Bytes} (h : 32 ≤ seed.length) : polyChallenge fuel seed = polyChallenge fuel (seed.take 32) := by
  unfold polyChallenge
  have hl : (seed.take 32).length = 32 := by rw [List.length_take]; omega
  rw [incAbsorb_run (incInit_ok (by omega)) (by omega) h, incAbsorb_run (incInit_ok (by omega)) (by omega) (by omega), List.take_take]
  rfl

/-! ### Matrix and vectors -/

/-- Neither result nor divergence: undefined behaviour. -/
def Safe {α : Type} (r : C α) : Prop := r ≠ .error .ub

theorem Safe.cases {α : Type} {r : C α} (h : Safe r) : (∃ a, r = .ok a) ∨ r = .error .diverge := by
  cases r with
  | ok a => exact Or.inl ⟨a, rfl⟩
  | error f => cases f with
    | ub => exact absurd rfl h
    | diverge => exact Or.inr rfl

theorem safe_ok {α : Type} (a : α) : Safe (.ok a : C α) := fun h => nomatch h
theorem safe_div {α : Type} : Safe (.error .diverge : C α) := fun h => nomatch h
theorem Safe.bind {α β : Type} {r : C α} {f : α → C β} (h : Safe r) (hf : ∀ a, r = .ok a → Safe (f a)) : Safe (r >>= f) := by
  rcases h.cases with ⟨a, rfl⟩ | rfl
  · rw [ok_bind]; exact hf a rfl
  · exact safe_div

theorem resultOf_safe (l : Option (List Int)) : Safe (resultOf l) := by
  rcases resultOf_cases l with ⟨a, e⟩ | e <;> rw [e]
  · exact safe_ok a
  · exact safe_div

/-- Everything large enough is large enough for all of finitely many. -/
theorem build_complete {α : Type} {n : Nat} {d : α} {f : Nat → Nat → C α} (g : Nat → α) (h : ∀ i, i < n → ∃ F, ∀ fuel, F ≤ fuel → f fuel i = .ok (g i)) :
    ∃ F, ∀ fuel, F ≤ fuel → build n d (f fuel) = .ok ((List.range n).map g) := by
  have : ∃ F, ∀ fuel, F ≤ fuel → ∀ i, i < n → f fuel i = .ok (g i) := by
    induction n with
    | zero => exact ⟨0, fun _ _ i hi => absurd hi (by omega)⟩
    | succ n ih =>
      obtain ⟨F, hF⟩ := ih fun i hi => h i (by omega)
      obtain ⟨G, hG⟩ := h n (by omega)
      refine ⟨max F G, fun fuel hf i hi => ?_⟩
      by_cases c : i = n
      · subst c; exact hG fuel (by omega)
      · exact hF fuel (by omega) i (by omega)
  obtain ⟨F, hF⟩ := this
  exact ⟨F, fun fuel hf => build_ok g (hF fuel hf)⟩

theorem range_map_at {α : Type} {v : List (List α)} (h : v.length = 4) : (List.range 4).map (at_ v) = v :=
  vec_ext (length_vec _) h fun i hi => at_vec (at_ v) hi

theorem nonce_val {i j : Nat} (hi : i < 4) (hj : j < 4) : (BitVec.ofNat 16 (i * 256 + j)).toNat = 256 * i + j := by
  rw [BitVec.toNat_ofNat]; omega

theorem matrixExpand_safe (fuel : Nat) {rho : Bytes} (h : rho.length = 32) : Safe (matrixExpand fuel rho) :=
  build_ne_ub fun i _ => build_ne_ub fun j _ => by rw [polyUniform_ok fuel h]; exact resultOf_safe _

theorem matrixExpand_sound {fuel : Nat} {rho : Bytes} (h : rho.length = 32) {A : List Vec} (e : matrixExpand fuel rho = .ok A) : IsMatrix S128 rho A := by
  obtain ⟨hl, hi⟩ := build_eq_ok e
  refine ⟨hl, fun i hi4 => ?_⟩
  obtain ⟨x, hx, ex⟩ := hi i hi4
  obtain ⟨hxl, hj⟩ := build_eq_ok ex
  have ea : at_ A i = x := by unfold at_; rw [List.getD_eq_getElem?_getD, hx]; rfl
  rw [ea]
  refine ⟨hxl, fun j hj4 => ?_⟩
  obtain ⟨y, hy, ey⟩ := hj j hj4
  have eb : at_ x j = y := by unfold at_; rw [List.getD_eq_getElem?_getD, hy]; rfl
  rw [eb, ← nonce_val hi4 hj4]
  exact polyUniform_sound h ey

theorem matrixExpand_complete {rho : Bytes} (h : rho.length = 32) {A : List Vec} (hA : IsMatrix S128 rho A) :
    ∃ F, ∀ fuel, F ≤ fuel → matrixExpand fuel rho = .ok A := by
  have := build_complete (n := 4) (d := ([] : Vec)) (f := fun fuel i => build 4 [] fun j => polyUniform fuel rho (BitVec.ofNat 16 (i * 256 + j)))
    (fun i => at_ A i) (fun i hi => by
      have := build_complete (n := 4) (d := ([] : Poly)) (f := fun fuel j => polyUniform fuel rho (BitVec.ofNat 16 (i * 256 + j))) (at_ (at_ A i))
        (fun j hj => polyUniform_complete h (by rw [nonce_val hi hj]; exact (hA.2 i hi).2 j hj))
      rwa [range_map_at (hA.2 i hi).1] at this)
  have e : (List.range 4).map (fun i => at_ A i) = A := range_map_at hA.1
  rw [e] at this
  exact this

theorem matrix_MB {rho : Bytes} {A : List Vec} (h : IsMatrix S128 rho A) : MB A :=
  ⟨h.1, fun i hi => ⟨(h.2 i hi).1, fun j hj => (uniform_res ((h.2 i hi).2 j hj)).PB⟩⟩

theorem vecUniformEta_safe (fuel : Nat) {seed : Bytes} (h : seed.length = 64) (n : BitVec 16) : Safe (vecUniformEta fuel seed n) :=
  build_ne_ub fun i _ => by rw [polyUniformEta_ok fuel h]; exact resultOf_safe _

theorem nonce_add {n i : Nat} (hn : n < 60000) (hi : i < 4) : (BitVec.ofNat 16 n + BitVec.ofNat 16 i).toNat = n + i := by
  rw [BitVec.toNat_add, BitVec.toNat_ofNat, BitVec.toNat_ofNat]; omega

theorem vecUniformEta_sound {fuel : Nat} {seed : Bytes} (h : seed.length = 64) {n : Nat} (hn : n < 60000) {v : Vec}
    (e : vecUniformEta fuel seed (BitVec.ofNat 16 n) = .ok v) : IsEtaVec S256 seed n v := by
  obtain ⟨hl, hi⟩ := build_eq_ok e
  refine ⟨hl, fun i hi4 => ?_⟩
  obtain ⟨x, hx, ex⟩ := hi i hi4
  have ea : at_ v i = x := by unfold at_; rw [List.getD_eq_getElem?_getD, hx]; rfl
  rw [ea, ← nonce_add hn hi4]
  exact polyUniformEta_sound h ex

theorem vecUniformEta_complete {seed : Bytes} (h : seed.length = 64) {n : Nat} (hn : n < 60000) {v : Vec} (hv : IsEtaVec S256 seed n v) :
    ∃ F, ∀ fuel, F ≤ fuel → vecUniformEta fuel seed (BitVec.ofNat 16 n) = .ok v := by
  have := build_complete (n := 4) (d := ([] : Poly)) (f := fun fuel i => polyUniformEta fuel seed (BitVec.ofNat 16 n + BitVec.ofNat 16 i)) (at_ v)
    (fun i hi => polyUniformEta_complete h (by rw [nonce_add hn hi]; exact hv.2 i hi))
  rw [range_map_at hv.1] at this
  exact this

theorem etaVec_range {seed : Bytes} {n : Nat} {v : Vec} (h : IsEtaVec S256 seed n v) : v.length = 4 ∧ ∀ i, i < 4 → (at_ v i).length = 256 ∧ ∀ x ∈ at_ v i, -2 ≤ x ∧ x ≤ 2 :=
  ⟨h.1, fun i hi => eta_range (h.2 i hi)⟩

theorem etaVec_VB {seed : Bytes} {n : Nat} {v : Vec} (h : IsEtaVec S256 seed n v) : VB v 3 :=
  ⟨h.1, fun i hi => PB_of_mem (eta_range (h.2 i hi)).1 fun x hx => by have := (eta_range (h.2 i hi)).2 x hx; omega⟩

theorem le16_mod (n : Nat) : le16 (n % 65536) = le16 n := by
  unfold le16 toLe toLe
  rw [ofNat8_congr (a := n % 65536) (b := n) (by omega), ofNat8_congr (a := n % 65536 / 256) (b := n / 256) (by omega)]
  rfl

theorem vecUniformGamma1_ok {seed : Bytes} (h : seed.length = 64) (k : Nat) :
    vecUniformGamma1 seed (BitVec.ofNat 16 k) = .ok (vec fun i => mask S256 seed (4 * k + i)) := by
  unfold vecUniformGamma1
  refine build_ok (fun i => mask S256 seed (4 * k + i)) fun i hi => ?_
  rw [polyUniformGamma1_ok h]
  refine congrArg _ ?_
  unfold mask
  have e : le16 (BitVec.ofNat 16 (4 * (BitVec.ofNat 16 k).toNat + i)).toNat = le16 (4 * k + i) := by
    rw [← le16_mod (4 * k + i), BitVec.toNat_ofNat, BitVec.toNat_ofNat]
    refine congrArg _ ?_
    omega
  rw [e]

/-! ### Arithmetic -/

/-- NTT of the vector, product with the matrix, reduction, inverse NTT. -/
theorem matVec_ok {A : List Vec} {v : Vec} {B : Int} (hA : MB A) (hv : VB v B) (hB : B ≤ 1000000) :
    ∃ a b c d, vecNtt v = .ok a ∧ matrixPointwise A a = .ok b ∧ vecReduce b = .ok c ∧ vecInvntt c = .ok d ∧ VB d 4211178 ∧
      ∀ i, i < 4 → ∀ j, j < 256 → co (at_ d i) j % 8380417 = co (at_ (matVec A v) i) j := by
  obtain ⟨a, ea, ba, ha⟩ := vecNtt_ok hv (by omega)
  obtain ⟨b, eb, bb, hb⟩ := matrixPointwise_ok hA ba (by omega)
  obtain ⟨c, ec, bc, hc⟩ := vecReduce_ok (bb.mono (by omega))
  obtain ⟨d, ed, bd, hd⟩ := vecInvntt_ok (bc.mono (by omega))
  refine ⟨a, b, c, d, ea, eb, ec, ed, bd, fun i hi j hj => ?_⟩
  have := cf_eq_iff.1 (matVec_run hv.1 ha hb hc hd i hi j hj)
  have hr := (matVec_res A v hi).2 j hj
  rw [this, Int.emod_eq_of_lt hr.1 hr.2]

/-- Pointwise product with a challenge, inverse NTT. -/
theorem cs_ok {c ch : Poly} {s sh : Vec} (bc : PB ch 67043338) (hc : ∀ j, j < 256 → cf ch j = evalAt (cf c) (root j)) (bs : VB sh 75423753)
    (hs : ∀ i, i < 4 → ∀ j, j < 256 → cf (at_ sh i) j = evalAt (cf (at_ s i)) (root j)) :
    ∃ a b, vecPointwisePoly ch sh = .ok a ∧ VB a 8380417 ∧ (∀ i, i < 4 → ∀ j, j < 256 → cf (at_ a i) j = cf ch j * cf (at_ sh i) j * Rinv) ∧
      vecInvntt a = .ok b ∧ VB b 4211178 ∧
      ∀ i, i < 4 → ∀ j, j < 256 → co (at_ b i) j % 8380417 = co (Spec.mul c (at_ s i)) j % 8380417 := by
  obtain ⟨a, ea, ba, ha⟩ := vecPointwisePoly_ok bc bs (by omega)
  obtain ⟨b, eb, bb, hb⟩ := vecInvntt_ok ba
  refine ⟨a, b, ea, ba, ha, eb, bb, fun i hi j hj => ?_⟩
  exact cf_eq_iff.1 (mul_run hc (hs i hi) (ha i hi) (hb i hi) j hj)

theorem nttc_ok {c : Poly} (h : PB c 2) : ∃ ch, ntt c = .ok ch ∧ PB ch 67043338 ∧ ∀ j, j < 256 → cf ch j = evalAt (cf c) (root j) := by
  obtain ⟨y, e, l, c, b⟩ := ntt_ok h.1 (by omega) h.2
  exact ⟨y, e, ⟨l, fun i hi => by have := b i hi; omega⟩, c⟩

theorem map_map_vec (v : Vec) (f : Int → Int) (hv : v.length = 4) (hl : ∀ i, i < 4 → (at_ v i).length = 256) :
    v.map (·.map f) = vec fun i => mk fun j => f (co (at_ v i) j) := by
  refine vec_ext (by simpa using hv) (length_vec _) fun i hi => ?_
  rw [at_vec _ hi]
  have : at_ (v.map (·.map f)) i = (at_ v i).map f := by
    unfold at_
    rw [List.getD_eq_getElem?_getD, List.getElem?_map, List.getD_eq_getElem?_getD, List.getElem?_eq_getElem (by omega)]; rfl
  rw [this]
  refine co_ext (by rw [List.length_map]; exact hl i hi) (length_mk _) fun j hj => ?_
  rw [co_mk _ hj]
  unfold co
  rw [List.getD_eq_getElem?_getD, List.getElem?_map, List.getD_eq_getElem?_getD, List.getElem?_eq_getElem (by rw [hl i hi]; omega)]; rfl

theorem vecPairs_ok {f : Poly → C (List (Int × Int))} {g : Int → Int × Int} {v : Vec} (hv : v.length = 4)
    (h : ∀ i, i < 4 → f (at_ v i) = .ok ((List.range 256).map fun j => g (co (at_ v i) j))) :
    (do
      let l ← build 4 [] fun i => do let x ← rd v i; f x
      .ok (l.map (·.map (·.1)), l.map (·.map (·.2))) : C (Vec × Vec)) =
      .ok ((vec fun i => mk fun j => (g (co (at_ v i) j)).1), (vec fun i => mk fun j => (g (co (at_ v i) j)).2)) := by
  rw [build_ok (fun i => (List.range 256).map fun j => g (co (at_ v i) j)) (fun i hi => by rw [rd_at (by omega), ok_bind, h i hi]), ok_bind]
  simp only [List.map_map]
  unfold vec mk
  have e1 : ((fun x : List (Int × Int) => x.map fun x => x.1) ∘ fun i => (List.range 256).map fun j => g (co (at_ v i) j)) =
      fun i => (List.range 256).map fun j => (g (co (at_ v i) j)).1 := by
    funext i; rw [Function.comp_apply, List.map_map]; rfl
  have e2 : ((fun x : List (Int × Int) => x.map fun x => x.2) ∘ fun i => (List.range 256).map fun j => g (co (at_ v i) j)) =
      fun i => (List.range 256).map fun j => (g (co (at_ v i) j)).2 := by
    funext i; rw [Function.comp_apply, List.map_map]; rfl
  rw [e1, e2]

/-- Four polynomials in standard representation. -/
def VRes (v : Vec) : Prop := v.length = 4 ∧ ∀ i, i < 4 → Res (at_ v i)

theorem vecDecompose_ok {v : Vec} (h : VRes v) : vecDecompose v = .ok (v.map (·.map highBits), v.map (·.map lowBits)) := by
  rw [map_map_vec v _ h.1 fun i hi => (h.2 i hi).1, map_map_vec v _ h.1 fun i hi => (h.2 i hi).1]
  unfold vecDecompose
  exact vecPairs_ok (g := Spec.decompose) h.1 fun i hi => by
    unfold polyDecompose
    exact build_ok (fun j => Spec.decompose (co (at_ v i) j)) fun j hj => by
      have := (h.2 i hi).2 j hj
      rw [rd_co (by rw [(h.2 i hi).1]; exact hj), ok_bind, decompose_ok this.1 this.2]

theorem vecPower2round_ok {v : Vec} (h : VRes v) :
    vecPower2round v = .ok (v.map (·.map fun r => (power2Round r).1), v.map (·.map fun r => (power2Round r).2)) := by
  rw [map_map_vec v _ h.1 fun i hi => (h.2 i hi).1, map_map_vec v _ h.1 fun i hi => (h.2 i hi).1]
  unfold vecPower2round
  exact vecPairs_ok (g := Spec.power2Round) h.1 fun i hi => by
    unfold polyPower2round
    exact build_ok (fun j => Spec.power2Round (co (at_ v i) j)) fun j hj => by
      have := (h.2 i hi).2 j hj
      rw [rd_co (by rw [(h.2 i hi).1]; exact hj), ok_bind, power2round_ok this.1 this.2]

theorem matVec_VRes (A : List Vec) (v : Vec) : VRes (matVec A v) := ⟨length_vec _, fun _ hi => matVec_res A v hi⟩

theorem cmod_cmod (x : Int) : cmod (cmod x q) q = cmod x q := by
  have := cmod_range x
  exact cmod_of rfl this

/-- After a reduction, passing the norm check is the norm bound, and then the values are the centred residues. -/
theorem reduced_norm {r : Vec} {g : Nat → Nat → Int} {B : Int} (hr : VB r 6283010) (hB : B ≤ 131072)
    (h : ∀ i, i < 4 → ∀ j, j < 256 → co (at_ r i) j % 8380417 = g i j % 8380417) :
    ((∀ i, i < 4 → ∀ j, j < 256 → -B < co (at_ r i) j ∧ co (at_ r i) j < B) ↔ NormLt (vec fun i => mk fun j => cmod (g i j) q) B) ∧
      ((∀ i, i < 4 → ∀ j, j < 256 → -B < co (at_ r i) j ∧ co (at_ r i) j < B) → r = vec fun i => mk fun j => cmod (g i j) q) := by
  constructor
  · unfold NormLt
    refine forall_congr' fun i => forall_congr' fun hi => forall_congr' fun j => forall_congr' fun hj => ?_
    rw [at_vec _ hi, co_mk _ hj, cmod_cmod]
    exact norm_iff (h i hi j hj) ((hr.2 i hi).2 j hj) hB
  · intro hb
    refine vec_ext hr.1 (length_vec _) fun i hi => ?_
    rw [at_vec _ hi]
    refine co_ext (hr.2 i hi).1 (length_mk _) fun j hj => ?_
    rw [co_mk _ hj]
    have := hb i hi j hj
    exact (cmod_of (h i hi j hj) (by omega)).symm

/-- The number of hints is the sum of their bits. -/
theorem sum_bits (h : List Int) (hl : h.length = 256) (hb : ∀ c ∈ h, c = 0 ∨ c = 1) : h.sum = ((positions h).length : Int) := by
  have e : h = (List.range 256).map (co h) := co_ext hl (length_mk _) fun j hj => (co_mk _ hj).symm
  have hbit : ∀ j, j < 256 → co h j = 0 ∨ co h j = 1 := fun j hj => hb _ (co_mem (by omega))
  have : ∀ n, n ≤ 256 → ((List.range n).map (co h)).sum = (((List.range n).filter fun j => co h j ≠ 0).length : Int) := by
    intro n
    induction n with
    | zero => intro _; rfl
    | succ n ih =>
      intro hn
      rw [List.range_succ, List.map_append, List.sum_append, ih (by omega), List.filter_append, List.length_append]
      rcases hbit n (by omega) with h0 | h1
      · simp [h0]
      · simp [h1]
  unfold positions
  rw [List.length_map, ← this 256 (by omega), ← e]

theorem weight_sum (h : Vec) (hl : ∀ x ∈ h, x.length = 256 ∧ ∀ c ∈ x, c = 0 ∨ c = 1) : (h.map List.sum).sum = (weight h : Int) := by
  unfold weight
  induction h with
  | nil => rfl
  | cons x h ih =>
    rw [List.map_cons, List.sum_cons, List.flatMap_cons, List.length_append, ih fun y hy => hl y (List.mem_cons_of_mem _ hy),
      sum_bits x (hl x (List.mem_cons_self ..)).1 (hl x (List.mem_cons_self ..)).2]
    push_cast; rfl

theorem mem_vec {α : Type} {f : Nat → α} {x : α} (h : x ∈ vec f) : ∃ i, i < 4 ∧ x = f i := by
  unfold vec at h
  obtain ⟨i, hi, rfl⟩ := List.mem_map.1 h
  exact ⟨i, List.mem_range.1 hi, rfl⟩

theorem mem_mk {f : Nat → Int} {x : Int} (h : x ∈ mk f) : ∃ i, i < 256 ∧ x = f i := by
  unfold mk at h
  obtain ⟨i, hi, rfl⟩ := List.mem_map.1 h
  exact ⟨i, List.mem_range.1 hi, rfl⟩

end Verif.Dilithium
