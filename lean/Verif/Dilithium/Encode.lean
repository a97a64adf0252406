import Verif.Dilithium.Pack

/-! The packing loops and packing.c against the encodings of the specification. -/

namespace Verif.Dilithium
open Verif Spec

/-! ### Lists -/

theorem splice_splice {α : Type} {b x y : List α} {o : Nat} (h : o + x.length + y.length ≤ b.length) :
    splice (splice b o x) (o + x.length) y = splice b o (x ++ y) := by
  have hl : (splice b o x).length = b.length := length_splice (by omega)
  apply List.ext_getElem?
  intro i
  rw [getElem?_splice _ _ _ _ (by omega), getElem?_splice _ _ _ _ (by omega), getElem?_splice _ _ _ _ (by rw [List.length_append]; omega), List.length_append]
  by_cases h1 : i < o
  · rw [if_neg (by omega), if_neg (by omega), if_neg (by omega)]
  · by_cases h2 : i < o + x.length
    · rw [if_neg (by omega), if_pos (by omega), if_pos (by omega), List.getElem?_append_left (by omega)]
    · by_cases h3 : i < o + x.length + y.length
      · rw [if_pos (by omega), if_pos (by omega), List.getElem?_append_right (by omega)]
        congr 1; omega
      · rw [if_neg (by omega), if_neg (by omega), if_neg (by omega)]

theorem flatMap_range_succ {α : Type} (G : Nat → List α) (n : Nat) : (List.range (n + 1)).flatMap G = (List.range n).flatMap G ++ G n := by
  rw [List.range_succ, List.flatMap_append]; simp

theorem length_flatMap_range {α : Type} {G : Nat → List α} {n k : Nat} (h : ∀ i, i < n → (G i).length = k) :
    ((List.range n).flatMap G).length = k * n := by
  induction n with
  | zero => simp
  | succ n ih => rw [flatMap_range_succ, List.length_append, ih (fun i hi => h i (by omega)), h n (by omega), Nat.mul_succ]

theorem rdN_ok {α : Type} {a : List α} {o n : Nat} (h : o + n ≤ a.length) : rdN a o n = .ok (slice a o n) := by
  unfold rdN; rw [if_pos h]

theorem copy_whole {α : Type} {dst x : List α} {d n : Nat} (hx : x.length = n) (hd : d + n ≤ dst.length) : copy dst d x 0 n = .ok (splice dst d x) := by
  subst hx; rw [copy_ok (by omega) hd, slice_zero_length]

theorem fill_loop {α : Type} {n k base : Nat} {r : List α} {G : Nat → List α} (f : Nat → List α → C (List α)) (hr : base + k * n ≤ r.length)
    (hG : ∀ i, i < n → (G i).length = k)
    (hf : ∀ i s, i < n → s.length = r.length → f i s = .ok (splice s (base + k * i) (G i))) :
    loop f 0 n r = .ok (splice r base ((List.range n).flatMap G)) := by
  obtain ⟨s, e, hs⟩ := loop_inv (fun i s => s = splice r base ((List.range i).flatMap G)) f 0 n r (by simp) (by
    intro i s _ hi hs
    have hl : ((List.range i).flatMap G).length = k * i := length_flatMap_range fun j hj => hG j (by omega)
    have hki : k * i + k ≤ k * n := by rw [← Nat.mul_succ]; exact Nat.mul_le_mul_left _ (by omega)
    refine ⟨_, hf i s (by omega) (by rw [hs, length_splice (by omega)]), ?_⟩
    rw [hs, flatMap_range_succ]
    have := splice_splice (b := r) (o := base) (x := (List.range i).flatMap G) (y := G i) (by rw [hl, hG i (by omega)]; omega)
    rw [hl] at this
    exact this)
  rw [e, hs, Nat.zero_add]

theorem packLoop_ok {m k n base : Nat} {f : List Int → C Bytes} {r : Bytes} {a : Poly} (G : Nat → Bytes) (ha : a.length = m * n)
    (hr : base + k * n ≤ r.length) (hG : ∀ i, i < n → (G i).length = k) (hf : ∀ i, i < n → f (slice a (m * i) m) = .ok (G i)) :
    packLoop m k n f r base a = .ok (splice r base ((List.range n).flatMap G)) := by
  unfold packLoop
  refine fill_loop _ hr hG fun i s hi hs => ?_
  have hmi : m * i + m ≤ m * n := by rw [← Nat.mul_succ]; exact Nat.mul_le_mul_left _ (by omega)
  have hki : k * i + k ≤ k * n := by rw [← Nat.mul_succ]; exact Nat.mul_le_mul_left _ (by omega)
  rw [rdN_ok (by omega), ok_bind, hf i hi, ok_bind, copy_whole (hG i hi) (by omega)]

theorem unpackLoop_ok {m k n base : Nat} {f : Bytes → C (List Int)} {src : Bytes} (G : Nat → List Int) (hn : m * n = 256)
    (hr : base + k * n ≤ src.length) (hG : ∀ i, i < n → (G i).length = m) (hf : ∀ i, i < n → f (slice src (base + k * i) k) = .ok (G i)) :
    unpackLoop m k n f src base = .ok ((List.range n).flatMap G) := by
  unfold unpackLoop
  have hl : ((List.range n).flatMap G).length = 256 := by rw [length_flatMap_range hG, hn]
  rw [fill_loop (G := G) (base := 0) (k := m) _ (by rw [List.length_replicate]; omega) hG (fun i s hi hs => by
    have hmi : m * i + m ≤ m * n := by rw [← Nat.mul_succ]; exact Nat.mul_le_mul_left _ (by omega)
    have hki : k * i + k ≤ k * n := by rw [← Nat.mul_succ]; exact Nat.mul_le_mul_left _ (by omega)
    simp only [List.length_replicate] at hs
    rw [rdN_ok (by omega), ok_bind, hf i hi, ok_bind, copy_whole (hG i hi) (by omega), Nat.zero_add])]
  rw [splice_all (by rw [hl, List.length_replicate])]

/-! ### Bits in groups -/

theorem toLe_succ (n v : Nat) : toLe (n + 1) v = BitVec.ofNat 8 v :: toLe n (v / 256) := rfl
theorem digits_cons (w x : Nat) (l : List Nat) : digits w (x :: l) = x + 2 ^ w * digits w l := rfl
theorem ofLe_cons (b : Byte) (l : Bytes) : ofLe (b :: l) = b.toNat + 256 * ofLe l := rfl

theorem length_toLe (n v : Nat) : (toLe n v).length = n := by
  induction n generalizing v with
  | zero => rfl
  | succ n ih => simp [toLe, ih]

theorem toLe_append (k1 k2 x y : Nat) (hx : x < 256 ^ k1) : toLe (k1 + k2) (x + 256 ^ k1 * y) = toLe k1 x ++ toLe k2 y := by
  induction k1 generalizing x with
  | zero =>
    have : x = 0 := by simpa using hx
    subst this; simp [toLe]
  | succ k ih =>
    have hx' : x / 256 < 256 ^ k := by rw [Nat.div_lt_iff_lt_mul (by omega)]; rw [Nat.pow_succ] at hx; exact hx
    rw [show k + 1 + k2 = (k + k2) + 1 by omega]
    rw [toLe_succ, toLe_succ, show (x + 256 ^ (k + 1) * y) / 256 = x / 256 + 256 ^ k * y by rw [Nat.pow_succ, show 256 ^ k * 256 * y = 256 * (256 ^ k * y) by ring]; omega,
      ih _ hx', ofNat8_congr (a := x + 256 ^ (k + 1) * y) (b := x) (by rw [Nat.pow_succ, show 256 ^ k * 256 * y = 256 * (256 ^ k * y) by ring]; omega)]
    rfl

theorem digits_append (w : Nat) (l1 l2 : List Nat) : digits w (l1 ++ l2) = digits w l1 + 2 ^ (w * l1.length) * digits w l2 := by
  induction l1 with
  | nil => simp [digits]
  | cons x l ih =>
    rw [List.cons_append]
    rw [digits_cons, digits_cons, ih, List.length_cons, Nat.mul_succ, Nat.pow_add]; ring

theorem digits_lt (w : Nat) (l : List Nat) (h : ∀ x ∈ l, x < 2 ^ w) : digits w l < 2 ^ (w * l.length) := by
  induction l with
  | nil => simp [digits]
  | cons x l ih =>
    have h1 := h x (by simp)
    have h2 := ih fun y hy => h y (by simp [hy])
    unfold digits
    rw [List.length_cons, Nat.mul_succ, Nat.pow_add]
    have h3 : 2 ^ w * (digits w l + 1) ≤ 2 ^ w * 2 ^ (w * l.length) := Nat.mul_le_mul_left _ h2
    rw [Nat.mul_succ, Nat.mul_comm (2 ^ w) (2 ^ (w * l.length))] at h3
    omega

theorem packBits_append {w m k : Nat} (hk : w * m = 8 * k) {l1 l2 : List Nat} (h1 : l1.length = m) (hb : ∀ x ∈ l1, x < 2 ^ w) (h2 : 8 ∣ w * l2.length) :
    packBits w (l1 ++ l2) = toLe k (digits w l1) ++ packBits w l2 := by
  unfold packBits
  obtain ⟨k2, hk2⟩ := h2
  have hp : 2 ^ (w * l1.length) = 256 ^ k := by rw [h1, hk, Nat.pow_mul]
  have hlen : w * (l1 ++ l2).length / 8 = k + k2 := by
    rw [List.length_append, Nat.mul_add, h1, hk, hk2]; omega
  rw [hlen, digits_append, hp, toLe_append _ _ _ _ (by rw [← hp]; exact digits_lt w l1 hb), hk2, Nat.mul_div_cancel_left _ (by omega)]

theorem packBits_groups {w m k n : Nat} (hk : w * m = 8 * k) {l : List Nat} (hl : l.length = m * n) (hb : ∀ x ∈ l, x < 2 ^ w) :
    packBits w l = (List.range n).flatMap fun i => toLe k (digits w (slice l (m * i) m)) := by
  induction n generalizing l with
  | zero =>
    have : l = [] := List.length_eq_zero_iff.1 (by simpa using hl)
    subst this; simp [packBits, toLe]
  | succ n ih =>
    rw [Nat.mul_succ] at hl
    have hd : (l.drop m).length = m * n := by simp; omega
    have hdiv : 8 ∣ w * (l.drop m).length := by rw [hd, ← Nat.mul_assoc, hk, Nat.mul_assoc]; exact Nat.dvd_mul_right _ _
    conv_lhs => rw [← List.take_append_drop m l]
    rw [packBits_append hk (by simp; omega) (fun x hx => hb x (List.mem_of_mem_take hx)) hdiv, ih hd fun x hx => hb x (List.mem_of_mem_drop hx),
      List.range_succ_eq_map, List.flatMap_cons, List.flatMap_map]
    refine congrArg₂ (· ++ ·) (by simp [slice]) (List.flatMap_congr fun i _ => ?_)
    unfold slice
    rw [List.drop_drop, Nat.mul_succ, Nat.add_comm]

theorem ofLe_append (x y : Bytes) : ofLe (x ++ y) = ofLe x + 256 ^ x.length * ofLe y := by
  induction x with
  | nil => simp [ofLe]
  | cons b l ih =>
    rw [List.cons_append]
    rw [ofLe_cons, ofLe_cons, ih, List.length_cons, Nat.pow_succ]; ring

theorem ofLe_lt (x : Bytes) : ofLe x < 256 ^ x.length := by
  induction x with
  | nil => simp [ofLe]
  | cons b l ih =>
    have := b.isLt
    unfold ofLe
    rw [List.length_cons, Nat.pow_succ]; omega

/-- A field that lies in the second part. -/
theorem field_right {w k i : Nat} {x y : Bytes} (hx : x.length = k) : ofLe (x ++ y) / 2 ^ (8 * k + i) % 2 ^ w = ofLe y / 2 ^ i % 2 ^ w := by
  have h := ofLe_lt x
  rw [hx] at h
  rw [ofLe_append, hx, Nat.pow_add, Nat.pow_mul, show (2 : Nat) ^ 8 = 256 by norm_num, ← Nat.div_div_eq_div_mul,
    Nat.add_mul_div_left _ _ (by omega), Nat.div_eq_of_lt h, Nat.zero_add]

/-- A field that lies in the first part. -/
theorem field_left {w k i : Nat} {x y : Bytes} (hx : x.length = k) (hi : i + w ≤ 8 * k) :
    ofLe (x ++ y) / 2 ^ i % 2 ^ w = ofLe x / 2 ^ i % 2 ^ w := by
  obtain ⟨d, hd⟩ : ∃ d, 8 * k = i + w + d := ⟨8 * k - (i + w), by omega⟩
  have : (256 : Nat) ^ k * ofLe y = 2 ^ i * (2 ^ w * (2 ^ d * ofLe y)) := by
    rw [show (256 : Nat) = 2 ^ 8 by norm_num, ← Nat.pow_mul, hd, Nat.pow_add, Nat.pow_add]; ring
  rw [ofLe_append, hx, this, Nat.add_mul_div_left _ _ (Nat.two_pow_pos i), Nat.add_mul_mod_self_left]

theorem length_unpackBits (w n : Nat) (b : Bytes) : (unpackBits w n b).length = n := by simp [unpackBits]

theorem unpackBits_append {w m k n : Nat} (hk : w * m = 8 * k) {x y : Bytes} (hx : x.length = k) :
    unpackBits w (m + n) (x ++ y) = unpackBits w m x ++ unpackBits w n y := by
  unfold unpackBits
  rw [List.range_add, List.map_append, List.map_map]
  refine congrArg₂ (· ++ ·) (List.map_congr_left fun i hi => ?_) (List.map_congr_left fun i _ => ?_)
  · have hi : i < m := by simpa using hi
    refine field_left hx ?_
    rw [← hk, ← Nat.mul_succ]; exact Nat.mul_le_mul_left _ hi
  · simp only [Function.comp_apply]
    rw [Nat.mul_add, hk, field_right hx]

theorem unpackBits_groups {w m k n : Nat} (hk : w * m = 8 * k) {b : Bytes} (hb : b.length = k * n) :
    unpackBits w (m * n) b = (List.range n).flatMap fun i => unpackBits w m (slice b (k * i) k) := by
  induction n generalizing b with
  | zero => simp [unpackBits]
  | succ n ih =>
    rw [Nat.mul_succ] at hb
    have hd : (b.drop k).length = k * n := by simp; omega
    conv_lhs => rw [← List.take_append_drop k b, Nat.mul_succ, Nat.add_comm (m * n) m]
    rw [unpackBits_append hk (by simp; omega), ih hd, List.range_succ_eq_map, List.flatMap_cons, List.flatMap_map]
    refine congrArg₂ (· ++ ·) (by simp [slice]) (List.flatMap_congr fun i _ => ?_)
    unfold slice
    rw [List.drop_drop, Nat.mul_succ, Nat.add_comm]

/-! ### Round trips on the specification -/

theorem ofLe_toLe (n v : Nat) (h : v < 256 ^ n) : ofLe (toLe n v) = v := by
  induction n generalizing v with
  | zero => simp at h; subst h; rfl
  | succ n ih =>
    unfold toLe ofLe
    rw [ih _ (by rw [Nat.div_lt_iff_lt_mul (by omega)]; rw [Nat.pow_succ] at h; exact h), BitVec.toNat_ofNat]
    omega

theorem toLe_ofLe (b : Bytes) : toLe b.length (ofLe b) = b := by
  induction b with
  | nil => rfl
  | cons x l ih =>
    have := x.isLt
    unfold ofLe
    rw [List.length_cons]
    unfold toLe
    rw [show (x.toNat + 256 * ofLe l) / 256 = ofLe l by omega, ih, ofNat8_congr (b := x.toNat) (by omega), BitVec.ofNat_toNat, BitVec.setWidth_eq]

theorem digits_field {w : Nat} {l : List Nat} (h : ∀ x ∈ l, x < 2 ^ w) {i : Nat} (hi : i < l.length) : digits w l / 2 ^ (w * i) % 2 ^ w = l[i] := by
  induction l generalizing i with
  | nil => simp at hi
  | cons x l ih =>
    have hx := h x (by simp)
    unfold digits
    cases i with
    | zero =>
      rw [Nat.mul_zero, Nat.pow_zero, Nat.div_one, Nat.add_mul_mod_self_left, Nat.mod_eq_of_lt hx]; rfl
    | succ i =>
      rw [Nat.mul_succ, Nat.add_comm (w * i) w, Nat.pow_add, ← Nat.div_div_eq_div_mul, Nat.add_comm x, Nat.mul_add_div (Nat.two_pow_pos w), Nat.div_eq_of_lt hx, Nat.add_zero,
        ih (fun y hy => h y (by simp [hy])) (by simpa using hi)]
      rfl

theorem digits_fields (w n v : Nat) (h : v < 2 ^ (w * n)) : digits w ((List.range n).map fun i => v / 2 ^ (w * i) % 2 ^ w) = v := by
  induction n generalizing v with
  | zero => simp at h; subst h; rfl
  | succ n ih =>
    rw [List.range_succ_eq_map, List.map_cons, List.map_map]
    unfold digits
    have h' : v / 2 ^ w < 2 ^ (w * n) := by
      rw [Nat.div_lt_iff_lt_mul (Nat.two_pow_pos w), ← Nat.pow_add, ← Nat.mul_succ]; exact h
    have := ih _ h'
    rw [show ((fun i => v / 2 ^ (w * i) % 2 ^ w) ∘ Nat.succ) = fun i => v / 2 ^ w / 2 ^ (w * i) % 2 ^ w from by
      funext i; simp only [Function.comp_apply]; rw [Nat.mul_succ, Nat.add_comm, Nat.pow_add, Nat.div_div_eq_div_mul], this]
    simp [Nat.mod_add_div]

theorem unpack_packBits {w n : Nat} {l : List Nat} (hl : l.length = n) (hd : 8 ∣ w * n) (h : ∀ x ∈ l, x < 2 ^ w) : unpackBits w n (packBits w l) = l := by
  obtain ⟨k, hk⟩ := hd
  unfold packBits unpackBits
  rw [hl, hk, Nat.mul_div_cancel_left _ (by omega), ofLe_toLe _ _ (by
    rw [show (256 : Nat) = 2 ^ 8 by norm_num, ← Nat.pow_mul, ← hk, ← hl]; exact digits_lt w l h)]
  apply List.ext_getElem (by simp [hl])
  intro i h1 h2
  rw [List.getElem_map, List.getElem_range, digits_field h h2]

theorem pack_unpackBits {w n k : Nat} {b : Bytes} (hk : w * n = 8 * k) (hb : b.length = k) : packBits w (unpackBits w n b) = b := by
  unfold packBits unpackBits
  rw [List.length_map, List.length_range, hk, Nat.mul_div_cancel_left _ (by omega), digits_fields _ _ _ (by
    have := ofLe_lt b
    rw [hk, Nat.pow_mul, show (2 : Nat) ^ 8 = 256 by norm_num, ← hb]; exact this), ← hb, toLe_ofLe]

theorem unpackBits_lt {w n : Nat} {b : Bytes} : ∀ x ∈ unpackBits w n b, x < 2 ^ w := by
  intro x hx
  unfold unpackBits at hx
  obtain ⟨i, _, rfl⟩ := List.mem_map.1 hx
  exact Nat.mod_lt _ (Nat.two_pow_pos w)

theorem unpackAt_packAt {w : Nat} {c : Int} {a : List Int} (ha : a.length = 256) (h : ∀ x ∈ a, c - 2 ^ w < x ∧ x ≤ c) : unpackAt w c (packAt w c a) = a := by
  unfold unpackAt packAt
  rw [unpack_packBits (by simp [ha]) (by omega) (by
    intro x hx
    obtain ⟨y, hy, rfl⟩ := List.mem_map.1 hx
    have := h y hy
    have e : ((2 ^ w : Nat) : Int) = 2 ^ w := by push_cast; rfl
    omega), List.map_map]
  conv_rhs => rw [← List.map_id a]
  refine List.map_congr_left fun x hx => ?_
  have := h x hx
  simp only [Function.comp_apply, id]
  omega

theorem packAt_unpackAt {w : Nat} {c : Int} {b : Bytes} (hb : b.length = 32 * w) : packAt w c (unpackAt w c b) = b := by
  unfold unpackAt packAt
  rw [List.map_map]
  rw [show ((fun x : Int => (c - x).toNat) ∘ fun x : Nat => c - (x : Int)) = id from by funext x; simp, List.map_id]
  exact pack_unpackBits (by omega) hb

theorem unpackAt_bound {w : Nat} {c : Int} {b : Bytes} : ∀ x ∈ unpackAt w c b, c - 2 ^ w < x ∧ x ≤ c := by
  intro x hx
  unfold unpackAt at hx
  obtain ⟨y, hy, rfl⟩ := List.mem_map.1 hx
  have := unpackBits_lt y hy
  have e : ((2 ^ w : Nat) : Int) = 2 ^ w := by push_cast; rfl
  omega

theorem unpackPos_packPos {w : Nat} {a : List Int} (ha : a.length = 256) (h : ∀ x ∈ a, 0 ≤ x ∧ x < 2 ^ w) : unpackPos w (packPos w a) = a := by
  unfold unpackPos packPos
  rw [unpack_packBits (by simp [ha]) (by omega) (by
    intro x hx
    obtain ⟨y, hy, rfl⟩ := List.mem_map.1 hx
    have := h y hy
    have e : ((2 ^ w : Nat) : Int) = 2 ^ w := by push_cast; rfl
    omega), List.map_map]
  conv_rhs => rw [← List.map_id a]
  refine List.map_congr_left fun x hx => ?_
  have := h x hx
  simp only [Function.comp_apply, id]
  omega

theorem unpackPos_bound {w : Nat} {b : Bytes} : ∀ x ∈ unpackPos w b, 0 ≤ x ∧ x < 2 ^ w := by
  intro x hx
  unfold unpackPos at hx
  obtain ⟨y, hy, rfl⟩ := List.mem_map.1 hx
  have := unpackBits_lt y hy
  have e : ((2 ^ w : Nat) : Int) = 2 ^ w := by push_cast; rfl
  omega

theorem packPos_unpackPos {w : Nat} {b : Bytes} (hb : b.length = 32 * w) : packPos w (unpackPos w b) = b := by
  unfold unpackPos packPos
  rw [List.map_map]
  rw [show (Int.toNat ∘ fun x : Nat => (x : Int)) = id from by funext x; simp, List.map_id]
  exact pack_unpackBits (by omega) hb

theorem length_packAt {w : Nat} {c : Int} {a : List Int} (ha : a.length = 256) : (packAt w c a).length = 32 * w := by
  unfold packAt packBits; rw [length_toLe, List.length_map, ha]; omega
theorem length_packPos {w : Nat} {a : List Int} (ha : a.length = 256) : (packPos w a).length = 32 * w := by
  unfold packPos packBits; rw [length_toLe, List.length_map, ha]; omega
theorem length_unpackAt {w : Nat} {c : Int} {b : Bytes} : (unpackAt w c b).length = 256 := by
  unfold unpackAt; rw [List.length_map, length_unpackBits]
theorem length_unpackPos {w : Nat} {b : Bytes} : (unpackPos w b).length = 256 := by
  unfold unpackPos; rw [List.length_map, length_unpackBits]

end Verif.Dilithium
