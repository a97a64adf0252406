import Verif.Dilithium.UnbiasedSpec
import Verif.Dilithium.Sample
import Mathlib.Data.Set.Finite.List

/-! Helper lemmas for the counts of the samplers (dilithium2/poly.c:311-515). -/

namespace Verif.Dilithium
open Verif Spec

theorem finite_byte : Finite Byte := Finite.of_injective (fun b : Byte => b.toFin) fun _ _ h => BitVec.eq_of_toFin_eq h
theorem finite_len (n : Nat) : {b : Bytes | b.length = n}.Finite :=
  have := finite_byte
  List.finite_length_eq _ _
theorem finite_fib {α : Type} (f : Bytes → Option α) (n : Nat) (x : α) : {b : Bytes | b.length = n ∧ f b = some x}.Finite :=
  (finite_len n).subset fun _ h => h.1

/-- A sampler whose value can be replaced in the string it was read from (no line of its own; helper). -/
structure Lens {α : Type} (f : Bytes → Option α) (V : α → Prop) (put : Bytes → α → Bytes) : Prop where
  range : ∀ b x, f b = some x → V x
  len : ∀ b x y, f b = some x → V y → (put b y).length = b.length
  get : ∀ b x y, f b = some x → V y → f (put b y) = some y
  back : ∀ b x y, f b = some x → V y → put (put b y) x = b

theorem Lens.equal {α : Type} {f : Bytes → Option α} {V put} (h : Lens f V put) (n : Nat) (x y : α) (hx : V x) (hy : V y) :
    {b : Bytes | b.length = n ∧ f b = some x}.ncard = {b : Bytes | b.length = n ∧ f b = some y}.ncard := by
  refine Set.ncard_congr (fun b _ => put b y) ?_ ?_ ?_
  · rintro b ⟨hl, hf⟩
    exact ⟨by rw [h.len b x y hf hy, hl], h.get b x y hf hy⟩
  · rintro b b' ⟨hl, hf⟩ ⟨hl', hf'⟩ e
    rw [← h.back b x y hf hy, ← h.back b' x y hf' hy, e]
  · rintro b ⟨hl, hf⟩
    exact ⟨put b x, ⟨by rw [h.len b y x hf hx, hl], h.get b y x hf hx⟩, h.back b y x hf hx⟩

theorem Lens.unbiased {α : Type} {f : Bytes → Option α} {V put} (h : Lens f V put) {n0 : Nat} (hr : ∀ n, n0 ≤ n → ∃ b x, b.length = n ∧ f b = some x) :
    Unbiased f V n0 where
  range := h.range
  equal := h.equal
  reach n x hn hx := by
    obtain ⟨b, y, hl, hf⟩ := hr n hn
    rw [Set.ncard_pos (finite_fib f n x)]
    exact ⟨put b x, by rw [h.len b y x hf hx, hl], h.get b y x hf hx⟩

/-! ### Scanning a list for accepted symbols -/

section
variable {D W R : Type} (get : Nat → D → Option W) (rep : Nat → D → W → D)

/-- The first `k` accepted symbols (no line of its own; helper). -/
def pick : (k t : Nat) → List D → Option (List W)
  | 0, _, _ => some []
  | _ + 1, _, [] => none
  | k + 1, t, d :: l =>
    match get t d with
    | none => pick (k + 1) t l
    | some v => (pick k (t + 1) l).map (v :: ·)

/-- Replaces the accepted symbols (no line of its own; helper). -/
def rput : List W → Nat → List D → List D
  | [], _, l => l
  | _ :: _, _, [] => []
  | v :: vs, t, d :: l =>
    match get t d with
    | none => d :: rput (v :: vs) t l
    | some _ => rep t d v :: rput vs (t + 1) l

/-- All values are admissible, at their step (no line of its own; helper). -/
def AllOk (ok : Nat → W → Prop) : Nat → List W → Prop
  | _, [] => True
  | t, v :: vs => ok t v ∧ AllOk ok (t + 1) vs

variable {get rep} {ok : Nat → W → Prop}

theorem length_rput : ∀ (l : List D) (vs : List W) (t : Nat), (rput get rep vs t l).length = l.length
  | l, [], t => by rw [rput]
  | [], _ :: _, _ => rfl
  | d :: l, v :: vs, t => by
    rw [rput]
    cases get t d with
    | none => simp [length_rput l]
    | some w => simp [length_rput l]

theorem pick_range (hr : ∀ t d w, get t d = some w → ok t w) : ∀ (l : List D) (k t : Nat) (vs : List W), pick get k t l = some vs → vs.length = k ∧ AllOk ok t vs
  | l, 0, t, vs, h => by
    rw [pick] at h
    obtain rfl := Option.some.inj h
    exact ⟨rfl, trivial⟩
  | [], k + 1, t, vs, h => by rw [pick] at h; cases h
  | d :: l, k + 1, t, vs, h => by
    rw [pick] at h
    cases hg : get t d with
    | none => rw [hg] at h; exact pick_range hr l _ _ _ h
    | some w =>
      rw [hg] at h
      obtain ⟨x, hx, rfl⟩ := Option.map_eq_some_iff.1 h
      have := pick_range hr l _ _ _ hx
      exact ⟨by simp [this.1], hr _ _ _ hg, this.2⟩

theorem pick_put (h1 : ∀ t d w v, get t d = some w → ok t v → get t (rep t d v) = some v ∧ rep t (rep t d v) w = d) :
    ∀ (l : List D) (k t : Nat) (vs ws : List W), pick get k t l = some ws → vs.length = k → AllOk ok t vs →
      pick get k t (rput get rep vs t l) = some vs ∧ rput get rep ws t (rput get rep vs t l) = l
  | l, 0, t, vs, ws, h, hk, ho => by
    obtain rfl := List.length_eq_zero_iff.1 hk
    rw [pick] at h
    obtain rfl := Option.some.inj h
    simp [pick, rput]
  | [], k + 1, t, vs, ws, h, hk, ho => by rw [pick] at h; cases h
  | d :: l, k + 1, t, v :: vs, ws, h, hk, ho => by
    rw [pick] at h
    rw [rput]
    cases hg : get t d with
    | none =>
      rw [hg] at h
      have hw : ∃ w ws', ws = w :: ws' := by
        have := (pick_range (ok := fun _ _ => True) (fun _ _ _ _ => trivial) _ _ _ _ h).1
        cases ws with
        | nil => cases this
        | cons w ws => exact ⟨_, _, rfl⟩
      obtain ⟨w, ws', rfl⟩ := hw
      have := pick_put h1 l _ _ (v :: vs) _ h hk ho
      simp only [pick, rput, hg, this.1, this.2, and_self]
    | some w =>
      rw [hg] at h
      obtain ⟨x, hx, rfl⟩ := Option.map_eq_some_iff.1 h
      have hh := h1 t d w v hg ho.1
      have := pick_put h1 l _ _ vs _ hx (by simpa using hk) ho.2
      simp only [pick, rput, hh.1, hh.2, this.1, this.2, Option.map_some, and_self]

theorem pick_all : ∀ (l : List D) (k t : Nat), (∀ t, ∀ d ∈ l, (get t d).isSome) → k ≤ l.length → ∃ vs, pick get k t l = some vs
  | l, 0, t, _, _ => ⟨[], by rw [pick]⟩
  | [], k + 1, t, _, h => by simp at h
  | d :: l, k + 1, t, h, hk => by
    obtain ⟨w, hw⟩ := Option.isSome_iff_exists.1 (h t d (List.mem_cons_self ..))
    obtain ⟨vs, hv⟩ := pick_all l k (t + 1) (fun t x hx => h t x (List.mem_cons_of_mem _ hx)) (by simpa using hk)
    exact ⟨w :: vs, by simp only [pick, hw, hv, Option.map_some]⟩

theorem pick_filter {g : D → Option W} (hg : ∀ t d, get t d = g d) :
    ∀ (l : List D) (k t : Nat), pick get k t l = if k ≤ (l.filterMap g).length then some ((l.filterMap g).take k) else none
  | l, 0, t => by rw [pick]; simp
  | [], k + 1, t => by rw [pick]; simp
  | d :: l, k + 1, t => by
    rw [pick, hg]
    cases h : g d with
    | none => simp only [pick_filter hg l, List.filterMap_cons, h]
    | some w =>
      simp only [pick_filter hg l, List.filterMap_cons, h, List.length_cons, List.take_succ_cons, Nat.add_le_add_iff_right]
      split <;> rfl

/-- The bytes as a list of symbols and a remainder (no line of its own; helper). -/
structure Coding (dec : Bytes → List D × R) (enc : List D → R → Bytes) : Prop where
  enc_dec : ∀ b, enc (dec b).1 (dec b).2 = b
  dec_enc : ∀ b l, l.length = (dec b).1.length → dec (enc l (dec b).2) = (l, (dec b).2)
  length_enc : ∀ b l, l.length = (dec b).1.length → (enc l (dec b).2).length = b.length

theorem pick_lens {dec : Bytes → List D × R} {enc} (hc : Coding dec enc) (hr : ∀ t d w, get t d = some w → ok t w)
    (h1 : ∀ t d w v, get t d = some w → ok t v → get t (rep t d v) = some v ∧ rep t (rep t d v) w = d) (k : Nat) :
    Lens (fun b => pick get k 0 (dec b).1) (fun vs => vs.length = k ∧ AllOk ok 0 vs)
      (fun b vs => enc (rput get rep vs 0 (dec b).1) (dec b).2) where
  range b x h := pick_range hr _ _ _ _ h
  len b x y _ _ := hc.length_enc _ _ (length_rput ..)
  get b x y h hy := by
    simp only [hc.dec_enc _ _ (length_rput ..)]
    exact (pick_put h1 _ _ _ _ _ h hy.1 hy.2).1
  back b x y h hy := by
    simp only [hc.dec_enc _ _ (length_rput ..)]
    rw [(pick_put h1 _ _ _ _ _ h hy.1 hy.2).2]
    exact hc.enc_dec b
end

theorem allOk_const {W : Type} {p : W → Prop} : ∀ (t : Nat) (vs : List W), AllOk (fun _ => p) t vs ↔ ∀ x ∈ vs, p x
  | _, [] => by simp [AllOk]
  | t, v :: vs => by simp [AllOk, allOk_const (t + 1) vs]

/-! ### Uniform coefficients -/

/-- Groups of three bytes and what is left (no line of its own; helper). -/
def dec3 : Bytes → List (Byte × Byte × Byte) × Bytes
  | b0 :: b1 :: b2 :: l => ((b0, b1, b2) :: (dec3 l).1, (dec3 l).2)
  | l => ([], l)
/-- The bytes of the groups (no line of its own; helper). -/
def enc3 : List (Byte × Byte × Byte) → Bytes → Bytes
  | [], r => r
  | (b0, b1, b2) :: l, r => b0 :: b1 :: b2 :: enc3 l r

theorem dec3_rest : ∀ (k : Nat) (b : Bytes), b.length ≤ k → (dec3 b).2.length < 3
  | _, [], _ => by simp [dec3]
  | _, [_], _ => by simp [dec3]
  | _, [_, _], _ => by simp [dec3]
  | 0, _ :: _ :: _ :: _, h => by simp at h
  | k + 1, b0 :: b1 :: b2 :: l, h => by
    rw [dec3]; exact dec3_rest k l (by simp only [List.length_cons] at h; omega)
theorem dec3_short {r : Bytes} (h : r.length < 3) : dec3 r = ([], r) := by
  match r, h with
  | [], _ => rfl
  | [_], _ => rfl
  | [_, _], _ => rfl
  | _ :: _ :: _ :: _, h => simp at h; omega
theorem dec3_enc3 {r : Bytes} (h : r.length < 3) : ∀ l, dec3 (enc3 l r) = (l, r)
  | [] => by rw [enc3, dec3_short h]
  | (b0, b1, b2) :: l => by rw [enc3, dec3, dec3_enc3 h l]
theorem enc3_dec3 : ∀ (k : Nat) (b : Bytes), b.length ≤ k → enc3 (dec3 b).1 (dec3 b).2 = b
  | _, [], _ => rfl
  | _, [_], _ => rfl
  | _, [_, _], _ => rfl
  | 0, _ :: _ :: _ :: _, h => by simp at h
  | k + 1, b0 :: b1 :: b2 :: l, h => by
    rw [dec3]; simp only [enc3]; rw [enc3_dec3 k l (by simp only [List.length_cons] at h; omega)]
theorem length_enc3 (r : Bytes) : ∀ l, (enc3 l r).length = 3 * l.length + r.length
  | [] => by simp [enc3]
  | (b0, b1, b2) :: l => by simp only [enc3, List.length_cons, length_enc3 r l]; omega

theorem coding3 : Coding dec3 enc3 where
  enc_dec b := enc3_dec3 _ b (Nat.le_refl _)
  dec_enc b l _ := dec3_enc3 (dec3_rest _ b (Nat.le_refl _)) l
  length_enc b l h := by
    rw [length_enc3, h, ← length_enc3, enc3_dec3 _ b (Nat.le_refl _)]

/-- One candidate of `rej_uniform` (no line of its own; helper). -/
def getU (d : Byte × Byte × Byte) : Option Int :=
  let t := d.1.toNat + 256 * d.2.1.toNat + 65536 * (d.2.2.toNat % 128)
  if t < 8380417 then some (t : Int) else none
/-- A group with another value and the same top bit (no line of its own; helper). -/
def repU (d : Byte × Byte × Byte) (v : Int) : Byte × Byte × Byte :=
  (BitVec.ofNat 8 v.toNat, BitVec.ofNat 8 (v.toNat / 256), BitVec.ofNat 8 (v.toNat / 65536 + 128 * (d.2.2.toNat / 128)))

theorem byte_ext {x y : Byte} (h : x.toNat = y.toNat) : x = y := BitVec.eq_of_toNat_eq h

theorem repU_law (d w v) (h : getU d = some w) (hv : 0 ≤ v ∧ v ≤ 8380416) : getU (repU d v) = some v ∧ repU (repU d v) w = d := by
  obtain ⟨a, b, c⟩ := d
  have ha := a.isLt
  have hb := b.isLt
  have hc := c.isLt
  unfold getU at h
  dsimp only at h
  split at h
  · rename_i hlt
    obtain rfl := Option.some.inj h
    obtain ⟨v, rfl⟩ := Int.eq_ofNat_of_zero_le hv.1
    have hv' : v ≤ 8380416 := by omega
    constructor
    · unfold getU repU
      simp only [BitVec.toNat_ofNat, Int.toNat_natCast]
      have : v % 2 ^ 8 + 256 * (v / 256 % 2 ^ 8) + 65536 * ((v / 65536 + 128 * (c.toNat / 128)) % 2 ^ 8 % 128) = v := by omega
      rw [this, if_pos (by omega)]
    · unfold repU
      simp only [BitVec.toNat_ofNat, Int.toNat_natCast]
      refine Prod.ext ?_ (Prod.ext ?_ ?_)
      · apply byte_ext; simp only [BitVec.toNat_ofNat]; omega
      · apply byte_ext; simp only [BitVec.toNat_ofNat]; omega
      · apply byte_ext; simp only [BitVec.toNat_ofNat]; omega
  · cases h

theorem getU_range (d w) (h : getU d = some w) : 0 ≤ w ∧ w ≤ 8380416 := by
  unfold getU at h
  dsimp only at h
  split at h
  · obtain rfl := Option.some.inj h; omega
  · cases h

theorem triples_dec3 : ∀ (k : Nat) (b : Bytes), b.length ≤ k →
    ((triples b).filter fun t => t < 8380417).map (fun (t : Nat) => (t : Int)) = (dec3 b).1.filterMap getU
  | _, [], _ => rfl
  | _, [_], _ => rfl
  | _, [_, _], _ => rfl
  | 0, _ :: _ :: _ :: _, h => by simp at h
  | k + 1, b0 :: b1 :: b2 :: l, h => by
    have ih := triples_dec3 k l (by simp only [List.length_cons] at h; omega)
    rw [triples, dec3, List.filterMap_cons, List.filter_cons]
    by_cases hlt : b0.toNat + 256 * b1.toNat + 65536 * (b2.toNat % 128) < 8380417
    · rw [if_pos (by simpa using hlt), List.map_cons, ih]
      unfold getU; simp only [hlt, if_true]
    · rw [if_neg (by simpa using hlt), ih]
      unfold getU; simp only [hlt, if_false]

theorem uniformOf_pick (b : Bytes) : uniformOf b = pick (fun _ => getU) 256 0 (dec3 b).1 := by
  unfold uniformOf first256
  rw [triples_dec3 _ b (Nat.le_refl _), pick_filter (g := getU) (fun _ _ => rfl)]

theorem dec3_zeros (n : Nat) : ∀ d ∈ (dec3 (List.replicate n (0 : Byte))).1, d = (0, 0, 0) := by
  induction n using Nat.strongRecOn with
  | _ n ih =>
    match n with
    | 0 => simp [dec3]
    | 1 => simp [dec3]
    | 2 => simp [dec3, List.replicate]
    | n + 3 =>
      intro d hd
      simp only [List.replicate_succ, dec3] at hd
      rcases List.mem_cons.1 hd with h | h
      · exact h
      · exact ih n (by omega) d h

theorem length_dec3 (b : Bytes) : 3 * (dec3 b).1.length + (dec3 b).2.length = b.length := by
  rw [← length_enc3, enc3_dec3 _ b (Nat.le_refl _)]

theorem uniformOf_unbiased : Unbiased uniformOf (PolyIn 0 8380416) 768 := by
  have h := pick_lens (get := fun _ => getU) (rep := fun _ => repU) (ok := fun _ v => 0 ≤ v ∧ v ≤ 8380416) coding3
    (fun _ d w h => getU_range d w h) (fun _ d w v h hv => repU_law d w v h hv) 256
  simp only [← uniformOf_pick] at h
  have e : (fun vs : List Int => vs.length = 256 ∧ AllOk (fun _ v => 0 ≤ v ∧ v ≤ 8380416) 0 vs) = PolyIn 0 8380416 := by
    funext vs
    simp only [allOk_const (p := fun v : Int => 0 ≤ v ∧ v ≤ 8380416), PolyIn]
  rw [e] at h
  refine h.unbiased fun n hn => ?_
  have hl := length_dec3 (List.replicate n (0 : Byte))
  have hr := dec3_rest _ (List.replicate n (0 : Byte)) (Nat.le_refl _)
  rw [List.length_replicate] at hl
  obtain ⟨vs, hv⟩ := pick_all (get := fun _ => getU) (dec3 (List.replicate n (0 : Byte))).1 256 0
    (fun _ d hd => by rw [dec3_zeros n d hd]; rfl) (by omega)
  exact ⟨List.replicate n 0, vs, List.length_replicate .., by rw [uniformOf_pick, hv]⟩

/-! ### Small coefficients -/

/-- Half bytes, the low one first (no line of its own; helper). -/
def dec4 : Bytes → List (BitVec 4)
  | [] => []
  | b :: l => BitVec.ofNat 4 (b.toNat % 16) :: BitVec.ofNat 4 (b.toNat / 16) :: dec4 l
/-- The bytes of the half bytes (no line of its own; helper). -/
def enc4 : List (BitVec 4) → Bytes
  | x :: y :: l => BitVec.ofNat 8 (x.toNat + 16 * y.toNat) :: enc4 l
  | _ => []

theorem length_dec4 : ∀ b : Bytes, (dec4 b).length = 2 * b.length
  | [] => rfl
  | b :: l => by simp only [dec4, List.length_cons, length_dec4 l]; omega
theorem enc4_dec4 : ∀ b : Bytes, enc4 (dec4 b) = b
  | [] => rfl
  | b :: l => by
    rw [dec4, enc4, enc4_dec4 l]
    congr 1
    have := b.isLt
    apply byte_ext; simp only [BitVec.toNat_ofNat]; omega
theorem dec4_enc4 : ∀ (n : Nat) (l : List (BitVec 4)), l.length = 2 * n → dec4 (enc4 l) = l ∧ (enc4 l).length = n
  | 0, l, h => by obtain rfl := List.length_eq_zero_iff.1 h; exact ⟨rfl, rfl⟩
  | n + 1, x :: y :: l, h => by
    have ih := dec4_enc4 n l (by simp only [List.length_cons] at h; omega)
    rw [enc4, dec4, ih.1]
    have hx := x.isLt
    have hy := y.isLt
    refine ⟨?_, by rw [List.length_cons, ih.2]⟩
    congr 1
    · apply BitVec.eq_of_toNat_eq; simp only [BitVec.toNat_ofNat]; omega
    · congr 1
      apply BitVec.eq_of_toNat_eq; simp only [BitVec.toNat_ofNat]; omega
  | n + 1, [_], h => by simp at h; omega
  | n + 1, [], h => by simp at h

theorem coding4 : Coding (fun b => (dec4 b, ())) (fun l _ => enc4 l) where
  enc_dec b := enc4_dec4 b
  dec_enc b l h := by
    have := dec4_enc4 b.length l (by simpa [length_dec4] using h)
    simp only [this.1]
  length_enc b l h := (dec4_enc4 b.length l (by simpa [length_dec4] using h)).2

/-- One candidate of `rej_eta` (no line of its own; helper). -/
def getE (d : BitVec 4) : Option Int := if d.toNat < 15 then some (2 - ((d.toNat % 5 : Nat) : Int)) else none
/-- A half byte with another value (no line of its own; helper). -/
def repE (d : BitVec 4) (v : Int) : BitVec 4 := BitVec.ofNat 4 (5 * (d.toNat / 5) + (2 - v).toNat)

theorem repE_law (d w v) (h : getE d = some w) (hv : -2 ≤ v ∧ v ≤ 2) : getE (repE d v) = some v ∧ repE (repE d v) w = d := by
  unfold getE at h
  split at h
  · rename_i hlt
    obtain rfl := Option.some.inj h
    obtain ⟨u, hu, rfl⟩ : ∃ u : Nat, u ≤ 4 ∧ v = 2 - (u : Int) := ⟨(2 - v).toNat, by omega, by omega⟩
    have e : ∀ x : Nat, (2 - (2 - (x : Int))).toNat = x := fun x => by omega
    have e1 : (5 * (d.toNat / 5) + u) % 2 ^ 4 = 5 * (d.toNat / 5) + u := by omega
    constructor
    · unfold getE repE
      rw [e, BitVec.toNat_ofNat, e1, if_pos (by omega), show (5 * (d.toNat / 5) + u) % 5 = u by omega]
    · unfold repE
      rw [e, e, BitVec.toNat_ofNat, e1]
      apply BitVec.eq_of_toNat_eq
      rw [BitVec.toNat_ofNat]; omega
  · cases h

theorem getE_range (d w) (h : getE d = some w) : -2 ≤ w ∧ w ≤ 2 := by
  unfold getE at h
  split at h
  · obtain rfl := Option.some.inj h; omega
  · cases h

theorem nibbles_dec4 : ∀ b : Bytes,
    ((b.flatMap fun x => [x.toNat % 16, x.toNat / 16]).filter fun t => t < 15).map (fun (t : Nat) => 2 - ((t % 5 : Nat) : Int)) = (dec4 b).filterMap getE
  | [] => rfl
  | b :: l => by
    have hb := b.isLt
    have step : ∀ (x : Nat) (r : List Nat) (r' : List (BitVec 4)), x < 16 →
        (r.filter fun t => t < 15).map (fun (t : Nat) => 2 - ((t % 5 : Nat) : Int)) = r'.filterMap getE →
        ((x :: r).filter fun t => t < 15).map (fun (t : Nat) => 2 - ((t % 5 : Nat) : Int)) = (BitVec.ofNat 4 x :: r').filterMap getE := by
      intro x r r' hx e
      have e2 : (BitVec.ofNat 4 x).toNat = x := by rw [BitVec.toNat_ofNat]; omega
      rw [List.filterMap_cons, List.filter_cons]
      by_cases hlt : x < 15
      · rw [if_pos (by simpa using hlt), List.map_cons, e]
        unfold getE; simp only [e2, hlt, if_true]
      · rw [if_neg (by simpa using hlt), e]
        unfold getE; simp only [e2, hlt, if_false]
    rw [List.flatMap_cons, dec4]
    exact step _ _ _ (by omega) (step _ _ _ (by omega) (nibbles_dec4 l))

theorem etaOf_pick (b : Bytes) : etaOf b = pick (fun _ => getE) 256 0 (dec4 b) := by
  unfold etaOf first256
  rw [nibbles_dec4, pick_filter (g := getE) (fun _ _ => rfl)]

theorem dec4_zeros : ∀ n : Nat, ∀ d ∈ dec4 (List.replicate n (0 : Byte)), d = 0
  | 0 => by simp [dec4]
  | n + 1 => by
    intro d hd
    simp only [List.replicate_succ, dec4, List.mem_cons] at hd
    rcases hd with h | h | h
    · exact h
    · exact h
    · exact dec4_zeros n d h

theorem etaOf_unbiased : Unbiased etaOf (PolyIn (-2) 2) 128 := by
  have h := pick_lens (get := fun _ => getE) (rep := fun _ => repE) (ok := fun _ v => -2 ≤ v ∧ v ≤ 2) coding4
    (fun _ d w h => getE_range d w h) (fun _ d w v h hv => repE_law d w v h hv) 256
  simp only [← etaOf_pick] at h
  have e : (fun vs : List Int => vs.length = 256 ∧ AllOk (fun _ v => -2 ≤ v ∧ v ≤ 2) 0 vs) = PolyIn (-2) 2 := by
    funext vs
    simp only [allOk_const (p := fun v : Int => -2 ≤ v ∧ v ≤ 2), PolyIn]
  rw [e] at h
  refine h.unbiased fun n hn => ?_
  obtain ⟨vs, hv⟩ := pick_all (get := fun _ => getE) (dec4 (List.replicate n (0 : Byte))) 256 0
    (fun _ d hd => by rw [dec4_zeros n d hd]; rfl) (by rw [length_dec4, List.length_replicate]; omega)
  exact ⟨List.replicate n 0, vs, List.length_replicate .., by rw [etaOf_pick, hv]⟩

/-! ### The mask -/

/-- The mask read from a string of at least 576 bytes (no line of its own; helper). -/
def maskOf (b : Bytes) : Option (List Int) := if 576 ≤ b.length then some (unpackAt 18 131072 (b.take 576)) else none

theorem maskOf_unbiased : Unbiased maskOf (PolyIn (-131071) 131072) 576 := by
  have hlen : ∀ y, PolyIn (-131071) 131072 y → (packAt 18 131072 y).length = 576 := by
    intro y hy
    rw [length_packAt hy.1]
  have h : Lens maskOf (PolyIn (-131071) 131072) (fun b y => packAt 18 131072 y ++ b.drop 576) := by
    have inv : ∀ {b x}, maskOf b = some x → 576 ≤ b.length ∧ unpackAt 18 131072 (b.take 576) = x := by
      intro b x h
      unfold maskOf at h
      split at h
      · exact ⟨by assumption, Option.some.inj h⟩
      · cases h
    constructor
    · intro b x h
      obtain ⟨_, rfl⟩ := inv h
      exact ⟨by simp [unpackAt, unpackBits], fun x hx => by have := unpackAt_bound x hx; norm_num at this; omega⟩
    · intro b x y h hy
      rw [List.length_append, hlen y hy, List.length_drop]
      have := (inv h).1; omega
    · intro b x y h hy
      unfold maskOf
      rw [if_pos (by rw [List.length_append, hlen y hy]; omega), List.take_append_of_le_length (by rw [hlen y hy]),
        List.take_of_length_le (by rw [hlen y hy]), unpackAt_packAt hy.1 (fun x hx => by have := hy.2 x hx; norm_num; omega)]
    · intro b x y h hy
      obtain ⟨hb, rfl⟩ := inv h
      rw [List.drop_append_of_le_length (by rw [hlen y hy]), List.drop_of_length_le (by rw [hlen y hy]),
        packAt_unpackAt (by rw [List.length_take]; omega), List.nil_append, List.take_append_drop]
  exact h.unbiased fun n hn => ⟨List.replicate n 0, _, List.length_replicate .., by unfold maskOf; rw [if_pos (by rw [List.length_replicate]; exact hn)]⟩

end Verif.Dilithium
