import Verif.Dilithium.Encode

/-! poly.c packers and packing.c against the encodings of the specification. -/

namespace Verif.Dilithium
open Verif Spec

theorem slice_map {α β : Type} (f : α → β) (a : List α) (o n : Nat) : slice (a.map f) o n = (slice a o n).map f := by
  unfold slice; rw [List.map_take, List.map_drop]

theorem mem_slice {α : Type} {a : List α} {o n : Nat} {x : α} (h : x ∈ slice a o n) : x ∈ a := List.mem_of_mem_drop (List.mem_of_mem_take h)

theorem packAt_run {m k n w base : Nat} {c : Int} {f : List Int → C Bytes} {r : Bytes} {a : Poly} (hk : w * m = 8 * k) (hm : m * n = 256)
    (hf : ∀ t : List Int, t.length = m → (∀ x ∈ t, c - 2 ^ w < x ∧ x ≤ c) → f t = .ok (toLe k (digits w (t.map fun x => (c - x).toNat))))
    (ha : a.length = 256) (hb : ∀ x ∈ a, c - 2 ^ w < x ∧ x ≤ c) (hr : base + k * n ≤ r.length) :
    packLoop m k n f r base a = .ok (splice r base (packAt w c a)) := by
  rw [packLoop_ok (G := fun i => toLe k (digits w ((slice a (m * i) m).map fun x => (c - x).toNat))) (by omega) hr
    (fun i _ => length_toLe _ _) (fun i hi => hf _ (length_slice (by
      have : m * i + m ≤ m * n := by rw [← Nat.mul_succ]; exact Nat.mul_le_mul_left _ (by omega)
      omega)) fun x hx => hb x (mem_slice hx))]
  unfold packAt
  rw [packBits_groups (n := n) hk (by rw [List.length_map]; omega) (by
    intro x hx
    obtain ⟨y, hy, rfl⟩ := List.mem_map.1 hx
    have := hb y hy
    have e : ((2 ^ w : Nat) : Int) = 2 ^ w := by push_cast; rfl
    omega)]
  simp only [slice_map]

theorem packPos_run {m k n w base : Nat} {f : List Int → C Bytes} {r : Bytes} {a : Poly} (hk : w * m = 8 * k) (hm : m * n = 256)
    (hf : ∀ t : List Int, t.length = m → (∀ x ∈ t, 0 ≤ x ∧ x < 2 ^ w) → f t = .ok (toLe k (digits w (t.map fun x => x.toNat))))
    (ha : a.length = 256) (hb : ∀ x ∈ a, 0 ≤ x ∧ x < 2 ^ w) (hr : base + k * n ≤ r.length) :
    packLoop m k n f r base a = .ok (splice r base (packPos w a)) := by
  rw [packLoop_ok (G := fun i => toLe k (digits w ((slice a (m * i) m).map fun x => x.toNat))) (by omega) hr
    (fun i _ => length_toLe _ _) (fun i hi => hf _ (length_slice (by
      have : m * i + m ≤ m * n := by rw [← Nat.mul_succ]; exact Nat.mul_le_mul_left _ (by omega)
      omega)) fun x hx => hb x (mem_slice hx))]
  unfold packPos
  rw [packBits_groups (n := n) hk (by rw [List.length_map]; omega) (by
    intro x hx
    obtain ⟨y, hy, rfl⟩ := List.mem_map.1 hx
    have := hb y hy
    have e : ((2 ^ w : Nat) : Int) = 2 ^ w := by push_cast; rfl
    omega)]
  simp only [slice_map]

theorem slice_slice' {α : Type} {b : List α} {o n o' n' : Nat} (h : o' + n' ≤ n) : slice (slice b o n) o' n' = slice b (o + o') n' := by
  unfold slice
  rw [List.drop_take, List.take_take, List.drop_drop, Nat.min_eq_left (by omega)]

theorem unpack_run {m k n w base : Nat} {g : Nat → Int} {f : Bytes → C (List Int)} {src : Bytes} (hk : w * m = 8 * k) (hm : m * n = 256)
    (hf : ∀ b : Bytes, b.length = k → f b = .ok ((unpackBits w m b).map g)) (hs : base + k * n ≤ src.length) :
    unpackLoop m k n f src base = .ok ((unpackBits w 256 (slice src base (k * n))).map g) := by
  rw [unpackLoop_ok (G := fun i => (unpackBits w m (slice src (base + k * i) k)).map g) hm hs (fun i _ => by
    rw [List.length_map, length_unpackBits]) (fun i hi => hf _ (length_slice (by
      have : k * i + k ≤ k * n := by rw [← Nat.mul_succ]; exact Nat.mul_le_mul_left _ (by omega)
      omega)))]
  rw [← hm, unpackBits_groups (n := n) hk (length_slice hs), List.map_flatMap]
  refine congrArg _ (List.flatMap_congr fun i hi => ?_)
  have hi : i < n := by simpa using hi
  rw [slice_slice' (by rw [← Nat.mul_succ]; exact Nat.mul_le_mul_left _ hi)]

section
variable {r : Bytes} {base : Nat} {a : Poly}

theorem polyetaPack_ok (ha : a.length = 256) (hb : ∀ x ∈ a, -6 < x ∧ x ≤ 2) (hr : base + 96 ≤ r.length) :
    polyetaPack r base a = .ok (splice r base (packAt 3 2 a)) :=
  packAt_run (w := 3) (c := 2) rfl rfl (fun _ hl hb => etaPackGroup_ok hl fun x hx => by have := hb x hx; omega) ha (fun x hx => by have := hb x hx; omega) hr
theorem polyt0Pack_ok (ha : a.length = 256) (hb : ∀ x ∈ a, -4096 < x ∧ x ≤ 4096) (hr : base + 416 ≤ r.length) :
    polyt0Pack r base a = .ok (splice r base (packAt 13 4096 a)) :=
  packAt_run (w := 13) (c := 4096) rfl rfl (fun _ hl hb => t0PackGroup_ok hl fun x hx => by have := hb x hx; omega) ha (fun x hx => by have := hb x hx; omega) hr
theorem polyzPack_ok (ha : a.length = 256) (hb : ∀ x ∈ a, -131072 < x ∧ x ≤ 131072) (hr : base + 576 ≤ r.length) :
    polyzPack r base a = .ok (splice r base (packAt 18 131072 a)) :=
  packAt_run (w := 18) (c := 131072) rfl rfl (fun _ hl hb => zPackGroup_ok hl fun x hx => by have := hb x hx; omega) ha (fun x hx => by have := hb x hx; omega) hr
theorem polyt1Pack_ok (ha : a.length = 256) (hb : ∀ x ∈ a, 0 ≤ x ∧ x < 1024) (hr : base + 320 ≤ r.length) :
    polyt1Pack r base a = .ok (splice r base (packPos 10 a)) :=
  packPos_run (w := 10) rfl rfl (fun _ hl hb => t1PackGroup_ok hl fun x hx => by have := hb x hx; omega) ha (fun x hx => by have := hb x hx; omega) hr
theorem polyw1Pack_ok (ha : a.length = 256) (hb : ∀ x ∈ a, 0 ≤ x ∧ x < 64) (hr : base + 192 ≤ r.length) :
    polyw1Pack r base a = .ok (splice r base (packPos 6 a)) :=
  packPos_run (w := 6) rfl rfl (fun _ hl hb => w1PackGroup_ok hl fun x hx => by have := hb x hx; omega) ha (fun x hx => by have := hb x hx; omega) hr

theorem polyetaUnpack_ok (hr : base + 96 ≤ r.length) : polyetaUnpack r base = .ok (unpackAt 3 2 (slice r base 96)) :=
  unpack_run (w := 3) rfl rfl (fun _ hl => etaUnpackGroup_ok hl) hr
theorem polyt0Unpack_ok (hr : base + 416 ≤ r.length) : polyt0Unpack r base = .ok (unpackAt 13 4096 (slice r base 416)) :=
  unpack_run (w := 13) rfl rfl (fun _ hl => t0UnpackGroup_ok hl) hr
theorem polyzUnpack_ok (hr : base + 576 ≤ r.length) : polyzUnpack r base = .ok (unpackAt 18 131072 (slice r base 576)) :=
  unpack_run (w := 18) rfl rfl (fun _ hl => zUnpackGroup_ok hl) hr
theorem polyt1Unpack_ok (hr : base + 320 ≤ r.length) : polyt1Unpack r base = .ok (unpackPos 10 (slice r base 320)) :=
  unpack_run (w := 10) rfl rfl (fun _ hl => t1UnpackGroup_ok hl) hr
end

/-! ### Vectors -/

theorem flatMap_getD {α β : Type} (v : List (List α)) (n : Nat) (hv : v.length = n) (g : List α → List β) :
    (List.range n).flatMap (fun i => g (v.getD i [])) = v.flatMap g := by
  subst hv
  induction v with
  | nil => rfl
  | cons x l ih =>
    rw [List.length_cons, List.range_succ_eq_map, List.flatMap_cons, List.flatMap_map, List.flatMap_cons]
    exact congrArg₂ (· ++ ·) rfl ih

theorem rd_at {α : Type} {v : List (List α)} {i : Nat} (h : i < v.length) : rd v i = .ok (at_ v i) := by
  rw [rd_ok h]; unfold at_; simp [h]

theorem at_mem {α : Type} {v : List (List α)} {i : Nat} (h : i < v.length) : at_ v i ∈ v := by
  unfold at_; simp [h]

theorem vecPack_ok {pack : Bytes → Nat → Poly → C Bytes} {size base : Nat} {r : Bytes} {v : Vec} {g : Poly → Bytes} (hv : v.length = 4)
    (hg : ∀ x ∈ v, (g x).length = size) (hr : base + size * 4 ≤ r.length)
    (hp : ∀ x ∈ v, ∀ s b, b + size ≤ s.length → pack s b x = .ok (splice s b (g x))) :
    vecPack pack size r base v = .ok (splice r base (v.flatMap g)) := by
  unfold vecPack
  rw [fill_loop (G := fun i => g (v.getD i [])) (k := size) _ hr (fun i hi => hg _ (at_mem (by omega))) (fun i s hi hs => by
    have : size * i + size ≤ size * 4 := by rw [← Nat.mul_succ]; exact Nat.mul_le_mul_left _ (by omega)
    rw [rd_at (by omega), ok_bind, Nat.mul_comm i size, hp _ (at_mem (by omega)) _ _ (by omega)]; rfl),
    flatMap_getD v 4 hv g]

theorem vecUnpack_ok {unpack : Bytes → Nat → C Poly} {size base : Nat} {a : Bytes} {g : Nat → Poly}
    (hu : ∀ i, i < 4 → unpack a (base + i * size) = .ok (g i)) : vecUnpack unpack size a base = .ok (vec g) := by
  unfold vecUnpack
  rw [build_ok g hu]; rfl

theorem packPk_ok {pk rho : Bytes} {t1 : Vec} (hpk : pk.length = 1312) (hr : rho.length = 32) (ht : t1.length = 4)
    (hb : ∀ x ∈ t1, x.length = 256 ∧ ∀ c ∈ x, 0 ≤ c ∧ c < 1024) : packPk pk rho t1 = .ok (encodePk rho t1) := by
  unfold packPk encodePk
  have hl : (splice pk 0 rho).length = 1312 := by rw [length_splice (by omega), hpk]
  rw [copy_whole hr (by omega), ok_bind, vecPack_ok (g := packPos 10) ht (fun x hx => length_packPos (hb x hx).1) (by omega)
    (fun x hx s b hs => polyt1Pack_ok (hb x hx).1 (hb x hx).2 hs)]
  have hf : (t1.flatMap (packPos 10)).length = 1280 := by
    rw [← flatMap_getD t1 4 ht, length_flatMap_range (k := 320) (fun i hi => length_packPos (hb _ (at_mem (by omega))).1)]
  have := splice_splice (b := pk) (o := 0) (x := rho) (y := t1.flatMap (packPos 10)) (by omega)
  rw [Nat.zero_add, hr] at this
  rw [this, splice_all (by rw [List.length_append]; omega)]

theorem copy_from {src : Bytes} {o n : Nat} (h : o + n ≤ src.length) : copy (List.replicate n 0) 0 src o n = .ok (slice src o n) := by
  rw [copy_ok h (by rw [List.length_replicate]; omega), splice_all (by rw [length_slice h, List.length_replicate])]

theorem unpackPk_ok {pk : Bytes} (h : pk.length = 1312) :
    unpackPk pk = .ok (slice pk 0 32, vec fun i => unpackPos 10 (slice pk (32 + i * 320) 320)) := by
  unfold unpackPk
  rw [copy_from (by omega), ok_bind, vecUnpack_ok (fun i hi => polyt1Unpack_ok (by omega)), ok_bind]

theorem length_flatMap_vec {v : Vec} {g : Poly → Bytes} {k : Nat} (hv : v.length = 4) (hg : ∀ x ∈ v, (g x).length = k) : (v.flatMap g).length = 4 * k := by
  rw [← flatMap_getD v 4 hv, length_flatMap_range (G := fun i => g (v.getD i [])) (k := k) (fun i hi => hg _ (at_mem (by omega))), Nat.mul_comm]

theorem packSk_ok {sk rho tr key : Bytes} {t0 s1 s2 : Vec} (hsk : sk.length = 2560) (hr : rho.length = 32) (htr : tr.length = 64) (hkey : key.length = 32)
    (ht0 : t0.length = 4) (h1 : s1.length = 4) (h2 : s2.length = 4)
    (hb0 : ∀ x ∈ t0, x.length = 256 ∧ ∀ c ∈ x, -4096 < c ∧ c ≤ 4096)
    (hb1 : ∀ x ∈ s1, x.length = 256 ∧ ∀ c ∈ x, -6 < c ∧ c ≤ 2) (hb2 : ∀ x ∈ s2, x.length = 256 ∧ ∀ c ∈ x, -6 < c ∧ c ≤ 2) :
    packSk sk rho tr key t0 s1 s2 = .ok (encodeSk rho key tr s1 s2 t0) := by
  have f1 : (s1.flatMap (packAt 3 2)).length = 384 := length_flatMap_vec h1 fun x hx => length_packAt (hb1 x hx).1
  have f2 : (s2.flatMap (packAt 3 2)).length = 384 := length_flatMap_vec h2 fun x hx => length_packAt (hb2 x hx).1
  have f0 : (t0.flatMap (packAt 13 4096)).length = 1664 := length_flatMap_vec ht0 fun x hx => length_packAt (hb0 x hx).1
  have step : ∀ {x y : Bytes} {o : Nat}, x.length = o → o + y.length ≤ 2560 → splice (splice sk 0 x) o y = splice sk 0 (x ++ y) := by
    intro x y o hx hy
    have := splice_splice (b := sk) (o := 0) (x := x) (y := y) (by omega)
    rw [Nat.zero_add, hx] at this; exact this
  have hl : ∀ {x : Bytes}, x.length ≤ 2560 → (splice sk 0 x).length = 2560 := fun h => by rw [length_splice (by omega), hsk]
  unfold packSk encodeSk
  rw [copy_whole hr (by omega), ok_bind, copy_whole hkey (by rw [hl (by omega)]; omega), ok_bind, step hr (by omega),
    copy_whole htr (by rw [hl (by simp only [List.length_append]; omega)]; omega), ok_bind, step (by simp only [List.length_append]; omega) (by omega),
    vecPack_ok (g := packAt 3 2) h1 (fun x hx => length_packAt (hb1 x hx).1) (by rw [hl (by simp only [List.length_append]; omega)]; omega)
      (fun x hx s b hs => polyetaPack_ok (hb1 x hx).1 (hb1 x hx).2 hs), ok_bind, step (by simp only [List.length_append]; omega) (by omega),
    vecPack_ok (g := packAt 3 2) h2 (fun x hx => length_packAt (hb2 x hx).1) (by rw [hl (by simp only [List.length_append]; omega)]; omega)
      (fun x hx s b hs => polyetaPack_ok (hb2 x hx).1 (hb2 x hx).2 hs), ok_bind, step (by simp only [List.length_append]; omega) (by omega),
    vecPack_ok (g := packAt 13 4096) ht0 (fun x hx => length_packAt (hb0 x hx).1) (by rw [hl (by simp only [List.length_append]; omega)])
      (fun x hx s b hs => polyt0Pack_ok (hb0 x hx).1 (hb0 x hx).2 hs), step (by simp only [List.length_append]; omega) (by omega),
    splice_all (by simp only [List.length_append]; omega)]

theorem unpackSk_ok {sk : Bytes} (h : sk.length = 2560) :
    unpackSk sk = .ok ⟨slice sk 0 32, slice sk 64 64, slice sk 32 32, vec fun i => unpackAt 13 4096 (slice sk (896 + i * 416) 416),
      vec fun i => unpackAt 3 2 (slice sk (128 + i * 96) 96), vec fun i => unpackAt 3 2 (slice sk (512 + i * 96) 96)⟩ := by
  unfold unpackSk
  rw [copy_from (by omega), ok_bind, copy_from (by omega), ok_bind, copy_from (by omega), ok_bind,
    vecUnpack_ok (fun i hi => polyetaUnpack_ok (by omega)), ok_bind, vecUnpack_ok (fun i hi => polyetaUnpack_ok (by omega)), ok_bind,
    vecUnpack_ok (fun i hi => polyt0Unpack_ok (by omega)), ok_bind]

theorem vecPackW1_ok {r : Bytes} {v : Vec} (hv : v.length = 4) (hb : ∀ x ∈ v, x.length = 256 ∧ ∀ c ∈ x, 0 ≤ c ∧ c < 64) (hr : 768 ≤ r.length) :
    vecPackW1 r v = .ok (splice r 0 (v.flatMap (packPos 6))) := by
  unfold vecPackW1
  exact vecPack_ok hv (fun x hx => length_packPos (hb x hx).1) (by omega) (fun x hx s b hs => polyw1Pack_ok (hb x hx).1 (hb x hx).2 hs)

end Verif.Dilithium
