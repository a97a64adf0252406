import Verif.Ct.DilithiumSame
import Verif.Ct.DilithiumSpec

/-! Two runs of Dilithium key generation and signing compared. -/

namespace Verif.Ct.Dilithium
open Verif.Dilithium (Poly Vec SkParts SignCtx ChalSt PB VB VRes S128 S256 Match ctxOf)
open Verif.Dilithium.Spec
open Verif.Ct.Dilithium.Spec
open Verif.Keccak (Inc incInit)
open Verif.Ct.Keccak (Cnt touch diverge incAbsorb incFinalize incSqueeze shake256 touch_same shake_same shake_res)

variable {α β : Type}

theorem shake256_same (out out' : Bytes) (n : Nat) (x x' : Bytes) (k : Nat) : Same (shake256 out n x k) (shake256 out' n x' k) := shake_same 136 n k

/-! ### Key generation -/

theorem vecUniformEta_same {seed seed' : Bytes} (hs : seed.length = 64) (hs' : seed'.length = 64) (n : Nat) (hn : n ≤ 4)
    (ha : ∀ i, i < 4 → Agree (seed ++ le16 (n + i)) (seed' ++ le16 (n + i))) (fuel fuel' : Nat) :
    Same (vecUniformEta fuel seed (BitVec.ofNat 16 n)) (vecUniformEta fuel' seed' (BitVec.ofNat 16 n)) := by
  unfold vecUniformEta build
  refine (Rel.loop (R := fun _ _ _ => True) 0 4 trivial fun k s t _ hk _ => ?_).same
  refine Rel.bind (polyUniformEta_same hs hs' _ _ ?_ _ _) fun _ _ _ => Same.wr
  have e : (BitVec.ofNat 16 n + BitVec.ofNat 16 k).toNat = n + k := by
    rw [BitVec.toNat_add, BitVec.toNat_ofNat, BitVec.toNat_ofNat]
    change (n % 65536 + k % 65536) % 65536 = n + k
    omega
  rw [e]
  exact ha k (by omega)

theorem keypairSeed_same {seed seed' : Bytes} (hs : seed.length = 32) (hs' : seed'.length = 32) (hrho : slice (S256 seed 128) 0 32 = slice (S256 seed' 128) 0 32)
    (ha : ∀ n, n < 8 → Agree (slice (S256 seed 128) 32 64 ++ le16 n) (slice (S256 seed' 128) 32 64 ++ le16 n)) (fuel fuel' : Nat) (pk pk' sk sk' : Bytes) :
    Same (keypairSeed fuel pk sk seed) (keypairSeed fuel' pk' sk' seed') := by
  unfold keypairSeed
  have l0 : (List.replicate 128 (0 : Byte)).length = 128 := List.length_replicate ..
  have key : ∀ s : Bytes, s.length = 32 → Verif.Keccak.shake256 (splice (List.replicate 128 0) 0 s) 128 (splice (List.replicate 128 0) 0 s) 32 = .ok (S256 s 128) := by
    intro s hl
    have l1 : (splice (List.replicate 128 (0 : Byte)) 0 s).length = 128 := by rw [length_splice (by rw [hl, l0]; omega), l0]
    rw [Verif.Dilithium.shake256_take 128 _ 32 (by omega) (by omega) (by omega), Verif.Dilithium.take_splice_zero hl]
  refine (Same.copy.vals ((copy_res _ _ _ _ _).trans (Verif.Dilithium.copy_whole hs (by omega))) ((copy_res _ _ _ _ _).trans (Verif.Dilithium.copy_whole hs' (by omega)))).bind ?_
  rintro _ _ ⟨rfl, rfl, -⟩
  refine ((shake_same 136 128 32).vals ((shake_res _ _ _ _ _).trans (key seed hs)) ((shake_res _ _ _ _ _).trans (key seed' hs'))).bind ?_
  rintro _ _ ⟨rfl, rfl, -⟩
  have hS : (S256 seed 128).length = 128 := Verif.Keccak.length_stream ..
  have hS' : (S256 seed' 128).length = 128 := Verif.Keccak.length_stream ..
  dsimp only
  rw [hrho]
  refine (matrixExpand_fuel _ _ _).bind fun _ _ _ => (vecUniformEta_same (length_slice (by omega)) (length_slice (by omega)) 0 (by omega) (fun i hi => ha _ (by omega)) _ _).bind fun _ _ _ =>
    (vecUniformEta_same (length_slice (by omega)) (length_slice (by omega)) 4 (by omega) (fun i hi => ha _ (by omega)) _ _).bind fun _ _ _ => ?_
  ct [vecNtt_same _ _, matrixPointwise_same _ _ _ _, vecReduce_same _ _, vecInvntt_same _ _, vecAdd_same _ _ _ _, vecCaddq_same _ _, vecPower2round_same _ _, packPk_same _ _ _ _ _ _,
    shake256_same _ _ _ _ _ _, packSk_same _ _ _ _ _ _ _ _ _ _ _ _ _ _]

/-! ### The pattern of the half bytes -/

theorem accepts_eq (s : Bytes) (n i : Nat) : accepts s n i = acc (s ++ le16 n) i := rfl

theorem cnt_eq (s : Bytes) (n i : Nat) : ((List.range i).filter (accepts s n)).length = cnt (s ++ le16 n) i := by
  induction i with
  | zero => rfl
  | succ i ih =>
    rw [List.range_succ, List.filter_append, List.length_append, ih]
    show _ = cnt _ i + _
    congr 1
    rw [← accepts_eq]
    cases h : accepts s n i <;> simp [h]

theorem agree_of {s s' : Bytes} {n : Nat} (h : ∀ i, shown s n i = shown s' n i) : Agree (s ++ le16 n) (s' ++ le16 n) := by
  have h' : ∀ i, (acc (s ++ le16 n) i && decide (cnt (s ++ le16 n) i < 256)) = (acc (s' ++ le16 n) i && decide (cnt (s' ++ le16 n) i < 256)) := by
    intro i
    have := h i
    unfold shown at this
    rwa [cnt_eq, cnt_eq, accepts_eq, accepts_eq] at this
  have hc : ∀ i, cnt (s ++ le16 n) i < 256 → cnt (s' ++ le16 n) i = cnt (s ++ le16 n) i := by
    intro i
    induction i with
    | zero => intro _; rfl
    | succ i ih =>
      intro hlt
      have hle : cnt (s ++ le16 n) i ≤ cnt (s ++ le16 n) (i + 1) := cnt_mono _ (by omega)
      have e := ih (by omega)
      have h1 := h' i
      rw [e, decide_eq_true (by omega : cnt (s ++ le16 n) i < 256), Bool.and_true, Bool.and_true] at h1
      show cnt (s' ++ le16 n) i + _ = cnt (s ++ le16 n) i + _
      rw [e, h1]
  intro i hi
  refine ⟨hc i hi, ?_⟩
  have h1 := h' i
  rw [hc i hi, decide_eq_true hi, Bool.and_true, Bool.and_true] at h1
  exact h1.symm

/-! ### Norm checks -/

theorem anyBad_same {f f' : Nat → T Bool} {g : Nat → Prop} (n i : Nat) (hf : ∀ k, i ≤ k → k < i + n → ∀ b, (f k).res = .ok b → (b = true ↔ g k))
    (H : ∀ k, i ≤ k → k < i + n → (∀ j, i ≤ j → j < k → ¬ g j) → Rel (· = ·) (f k) (f' k)) : Rel (· = ·) (anyBad f i n) (anyBad f' i n) := by
  induction n generalizing i with
  | zero => exact Rel.refl _
  | succ n ih =>
    rw [anyBad, anyBad]
    refine touch_same.bind fun _ _ _ => ((H i (Nat.le_refl _) (by omega) fun j h1 h2 => by omega).and (P := fun b => b = true ↔ g i) (Q := fun _ => True) (hf i (Nat.le_refl _) (by omega)) fun _ _ => trivial).bind ?_
    rintro b _ ⟨rfl, hb, -⟩
    refine Rel.cond Iff.rfl (fun _ => Rel.refl _) fun hne => ih (i + 1) (fun k h1 h2 => hf k (by omega) (by omega)) fun k h1 h2 h3 => H k (by omega) (by omega) fun j h4 h5 => ?_
    by_cases e : j = i
    · subst e
      exact fun hx => hne (hb.2 hx)
    · exact h3 j (by omega) h5

/-- The coefficient fails the test (dilithium2/poly.c:285-290). -/
def Bad (a : Poly) (B : Int) (j : Nat) : Prop := ¬ (-B < co a j ∧ co a j < B)
/-- The test is decidable (dilithium2/poly.c:285-290). -/
instance (a : Poly) (B : Int) (j : Nat) : Decidable (Bad a B j) := inferInstanceAs (Decidable (¬ _))

theorem coeffBad_val {a : Poly} {B : Int} (h : PB a 1073741824) {j : Nat} (hj : j < 256) : (coeffBad a B j).res = .ok (decide (Bad a B j)) := by
  have := h.2 j hj
  rw [coeffBad_res]
  unfold Verif.Dilithium.coeffBad
  rw [Verif.Dilithium.rd_co (by rw [h.1]; omega), ok_bind, Verif.Dilithium.i32_ok (by omega) (by omega), ok_bind, Verif.Dilithium.mask_val (by omega) (by omega) (by omega) (by omega),
    Verif.Dilithium.i32_ok (by split <;> omega) (by split <;> omega), ok_bind]
  congr 1
  rw [decide_eq_decide]
  unfold Bad
  split <;> omega

theorem coeffBad_same {a a' : Poly} {B : Int} (h : PB a 1073741824) (h' : PB a' 1073741824) {j : Nat} (hj : j < 256) (e : Bad a B j ↔ Bad a' B j) :
    Rel (· = ·) (coeffBad a B j) (coeffBad a' B j) := by
  have s : Same (coeffBad a B j) (coeffBad a' B j) := by
    unfold coeffBad
    ct [lift_same]
  refine (s.vals (coeffBad_val h hj) (coeffBad_val h' hj)).mono ?_
  rintro _ _ ⟨rfl, rfl, -⟩
  exact decide_eq_decide.2 e

theorem polyChknorm_same {a a' : Poly} {B : Int} (h : PB a 1073741824) (h' : PB a' 1073741824)
    (H : ∀ j, j < 256 → (∀ i, i < j → ¬ Bad a B i) → (Bad a B j ↔ Bad a' B j)) : Rel (· = ·) (polyChknorm a B) (polyChknorm a' B) := by
  unfold polyChknorm
  refine Rel.cond Iff.rfl (fun _ => Rel.refl _) fun _ => anyBad_same (g := fun j => Bad a B j) 256 0 (fun k _ hk b hb => ?_) fun k _ hk hj => ?_
  · rw [coeffBad_val h (by omega)] at hb
    cases hb
    exact decide_eq_true_iff
  · exact coeffBad_same h h' (by omega) (H k (by omega) fun i hi => hj i (by omega) hi)

theorem vecChknorm_same {v v' : Vec} {B : Int} (h : VB v 1073741824) (h' : VB v' 1073741824) (hB : B ≤ 1047552)
    (H : ∀ p, p < 1024 → (∀ q, q < p → ¬ Bad (at_ v (q / 256)) B (q % 256)) → (Bad (at_ v (p / 256)) B (p % 256) ↔ Bad (at_ v' (p / 256)) B (p % 256))) :
    Rel (· = ·) (vecChknorm v B) (vecChknorm v' B) := by
  unfold vecChknorm
  have hv : ∀ i, i < 4 → ∀ b, (do let x ← rd v i; polyChknorm x B : T Bool).res = .ok b → (b = true ↔ ∃ j, j < 256 ∧ Bad (at_ v i) B j) := by
    intro i hi b hb
    rw [bind_ok_res (a := at_ v i) ((rd_res _ _).trans (Verif.Dilithium.rd_at (by rw [h.1]; exact hi))) rfl, polyChknorm_res] at hb
    obtain ⟨b', e, hb'⟩ := Verif.Dilithium.polyChknorm_ok (h.2 i hi) hB
    rw [e] at hb
    cases hb
    constructor
    · intro hbb
      by_contra hx
      have : b = false := hb'.2 fun j hj => by
        by_contra hx'
        exact hx ⟨j, hj, hx'⟩
      rw [hbb] at this
      cases this
    · rintro ⟨j, hj, hx⟩
      cases hbb : b with
      | false => exact absurd (hb'.1 hbb j hj) hx
      | true => rfl
  refine anyBad_same (g := fun i => ∃ j, j < 256 ∧ Bad (at_ v i) B j) 4 0 (fun k _ hk b hb => hv k (by omega) b hb) fun k _ hk hj => ?_
  have r1 := (rd_res v k).trans (Verif.Dilithium.rd_at (by rw [h.1]; omega))
  have r2 := (rd_res v' k).trans (Verif.Dilithium.rd_at (by rw [h'.1]; omega))
  refine (Same.rd.vals r1 r2).bind ?_
  rintro _ _ ⟨rfl, rfl, -⟩
  refine polyChknorm_same (h.2 k (by omega)) (h'.2 k (by omega)) fun j hj' hi => ?_
  have := H (256 * k + j) (by omega) fun q hq => ?_
  · rwa [show (256 * k + j) / 256 = k by omega, show (256 * k + j) % 256 = j by omega] at this
  · by_cases hqk : q / 256 = k
    · rw [hqk]
      exact hi _ (by omega)
    · intro hx
      have h1 := hj (q / 256) (by omega) (by omega)
      exact h1 ⟨q % 256, by omega, hx⟩

theorem firstBad_eq (v : List (List Int)) (B : Int) {p : Nat} (hp : p < 1024) :
    firstBad B v = p ↔ Bad (at_ v (p / 256)) B (p % 256) ∧ ∀ q, q < p → ¬ Bad (at_ v (q / 256)) B (q % 256) := by
  unfold firstBad
  rw [List.findIdx_eq (by rw [List.length_range]; exact hp)]
  simp only [List.getElem_range]
  refine and_congr ?_ ⟨fun h q hq => ?_, fun h q hq => ?_⟩
  · exact decide_eq_true_iff
  · exact of_decide_eq_false (h q hq)
  · exact decide_eq_false (h q hq)

theorem firstBad_lt {v : List (List Int)} {B : Int} : firstBad B v < 1024 ↔ ∃ p, p < 1024 ∧ Bad (at_ v (p / 256)) B (p % 256) := by
  unfold firstBad
  have := List.findIdx_lt_length (xs := List.range 1024) (p := fun p => decide (¬ (-B < co (at_ v (p / 256)) (p % 256) ∧ co (at_ v (p / 256)) (p % 256) < B)))
  rw [List.length_range] at this
  rw [this]
  refine exists_congr fun p => and_congr List.mem_range ?_
  exact decide_eq_true_iff

theorem firstBad_agree {v v' : List (List Int)} {B : Int} (e : firstBad B v = firstBad B v') {p : Nat} (hp : p < 1024) (h : ∀ q, q < p → ¬ Bad (at_ v (q / 256)) B (q % 256)) :
    Bad (at_ v (p / 256)) B (p % 256) ↔ Bad (at_ v' (p / 256)) B (p % 256) := by
  constructor
  · intro hb
    have := (firstBad_eq v B hp).2 ⟨hb, h⟩
    rw [e] at this
    exact ((firstBad_eq v' B hp).1 this).1
  · intro hb
    obtain ⟨q, hq⟩ : ∃ q, firstBad B v' = q := ⟨_, rfl⟩
    have hlt : firstBad B v' < 1024 := firstBad_lt.2 ⟨p, hp, hb⟩
    rw [hq] at hlt e
    have h1 := (firstBad_eq v' B hlt).1 hq
    have h2 := (firstBad_eq v B hlt).1 e
    have hqp : q = p := by
      by_contra hne
      rcases Nat.lt_or_gt_of_ne hne with c | c
      · exact h q c h2.1
      · exact h1.2 p c hb
    rw [← hqp]
    exact h2.1

/-! ### Hints -/

theorem makeHint_same {e e' w w' : Int} (h : hintClass e w = hintClass e' w') : Rel (· = ·) (makeHint e w) (makeHint e' w') := by
  unfold hintClass at h
  unfold makeHint
  refine Rel.cond (c := e > 95232) (d := e' > 95232) ?_ (fun _ => Rel.refl _) fun h1 => Rel.cond (c := e < -95232) (d := e' < -95232) ?_ (fun _ => Rel.refl _) fun h2 =>
    Rel.cond (c := e = -95232) (d := e' = -95232) ?_ (fun h3 => Rel.cond ?_ (fun _ => Rel.refl _) fun _ => Rel.refl _) fun _ => Rel.refl _
  all_goals split at h <;> split at h <;> (try split at h) <;> (try split at h) <;> (try split at h) <;> (try split at h) <;> (try split at h) <;> (try split at h) <;> omega

theorem rd_val {a : List Int} (h : a.length = 256) {j : Nat} (hj : j < 256) : (rd a j).res = .ok (co a j) := (rd_res _ _).trans (Verif.Dilithium.rd_co (by omega))
theorem rdv_val {v : Vec} (h : v.length = 4) {i : Nat} (hi : i < 4) : (rd v i).res = .ok (at_ v i) := (rd_res _ _).trans (Verif.Dilithium.rd_at (by omega))

theorem polyMakeHint_same {a a' b b' : Poly} (ha : a.length = 256) (ha' : a'.length = 256) (hb : b.length = 256) (hb' : b'.length = 256)
    (h : ∀ j, j < 256 → hintClass (co a j) (co b j) = hintClass (co a' j) (co b' j)) : Rel (· = ·) (polyMakeHint a b) (polyMakeHint a' b') := by
  unfold polyMakeHint
  refine build_eq fun j hj => (Same.rd.vals (rd_val ha hj) (rd_val ha' hj)).bind ?_
  rintro _ _ ⟨rfl, rfl, -⟩
  refine (Same.rd.vals (rd_val hb hj) (rd_val hb' hj)).bind ?_
  rintro _ _ ⟨rfl, rfl, -⟩
  exact makeHint_same (h j hj)

theorem vecMakeHint_same {v v' w w' : Vec} (hv : v.length = 4) (hv' : v'.length = 4) (hw : w.length = 4) (hw' : w'.length = 4)
    (lv : ∀ i, i < 4 → (at_ v i).length = 256) (lv' : ∀ i, i < 4 → (at_ v' i).length = 256) (lw : ∀ i, i < 4 → (at_ w i).length = 256) (lw' : ∀ i, i < 4 → (at_ w' i).length = 256)
    (h : ∀ i, i < 4 → ∀ j, j < 256 → hintClass (co (at_ v i) j) (co (at_ w i) j) = hintClass (co (at_ v' i) j) (co (at_ w' i) j)) :
    Rel (· = ·) (vecMakeHint v w) (vecMakeHint v' w') := by
  unfold vecMakeHint vzip
  refine (build_eq fun i hi => ?_).bind (R := (· = ·)) ?_
  · refine (Same.rd.vals (rdv_val hv hi) (rdv_val hv' hi)).bind ?_
    rintro _ _ ⟨rfl, rfl, -⟩
    refine (Same.rd.vals (rdv_val hw hi) (rdv_val hw' hi)).bind ?_
    rintro _ _ ⟨rfl, rfl, -⟩
    exact polyMakeHint_same (lv i hi) (lv' i hi) (lw i hi) (lw' i hi) (h i hi)
  · rintro a _ rfl
    exact Rel.refl _

theorem packHintPoly_same (o : Nat) (h : Poly) {s t : Bytes × Nat} (e : s.2 = t.2) : Rel (fun s t => s.2 = t.2) (packHintPoly o h s) (packHintPoly o h t) := by
  unfold packHintPoly
  refine Rel.loop (R := fun _ (s t : Bytes × Nat) => s.2 = t.2) _ _ e fun k s t _ _ e => ?_
  refine (Rel.refl _).bind ?_
  rintro x _ rfl
  refine Rel.cond Iff.rfl (fun _ => ?_) fun _ => Rel.pure e
  rw [e]
  exact Same.wr.bind fun _ _ _ => Rel.pure rfl

theorem packSig_same (sig sig' c c' : Bytes) (z z' h : Vec) : Same (packSig sig c z h) (packSig sig' c' z' h) := by
  unfold packSig
  refine Same.copy.bind fun _ _ _ => (vecPack_same polyzPack_same _ _ _ _ _ _).bind fun _ _ _ => Rel.bind (R := fun _ _ => True) (Same.loop _ _ fun _ _ _ => Same.wr) fun _ _ _ =>
    Rel.bind (R := fun (s t : Bytes × Nat) => s.2 = t.2) ?_ fun _ _ _ => Rel.pure trivial
  refine Rel.loop (R := fun _ (s t : Bytes × Nat) => s.2 = t.2) _ _ rfl fun k s t _ _ e => ?_
  refine (Rel.refl _).bind ?_
  rintro x _ rfl
  refine (packHintPoly_same _ _ e).bind fun s t e => ?_
  dsimp only at e ⊢
  rw [e]
  exact Same.wr.bind fun _ _ _ => Rel.pure rfl

end Verif.Ct.Dilithium
