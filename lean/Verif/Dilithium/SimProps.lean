import Verif.Dilithium.Sim
import Verif.Dilithium.Props
import Verif.Witness.Check

/-! Property C106: a released signature depends on the secret vectors only through the vector t that belongs to the public key. -/

namespace Verif.Dilithium
open Verif Spec

/-- A released transcript (commitment, response, hints) comes from exactly one mask if the simulator, which has the matrix, t and the
challenge, releases it for this response, and from none otherwise. -/
theorem dil_transcripts {A : List Vec} {s1 s2 : Vec} {c : List Int} (h1 : SmallVec s1) (h2 : SmallVec s2) (hc : BallElement c) (w1 z h : Vec) :
    (SimReleases A (tOf A s1 s2) c z ∧ simCommit A (tOf A s1 s2) c z = w1 ∧ simHints A (tOf A s1 s2) c z = h →
      ∃! y, MaskVec y ∧ Releases A s1 s2 y c ∧ commitOf A y = w1 ∧ responseOf s1 y c = z ∧ hintsOf A s1 s2 y c = h) ∧
    (¬ (SimReleases A (tOf A s1 s2) c z ∧ simCommit A (tOf A s1 s2) c z = w1 ∧ simHints A (tOf A s1 s2) c z = h) →
      ∀ y, ¬ (MaskVec y ∧ Releases A s1 s2 y c ∧ commitOf A y = w1 ∧ responseOf s1 y c = z ∧ hintsOf A s1 s2 y c = h)) := by
  constructor
  · rintro ⟨hs, rfl, rfl⟩
    obtain ⟨hm, hz⟩ := (response_bij h1 hc hs.1 (maskFor s1 z c)).2 rfl
    have hr := releases_iff (A := A) (s1 := s1) (y := maskFor s1 z c) h2 hc
    rw [hz] at hr
    have hr1 := hr.1.2 hs
    exact ⟨maskFor s1 z c, ⟨hm, hr1, (hr.2 hr1).1, hz, (hr.2 hr1).2⟩, fun y hy => (response_bij h1 hc hs.1 y).1 ⟨hy.1, hy.2.2.2.1⟩⟩
  · rintro hn y ⟨hm, hr, rfl, rfl, rfl⟩
    have := releases_iff (A := A) (s1 := s1) (y := y) h2 hc
    exact hn ⟨this.1.1 hr, (this.2 hr).1.symm, (this.2 hr).2.symm⟩

/-- Two secrets with the same t give every transcript for equally many masks, so the releases do not tell them apart; the number of
masks that are released is the number of responses that the simulator releases. -/
theorem dil_secret_hidden {A : List Vec} {s1 s2 : Vec} {c : List Int} (h1 : SmallVec s1) (h2 : SmallVec s2) (hc : BallElement c) :
    (∀ (s1' s2' : Vec), SmallVec s1' → SmallVec s2' → tOf A s1' s2' = tOf A s1 s2 → ∀ w1 z h,
      {y | MaskVec y ∧ Releases A s1' s2' y c ∧ commitOf A y = w1 ∧ responseOf s1' y c = z ∧ hintsOf A s1' s2' y c = h}.ncard =
        {y | MaskVec y ∧ Releases A s1 s2 y c ∧ commitOf A y = w1 ∧ responseOf s1 y c = z ∧ hintsOf A s1 s2 y c = h}.ncard) ∧
    {y | MaskVec y ∧ Releases A s1 s2 y c}.ncard = {z | SimReleases A (tOf A s1 s2) c z}.ncard := by
  have cnt : ∀ {s1 s2 : Vec}, SmallVec s1 → SmallVec s2 → ∀ w1 z h,
      (SimReleases A (tOf A s1 s2) c z ∧ simCommit A (tOf A s1 s2) c z = w1 ∧ simHints A (tOf A s1 s2) c z = h →
        {y | MaskVec y ∧ Releases A s1 s2 y c ∧ commitOf A y = w1 ∧ responseOf s1 y c = z ∧ hintsOf A s1 s2 y c = h}.ncard = 1) ∧
      (¬ (SimReleases A (tOf A s1 s2) c z ∧ simCommit A (tOf A s1 s2) c z = w1 ∧ simHints A (tOf A s1 s2) c z = h) →
        {y | MaskVec y ∧ Releases A s1 s2 y c ∧ commitOf A y = w1 ∧ responseOf s1 y c = z ∧ hintsOf A s1 s2 y c = h}.ncard = 0) := by
    intro s1 s2 h1 h2 w1 z h
    have := dil_transcripts (A := A) h1 h2 hc w1 z h
    refine ⟨fun hs => ?_, fun hs => ?_⟩
    · obtain ⟨y, hy, hu⟩ := this.1 hs
      rw [Set.ncard_eq_one]
      exact ⟨y, Set.ext fun y' => ⟨fun h => hu y' h, fun e => by rw [Set.mem_singleton_iff] at e; rw [e]; exact hy⟩⟩
    · rw [show {y | MaskVec y ∧ Releases A s1 s2 y c ∧ commitOf A y = w1 ∧ responseOf s1 y c = z ∧ hintsOf A s1 s2 y c = h} = ∅ from
        Set.eq_empty_iff_forall_notMem.2 fun y hy => this.2 hs y hy, Set.ncard_empty]
  constructor
  · intro s1' s2' h1' h2' e w1 z h
    have a := cnt h1 h2 w1 z h
    have b := cnt h1' h2' w1 z h
    rw [e] at b
    by_cases hs : SimReleases A (tOf A s1 s2) c z ∧ simCommit A (tOf A s1 s2) c z = w1 ∧ simHints A (tOf A s1 s2) c z = h
    · rw [a.1 hs, b.1 hs]
    · rw [a.2 hs, b.2 hs]
  · refine Set.ncard_congr (fun y _ => responseOf s1 y c) ?_ ?_ ?_
    · rintro y ⟨hm, hr⟩
      exact (releases_iff h2 hc).1.1 hr
    · rintro y y' ⟨hm, hr⟩ ⟨hm', hr'⟩ e
      have hz := ((releases_iff (s1 := s1) h2 hc).1.1 hr).1
      rw [(response_bij h1 hc hz y).1 ⟨hm, rfl⟩, (response_bij h1 hc hz y').1 ⟨hm', e.symm⟩]
    · intro z hz
      obtain ⟨hm, e⟩ := (response_bij h1 hc hz.1 (maskFor s1 z c)).2 rfl
      exact ⟨maskFor s1 z c, ⟨hm, (releases_iff h2 hc).1.2 (by rw [e]; exact hz)⟩, e⟩

theorem matVec_zero {A : List Vec} (h : ∀ i j k, co (at_ (at_ A i) j) k = 0) (v : Vec) : matVec A v = vec fun _ => mk fun _ => 0 := by
  have h2 : ∀ i j, invNtt (at_ (at_ A i) j) = mk fun _ => 0 := fun i j => by
    unfold invNtt
    simp only [h, zero_mul, List.map_const', List.length_range, List.sum_replicate, smul_zero, mul_zero, Int.zero_emod]
  have h3 : ∀ k, co (mk fun _ => 0) k = 0 := fun k => by
    by_cases hk : k < 256
    · exact co_mk _ hk
    · unfold co; rw [List.getD_eq_getElem?_getD, List.getElem?_eq_none (by rw [length_mk]; omega)]; rfl
  have h4 : ∀ b, Spec.mul (mk fun _ => 0) b = mk fun _ => 0 := fun b => by
    unfold Spec.mul
    simp only [h3, zero_mul, List.map_const', List.length_range, List.sum_replicate, smul_zero, Int.zero_emod]
  unfold matVec
  simp only [h2, h4, h3, List.map_const', List.length_range, List.sum_replicate, smul_zero, Int.zero_emod]

/-- Different secrets with the same t, for the matrix 0, and a challenge (dilithium2/sign.c:149-205). -/
example : ∃ (A : List Vec) (s1 s1' s2 : Vec) (c : List Int), SmallVec s1 ∧ SmallVec s1' ∧ SmallVec s2 ∧ BallElement c ∧ s1 ≠ s1' ∧ tOf A s1 s2 = tOf A s1' s2 := by
  refine ⟨List.replicate 4 (List.replicate 4 (List.replicate 256 0)), List.replicate 4 (List.replicate 256 2), List.replicate 4 (List.replicate 256 (-1)),
    List.replicate 4 (List.replicate 256 1), List.replicate 39 1 ++ List.replicate 217 0, ?_⟩
  have z : ∀ i j k, co (at_ (at_ (List.replicate 4 (List.replicate 4 (List.replicate 256 0))) i) j) k = 0 := fun i j k => by
    unfold at_ co
    simp only [List.getD_eq_getElem?_getD, List.getElem?_replicate]
    split
    · simp only [Option.getD_some, List.getElem?_replicate]
      split
      · simp only [Option.getD_some, List.getElem?_replicate]
        split <;> rfl
      · rfl
    · rfl
  unfold SmallVec PolyIn BallElement tOf
  rw [matVec_zero z, matVec_zero z]
  exact ⟨by decide +kernel, by decide +kernel, by decide +kernel, by decide +kernel, by decide +kernel, rfl⟩

/-- A response that the simulator releases, for the matrix 0 and t = 0, so there are transcripts (dilithium2/sign.c:149-205). -/
example : ∃ (A : List Vec) (t : Vec) (c : List Int) (z : Vec), BallElement c ∧ SimReleases A t c z := by
  refine ⟨List.replicate 4 (List.replicate 4 (List.replicate 256 0)), List.replicate 4 (List.replicate 256 0), List.replicate 39 1 ++ List.replicate 217 0,
    List.replicate 4 (List.replicate 256 130993), by unfold BallElement; decide +kernel, ?_⟩
  have z : ∀ i j k, co (at_ (at_ (List.replicate 4 (List.replicate 4 (List.replicate 256 0))) i) j) k = 0 := fun i j k => by
    unfold at_ co
    simp only [List.getD_eq_getElem?_getD, List.getElem?_replicate]
    split
    · simp only [Option.getD_some, List.getElem?_replicate]
      split
      · simp only [Option.getD_some, List.getElem?_replicate]
        split <;> rfl
      · rfl
    · rfl
  have hz : ∀ k, co (List.replicate 256 (0 : Int)) k = 0 := fun k => by
    unfold co; rw [List.getD_eq_getElem?_getD, List.getElem?_replicate]; split <;> rfl
  have hm : ∀ b d : List Int, (∀ k, co d k = 0) → Spec.mul b d = mk fun _ => 0 := fun b d hd => by
    unfold Spec.mul
    simp only [hd, neg_zero, ite_self, mul_zero, List.map_const', List.length_range, List.sum_replicate, smul_zero, Int.zero_emod]
  have ht : ∀ i, i < 4 → at_ (List.replicate 4 (List.replicate 256 (0 : Int))) i = List.replicate 256 0 := fun i hi => by
    unfold at_; rw [List.getD_eq_getElem?_getD, List.getElem?_replicate, if_pos hi]; rfl
  have hw : ∀ i, i < 4 → ∀ j, j < 256 → co (at_ (simW (List.replicate 4 (List.replicate 4 (List.replicate 256 0))) (List.replicate 4 (List.replicate 256 0))
      (List.replicate 39 1 ++ List.replicate 217 0) (List.replicate 4 (List.replicate 256 130993))) i) j = 0 := fun i hi j hj => by
    unfold simW
    rw [matVec_zero z, at_vec _ hi, ht i hi, hm _ _ hz, at_vec _ hi]
    unfold Spec.sub
    rw [co_mk _ hj, co_mk _ hj]; rfl
  have hl : ∀ i, i < 4 → ∀ j, j < 256 → co (at_ (lowProduct (List.replicate 4 (List.replicate 256 0)) (List.replicate 39 1 ++ List.replicate 217 0)) i) j = 0 := fun i hi j hj => by
    unfold lowProduct
    rw [at_vec _ hi, ht i hi, List.map_replicate, show (power2Round 0).2 = 0 by decide, hm _ _ hz, co_mk _ hj, co_mk _ hj]; rfl
  refine ⟨by unfold PolyIn; decide +kernel, fun i hi j hj => by rw [hw i hi j hj]; decide, fun i hi j hj => by rw [hl i hi j hj]; decide, ?_⟩
  have hh : simHints (List.replicate 4 (List.replicate 4 (List.replicate 256 0))) (List.replicate 4 (List.replicate 256 0))
      (List.replicate 39 1 ++ List.replicate 217 0) (List.replicate 4 (List.replicate 256 130993)) = vec fun _ => mk fun _ => 0 := by
    unfold simHints
    refine vec_ext (length_vec _) (length_vec _) fun i hi => ?_
    rw [at_vec _ hi, at_vec _ hi]
    refine co_ext (length_mk _) (length_mk _) fun j hj => ?_
    rw [co_mk _ hj, co_mk _ hj, hw i hi j hj, hl i hi j hj]; decide
  rw [hh]
  decide +kernel

theorem keygen_ctx {seed pk sk m : Bytes} {X : Ctx} (hk : KeyGen S128 S256 seed pk sk) (hX : IsCtx S128 S256 sk m X) :
    IsMatrix S128 (slice pk 0 32) X.A ∧ SmallVec X.s1 ∧ SmallVec X.s2 ∧ X.t0 = (tOf X.A X.s1 X.s2).map (·.map fun r => (power2Round r).2) ∧
    pk = encodePk (slice pk 0 32) ((tOf X.A X.s1 X.s2).map (·.map fun r => (power2Round r).1)) ∧ X.mu = S256 (S256 pk 64 ++ m) 64 := by
  obtain ⟨A, s1, s2, hA, h1, h2, hpk, hsk⟩ := hk
  have hS : (S256 seed 128).length = 128 := Keccak.length_stream ..
  have hrho : (slice (S256 seed 128) 0 32).length = 32 := length_slice (by omega)
  have hkey : (slice (S256 seed 128) 96 32).length = 32 := length_slice (by omega)
  generalize slice (S256 seed 128) 0 32 = rho at *
  generalize slice (S256 seed 128) 96 32 = key at *
  have hv := tOf_VRes A s1 s2
  have bt1 : ∀ x ∈ (tOf A s1 s2).map (·.map fun r => (power2Round r).1), x.length = 256 ∧ ∀ c ∈ x, 0 ≤ c ∧ c < 1024 := fun x hx =>
    ⟨(mem_map_map hv hx).1, fun c hc => by obtain ⟨r, rfl⟩ := (mem_map_map hv hx).2 c hc; exact (power2Round_range r).1⟩
  have bt0 : ∀ x ∈ (tOf A s1 s2).map (·.map fun r => (power2Round r).2), x.length = 256 ∧ ∀ c ∈ x, -4096 < c ∧ c ≤ 4096 := fun x hx =>
    ⟨(mem_map_map hv hx).1, fun c hc => by obtain ⟨r, rfl⟩ := (mem_map_map hv hx).2 c hc; exact (power2Round_range r).2⟩
  have lt1 : ((tOf A s1 s2).map (·.map fun r => (power2Round r).1)).length = 4 := by rw [List.length_map]; exact hv.1
  have lt0 : ((tOf A s1 s2).map (·.map fun r => (power2Round r).2)).length = 4 := by rw [List.length_map]; exact hv.1
  obtain ⟨lpk, ppk1, ppk2⟩ := encodePk_parts hrho lt1 bt1
  obtain ⟨lsk, q1, q2, q3, q4, q5, q6⟩ := encodeSk_parts (tr := S256 pk 64) hrho hkey (Keccak.length_stream ..) h1.1 h2.1 lt0 (etaVec_mem h1) (etaVec_mem h2) bt0
  rw [← hpk] at lpk ppk1 ppk2
  rw [← hsk] at lsk q1 q2 q3 q4 q5 q6
  obtain ⟨A', hA', hXe⟩ := ctx_iff.1 hX
  rw [q1] at hA'
  cases matrix_unique hA hA'
  unfold ctxOf at hXe
  rw [q2, q3, q4, q5, q6] at hXe
  have small : ∀ {n : Nat} {sd : Bytes} {v : Vec}, IsEtaVec S256 sd n v → SmallVec v := by
    intro n sd v h
    refine ⟨h.1, fun p hp => ?_⟩
    obtain ⟨i, hi, rfl⟩ := mem_at hp
    obtain ⟨_, e⟩ := h.2 i (by rw [← h.1]; exact hi)
    exact etaOf_unbiased.range _ _ e
  have xA : X.A = A := by rw [hXe]
  have x1 : X.s1 = s1 := by rw [hXe]
  have x2 : X.s2 = s2 := by rw [hXe]
  have x0 : X.t0 = (tOf A s1 s2).map (·.map fun r => (power2Round r).2) := by rw [hXe]
  have xm : X.mu = S256 (S256 pk 64 ++ m) 64 := by rw [hXe]
  rw [xA, x1, x2, ppk1]
  exact ⟨hA, small h1, small h2, x0, hpk, xm⟩

theorem lowProduct_ctx {X : Ctx} {c : List Int} (h : X.t0 = (tOf X.A X.s1 X.s2).map (·.map fun r => (power2Round r).2)) :
    ct0Of X c = lowProduct (tOf X.A X.s1 X.s2) c := by
  unfold ct0Of lowProduct
  refine vec_ext (length_vec _) (length_vec _) fun i hi => ?_
  rw [at_vec _ hi, at_vec _ hi]
  have hl : i < (tOf X.A X.s1 X.s2).length := by rw [(tOf_VRes X.A X.s1 X.s2).1]; exact hi
  have : at_ X.t0 i = (at_ (tOf X.A X.s1 X.s2) i).map fun r => (power2Round r).2 := by
    rw [h]
    unfold at_
    rw [List.getD_eq_getElem?_getD, List.getD_eq_getElem?_getD, List.getElem?_map, List.getElem?_eq_getElem hl]
    rfl
  rw [this]

theorem accept_releases {X : Ctx} {k : Nat} {c : List Int} (h : X.t0 = (tOf X.A X.s1 X.s2).map (·.map fun r => (power2Round r).2)) :
    (Accept S256 X k c ↔ Releases X.A X.s1 X.s2 (yOf S256 X k) c) ∧ hOf S256 X k c = hintsOf X.A X.s1 X.s2 (yOf S256 X k) c := by
  have hh : hOf S256 X k c = hintsOf X.A X.s1 X.s2 (yOf S256 X k) c := by
    unfold hOf hintsOf
    rw [lowProduct_ctx h]; rfl
  refine ⟨?_, hh⟩
  unfold Accept Releases
  rw [hh, lowProduct_ctx h]
  exact Iff.rfl

variable {H128 H256 : Bytes → Nat → Bytes}

/-- What the code releases under a generated key: for the secret vectors and the matrix that signing reads from the key, and the masking
vector of some attempt, the signature is what the simulator gives for the response z, from the matrix, t and the challenge alone. -/
theorem dil_signature_simulated (e1 : IsShake128 H128) (e2 : IsShake256 H256) {fk fs : Nat} {pk0 sk0 seed pk sk sig0 sig m : Bytes} {n0 n : Nat} {r r' : Int}
    (hpk : pk0.length = 1312) (hsk : sk0.length = 2560) (hseed : seed.length = 32) (hsig : sig0.length = 2420)
    (hk : keypairSeed fk pk0 sk0 seed = .ok (r, pk, sk)) (hs : signature fs sig0 n0 m sk = .ok (r', sig, n)) :
    ∃ X k c z, IsCtx H128 H256 sk m X ∧ IsMatrix H128 (slice pk 0 32) X.A ∧ SmallVec X.s1 ∧ SmallVec X.s2 ∧ MaskVec (yOf H256 X k) ∧ BallElement c ∧
      pk = encodePk (slice pk 0 32) ((tOf X.A X.s1 X.s2).map (·.map fun r => (power2Round r).1)) ∧
      z = responseOf X.s1 (yOf H256 X k) c ∧ SimReleases X.A (tOf X.A X.s1 X.s2) c z ∧
      IsBall H256 (H256 (H256 (H256 pk 64 ++ m) 64 ++ (simCommit X.A (tOf X.A X.s1 X.s2) c z).flatMap (packPos 6)) 32) c ∧
      sig = encodeSig (H256 (H256 (H256 pk 64 ++ m) 64 ++ (simCommit X.A (tOf X.A X.s1 X.s2) c z).flatMap (packPos 6)) 32) z
        (simHints X.A (tOf X.A X.s1 X.s2) c z) := by
  obtain rfl := e1.eq
  obtain rfl := e2.eq
  obtain ⟨_, hg⟩ := keypairSeed_sound hpk hsk hseed hk
  obtain ⟨lpk, lsk, erho⟩ := keygen_parts hg
  obtain ⟨_, _, k, X, hX, _, c, hc, ha, hsg⟩ := signature_sound lsk hsig hs
  obtain ⟨hA, hs1, hs2, ht, hp, hmu⟩ := keygen_ctx hg hX
  have hb : BallElement c := by
    obtain ⟨_, e⟩ := hc
    exact ballOf_unbiased.range _ _ e
  have hm : MaskVec (yOf S256 X k) := by
    refine ⟨length_vec _, fun p hp => ?_⟩
    obtain ⟨i, hi, rfl⟩ := mem_at hp
    have hi : i < 4 := by rwa [show (yOf S256 X k).length = 4 from length_vec _] at hi
    rw [show at_ (yOf S256 X k) i = mask S256 X.rhoprime (4 * k + i) from at_vec _ hi]
    exact ⟨length_unpackAt, fun x hx => by have := unpackAt_bound x hx; norm_num at this; omega⟩
  have hr := (accept_releases ht).1.1 ha
  have hri := releases_iff (A := X.A) (s1 := X.s1) (y := yOf S256 X k) hs2 hb
  have hcm : cTilde S256 X k = S256 (S256 (S256 pk 64 ++ m) 64 ++ (simCommit X.A (tOf X.A X.s1 X.s2) c (responseOf X.s1 (yOf S256 X k) c)).flatMap (packPos 6)) 32 := by
    rw [← (hri.2 hr).1, ← hmu]; rfl
  rw [hcm] at hc
  refine ⟨X, k, c, _, hX, hA, hs1, hs2, hm, hb, hp, rfl, hri.1.1 hr, hc, ?_⟩
  rw [hsg, hcm, (accept_releases ht).2, (hri.2 hr).2]
  rfl

/-- A run of key generation and signing (dilithium2/sign.c:23-68 and 108-211). -/
example : ∃ fk fs pk sk sig, keypairSeed fk (List.replicate 1312 0) (List.replicate 2560 0) (7 :: List.replicate 31 0) = .ok (0, pk, sk) ∧
    signature fs (List.replicate 2420 0) 0 [2] sk = .ok (0, sig, 2420) := by
  obtain ⟨pk, sk, sig, hk, hs⟩ := Witness.dilithium_run
  obtain ⟨fk, h1⟩ := keypairSeed_complete (pk := List.replicate 1312 0) (sk := List.replicate 2560 0) (List.length_replicate ..) (List.length_replicate ..) rfl hk
  obtain ⟨fs, h2⟩ := signature_complete (sig := List.replicate 2420 0) 0 (keygen_parts hk).2.1 (List.length_replicate ..) hs
  exact ⟨fk, fs, pk, sk, sig, h1 fk (Nat.le_refl _), h2 fs (Nat.le_refl _)⟩

end Verif.Dilithium
