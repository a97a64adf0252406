import Verif.Ct.DilithiumAttempt
import Verif.Ct.NaclProps
import Verif.Dilithium.Props
import Verif.Witness.Check

/-!
The property C95: what control flow and memory addresses of Dilithium key generation and signing show about the secret key.
-/

namespace Verif.Ct.Dilithium
open Verif.Dilithium (S128 S256 IsShake128 IsShake256 VRes at_vec co_mk vec_ext length_vec length_mk)
open Verif.Dilithium.Spec
open Verif.Ct.Dilithium.Spec

/-- Runs related to one public value have one trace. -/
theorem exists_trace_rel {ι π α : Type} (F : ι → T α) (P : ι → π → Prop) (h : ∀ i j p, P i p → P j p → Same (F i) (F j)) :
    ∃ t : π → List Ev, ∀ i p a, P i p → (F i).res = .ok a → (F i).tr = t p := by
  classical
  refine ⟨fun p => if e : ∃ i a, P i p ∧ (F i).res = .ok a then (F e.choose).tr else [], fun i p a hp ha => ?_⟩
  have e : ∃ i a, P i p ∧ (F i).res = .ok a := ⟨i, a, hp, ha⟩
  dsimp only
  rw [dif_pos e]
  obtain ⟨b, hq, hb⟩ := e.choose_spec
  exact (h i e.choose p hp hq _ _ ha hb).1

/-! ### Key generation -/

/-- C95, key generation: control flow and addresses show the public seed rho of the matrix and, for each of the eight secret polynomials, which half bytes of
its stream are used. -/
theorem ct_dil_keypair {H128 H256 : Bytes → Nat → Bytes} (h1 : IsShake128 H128) (h2 : IsShake256 H256) :
    ∃ t : Bytes → (Nat → Nat → Bool) → List Ev, ∀ (fuel : Nat) (pk sk seed : Bytes) (r : Int) (pk' sk' : Bytes), pk.length = 1312 → sk.length = 2560 → seed.length = 32 →
      (keypairSeed fuel pk sk seed).res = .ok (r, pk', sk') →
      r = 0 ∧ KeyGen H128 H256 seed pk' sk' ∧
      (keypairSeed fuel pk sk seed).tr = t (pk'.take 32) (fun n i => decide (n < 8) && shown (slice (H256 seed 128) 32 64) n i) := by
  obtain rfl := h1.eq
  obtain rfl := h2.eq
  obtain ⟨t, ht⟩ := exists_trace_rel (fun i : Nat × Bytes × Bytes × Bytes => keypairSeed i.1 i.2.1 i.2.2.1 i.2.2.2)
    (fun i (p : Bytes × (Nat → Nat → Bool)) => i.2.2.2.length = 32 ∧ slice (S256 i.2.2.2 128) 0 32 = p.1 ∧
      (fun n j => decide (n < 8) && shown (slice (S256 i.2.2.2 128) 32 64) n j) = p.2)
    (fun i j p hi hj => keypairSeed_same hi.1 hj.1 (hi.2.1.trans hj.2.1.symm) (fun n hn => agree_of fun k => by
      have := congrFun (congrFun (hi.2.2.trans hj.2.2.symm) n) k
      rwa [decide_eq_true hn, Bool.true_and, Bool.true_and] at this) _ _ _ _ _ _)
  refine ⟨fun a b => t (a, b), fun fuel pk sk seed r pk' sk' hpk hsk hs h => ?_⟩
  have h' := h
  rw [keypairSeed_res] at h'
  obtain ⟨a, b⟩ := Verif.Dilithium.keypairSeed_sound hpk hsk hs h'
  refine ⟨a, b, ?_⟩
  refine ht (fuel, pk, sk, seed) _ _ ⟨hs, ?_, rfl⟩ h
  obtain ⟨A, s1, s2, -, -, -, rfl, -⟩ := b
  have hr : (slice (S256 seed 128) 0 32).length = 32 := length_slice (by rw [show (S256 seed 128).length = 128 from Verif.Keccak.length_stream ..]; omega)
  show _ = List.take 32 _
  unfold encodePk
  rw [List.take_left' hr]

/-! ### The norm check -/

/-- C95, the norm check (dilithium2/poly.c:270-296): control flow and addresses show the place of the first coefficient that violates the bound; neither its sign nor
any other coefficient. -/
theorem ct_dil_chknorm : ∃ t : Int → Nat → List Ev, ∀ (a : List Int) (B : Int), a.length = 256 → (∀ x ∈ a, x.natAbs < 2 ^ 30) → B ≤ 1047552 →
    polyChknorm a B = ⟨.ok (decide ((a.findIdx fun x => decide (B ≤ x.natAbs)) < 256)), t B (a.findIdx fun x => decide (B ≤ x.natAbs))⟩ := by
  have bad : ∀ {a : List Int} {B : Int}, a.length = 256 → ∀ j (hj : j < a.length), decide (B ≤ ((a[j]).natAbs : Int)) = true ↔ Bad a B j := by
    intro a B hl j hj
    have e : co a j = a[j] := by unfold co; rw [List.getD_eq_getElem?_getD, List.getElem?_eq_getElem hj]; rfl
    unfold Bad
    rw [e, decide_eq_true_iff]
    omega
  have pb : ∀ {a : List Int}, a.length = 256 → (∀ x ∈ a, x.natAbs < 2 ^ 30) → Verif.Dilithium.PB a 1073741824 := by
    intro a hl h
    refine ⟨hl, fun j hj => ?_⟩
    have e : co a j = a[j] := by unfold co; rw [List.getD_eq_getElem?_getD, List.getElem?_eq_getElem (by omega)]; rfl
    have := h a[j] (List.getElem_mem _)
    rw [e]; omega
  obtain ⟨t, ht⟩ := exists_trace (fun i : List Int × Int => polyChknorm i.1 i.2) (fun i => .ok (decide ((i.1.findIdx fun x => decide (i.2 ≤ x.natAbs)) < 256)))
    (fun i => (i.2, i.1.findIdx fun x => decide (i.2 ≤ x.natAbs))) (fun i => i.1.length = 256 ∧ (∀ x ∈ i.1, x.natAbs < 2 ^ 30) ∧ i.2 ≤ 1047552)
    (fun i h => by
      obtain ⟨a, B⟩ := i
      obtain ⟨hl, hx, hB⟩ := h
      dsimp only at *
      rw [polyChknorm_res]
      obtain ⟨b, e, hb⟩ := Verif.Dilithium.polyChknorm_ok (pb hl hx) hB
      rw [e]
      refine congrArg _ ?_
      cases b with
      | false =>
        refine (decide_eq_false fun hlt => ?_).symm
        rw [← hl, List.findIdx_lt_length] at hlt
        obtain ⟨x, hxa, hxb⟩ := hlt
        obtain ⟨j, hj, rfl⟩ := List.getElem_of_mem hxa
        exact (bad hl j hj).1 hxb (hb.1 rfl j (by omega))
      | true =>
        refine (decide_eq_true ?_).symm
        rw [← hl, List.findIdx_lt_length]
        by_contra hne
        refine Bool.noConfusion (hb.2 fun j hj => ?_)
        by_contra hbad
        exact hne ⟨a[j], List.getElem_mem _, (bad hl j (by omega)).2 hbad⟩)
    (fun i j hi hj e => by
      obtain ⟨a, B⟩ := i
      obtain ⟨a', B'⟩ := j
      obtain ⟨hl, hx, hB⟩ := hi
      obtain ⟨hl', hx', hB'⟩ := hj
      injection e with e1 e2
      dsimp only at *
      subst e1
      obtain ⟨b, hb, -⟩ := Verif.Dilithium.polyChknorm_ok (pb hl hx) hB
      obtain ⟨b', hb', -⟩ := Verif.Dilithium.polyChknorm_ok (pb hl' hx') hB
      refine (polyChknorm_same (pb hl hx) (pb hl' hx') (fun k hk hpre => ?_) _ _ ((polyChknorm_res _ _).trans hb) ((polyChknorm_res _ _).trans hb')).1
      have first : ∀ {a : List Int}, a.length = 256 → ∀ k, k < 256 → ((a.findIdx fun x => decide (B ≤ x.natAbs)) = k ↔ Bad a B k ∧ ∀ i, i < k → ¬ Bad a B i) := by
        intro a hl k hk
        rw [List.findIdx_eq (by omega)]
        refine and_congr (bad hl k (by omega)) ⟨fun h i hi hb => ?_, fun h i hi => ?_⟩
        · have := h i hi
          rw [(bad hl i (by omega)).2 hb] at this
          cases this
        · rw [Bool.eq_false_iff]
          exact fun hc => h i hi ((bad hl i (by omega)).1 hc)
      constructor
      · intro hbad
        have := (first hl k hk).2 ⟨hbad, hpre⟩
        exact ((first hl' k hk).1 (e2 ▸ this)).1
      · intro hbad
        have hlt : (a'.findIdx fun x => decide (B ≤ x.natAbs)) < 256 := by
          rw [← hl', List.findIdx_lt_length]
          exact ⟨a'[k], List.getElem_mem _, (bad hl' k (by omega)).2 hbad⟩
        have h1 := (first hl' _ hlt).1 rfl
        have h2 := (first hl _ hlt).1 e2
        rcases Nat.lt_trichotomy (a'.findIdx fun x => decide (B ≤ x.natAbs)) k with c | c | c
        · exact absurd h2.1 (hpre _ c)
        · rw [← c]; exact h2.1
        · exact absurd hbad (h1.2 k c))
  exact ⟨fun B n => t (B, n), fun a B h1 h2 h3 => ht (a, B) ⟨h1, h2, h3⟩⟩

/-- Different secrets with one trace: the violating coefficient has the other sign, the others differ too. -/
example : (polyChknorm (List.replicate 100 5 ++ 200000 :: List.replicate 155 (-7)) 95232).tr = (polyChknorm (List.replicate 100 (-3) ++ (-100000) :: List.replicate 155 300000) 95232).tr := by
  obtain ⟨t, ht⟩ := ct_dil_chknorm
  rw [ht _ _ (by decide +kernel) (by decide +kernel) (by omega), ht _ _ (by decide +kernel) (by decide +kernel) (by omega)]
  have e1 : ((List.replicate 100 5 ++ 200000 :: List.replicate 155 (-7) : List Int).findIdx fun x => decide (95232 ≤ (x.natAbs : Int))) = 100 := by decide +kernel
  have e2 : ((List.replicate 100 (-3) ++ (-100000) :: List.replicate 155 300000 : List Int).findIdx fun x => decide (95232 ≤ (x.natAbs : Int))) = 100 := by decide +kernel
  rw [e1, e2]

/-! ### Signing -/

/-- Every attempt shows something (its challenge exists). -/
theorem leaks_of {sk m sig : Bytes} {k : Nat} (h : Signs S128 S256 sk m k sig) : ∃ ls, ls.length = k + 1 ∧ Leaks sk m ls := by
  classical
  obtain ⟨X, hX, hr, c, hc, ha, hs⟩ := h
  have ex : ∀ j, j < k + 1 → ∃ l, Leak X j l := fun j hj => by
    by_cases hjk : j < k
    · obtain ⟨c, hc, -⟩ := hr j hjk
      exact ⟨_, c, hc, rfl⟩
    · obtain rfl : j = k := by omega
      exact ⟨_, c, hc, rfl⟩
  refine ⟨(List.range (k + 1)).map fun j => if hj : j < k + 1 then (ex j hj).choose else ([], []), by rw [List.length_map, List.length_range], X, hX, k, sig, ⟨hr, c, hc, ha, hs⟩,
    by rw [List.length_map, List.length_range], fun j l hl => ?_⟩
  rw [List.getElem?_map] at hl
  obtain ⟨i, hi, rfl⟩ := Option.map_eq_some_iff.1 hl
  obtain ⟨hj, rfl⟩ := List.getElem?_eq_some_iff.1 hi
  rw [List.length_range] at hj
  rw [List.getElem_range, dif_pos hj]
  exact (ex j hj).choose_spec

/-- C95, signing with any 2560 bytes as secret key: control flow and addresses show rho (the start of the key), the length of the message and, of each attempt, its
challenge hash, the place of the first coefficient that made it fail and, if it reached the hints, the class of each hint. -/
theorem ct_dil_sign {H128 H256 : Bytes → Nat → Bytes} (h1 : IsShake128 H128) (h2 : IsShake256 H256) :
    ∃ t : Bytes → Nat → List (Bytes × List Nat) → List Ev, ∀ (fuel : Nat) (sig : Bytes) (n : Nat) (m sk : Bytes) (r : Int) (sig' : Bytes) (n' : Nat),
      sig.length = 2420 → sk.length = 2560 → (signature fuel sig n m sk).res = .ok (r, sig', n') →
      r = 0 ∧ n' = 2420 ∧ ∃ k, Signs H128 H256 sk m k sig' ∧ ∃ ls, ls.length = k + 1 ∧ Leaks sk m ls ∧ (signature fuel sig n m sk).tr = t (sk.take 32) m.length ls := by
  obtain rfl := h1.eq
  obtain rfl := h2.eq
  obtain ⟨t, ht⟩ := exists_trace_rel (fun i : Nat × Bytes × Nat × Bytes × Bytes => signature i.1 i.2.1 i.2.2.1 i.2.2.2.1 i.2.2.2.2)
    (fun i (p : Bytes × Nat × List (Bytes × List Nat)) => i.2.1.length = 2420 ∧ i.2.2.2.2.length = 2560 ∧ slice i.2.2.2.2 0 32 = p.1 ∧ i.2.2.2.1.length = p.2.1 ∧ Leaks i.2.2.2.2 i.2.2.2.1 p.2.2)
    (fun i j p hi hj => signature_same hi.2.1 hj.2.1 (hi.2.2.2.1.trans hj.2.2.2.1.symm) (hi.2.2.1.trans hj.2.2.1.symm) hi.2.2.2.2 hj.2.2.2.2 hi.1 hj.1 _ _ _ _)
  refine ⟨fun a b c => t (a, b, c), fun fuel sig n m sk r sig' n' hs hk h => ?_⟩
  have h' := h
  rw [signature_res] at h'
  obtain ⟨a, b, k, c⟩ := Verif.Dilithium.signature_sound hk hs h'
  obtain ⟨ls, hl, hls⟩ := leaks_of c
  exact ⟨a, b, k, c, ls, hl, hls, ht (fuel, sig, n, m, sk) _ _ ⟨hs, hk, by rw [slice, List.drop_zero], rfl, hls⟩ h⟩

/-! ### What the accepted attempt shows is known from public key and signature -/

theorem firstBad_of_norm {g : Nat → Nat → Int} {B : Int} (h : NormLt (vec fun i => mk fun j => cmod (g i j) q) B) : ¬ firstBad B (vec fun i => mk fun j => cmod (g i j) q) < 1024 := by
  rw [firstBad_lt]
  rintro ⟨p, hp, hb⟩
  have := h (p / 256) (by omega) (p % 256) (by omega)
  unfold Bad at hb
  rw [at_vec _ (by omega), co_mk _ (by omega), Verif.Dilithium.cmod_cmod] at this
  rw [at_vec _ (by omega), co_mk _ (by omega)] at hb
  exact hb this

theorem firstBad_le (B : Int) (v : List (List Int)) : firstBad B v ≤ 1024 := by
  unfold firstBad
  have := List.findIdx_le_length (xs := List.range 1024) (p := fun p => decide (¬ (-B < co (at_ v (p / 256)) (p % 256) ∧ co (at_ v (p / 256)) (p % 256) < B)))
  rwa [List.length_range] at this

/-- The error of an accepted attempt is what remains of the verifier's value when the high part is taken away. -/
theorem error_eq {w w' a a' b b' v : Int} (hw : 0 ≤ w ∧ w < 8380417) (hw' : 0 ≤ w' ∧ w' < 8380417) (hh : highBits w = highBits w')
    (e : v % 8380417 = (w - a + b) % 8380417) (e' : v % 8380417 = (w' - a' + b') % 8380417)
    {r r' u u' : Int} (hr : r % 8380417 = (lowBits w - a) % 8380417) (hr' : r' % 8380417 = (lowBits w' - a') % 8380417) (hu : u % 8380417 = b % 8380417) (hu' : u' % 8380417 = b' % 8380417)
    (br : -95154 < r ∧ r < 95154) (br' : -95154 < r' ∧ r' < 95154) (bu : -95232 < u ∧ u < 95232) (bu' : -95232 < u' ∧ u' < 95232) : r + u = r' + u' := by
  have d := (Verif.Dilithium.decompose_spec w hw.1 hw.2).2.2.2
  have d' := (Verif.Dilithium.decompose_spec w' hw'.1 hw'.2).2.2.2
  rw [← hh] at d'
  generalize highBits w = x at *
  generalize lowBits w = l at *
  generalize lowBits w' = l' at *
  omega

theorem accepted_leak {seed seed' pk sk sk' m m' sig : Bytes} {X X' : Ctx} {k : Nat} (hk : KeyGen S128 S256 seed pk sk) (hk' : KeyGen S128 S256 seed' pk sk')
    (hX : IsCtx S128 S256 sk m X) (hX' : IsCtx S128 S256 sk' m' X') (hs : SignsAt S256 X k sig) (hs' : SignsAt S256 X' k sig) : ∃ l, Leak X k l ∧ Leak X' k l := by
  have hsl := Verif.Dilithium.signs_length ⟨X, hX, hs⟩
  obtain ⟨-, c, hc, ha, e⟩ := hs
  obtain ⟨-, c', hc', ha', e'⟩ := hs'
  have parts : ∀ {Y : Ctx} {c : List Int}, Accept S256 Y k c → Verif.Dilithium.SigParts (cTilde S256 Y k) (zOf S256 Y k c) (hOf S256 Y k c) := by
    intro Y c ha
    refine ⟨Verif.Keccak.length_stream .., length_vec _, fun x hx => ?_, ⟨length_vec _, Verif.Dilithium.hOf_bits Y k c⟩, ha.2.2.2⟩
    obtain ⟨i, hi, rfl⟩ := Verif.Dilithium.mem_vec hx
    refine ⟨length_mk _, fun v hv => ?_⟩
    obtain ⟨j, hj, rfl⟩ := Verif.Dilithium.mem_mk hv
    have := ha.1 i hi j hj
    unfold zOf at this
    rw [at_vec _ hi, co_mk _ hj, Verif.Dilithium.cmod_cmod] at this
    omega
  obtain ⟨r, -, hr⟩ := Verif.Dilithium.unpackSig_iff hsl
  have p1 := (hr _ _ _).2 ⟨parts ha, e⟩
  have p2 := (hr _ _ _).2 ⟨parts ha', e'⟩
  rw [p1] at p2
  injection p2 with p2
  injection p2 with ect p2
  injection p2 with ez eh
  have ecc : c' = c := Verif.Dilithium.ball_unique (s := cTilde S256 X k) (Verif.Keccak.length_stream ..) (by rw [ect]; exact hc') hc
  subst ecc
  obtain ⟨hA, -, hw1, hid⟩ := Verif.Dilithium.signs_facts hk hX ha
  obtain ⟨hA', -, hw1', hid'⟩ := Verif.Dilithium.signs_facts hk' hX' ha'
  have eA := Verif.Dilithium.matrix_unique hA hA'
  rw [← eA, ← ez, ← eh] at hw1'
  rw [← eA, ← ez] at hid'
  have ew := hw1.symm.trans hw1'
  refine ⟨_, ⟨c', hc, rfl⟩, c', hc', ?_⟩
  rw [← ect]
  refine congrArg _ ?_
  have hwR : VRes (wOf S256 X k) := Verif.Dilithium.matVec_VRes _ _
  have hwR' : VRes (wOf S256 X' k) := Verif.Dilithium.matVec_VRes _ _
  have one : ∀ {Y : Ctx}, Accept S256 Y k c' → leakOf Y k c' = 1024 :: 1024 :: 1024 :: classes Y k c' := by
    intro Y h
    have b1 := firstBad_of_norm h.1
    have b2 := firstBad_of_norm h.2.1
    have b3 := firstBad_of_norm h.2.2.1
    have l1 := firstBad_le (131072 - 78) (zOf S256 Y k c')
    have l2 := firstBad_le (95232 - 78) (r0Of S256 Y k c')
    have l3 := firstBad_le 95232 (ct0Of Y c')
    have e1 : firstBad (131072 - 78) (zOf S256 Y k c') = 1024 := Nat.le_antisymm l1 (Nat.not_lt.1 b1)
    have e2 : firstBad (95232 - 78) (r0Of S256 Y k c') = 1024 := Nat.le_antisymm l2 (Nat.not_lt.1 b2)
    have e3 : firstBad 95232 (ct0Of Y c') = 1024 := Nat.le_antisymm l3 (Nat.not_lt.1 b3)
    unfold leakOf
    rw [e1, e2, e3, if_neg (by omega), if_neg (by omega), if_neg (by omega)]
  rw [one ha, one ha']
  refine congrArg _ (congrArg _ (congrArg _ ?_))
  unfold classes
  refine List.map_congr_left fun p hp => ?_
  have hp := List.mem_range.1 hp
  have hi : p / 256 < 4 := by omega
  have hj : p % 256 < 256 := by omega
  generalize p / 256 = i at *
  generalize p % 256 = j at *
  have hh : highBits (co (at_ (wOf S256 X k) i) j) = highBits (co (at_ (wOf S256 X' k) i) j) := by
    have := congrArg (fun v => co (at_ v i) j) ew
    rwa [Verif.Dilithium.map_map_vec _ _ hwR.1 fun i hi => (hwR.2 i hi).1, Verif.Dilithium.map_map_vec _ _ hwR'.1 fun i hi => (hwR'.2 i hi).1, at_vec _ hi, at_vec _ hi, co_mk _ hj, co_mk _ hj] at this
  have val : ∀ {Y : Ctx}, Accept S256 Y k c' → co (at_ (r0Of S256 Y k c') i) j % 8380417 = (lowBits (co (at_ (wOf S256 Y k) i) j) - co (mul c' (at_ Y.s2 i)) j) % 8380417 ∧
      co (at_ (ct0Of Y c') i) j % 8380417 = co (mul c' (at_ Y.t0 i)) j % 8380417 ∧ (-95154 < co (at_ (r0Of S256 Y k c') i) j ∧ co (at_ (r0Of S256 Y k c') i) j < 95154) ∧
      (-95232 < co (at_ (ct0Of Y c') i) j ∧ co (at_ (ct0Of Y c') i) j < 95232) := by
    intro Y h
    have n1 := h.2.1 i hi j hj
    have n2 := h.2.2.1 i hi j hj
    unfold r0Of ct0Of
    unfold r0Of at n1
    unfold ct0Of at n2
    rw [at_vec _ hi, co_mk _ hj, Verif.Dilithium.cmod_cmod] at n1 n2
    rw [at_vec _ hi, co_mk _ hj, at_vec _ hi, co_mk _ hj]
    exact ⟨Verif.Dilithium.cmod_mod _, Verif.Dilithium.cmod_mod _, n1, n2⟩
  obtain ⟨r1, r2, r3, r4⟩ := val ha
  obtain ⟨s1, s2, s3, s4⟩ := val ha'
  rw [hh]
  exact congrArg (fun x => hintClass x _) (error_eq ((hwR.2 i hi).2 j hj) ((hwR'.2 i hi).2 j hj) hh (hid i hi j hj) (hid' i hi j hj) r1 s1 r2 s2 r3 s3 r4 s4)

/-- C95, signing with a generated key: beyond the public key, the length of the message and the signature, control flow and addresses show only what the rejected
attempts show. -/
theorem ct_dil_sign_rejected {H128 H256 : Bytes → Nat → Bytes} (h1 : IsShake128 H128) (h2 : IsShake256 H256) :
    ∃ t : Bytes → Nat → Bytes → List (Bytes × List Nat) → List Ev, ∀ (fuel : Nat) (sig : Bytes) (n : Nat) (m seed pk sk : Bytes) (r : Int) (sig' : Bytes) (n' : Nat),
      sig.length = 2420 → KeyGen H128 H256 seed pk sk → (signature fuel sig n m sk).res = .ok (r, sig', n') →
      r = 0 ∧ n' = 2420 ∧ Valid H128 H256 pk m sig' ∧ ∃ ls, Rejected sk m sig' ls ∧ (signature fuel sig n m sk).tr = t pk m.length sig' ls := by
  obtain rfl := h1.eq
  obtain rfl := h2.eq
  obtain ⟨t, ht⟩ := exists_trace_rel (fun i : Nat × Bytes × Nat × Bytes × Bytes => signature i.1 i.2.1 i.2.2.1 i.2.2.2.1 i.2.2.2.2)
    (fun i (p : Bytes × Nat × Bytes × List (Bytes × List Nat)) => i.2.1.length = 2420 ∧ (∃ seed, KeyGen S128 S256 seed p.1 i.2.2.2.2) ∧ i.2.2.2.1.length = p.2.1 ∧
      Rejected i.2.2.2.2 i.2.2.2.1 p.2.2.1 p.2.2.2)
    (fun i j p hi hj => by
      obtain ⟨fuel, sg, n, m, sk⟩ := i
      obtain ⟨fuel', sg', n', m', sk'⟩ := j
      obtain ⟨pk, l, sig, ls⟩ := p
      obtain ⟨a1, ⟨seed, a2⟩, a3, X, hX, hs, hl⟩ := hi
      obtain ⟨b1, ⟨seed', b2⟩, b3, X', hX', hs', hl'⟩ := hj
      dsimp only at *
      obtain ⟨e, he, he'⟩ := accepted_leak a2 b2 hX hX' hs hs'
      have snoc : ∀ {Y : Ctx}, (∀ j l, ls[j]? = some l → Leak Y j l) → Leak Y ls.length e → ∀ j l, (ls ++ [e])[j]? = some l → Leak Y j l := by
        intro Y h h' j l hj
        rw [List.getElem?_append] at hj
        split at hj
        · exact h j l hj
        · rename_i hlt
          obtain ⟨q, e'⟩ := List.getElem?_eq_some_iff.1 hj
          have hq : j - ls.length < 1 := q
          obtain rfl : j = ls.length := by omega
          simp at hj
          rw [← hj]; exact h'
      have g := Verif.Dilithium.keygen_parts a2
      have g' := Verif.Dilithium.keygen_parts b2
      exact signature_same g.2.1 g'.2.1 (a3.trans b3.symm) (g.2.2.symm.trans g'.2.2) ⟨X, hX, _, _, hs, by rw [List.length_append]; rfl, snoc hl he⟩
        ⟨X', hX', _, _, hs', by rw [List.length_append]; rfl, snoc hl' he'⟩ a1 b1 _ _ _ _)
  refine ⟨fun a b c d => t (a, b, c, d), fun fuel sig n m seed pk sk r sig' n' hs hk h => ?_⟩
  have h' := h
  rw [signature_res] at h'
  obtain ⟨a, b, k, c⟩ := Verif.Dilithium.signature_sound (Verif.Dilithium.keygen_parts hk).2.1 hs h'
  refine ⟨a, b, Verif.Dilithium.signs_valid hk c, ?_⟩
  obtain ⟨ls, hl, X, hX, k', sg, hk', hl', hls⟩ := leaks_of c
  obtain ⟨Y, hY, hYs⟩ := c
  obtain ⟨A, hA, rfl⟩ := Verif.Dilithium.ctx_iff.1 hX
  obtain ⟨A', hA', rfl⟩ := Verif.Dilithium.ctx_iff.1 hY
  cases Verif.Dilithium.matrix_unique hA hA'
  have R : Rejected sk m sig' (ls.take k) := ⟨_, hX, by rw [List.length_take, hl, Nat.min_eq_left (by omega)]; exact hYs, fun j l hj => hls j l (by
    rw [List.getElem?_take] at hj
    split at hj
    · exact hj
    · cases hj)⟩
  exact ⟨_, R, ht (fuel, sig, n, m, sk) _ _ ⟨hs, ⟨seed, hk⟩, rfl, R⟩ h⟩

/-! ### The hypotheses are met -/

/-- A run of key generation and of signing under the generated key, in which the first attempt is accepted: then the trace is known from public key and signature. -/
example : ∃ (fuel : Nat) (pk sk sig : Bytes), KeyGen S128 S256 (7 :: List.replicate 31 0) pk sk ∧
    (keypairSeed fuel (List.replicate 1312 0) (List.replicate 2560 0) (7 :: List.replicate 31 0)).res = .ok (0, pk, sk) ∧
    (signature fuel (List.replicate 2420 0) 0 [2] sk).res = .ok (0, sig, 2420) ∧ Rejected sk [2] sig [] := by
  obtain ⟨pk, sk, sig, hk, X, hX, hs⟩ := Verif.Witness.dilithium_run
  obtain ⟨F, hF⟩ := Verif.Dilithium.keypairSeed_complete (pk := List.replicate 1312 0) (sk := List.replicate 2560 0) List.length_replicate List.length_replicate
    (by rw [List.length_cons, List.length_replicate]) hk
  obtain ⟨G, hG⟩ := Verif.Dilithium.signature_complete (sig := List.replicate 2420 0) 0 (Verif.Dilithium.keygen_parts hk).2.1 List.length_replicate ⟨X, hX, hs⟩
  exact ⟨max F G, pk, sk, sig, hk, (keypairSeed_res _ _ _ _).trans (hF _ (Nat.le_max_left _ _)), (signature_res _ _ _ _ _).trans (hG _ (Nat.le_max_right _ _)),
    X, hX, hs, fun j l hj => by cases hj⟩

end Verif.Ct.Dilithium
