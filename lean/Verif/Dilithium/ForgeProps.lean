import Verif.Dilithium.Forge
import Verif.Dilithium.Props
import Verif.Witness.Check

/-!
The property C97: accepted Dilithium signatures are solutions of lattice problems.
-/

namespace Verif.Dilithium
open Verif Spec Keccak

variable {H128 H256 : Bytes → Nat → Bytes}

theorem accepted_valid (h1 : IsShake128 H128) (h2 : IsShake256 H256) {fuel : Nat} {pk sig m : Bytes} (hpk : pk.length = 1312) (hsig : sig.length = 2420)
    (h : verify fuel sig 2420 m pk = .ok 0) : Valid H128 H256 pk m sig := by
  rcases (dil_verify_spec h1 h2 hpk hsig).2.1 fuel 0 h with ⟨-, h⟩ | ⟨h, -⟩
  · exact h
  · omega

/-- C97: whatever verification accepts is a solution of SelfTargetMSIS for the public key. -/
theorem dil_accepted (h1 : IsShake128 H128) (h2 : IsShake256 H256) {fuel : Nat} {pk sig m : Bytes} (hpk : pk.length = 1312) (hsig : sig.length = 2420)
    (h : verify fuel sig 2420 m pk = .ok 0) : ∃ A c u w1 h, Checked H128 H256 pk m sig A c u w1 h := by
  have hv := accepted_valid h1 h2 hpk hsig h
  obtain rfl := h1.eq
  obtain rfl := h2.eq
  exact valid_solution hv

/-- C97, two solutions with one w1: their difference is a short relation, which is not zero if the challenges or the vectors z differ. -/
theorem dil_same_commitment (h1 : IsShake128 H128) {pk m m' sig sig' : Bytes} {A A' : List Vec} {c c' : List Int} {u u' w1 h h' : Vec}
    (hs : Solution H128 H256 pk m sig A c u w1 h) (hs' : Solution H128 H256 pk m' sig' A' c' u' w1 h') :
    Relation H128 pk (diffV (zOfSig sig) (zOfSig sig')) (diff c c') (diffV u u') ∧
      (c ≠ c' ∨ zOfSig sig ≠ zOfSig sig' → Nonzero (diffV (zOfSig sig) (zOfSig sig')) (diff c c')) := by
  obtain rfl := h1.eq
  obtain rfl := matrix_unique hs.matrix hs'.matrix
  refine ⟨⟨short_diff hs.hz hs'.hz, ⟨length_mk _, fun j hj => ?_⟩, short_diff hs.hu hs'.hu, ⟨A, hs.matrix, equation_diff hs.eq hs'.eq⟩⟩, fun hne => ?_⟩
  · have b1 := hs.ones.2.1 _ (co_mem (i := j) (by rw [hs.ones.1]; exact hj))
    have b2 := hs'.ones.2.1 _ (co_mem (i := j) (by rw [hs'.ones.1]; exact hj))
    unfold diff
    rw [co_mk _ hj]
    omega
  · by_contra hc
    unfold Nonzero at hc
    rw [not_or] at hc
    obtain ⟨hz, hc⟩ := hc
    refine hne.elim (fun hn => hn (co_ext hs.ones.1 hs'.ones.1 fun j hj => ?_)) (fun hn => hn (vec_ext hs.hz.1 hs'.hz.1 fun i hi => co_ext (hs.hz.2 i hi).1 (hs'.hz.2 i hi).1 fun j hj => ?_))
    · by_contra he
      refine hc ⟨j, hj, ?_⟩
      unfold diff
      rw [co_mk _ hj]
      omega
    · by_contra he
      refine hz ⟨i, j, hi, hj, ?_⟩
      have e : at_ (diffV (zOfSig sig) (zOfSig sig')) i = diff (at_ (zOfSig sig) i) (at_ (zOfSig sig') i) := at_vec _ hi
      rw [e]
      unfold diff
      rw [co_mk _ hj]
      omega

/-- C97: the matrix, the challenge, the error, the vector w1 and the hints of an accepted signature are determined by it and the public key, so that the string that is hashed is one explicit string. -/
theorem checked_unique (h1 : IsShake128 H128) (h2 : IsShake256 H256) {pk m m' sig : Bytes} {A A' : List Vec} {c c' : List Int} {u w1 h u' w1' h' : Vec}
    (hs : Checked H128 H256 pk m sig A c u w1 h) (hs' : Checked H128 H256 pk m' sig A' c' u' w1' h') : A = A' ∧ c = c' ∧ u = u' ∧ w1 = w1' ∧ h = h' := by
  obtain rfl := h1.eq
  obtain rfl := h2.eq
  obtain rfl := matrix_unique hs.matrix hs'.matrix
  have hl := hs.len
  obtain rfl : c = c' := ball_unique (by rw [slice, List.length_take, List.length_drop]; omega) hs.chal hs'.chal
  have bz : ∀ x ∈ zOfSig sig, x.length = 256 ∧ ∀ v ∈ x, -131072 < v ∧ v ≤ 131072 := fun x hx => by
    obtain ⟨i, hi, rfl⟩ := mem_at hx
    rw [hs.hz.1] at hi
    have := hs.hz.2 i hi
    refine ⟨this.1, fun v hv => ?_⟩
    obtain ⟨j, hj, rfl⟩ := mem_co hv
    have := this.2 j (by omega)
    omega
  have l0 : (slice sig 0 32).length = 32 := by rw [slice, List.length_take, List.length_drop]; omega
  obtain ⟨r, -, hr⟩ := unpackSig_iff hl
  obtain rfl : h = h' := by
    have a := (hr _ _ _).2 ⟨⟨l0, hs.hz.1, bz, hs.hint.1, hs.hint.2⟩, hs.decoded⟩
    have b := (hr _ _ _).2 ⟨⟨l0, hs.hz.1, bz, hs'.hint.1, hs'.hint.2⟩, hs'.decoded⟩
    simpa using a.symm.trans b
  obtain rfl := hs.recovered.trans hs'.recovered.symm
  refine ⟨rfl, rfl, ?_, rfl, rfl⟩
  refine vec_ext hs.hu.1 hs'.hu.1 fun i hi => co_ext (hs.hu.2 i hi).1 (hs'.hu.2 i hi).1 fun j hj => ?_
  have b1 := (hs.hu.2 i hi).2 j hj
  have b2 := (hs'.hu.2 i hi).2 j hj
  have e1 := hs.eq i hi j hj
  have e2 := hs'.eq i hi j hj
  unfold q at e1 e2
  omega

theorem same_challenge_of_valid {pk sig sig' m m' : Bytes} (hsig : sig.length = 2420)
    (hv : Valid S128 S256 pk m sig) (hv' : Valid S128 S256 pk m' sig') (hc : sig.take 32 = sig'.take 32) :
    ∃ A c u w1 h u' w1' h', Checked S128 S256 pk m sig A c u w1 h ∧ Checked S128 S256 pk m' sig' A c u' w1' h' ∧
    ((m = m' ∧ sig = sig') ∨
    (m ≠ m' ∧ S256 (S256 pk 64 ++ m) 64 = S256 (S256 pk 64 ++ m') 64) ∨
    (hashed S256 pk m w1 ≠ hashed S256 pk m' w1' ∧ S256 (hashed S256 pk m w1) 32 = S256 (hashed S256 pk m' w1') 32) ∨
    (m = m' ∧ Relation S128 pk (diffV (zOfSig sig) (zOfSig sig')) (mk fun _ => 0) (diffV u u') ∧ Nonzero (diffV (zOfSig sig) (zOfSig sig')) (mk fun _ => 0))) := by
  obtain ⟨A, c, u, w1, g, hs⟩ := valid_solution hv
  obtain ⟨A', c', u', w1', g', hs'⟩ := valid_solution hv'
  obtain ⟨e1, e2, e1', e2'⟩ := And.intro hs.decoded (And.intro hs.recovered (And.intro hs'.decoded hs'.recovered))
  have hc' : slice sig 0 32 = slice sig' 0 32 := by unfold slice; rw [List.drop_zero, List.drop_zero]; exact hc
  obtain rfl := matrix_unique hs.matrix hs'.matrix
  have hcc : c = c' := ball_unique (by rw [slice, List.length_take, List.length_drop]; omega) hs.chal (hc' ▸ hs'.chal)
  subst hcc
  refine ⟨A, c, u, w1, g, u', w1', g', hs, hs', ?_⟩
  have hash : S256 (hashed S256 pk m w1) 32 = S256 (hashed S256 pk m' w1') 32 := hs.hash.symm.trans (hc'.trans hs'.hash)
  by_cases hmu : S256 (S256 pk 64 ++ m) 64 = S256 (S256 pk 64 ++ m') 64
  · by_cases hm : m = m'
    · subst hm
      by_cases hw : w1 = w1'
      · subst hw
        by_cases hz : zOfSig sig = zOfSig sig'
        · left
          refine ⟨rfl, ?_⟩
          have hh : g = g' := by
            refine vec_ext hs.hint.1.1 hs'.hint.1.1 fun i hi => ?_
            have l1 := hs.hint.1.2 _ (at_mem (i := i) (by rw [hs.hint.1.1]; exact hi))
            have l2 := hs'.hint.1.2 _ (at_mem (i := i) (by rw [hs'.hint.1.1]; exact hi))
            refine co_ext l1.1 l2.1 fun j hj => ?_
            have e := congrArg (fun v => co (at_ v i) j) (e2.symm.trans e2')
            rw [← hz] at e
            have a1 : ∀ h, at_ (w1Of A (zOfSig sig) (t1Of pk) h c) i = mk fun j => Spec.useHint (co (at_ h i) j) (co (at_ (wApprox A (zOfSig sig) (t1Of pk) c) i) j) := fun h => at_vec _ hi
            simp only [a1] at e
            rw [co_mk _ hj, co_mk _ hj] at e
            have vr : 0 ≤ co (at_ (wApprox A (zOfSig sig) (t1Of pk) c) i) j ∧ co (at_ (wApprox A (zOfSig sig) (t1Of pk) c) i) j < 8380417 := by
              have e' : at_ (wApprox A (zOfSig sig) (t1Of pk) c) i = Spec.sub (at_ (matVec A (zOfSig sig)) i) (Spec.mul c (scale 8192 (at_ (t1Of pk) i))) := at_vec _ hi
              rw [e']
              exact (res_mk _).2 j hj
            exact useHint_inj vr.1 vr.2 (l1.2 _ (co_mem (by rw [l1.1]; exact hj))) (l2.2 _ (co_mem (by rw [l2.1]; exact hj))) e
          rw [e1, e1', hc', hz, hh]
        · right; right; right
          have r := dil_same_commitment isShake128_S128 hs.toSolution hs'.toSolution
          have : diff c c = mk fun _ => 0 := by unfold diff; refine congrArg mk (funext fun j => ?_); omega
          rw [this] at r
          exact ⟨rfl, r.1, r.2 (Or.inr hz)⟩
      · right; right; left
        refine ⟨fun he => hw ?_, hash⟩
        unfold hashed at he
        have he := List.append_cancel_left he
        have g : ∀ w : Vec, (w.length = 4 ∧ ∀ i, i < 4 → (at_ w i).length = 256 ∧ ∀ j, j < 256 → 0 ≤ co (at_ w i) j ∧ co (at_ w i) j ≤ 43) →
            (vec fun i => unpackPos 6 (slice (w.flatMap (packPos 6)) (i * 192) 192)) = w := fun w hw => by
          have b : ∀ x ∈ w, x.length = 256 ∧ ∀ v ∈ x, 0 ≤ v ∧ v < 2 ^ 6 := fun x hx => by
            obtain ⟨i, hi, rfl⟩ := mem_at hx
            have := hw.2 i (by omega)
            refine ⟨this.1, fun v hv => ?_⟩
            obtain ⟨j, hj, rfl⟩ := mem_co hv
            have := this.2 j (by omega)
            omega
          exact vec_decode hw.1 (packPos 6) (unpackPos 6) 192 (fun x hx => length_packPos (b x hx).1) (fun x hx => unpackPos_packPos (b x hx).1 (b x hx).2)
        rw [← g w1 hs.hw1, ← g w1' hs'.hw1, he]
    · right; left; exact ⟨hm, hmu⟩
  · right; right; left
    refine ⟨fun he => hmu ?_, hash⟩
    unfold hashed at he
    exact (List.append_inj he (by rw [length_stream, length_stream])).1


/-- C97, two accepted signatures that begin with the same 32 bytes (the challenge hash): they are one signature of one message, or the two strings hashed to the
message representative or to the challenge are a collision of SHAKE256, or the difference of the two vectors z (with that of the errors u) is a short relation with no challenge
part (a short vector of the lattice of (A, I)).  In particular nobody can turn an accepted signature into another one of the same message
by changing hints. -/
theorem dil_same_challenge (h1 : IsShake128 H128) (h2 : IsShake256 H256) {f f' : Nat} {pk sig sig' m m' : Bytes} (hpk : pk.length = 1312) (hsig : sig.length = 2420) (hsig' : sig'.length = 2420)
    (h : verify f sig 2420 m pk = .ok 0) (h' : verify f' sig' 2420 m' pk = .ok 0) (hc : sig.take 32 = sig'.take 32) :
    ∃ A c u w1 h u' w1' h', Checked H128 H256 pk m sig A c u w1 h ∧ Checked H128 H256 pk m' sig' A c u' w1' h' ∧
    ((m = m' ∧ sig = sig') ∨
    (m ≠ m' ∧ H256 (H256 pk 64 ++ m) 64 = H256 (H256 pk 64 ++ m') 64) ∨
    (hashed H256 pk m w1 ≠ hashed H256 pk m' w1' ∧ H256 (hashed H256 pk m w1) 32 = H256 (hashed H256 pk m' w1') 32) ∨
    (m = m' ∧ Relation H128 pk (diffV (zOfSig sig) (zOfSig sig')) (mk fun _ => 0) (diffV u u') ∧ Nonzero (diffV (zOfSig sig) (zOfSig sig')) (mk fun _ => 0))) := by
  have hv := accepted_valid h1 h2 hpk hsig h
  have hv' := accepted_valid h1 h2 hpk hsig' h'
  obtain rfl := h1.eq
  obtain rfl := h2.eq
  exact same_challenge_of_valid hsig hv hv' hc

/-- The hypotheses of C97 are met: an accepted signature, and the solution that it is. -/
example : ∃ fuel pk sig, pk.length = 1312 ∧ sig.length = 2420 ∧ verify fuel sig 2420 [2] pk = .ok 0 ∧ ∃ A c u w1 h, Checked S128 S256 pk [2] sig A c u w1 h := by
  obtain ⟨pk, sk, sig, hk, hs⟩ := Verif.Witness.dilithium_run
  have hp := (keygen_parts hk).1
  have hl := signs_length hs
  obtain ⟨F, hF⟩ := (dil_verify_spec isShake128_S128 isShake256_S256 hp hl).2.2 (signs_valid hk hs)
  exact ⟨F, pk, sig, hp, hl, hF F (Nat.le_refl _), dil_accepted isShake128_S128 isShake256_S256 hp hl (hF F (Nat.le_refl _))⟩

end Verif.Dilithium
