import Verif.Dilithium.UnbiasedBall

/-! Property C105: the samplers of Dilithium are unbiased. -/

namespace Verif.Dilithium
open Verif Spec

/-- The polynomial, when all 256 coefficients were found (compare dilithium2/poly.c:360 and 439, where the count is compared with N). -/
def filled (r : C (Poly × Nat)) : Option (List Int) := match r with
  | .ok (a, 256) => some a
  | _ => none

theorem filled_splice {a : Poly} (ha : a.length = 256) (l : List Int) :
    filled (.ok (splice a 0 (l.take 256), (l.take 256).length)) = first256 l := by
  unfold first256
  by_cases h : 256 ≤ l.length
  · have e : (l.take 256).length = 256 := by rw [List.length_take]; omega
    rw [if_pos h]
    have : splice a 0 (l.take 256) = l.take 256 := by
      unfold splice
      rw [List.take_zero, List.nil_append, List.drop_of_length_le (by rw [e, ha]), List.append_nil]
    rw [this]
    unfold filled
    rw [e]
    generalize l.take 256 = r
    rfl
  · have e : (l.take 256).length ≠ 256 := by rw [List.length_take]; omega
    rw [if_neg h]
    unfold filled
    split
    · rename_i heq
      injection heq with heq
      injection heq with _ h2
      exact absurd h2 e
    · rfl

/-- The rejection loops and the mask decoder: over the byte strings of any fixed length, every polynomial of the target set comes out
of equally many, whatever was in the polynomial before. -/
theorem rejection_unbiased (a : Poly) (ha : a.length = 256) :
    Unbiased (fun b => filled (rejUniform a 0 256 b b.length)) (PolyIn 0 8380416) 768
    ∧ Unbiased (fun b => filled (rejEta a 0 256 b b.length)) (PolyIn (-2) 2) 128
    ∧ Unbiased (fun b => if 576 ≤ b.length then (polyzUnpack b 0).toOption else none) (PolyIn (-131071) 131072) 576 := by
  refine ⟨?_, ?_, ?_⟩
  · have : (fun b : Bytes => filled (rejUniform a 0 256 b b.length)) = uniformOf := by
      funext b
      rw [rejUniform_ok (Nat.le_refl _) (by omega), List.take_length, filled_splice ha]; rfl
    rw [this]; exact uniformOf_unbiased
  · have : (fun b : Bytes => filled (rejEta a 0 256 b b.length)) = etaOf := by
      funext b
      rw [rejEta_ok (Nat.le_refl _) (by omega), List.take_length, filled_splice ha]; rfl
    rw [this]; exact etaOf_unbiased
  · have : (fun b : Bytes => if 576 ≤ b.length then (polyzUnpack b 0).toOption else none) = maskOf := by
      funext b
      unfold maskOf
      split
      · rename_i h
        rw [polyzUnpack_ok (by omega)]; rfl
      · rfl
    rw [this]; exact maskOf_unbiased

/-- A polynomial to start from and one of every target set (dilithium2/poly.c:311-412). -/
example : (List.replicate 256 (7 : Int)).length = 256 ∧ PolyIn 0 8380416 (List.replicate 256 8380416) ∧ PolyIn (-2) 2 (List.replicate 256 (-2))
    ∧ PolyIn (-131071) 131072 (List.replicate 256 131072)
    ∧ filled (rejUniform (List.replicate 256 7) 0 256 (List.replicate 768 1) 768) = some (List.replicate 256 65793) := by
  unfold PolyIn
  refine ⟨by decide +kernel, by decide +kernel, by decide +kernel, by decide +kernel, ?_⟩
  rw [rejUniform_ok (by rw [List.length_replicate]) (by rw [List.length_replicate])]
  decide +kernel

/-- The samplers as functions of the whole stream, the challenge included: every polynomial of the target set belongs to equally many streams. -/
theorem sampling_unbiased :
    Unbiased uniformOf (PolyIn 0 8380416) 768 ∧ Unbiased etaOf (PolyIn (-2) 2) 128 ∧ Unbiased ballOf BallElement 47 :=
  ⟨uniformOf_unbiased, etaOf_unbiased, ballOf_unbiased⟩

/-- A challenge polynomial and a stream it comes from (dilithium2/poly.c:480-515). -/
example : BallElement (List.replicate 39 (-1) ++ List.replicate 217 0) ∧ ∃ c, ballOf (List.replicate 47 3) = some c ∧ BallElement c := by
  constructor
  · unfold BallElement; decide +kernel
  · obtain ⟨c, h⟩ : ∃ c, ballOf (List.replicate 47 3) = some c := Option.isSome_iff_exists.1 (by decide +kernel)
    exact ⟨c, h, ballOf_unbiased.range _ _ h⟩

/-- The code's samplers return what these functions give on the SHAKE streams of seed and nonce, with any number of refills. -/
theorem sampling_of_streams :
    (∀ (seed : Bytes) (nonce : BitVec 16) (a : Poly), seed.length = 32 →
      ((∃ fuel, polyUniform fuel seed nonce = .ok a) ↔ ∃ n, uniformOf (S128 (seed ++ le16 nonce.toNat) n) = some a))
    ∧ (∀ (seed : Bytes) (nonce : BitVec 16) (a : Poly), seed.length = 64 →
      ((∃ fuel, polyUniformEta fuel seed nonce = .ok a) ↔ ∃ n, etaOf (S256 (seed ++ le16 nonce.toNat) n) = some a))
    ∧ (∀ (seed : Bytes) (nonce : BitVec 16), seed.length = 64 →
      polyUniformGamma1 seed nonce = (polyzUnpack (S256 (seed ++ le16 nonce.toNat) 576) 0))
    ∧ (∀ (seed : Bytes) (c : Poly), seed.length = 32 →
      ((∃ fuel, polyChallenge fuel seed = .ok c) ↔ ∃ n, ballOf (S256 seed n) = some c)) := by
  refine ⟨fun seed nonce a hs => ⟨fun ⟨f, h⟩ => polyUniform_sound hs h, fun h => ?_⟩, fun seed nonce a hs => ⟨fun ⟨f, h⟩ => polyUniformEta_sound hs h, fun h => ?_⟩,
    fun seed nonce hs => ?_, fun seed c hs => ⟨fun ⟨f, h⟩ => polyChallenge_sound hs h, fun h => ?_⟩⟩
  · obtain ⟨F, hF⟩ := polyUniform_complete hs h
    exact ⟨F, hF F (Nat.le_refl _)⟩
  · obtain ⟨F, hF⟩ := polyUniformEta_complete hs h
    exact ⟨F, hF F (Nat.le_refl _)⟩
  · have hl : (S256 (seed ++ le16 nonce.toNat) 576).length = 576 := Keccak.length_stream ..
    rw [polyUniformGamma1_ok hs, polyzUnpack_ok (by omega)]
    unfold mask slice
    rw [List.drop_zero, List.take_of_length_le (by omega)]
  · obtain ⟨F, hF⟩ := polyChallenge_complete hs h
    exact ⟨F, hF F (Nat.le_refl _)⟩

/-- Seeds of both lengths (dilithium2/poly.c:347, 425, 452, 480). -/
example : (List.replicate 32 (1 : Byte)).length = 32 ∧ (List.replicate 64 (1 : Byte)).length = 64 := by decide

end Verif.Dilithium
