import Verif.Witness.HybridC
import Verif.Dilithium.Other
import Verif.Conc.RaceFalse

/-!
The signatures of the two runs are not valid for another message.
-/

namespace Verif.Witness
open Verif Verif.Dilithium Verif.Dilithium.Spec

theorem length_pack_w (X : Ctx) (k : Nat) : (((wOf S256 X k).map (·.map highBits)).flatMap (packPos 6)).length = 768 := by
  rw [length_flatMap_vec (k := 192) (by rw [List.length_map]; exact length_vec _) fun x hx => by
    obtain ⟨w, hw, rfl⟩ := List.mem_map.1 hx
    unfold wOf matVec at hw
    obtain ⟨i, hi, rfl⟩ := mem_vec hw
    rw [length_packPos (by rw [List.length_map]; exact length_mk _)]]

/-- The signature of a run is not one of `y` if the challenge hash for `y` is another one. -/
theorem Run.only {seed msg : Bytes} (R : Run seed msg) {y : Bytes} {l yN mN cN : Nat} (hl : 64 + y.length = l) (hy : ofLe y = yN) (k1 : shakeN 136 l (join R.tr 512 yN) 1 % 2 ^ 512 = mN)
    (k2 : shakeN 136 832 (join mN 512 (digN 6 (mapL hiN (appL (R.w 0) (appL (R.w 1) (appL (R.w 2) (R.w 3))))))) 1 % 2 ^ 256 = cN) (hne : cN ≠ R.ct) :
    ∃ pk sk sig, KeyGen S128 S256 seed pk sk ∧ Signs S128 S256 sk msg 0 sig ∧ ¬ Valid S128 S256 pk y sig := by
  obtain ⟨pk, sk, sig, X, hk, htr, hX, hw, hct, hs⟩ := R.signs_num
  have hg : Signs S128 S256 sk msg 0 sig := ⟨X, hX, hs⟩
  refine ⟨pk, sk, sig, hk, hg, fun hv => hne ?_⟩
  have e := (signed_valid_iff hk hX hs (signs_length hg)).1 hv
  have l1 : (S256 pk 64).length = 64 := Keccak.length_stream ..
  have l2 : (S256 (S256 pk 64 ++ y) 64).length = 64 := Keccak.length_stream ..
  have e2 : ofLe (S256 (S256 pk 64 ++ y) 64) = mN := by
    rw [ofLe_S256 (k := 1) (w := 512) (by omega) (l := l) (by rw [List.length_append, l1, hl]) (ofLe_join l1 htr rfl hy) rfl, k1]
  have e3 := congrArg ofLe e
  rw [ofLe_S256 (k := 1) (w := 256) (by omega) (l := 832) (by rw [List.length_append, l2, length_pack_w]) (ofLe_join l2 e2 rfl hw) rfl, k2, hct] at e3
  exact e3

namespace Run7
set_option maxRecDepth 100000

/-- The message representative of [3] (compare dilithium2/sign.c:130-134). -/
def mu3 : Nat := 5837686072683958775058156161896555645042172892090886629188650075858718442951079480156506534404724560551196417810684132504764570062808957002658779330836139
/-- The challenge hash for it and the w of the run for [2] (compare dilithium2/sign.c:315-321). -/
def ct3 : Nat := 71943162592393929831735687202808780669777244898818889598043877588299928413210
/-- The message representative of the compact hash of [3] (compare dilithium2/sign.c:130-134). -/
def muC3 : Nat := 7686802873188162139583645123959635235693323472294677076729840949633698465922241156289752783929730915719929641786959521228779033221990579481808153718335890
/-- The challenge hash for it and the w of the run for the compact hash of [2] (compare dilithium2/sign.c:315-321). -/
def ctC3 : Nat := 88904932556880292477266079662212634694677931003847646712446940322902447512048

theorem k_mu3 : Nat.beq (shakeN 136 65 (join tr 512 3) 1 % 2 ^ 512) mu3 = true := by decide +kernel
theorem k_ct3 : Nat.beq (shakeN 136 832 (join mu3 512 (digN 6 (mapL hiN (appL (pol wD 0) (appL (pol wD 1) (appL (pol wD 2) (pol wD 3))))))) 1 % 2 ^ 256) ct3 = true := by decide +kernel
theorem k_muC3 : Nat.beq (shakeN 136 128 (join tr 512 Real.Weak.hash3) 1 % 2 ^ 512) muC3 = true := by decide +kernel
theorem k_ctC3 : Nat.beq (shakeN 136 832 (join muC3 512 (digN 6 (mapL hiN (appL (pol RunC.wD 0) (appL (pol RunC.wD 1) (appL (pol RunC.wD 2) (pol RunC.wD 3))))))) 1 % 2 ^ 256) ctC3 = true := by decide +kernel
theorem ct3_ne : ct3 ≠ ct := by decide +kernel
theorem ctC3_ne : ctC3 ≠ RunC.ct := by decide +kernel

/-- A Dilithium signature of [2] that is not one of [3]. -/
theorem only : ∃ pk sk sig, KeyGen S128 S256 (7 :: List.replicate 31 0) pk sk ∧ Signs S128 S256 sk [2] 0 sig ∧ ¬ Valid S128 S256 pk [3] sig :=
  Run.only run (l := 65) (yN := 3) rfl (by decide) (beq_eq k_mu3) (beq_eq k_ct3) ct3_ne

/-- A Dilithium signature of the compact hash of [2] that is not one of the compact hash of [3]. -/
theorem onlyC : ∃ pk sk sig, KeyGen S128 S256 (7 :: List.replicate 31 0) pk sk ∧ Signs S128 S256 sk RunC.hash 0 sig ∧
    ∀ h, Real.IsCompactHash nonceC [3] (List.replicate 64 0) h → ¬ Valid S128 S256 pk h sig := by
  obtain ⟨l, e⟩ := Real.compactHash_num ((Real.compactHash_real (fuel := 0) _ _ _ _).2 rfl)
  obtain ⟨pk, sk, sig, a, b, c⟩ := Run.only RunC.run (l := 128) (by rw [l]) e (beq_eq k_muC3) (beq_eq k_ctC3) ctC3_ne
  refine ⟨pk, sk, sig, a, b, fun h hh => ?_⟩
  rw [(Real.compactHash_real (fuel := 0) _ _ _ _).1 hh]
  exact c

end Run7

end Verif.Witness
