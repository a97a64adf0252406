import Verif.Dilithium.DetProps
import Verif.Dilithium.ForgeProps

/-!
Lemmas for C120 and C122: the challenge and the response as they stand in the bytes of a signature.
-/

namespace Verif.Dilithium
open Verif Spec

/-- The bytes of a released signature decode to the values that the attempt computed. -/
theorem signsAt_decode {x : Ctx} {k : Nat} {c : List Int} (ha : Accept S256 x k c) :
    slice (encodeSig (cTilde S256 x k) (zOf S256 x k c) (hOf S256 x k c)) 0 32 = cTilde S256 x k ∧
      zOfSig (encodeSig (cTilde S256 x k) (zOf S256 x k c) (hOf S256 x k c)) = zOf S256 x k c := by
  refine (encodeSig_decode (cTilde_len _ _) (by unfold zOf vec; rw [List.length_map, List.length_range]) ?_ ha.2.2.2).2
  intro p hp
  unfold zOf vec at hp
  obtain ⟨i, hi, rfl⟩ := List.mem_map.1 hp
  have hi := List.mem_range.1 hi
  refine ⟨length_mk _, fun v hv => ?_⟩
  unfold mk at hv
  obtain ⟨j, hj, rfl⟩ := List.mem_map.1 hv
  have hj := List.mem_range.1 hj
  have := ha.1 i hi j hj
  unfold zOf at this
  rw [at_vec _ hi, co_mk _ hj] at this
  unfold q at *
  rw [cmod_cmod] at this
  omega

/-- What a signature releases, read from its bytes: the response is the challenge times s1 plus the masks of the last attempt. -/
theorem signs_response {sk m sig : Bytes} {k : Nat} (h : Signs S128 S256 sk m k sig) : ∃ c, IsBall S256 (slice sig 0 32) c ∧ ∀ i, i < 4 → ∀ j, j < 256 →
    co (at_ (zOfSig sig) i) j % q = (co (mul c (unpackAt 3 2 (slice sk (128 + i * 96) 96))) j +
      co (mask S256 (S256 (slice sk 32 32 ++ List.replicate 32 0 ++ S256 (slice sk 64 64 ++ m) 64) 64) (4 * k + i)) j) % q := by
  obtain ⟨x, ⟨-, xs, -, -, xm, xr⟩, -, c, hc, ha, e⟩ := h
  obtain ⟨d1, d2⟩ := signsAt_decode ha
  rw [← e] at d1 d2
  refine ⟨c, d1 ▸ hc, fun i hi j hj => ?_⟩
  rw [d2]
  unfold zOf yOf
  rw [at_vec _ hi, co_mk _ hj, at_vec _ hi, xs, at_vec _ hi, xr, xm]
  exact cmod_mod _

end Verif.Dilithium
