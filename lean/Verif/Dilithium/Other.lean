import Verif.Dilithium.Correct
import Verif.Dilithium.Hint

/-!
For which strings a signature of Dilithium made by the signer is valid.
-/

namespace Verif.Dilithium
open Verif Spec

theorem z_range {X : Ctx} {k : Nat} {c : List Int} (nz : NormLt (zOf S256 X k c) (131072 - 78)) : ∀ x ∈ zOf S256 X k c, x.length = 256 ∧ ∀ v ∈ x, -(131072 - 78) < v ∧ v < 131072 - 78 := by
  have az : ∀ i, i < 4 → at_ (zOf S256 X k c) i = mk fun j => cmod (co (Spec.mul c (at_ X.s1 i)) j + co (at_ (yOf S256 X k) i) j) q := fun i hi => at_vec _ hi
  intro x hx
  obtain ⟨i, hi, e⟩ := mem_at hx
  have hi : i < 4 := by have : (zOf S256 X k c).length = 4 := length_vec _; omega
  have hl : x.length = 256 := by rw [e, az i hi]; exact length_mk _
  refine ⟨hl, fun v hv => ?_⟩
  obtain ⟨j, hj, ev⟩ := mem_co hv
  have hj : j < 256 := by omega
  have := nz i hi j hj
  rw [ev, e]
  have ec : cmod (co (at_ (zOf S256 X k c) i) j) q = co (at_ (zOf S256 X k c) i) j := by rw [az i hi, co_mk _ hj, cmod_cmod]
  rw [ec] at this
  exact this

theorem encodeSig_inj {c c' : Bytes} {z h z' h' : Vec} (p : SigParts c z h) (p' : SigParts c' z' h') (hl : (encodeSig c z h).length = 2420) (e : encodeSig c z h = encodeSig c' z' h') :
    c = c' ∧ z = z' ∧ h = h' := by
  obtain ⟨r, -, hu⟩ := unpackSig_iff hl
  have a := (hu _ _ _).2 ⟨p, rfl⟩
  have b := (hu _ _ _).2 ⟨p', e⟩
  have := a.symm.trans b
  simp only [Option.some.injEq, Prod.mk.injEq] at this
  exact this

/-- A signature made under generated keys is valid for exactly those strings whose message representative hashes, with the high parts of w of the signer, to the challenge hash in the signature. -/
theorem signed_valid_iff {seed pk sk m y sig : Bytes} {k : Nat} {X : Ctx} (hk : KeyGen S128 S256 seed pk sk) (hX : IsCtx S128 S256 sk m X) (hs : SignsAt S256 X k sig) (hl : sig.length = 2420) :
    Valid S128 S256 pk y sig ↔ S256 (S256 (S256 pk 64 ++ y) 64 ++ ((wOf S256 X k).map (·.map highBits)).flatMap (packPos 6)) 32 = cTilde S256 X k := by
  obtain ⟨-, c, hc, ha, rfl⟩ := hs
  obtain ⟨hA, -, hw1, -⟩ := signs_facts hk hX ha
  obtain ⟨nz, nr, nt, hw⟩ := ha
  have hz := z_range nz
  constructor
  · rintro ⟨ct, z, h, c', A, h1, h2, h3, h4, h5, e, hb, hA', h6⟩
    obtain ⟨e1, e2, e3⟩ := encodeSig_inj (c := cTilde S256 X k) (z := zOf S256 X k c) (h := hOf S256 X k c) ⟨Keccak.length_stream .., length_vec _, fun x hx => ⟨(hz x hx).1, fun v hv => by have := (hz x hx).2 v hv; omega⟩, ⟨length_vec _, hOf_bits X k c⟩, hw⟩
      ⟨h1, h2, fun x hx => ⟨(h3 x hx).1, fun v hv => by have := (h3 x hx).2 v hv; omega⟩, h4, h5⟩ hl e
    cases matrix_unique hA hA'
    rw [← e1] at hb h6
    have ec := ball_unique (Keccak.length_stream ..) hc hb
    rw [← ec, ← e2, ← e3, hw1] at h6
    exact h6.symm
  · intro h
    refine ⟨cTilde S256 X k, zOf S256 X k c, hOf S256 X k c, c, X.A, Keccak.length_stream .., length_vec _, hz, ⟨length_vec _, hOf_bits X k c⟩, hw, rfl, hc, hA, ?_⟩
    rw [hw1]
    exact h.symm

end Verif.Dilithium
