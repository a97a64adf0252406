import Verif.Dilithium.UnbiasedSpec

/-!
Signing seen from outside: what one attempt releases, with the secret vectors, and the same from public values only (no line of the
code; used by the property C106; compare FIPS 204 algorithm 2 and the proof of zero knowledge in the Dilithium specification).
-/

namespace Verif.Dilithium.Spec
open Verif

/-- A masking vector: four polynomials with coefficients in (-2^17, 2^17] (no line of its own). -/
def MaskVec (y : List (List Int)) : Prop := y.length = 4 ∧ ∀ p ∈ y, PolyIn (-131071) 131072 p
/-- A secret vector: four polynomials with coefficients in [-2, 2] (no line of its own). -/
def SmallVec (s : List (List Int)) : Prop := s.length = 4 ∧ ∀ p ∈ s, PolyIn (-2) 2 p

/-- c times the low part t0 of t (compare dilithium2/sign.c:194-196). -/
def lowProduct (t : List (List Int)) (c : List Int) : List (List Int) :=
  vec fun i => mk fun j => cmod (co (mul c ((at_ t i).map fun r => (power2Round r).2)) j) q

section
variable (A : List (List (List Int))) (s1 s2 y : List (List Int)) (c : List Int)

/-- The commitment: the high parts of A y (compare dilithium2/sign.c:153-162). -/
def commitOf : List (List Int) := (matVec A y).map (·.map highBits)
/-- The response z = y + c s1 (compare dilithium2/sign.c:175-178). -/
def responseOf : List (List Int) := vec fun i => mk fun j => cmod (co (mul c (at_ s1 i)) j + co (at_ y i) j) q
/-- What is left of the low parts (compare dilithium2/sign.c:185-188). -/
def remainderOf : List (List Int) := vec fun i => mk fun j => cmod (lowBits (co (at_ (matVec A y) i) j) - co (mul c (at_ s2 i)) j) q
/-- The hints (compare dilithium2/sign.c:201-202). -/
def hintsOf : List (List Int) :=
  vec fun i => mk fun j => hintBit (co (at_ (remainderOf A s2 y c) i) j + co (at_ (lowProduct (tOf A s1 s2) c) i) j) (highBits (co (at_ (matVec A y) i) j))
/-- An attempt with mask `y` and challenge `c` is released (compare dilithium2/sign.c:179-205). -/
def Releases : Prop :=
  NormLt (responseOf s1 y c) (131072 - 78) ∧ NormLt (remainderOf A s2 y c) (95232 - 78) ∧ NormLt (lowProduct (tOf A s1 s2) c) 95232 ∧
    weight (hintsOf A s1 s2 y c) ≤ 80
end

section
variable (A : List (List (List Int))) (t : List (List Int)) (c : List Int) (z : List (List Int))

/-- A z - c t (no line of its own). -/
def simW : List (List Int) := vec fun i => sub (at_ (matVec A z) i) (mul c (at_ t i))
/-- The commitment from public values (no line of its own). -/
def simCommit : List (List Int) := (simW A t c z).map (·.map highBits)
/-- The hints from public values (no line of its own). -/
def simHints : List (List Int) :=
  vec fun i => mk fun j => hintBit (lowBits (co (at_ (simW A t c z) i) j) + co (at_ (lowProduct t c) i) j) (highBits (co (at_ (simW A t c z) i) j))
/-- The simulator releases `z` (no line of its own). -/
def SimReleases : Prop :=
  (z.length = 4 ∧ ∀ p ∈ z, PolyIn (-(131072 - 78 - 1)) (131072 - 78 - 1) p) ∧
    (∀ i, i < 4 → ∀ j, j < 256 → -(95232 - 78) < lowBits (co (at_ (simW A t c z) i) j) ∧ lowBits (co (at_ (simW A t c z) i) j) < 95232 - 78) ∧
    NormLt (lowProduct t c) 95232 ∧ weight (simHints A t c z) ≤ 80
end

end Verif.Dilithium.Spec
