import Verif.Dilithium.Spec
import Mathlib.Data.Set.Card

/-! What it means that a sampler is unbiased (no line of the code; used by the property C105). -/

namespace Verif.Dilithium.Spec
open Verif

/-- A sampler `f` that reads a byte string and returns a value, or fails when the string is too short, is unbiased over
the set `V` and needs at least `n0` bytes: it returns values of `V` only, every value of `V` is returned for exactly as many strings
of length `n` as every other, whatever `n` is, and for at least one string when `n` is at least `n0` (no line of its own). -/
structure Unbiased {α : Type} (f : Bytes → Option α) (V : α → Prop) (n0 : Nat) : Prop where
  range : ∀ b x, f b = some x → V x
  equal : ∀ n x y, V x → V y → {b : Bytes | b.length = n ∧ f b = some x}.ncard = {b : Bytes | b.length = n ∧ f b = some y}.ncard
  reach : ∀ n x, n0 ≤ n → V x → 0 < {b : Bytes | b.length = n ∧ f b = some x}.ncard

/-- A polynomial of 256 coefficients, each from `lo` to `hi` inclusive (no line of its own). -/
def PolyIn (lo hi : Int) (a : List Int) : Prop := a.length = 256 ∧ ∀ x ∈ a, lo ≤ x ∧ x ≤ hi

/-- A polynomial of 256 coefficients of which 39 are 1 or -1 and the others are 0 (no line of its own). -/
def BallElement (c : List Int) : Prop :=
  c.length = 256 ∧ (∀ x ∈ c, x = 0 ∨ x = 1 ∨ x = -1) ∧ c.countP (fun x => x ≠ 0) = 39

end Verif.Dilithium.Spec
