import Mathlib.AlgebraicGeometry.EllipticCurve.Affine.Point
import Verif.Ed25519.Spec

/-! What X25519 should compute (RFC 7748 and D. J. Bernstein, "Curve25519: new Diffie-Hellman speed records"), on top of Mathlib's group law of elliptic curves. -/

namespace Verif.Nacl.Spec
open WeierstrassCurve
open Verif.Ed25519.Spec (leVal F)

/-- Curve25519: y^2 = x^3 + 486662 x^2 + x, over any field. -/
def mont (K : Type) [Field K] : Affine K := ⟨0, 486662, 0, 1, 0⟩

/-- The x-coordinate of a point, with 0 for the point at infinity. -/
def X0 {K : Type} [Field K] : (mont K).Point → K
  | .zero => 0
  | .some x _ _ => x

/-- The scalar of a secret key of 32 bytes: bits 0, 1, 2 and 255 cleared, bit 254 set. -/
def scalar (n : Bytes) : Nat := 2 ^ 254 + 8 * (leVal n % 2 ^ 254 / 8)

/-- The field element of a public key of 32 bytes: the highest bit is ignored. -/
def coordinate (q : Bytes) : F := ((leVal q % 2 ^ 255 : Nat) : F)

/-- `v` is the result of X25519 with the scalar `s` and the x-coordinate `u`: in every field that contains the integers modulo p, it is the x-coordinate of s times any point with x-coordinate `u`. -/
def IsX25519 (s : Nat) (u v : F) : Prop :=
  ∀ (K : Type) [Field K] [Algebra F K] [DecidableEq K] (Q : (mont K).Point), X0 Q = algebraMap F K u → X0 (s • Q) = algebraMap F K v

end Verif.Nacl.Spec
