import Verif.Dilithium.Spec
import Verif.Dilithium.Sample

/-! What control flow and memory addresses of Dilithium key generation and signing show, in terms of the specification alone. -/

namespace Verif.Ct.Dilithium.Spec
open Verif.Dilithium (S128 S256)
open Verif.Dilithium.Spec

/-- Half byte `i` of a byte string, the low half of each byte first (the order of dilithium2/poly.c:396-397). -/
def half (b : Bytes) (i : Nat) : Nat := if i % 2 = 0 then (b.getD (i / 2) 0).toNat % 16 else (b.getD (i / 2) 0).toNat / 16

/-- Half byte `i` of the stream for seed `s` and number `n` gives a coefficient: it is not 15 (dilithium2/poly.c:401-404). -/
def accepts (s : Bytes) (n i : Nat) : Bool := decide (half (S256 (s ++ le16 n) (i / 2 + 1)) i < 15)

/-- Half byte `i` gives a coefficient and is among those that are looked at: fewer than 256 before it gave one (dilithium2/poly.c:395-407). -/
def shown (s : Bytes) (n i : Nat) : Bool := accepts s n i && decide (((List.range i).filter (accepts s n)).length < 256)

/-- The number of the first of the 1024 coefficients of absolute value at least `B`; 1024 if there is none (the test of dilithium2/poly.c:281-292). -/
def firstBad (B : Int) (v : List (List Int)) : Nat :=
  (List.range 1024).findIdx fun p => decide (¬ (-B < co (at_ v (p / 256)) (p % 256) ∧ co (at_ v (p / 256)) (p % 256) < B))

/-- Which condition of `make_hint` (dilithium2/rounding.c:62-68) decides: the error is above the interval, below it, or at its lower end. -/
def hintClass (e w1 : Int) : Nat := if e > 95232 then 1 else if e < -95232 then 2 else if e = -95232 then (if w1 ≠ 0 then 3 else 4) else 0

/-- The classes of the 1024 hints of attempt `k` (dilithium2/sign.c:198-199). -/
def classes (X : Ctx) (k : Nat) (c : List Int) : List Nat :=
  (List.range 1024).map fun p => hintClass (co (at_ (r0Of S256 X k c) (p / 256)) (p % 256) + co (at_ (ct0Of X c) (p / 256)) (p % 256))
    (highBits (co (at_ (wOf S256 X k) (p / 256)) (p % 256)))

/-- What attempt `k` with challenge `c` shows: where the first too big coefficient of z is; if there is none, where the first too big one of r0 is; if there is
none, where the first too big one of c t0 is; if there is none, the class of each hint (dilithium2/sign.c:172-204). -/
def leakOf (X : Ctx) (k : Nat) (c : List Int) : List Nat :=
  firstBad (131072 - 78) (zOf S256 X k c) :: if firstBad (131072 - 78) (zOf S256 X k c) < 1024 then [] else
  firstBad (95232 - 78) (r0Of S256 X k c) :: if firstBad (95232 - 78) (r0Of S256 X k c) < 1024 then [] else
  firstBad 95232 (ct0Of X c) :: if firstBad 95232 (ct0Of X c) < 1024 then [] else classes X k c

/-- The same together with the challenge hash of the attempt, which `poly_challenge` shows (dilithium2/poly.c:502-514). -/
def Leak (X : Ctx) (k : Nat) (l : Bytes × List Nat) : Prop := ∃ c, IsBall S256 (cTilde S256 X k) c ∧ l = (cTilde S256 X k, leakOf X k c)

/-- What all attempts up to the successful one show (the loop of dilithium2/sign.c:149-208). -/
def Leaks (sk m : Bytes) (ls : List (Bytes × List Nat)) : Prop :=
  ∃ X, IsCtx S128 S256 sk m X ∧ ∃ k sig, SignsAt S256 X k sig ∧ ls.length = k + 1 ∧ ∀ j l, ls[j]? = some l → Leak X j l

/-- What the rejected attempts show, when `sig` is the signature that the next attempt gives (dilithium2/sign.c:149-208). -/
def Rejected (sk m sig : Bytes) (ls : List (Bytes × List Nat)) : Prop :=
  ∃ X, IsCtx S128 S256 sk m X ∧ SignsAt S256 X ls.length sig ∧ ∀ j l, ls[j]? = some l → Leak X j l

end Verif.Ct.Dilithium.Spec
