import Verif.Real.Spec
import Verif.Real.Model
import Verif.Keccak.Spec

/-!
Sessions of a client with the signing functions of hybrid-dilithium-sphincs/hybrid.c, and what a forgery is in each component scheme.
-/

namespace Verif.Real
open Verif Verif.Hybrid

/-- A successful signing call: the message and the signature that the caller found in its buffer (hybrid-dilithium-sphincs/hybrid.c:259-344, 468-564). -/
inductive Query where
  | full (msg sig : Bytes)
  | compact (msg sig : Bytes)

/-- The executions of a client that has the signing functions of hybrid-dilithium-sphincs/hybrid.c:259-344 and 468-564 at its disposal, with the secret key `sk`.  Between the calls the client (and any other
part of the program) may change memory and the random source at will; the buffers it passes are as documented. -/
inductive Session (sk : Bytes) : World → List Query → Prop where
  | start (W : World) : Session sk W []
  | client {W : World} (W' : World) {qs : List Query} (h : Session sk W qs) : Session sk W' qs
  | full {W W' : World} {qs : List Query} (h : Session sk W qs) {fuel : Nat} {sm smlen m s : Ptr} {mlen : Nat} {msg sig : Bytes}
      (hm : W.view m mlen = some msg) (hs : W.view s 4064 = some sk)
      (hb : (W.view sm (52342 + mlen)).isSome) (hl : (W.view smlen 8).isSome) (hd : Disj smlen 8 sm (52342 + mlen))
      (hr : signFull (real fuel) (some sm) (some smlen) (some m) mlen (some s) W = .ok (0, W'))
      (hsig : W'.view sm (52342 + mlen) = some sig) : Session sk W' (.full msg sig :: qs)
  | compact {W W' : World} {qs : List Query} (h : Session sk W qs) {fuel : Nat} {sm smlen m s : Ptr} {mlen : Nat} {msg sig : Bytes}
      (hm : W.view m mlen = some msg) (hs : W.view s 4064 = some sk)
      (hb : (W.view sm (2526 + mlen)).isSome) (hl : (W.view smlen 8).isSome) (hd : Disj smlen 8 sm (2526 + mlen)) (hdm : Disj sm (2526 + mlen) m mlen)
      (hr : signCompact (real fuel) (some sm) (some smlen) (some m) mlen (some s) W = .ok (0, W'))
      (hsig : W'.view sm (2526 + mlen) = some sig) : Session sk W' (.compact msg sig :: qs)

/-- The nonce inside a compact signature (layout comment in hybrid-dilithium-sphincs/hybrid.c:468-476). -/
def nonceOf (sig : Bytes) : Bytes := (sig.drop 2486).take 40

/-- The string of which the Ed25519 and the Dilithium secret keys made a signature in answer to a query: the message itself, or the hash (hybrid-dilithium-sphincs/hybrid.c:259-268, 468-476). -/
def Asked (spxPk : Bytes) : Query → Bytes → Prop
  | .full msg _, x => x = msg
  | .compact msg sig, x => IsCompactHash (nonceOf sig) msg spxPk x

/-- The messages of which the SPHINCS+ secret key made a signature: those of the full-mode queries (hybrid-dilithium-sphincs/hybrid.c:259-268). -/
def AskedSpx : Query → Bytes → Prop
  | .full msg _, x => x = msg
  | .compact _ _, _ => False

/-- A forgery of Ed25519: a valid signature of a string that the secret key never signed. -/
def EdForgery (pk : Bytes) (qs : List Query) (x ed : Bytes) : Prop :=
  Ed25519.Spec.Valid (pkEd pk) x ed ∧ ∀ q ∈ qs, ¬ Asked (pkSpx pk) q x

/-- A forgery of Dilithium. -/
def DilForgery (H128 H256 : Bytes → Nat → Bytes) (pk : Bytes) (qs : List Query) (x dil : Bytes) : Prop :=
  Dilithium.Spec.Valid H128 H256 (pkDil pk) x dil ∧ ∀ q ∈ qs, ¬ Asked (pkSpx pk) q x

/-- A forgery of SPHINCS+. -/
def SpxForgery (H256 : Bytes → Nat → Bytes) (pk : Bytes) (qs : List Query) (x spx : Bytes) : Prop :=
  Sphincs.Spec.Valid H256 (pkSpx pk) spx x ∧ ∀ q ∈ qs, ¬ AskedSpx q x

/-- A collision of SHA3-512 (FIPS 202). -/
def Collision (x y : Bytes) : Prop := x ≠ y ∧ Keccak.Spec.SHA3_512 (Keccak.Spec.bits x) = Keccak.Spec.SHA3_512 (Keccak.Spec.bits y)

end Verif.Real
