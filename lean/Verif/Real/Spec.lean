import Verif.Hybrid.Spec
import Verif.Ed25519.Spec
import Verif.Dilithium.Props
import Verif.Sphincs.Spec

/-!
What the hybrid scheme is, in terms of the published component schemes and of FIPS 202 alone: no model function appears here.
-/

namespace Verif.Real
open Verif Verif.Hybrid

section
variable (H128 H256 : Bytes → Nat → Bytes)

/-- `sm` is a full-mode signature of `msg` under `pk`: the wire format with three signatures of the message, each valid in its own scheme. -/
def FullMeets (pk msg sm : Bytes) : Prop :=
  1 ≤ msg.length ∧ msg.length ≤ 64 ∧ ∃ ed dil spx,
    ed.length = 64 ∧ dil.length = 2420 ∧ spx.length = 49856 ∧ sm = fullWire ed msg dil spx ∧
    Ed25519.Spec.Valid (pkEd pk) msg ed ∧ Dilithium.Spec.Valid H128 H256 (pkDil pk) msg dil ∧ Sphincs.Spec.Valid H256 (pkSpx pk) spx msg

/-- `h` is SHA3-512 of nonce, message and SPHINCS+ public key. -/
def IsCompactHash (nonce msg spxPk h : Bytes) : Prop := Keccak.Spec.bits h = Keccak.Spec.SHA3_512 (Keccak.Spec.bits (nonce ++ msg ++ spxPk))

/-- `sm` is a compact signature of `msg` under `pk`: an Ed25519 and a Dilithium signature of the hash. -/
def CompactMeets (pk msg sm : Bytes) : Prop :=
  1 ≤ msg.length ∧ msg.length ≤ 64 ∧ ∃ ed dil nonce h,
    ed.length = 64 ∧ dil.length = 2420 ∧ nonce.length = 40 ∧ sm = compactWire ed dil nonce msg ∧ IsCompactHash nonce msg (pkSpx pk) h ∧
    Ed25519.Spec.Valid (pkEd pk) h ed ∧ Dilithium.Spec.Valid H128 H256 (pkDil pk) h dil

/-- The key pair of a 160-byte seed: bytes 0-31 for Ed25519, 32-63 for Dilithium, 64-159 for SPHINCS+. -/
def KeysOf (seed pk sk : Bytes) : Prop :=
  ∃ dilPk dilSk, Dilithium.Spec.KeyGen H128 H256 ((seed.drop 32).take 32) dilPk dilSk ∧
    pk = Ed25519.Spec.publicKey (seed.take 32) ++ dilPk ++ Sphincs.Spec.publicKey H256 ⟨seed.drop 128, (seed.drop 64).take 32⟩ ∧
    sk = (seed.take 32 ++ Ed25519.Spec.publicKey (seed.take 32)) ++ dilSk ++ dilPk ++
      (seed.drop 64 ++ (Sphincs.Spec.publicKey H256 ⟨seed.drop 128, (seed.drop 64).take 32⟩).drop 32)

/-- A full-mode signature as the signer makes it; `opt` are the 32 random bytes of SPHINCS+. -/
def FullSigned (sk msg opt sm : Bytes) : Prop :=
  ∃ k dil, Dilithium.Spec.Signs H128 H256 (skDil sk) msg k dil ∧
    sm = fullWire (Ed25519.Spec.sign (sk.take 32) ((sk.drop 32).take 32) msg) msg dil
      (Sphincs.Spec.sign H256 ⟨slice (skSpx sk) 64 32, (skSpx sk).take 32⟩ (slice (skSpx sk) 32 32) ((skSpx sk).drop 64) opt msg)

/-- A compact signature as the signer makes it. -/
def CompactSigned (sk msg nonce sm : Bytes) : Prop :=
  ∃ h k dil, IsCompactHash nonce msg (skSpxPk sk) h ∧ Dilithium.Spec.Signs H128 H256 (skDil sk) h k dil ∧
    sm = compactWire (Ed25519.Spec.sign (sk.take 32) ((sk.drop 32).take 32) h) dil nonce msg

end

end Verif.Real
