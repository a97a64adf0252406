import Verif.Hybrid.Spec
import Verif.Ed25519.Props
import Verif.Dilithium.Props
import Verif.Sphincs.Props

/-!
The hybrid layer with the models of the component code put in.

The component models take lists; hybrid.c passes pointers to arrays of fixed size.  `when` guards each call: if an array has not the size that the header of the component
documents, the call is undefined behaviour.  The theorem `real_noUB` and the safety theorems of the hybrid layer show that the guards never strike.
-/

namespace Verif.Real
open Verif Verif.Hybrid

/-- A call whose arrays have the documented sizes; otherwise the callee would leave its arrays (the sizes in common/hybrid-common.c:7-21). -/
def when {α : Type} (c : Prop) [Decidable c] (x : C α) : C α := if c then x else .error .ub

/-- The component functions behind hybrid-dilithium-sphincs/hybrid.c:1-30 (its includes): tweetnacl/tweetnacl.c, dilithium2/sign.c, sphincs/sign.c, common/fips202.c and
common/shake_prng.c.  `fuel` bounds the rejection loops of Dilithium; sizes as in tweetnacl.h, dilithium2/api.h and sphincs/api.h. -/
def real (fuel : Nat) : Prims where
  edKeypairSeed pk sk seed := when (pk.length = 32 ∧ sk.length = 64 ∧ seed.length = 32) (Ed25519.keypairSeed pk sk seed)
  edSign sm smlen m sk := when (sk.length = 64 ∧ m.length < 2 ^ 63 ∧ 64 + m.length ≤ sm.length) (Ed25519.sign sm smlen m sk)
  edOpen m mlen sm n pk := when (pk.length = 32 ∧ n < 2 ^ 31 ∧ n ≤ m.length ∧ n ≤ sm.length) (Ed25519.signOpen m mlen sm n pk)
  dilKeypairSeed pk sk seed := when (pk.length = 1312 ∧ sk.length = 2560 ∧ seed.length = 32) (Dilithium.keypairSeed fuel pk sk seed)
  dilSign sig siglen m sk := when (sig.length = 2420 ∧ sk.length = 2560) (Dilithium.signature fuel sig siglen m sk)
  dilVerify sig m pk := when (pk.length = 1312) (Dilithium.verify fuel sig sig.length m pk)
  spxKeypairSeed pk sk seed := when (pk.length = 64 ∧ sk.length = 128 ∧ seed.length = 96) (Sphincs.seedKeypair Sphincs.shake256F pk sk seed)
  spxSign sig siglen m sk := fun R => when (sig.length = 49856 ∧ sk.length = 128) (Sphincs.signature Sphincs.shake256F sig siglen m sk R)
  spxVerify sig m pk := when (pk.length = 64) (Sphincs.verify Sphincs.shake256F sig sig.length m pk)
  sha3_512 m := match Keccak.sha3_512 (List.replicate 64 0) m m.length with
    | .ok d => d
    | .error _ => []
  seedexpander seed n := do
    match ← Keccak.seedexpanderWrapper (some seed) seed.length (some (List.replicate n 0)) n with
    | (r, some out) => .ok (r, out)
    | (_, none) => .error .ub

end Verif.Real
