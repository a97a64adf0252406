import Verif.Real.Props3
import Verif.Dilithium.HeapCountProps
import Verif.Sphincs.HeapAllProps

/-!
The functions of hybrid-dilithium-sphincs/hybrid.c with the Keccak contexts of the component code on the heap.  Verif/Hybrid/Model.lean with the components of Verif/Real/Model.lean passes the
contexts around as values; here every component is the version with pointers (Verif/Dilithium/Heap.lean, Verif/Sphincs/HeapAll.lean, Verif/Keccak/Heap.lean), so a call can end with `exit(111)`.
Ed25519 (tweetnacl/tweetnacl.c) and `sha3_512` (common/fips202.c:915-928) keep their state in local arrays and allocate nothing.
-/

namespace Verif.Real.Heap
open Verif Verif.Hybrid Verif.Real Verif.Keccak.Heap

variable {α β : Type}

/-- Computations with caller memory, the random source and the heap (for example hybrid-dilithium-sphincs/hybrid.c:259-344). -/
abbrev MH := StateT World K

/-- A computation that uses memory and the random source but no heap (no line of its own). -/
def onM (x : M α) : MH α := fun W => onC (x W)

/-- A computation that uses the heap but no caller memory (no line of its own). -/
def onK (x : K α) : MH α := fun W => x >>= fun a => pure (a, W)

/-- As `when`, with the heap (the sizes in common/hybrid-common.c:7-21). -/
def whenH (c : Prop) [Decidable c] (x : K α) : K α := if c then x else onC (.error .ub)

/-- As `withLocal`, with the heap (for example hybrid-dilithium-sphincs/hybrid.c:447-450). -/
def withLocalH (init : Bytes) (f : Ptr → MH α) : MH α := fun W => do
  let (a, W2) ← f ⟨W.sp, 0⟩ { W with mem := Function.update W.mem W.sp (some init), sp := W.sp + 1 }
  pure (a, { W2 with mem := Function.update W2.mem W.sp none, sp := W.sp })

/-- dilithium2/sign.c:23-68 `crypto_sign_keypair_seed`, arrays of the documented sizes. -/
def dilKeypairSeedH (fuel : Nat) (pk sk seed : Bytes) : K (Int × Bytes × Bytes) :=
  whenH (pk.length = 1312 ∧ sk.length = 2560 ∧ seed.length = 32) (Dilithium.Heap.keypairSeedH fuel pk sk seed)

/-- dilithium2/sign.c:108-211 `crypto_sign_signature`, arrays of the documented sizes. -/
def dilSignH (fuel : Nat) (sig : Bytes) (siglen : Nat) (m sk : Bytes) : K (Int × Bytes × Nat) :=
  whenH (sig.length = 2420 ∧ sk.length = 2560) (Dilithium.Heap.signatureH fuel sig siglen m sk)

/-- dilithium2/sign.c:257-328 `crypto_sign_verify`, arrays of the documented sizes. -/
def dilVerifyH (fuel : Nat) (sig m pk : Bytes) : K Int :=
  whenH (pk.length = 1312) (Dilithium.Heap.verifyH fuel sig sig.length m pk)

/-- sphincs/sign.c:50-75 `crypto_sign_seed_keypair`, arrays of the documented sizes. -/
def spxKeypairSeedH (pk sk seed : Bytes) : K (Int × Bytes × Bytes) :=
  whenH (pk.length = 64 ∧ sk.length = 128 ∧ seed.length = 96) (Sphincs.Heap.seedKeypairH pk sk seed)

/-- sphincs/sign.c:96-163 `crypto_sign_signature`, arrays of the documented sizes: one draw of 32 bytes, then the signature. -/
def spxSignH (sig : Bytes) (siglen : Nat) (m sk : Bytes) : MH (Int × Bytes × Nat) :=
  if sig.length = 49856 ∧ sk.length = 128 then do
    match ← onM (liftR (randombytes 32)) with
    | none => pure (-1, sig, siglen)
    | some optrand => do
      let sig ← onK (Sphincs.Heap.signBodyH sig m sk optrand)
      pure (0, sig, 49856)
  else onM (liftC (.error .ub))

/-- sphincs/sign.c:168-247 `crypto_sign_verify`, arrays of the documented sizes. -/
def spxVerifyH (sig m pk : Bytes) : K Int := whenH (pk.length = 64) (Sphincs.Heap.verifyH sig sig.length m pk)

/-- common/shake_prng.c:67-83 `seedexpander_wrapper` with valid pointers. -/
def seedexpanderRealH (seed : Bytes) (n : Nat) : K (Int × Bytes) := do
  match ← seedexpanderWrapperH (some seed) seed.length (some (List.replicate n 0)) n with
  | (r, some out) => pure (r, out)
  | (_, none) => onC (.error .ub)

/-- hybrid-dilithium-sphincs/hybrid.c:140-172 `crypto_sign_dilithium_ed25519_sphincs_keypair_seed_expander` -/
def seedExpanderH (seed expandedSeed : Option Ptr) : MH Int :=
  match seed with
  | none => onM fun _ => .error .ub
  | some seed => do
    let seedTemp ← onM (expanderCopy (zeros 64) seed)
    let (ret, tmp) ← onK (seedexpanderRealH seedTemp 128)
    if ret ≠ 0 then pure ret else
    match expandedSeed with
    | none => onM fun _ => .error .ub
    | some ex => do
      onM (copyOut ex 0 tmp 0 32)
      onM (copyMem ex 32 seed 64 32)
      onM (copyOut ex 64 tmp 32 96)
      pure 0

/-- hybrid-dilithium-sphincs/hybrid.c:174-245 `crypto_sign_dilithium_ed25519_sphincs_keypair_seed` -/
def keypairSeedH (fuel : Nat) (pk sk seed : Option Ptr) : MH Int :=
  match pk, sk, seed with
  | some pk, some sk, some seed => do
    let seed1 ← onM (copyIn (zeros 32) 0 seed 0 ED_SEED)
    let seed2 ← onM (copyIn (zeros 32) 0 seed ED_SEED DIL_SEED)
    let seed3 ← onM (copyIn (zeros 96) 0 seed (ED_SEED + DIL_SEED) SPX_SEED)
    let (r1, pk1, sk1) ← onM (liftC ((real fuel).edKeypairSeed (zeros 32) (zeros 64) seed1))
    if r1 ≠ 0 then pure (-2) else do
    onM (copyOut pk 0 pk1 0 ED_PK)
    onM (copyOut sk 0 sk1 0 ED_SK)
    let (r2, pk2, sk2) ← onK (dilKeypairSeedH fuel (zeros 1312) (zeros 2560) seed2)
    if r2 ≠ 0 then pure (-3) else do
    onM (copyOut sk ED_SK sk2 0 DIL_SK)
    onM (loopM (fun i (_ : Unit) => do
      let v ← liftC (rd pk2 i)
      store pk (ED_PK + i) v
      let v ← liftC (rd pk2 i)
      store sk (ED_SK + DIL_SK + i) v) 0 DIL_PK ())
    let (r3, pk3, sk3) ← onK (spxKeypairSeedH (zeros 64) (zeros 128) seed3)
    if r3 ≠ 0 then pure (-4) else do
    onM (copyOut sk (ED_SK + DIL_SK + DIL_PK) sk3 0 SPX_SK)
    onM (copyOut pk (ED_PK + DIL_PK) pk3 0 SPX_PK)
    pure 0
  | _, _, _ => pure (-1)

/-- hybrid-dilithium-sphincs/hybrid.c:247-257 `crypto_sign_dilithium_ed25519_sphincs_keypair` -/
def keypairH (fuel : Nat) (pk sk : Option Ptr) : MH Int :=
  match pk, sk with
  | some pk, some sk => do
    match ← onM (liftR (randombytes 160)) with
    | none => pure (-1)
    | some seed => withLocalH seed fun s => keypairSeedH fuel (some pk) (some sk) (some s)
  | _, _ => pure (-1)

/-- hybrid-dilithium-sphincs/hybrid.c:259-344 `crypto_sign_dilithium_ed25519_sphincs` (full mode) -/
def signFullH (fuel : Nat) (sm smlen m : Option Ptr) (mlen : Nat) (sk : Option Ptr) : MH Int :=
  match sm, smlen, m, sk with
  | some sm, some smlen, some m, some sk =>
    if mlen ≤ 0 ∨ mlen > MAX_MSG_LEN then pure (-1) else do
    let sk1 ← onM (copyIn (zeros 64) 0 sk 0 ED_SK)
    let sk2 ← onM (copyIn (zeros 2560) 0 sk ED_SK DIL_SK)
    let sk3 ← onM (copyIn (zeros 128) 0 sk (ED_SK + DIL_SK + DIL_PK) SPX_SK)
    let msg ← onM (readMem m mlen)
    let (r1, sig1, sigLen1) ← onM (liftC ((real fuel).edSign (zeros 128) 0 msg sk1))
    let (r2, sig2, sigLen2) ← onK (dilSignH fuel (zeros 2420) 0 msg sk2)
    let (r3, sig3, sigLen3) ← spxSignH (zeros 49856) 0 msg sk3
    if r1 ≠ 0 then pure (-2) else
    if r2 ≠ 0 then pure (-3) else
    if r3 ≠ 0 then pure (-4) else
    if sigLen1 ≠ ED_SIG + mlen then pure (-5) else
    if sigLen2 ≠ DIL_SIG then pure (-6) else
    if sigLen3 ≠ SPX_SIG then pure (-6) else do
    onM (store sm 0 (BitVec.ofNat 8 FULL_ID))
    onM (store sm 1 (BitVec.ofNat 8 mlen))
    onM (copyOut sm LEN_BYTES sig1 0 sigLen1)
    onM (copyOut sm (LEN_BYTES + sigLen1) sig2 0 sigLen2)
    onM (copyOut sm (LEN_BYTES + sigLen1 + sigLen2) sig3 0 sigLen3)
    onM (storeU64 smlen (LEN_BYTES + ED_SIG + DIL_SIG + SPX_SIG + mlen))
    pure 0
  | _, _, _, _ => pure (-1)

/-- hybrid-dilithium-sphincs/hybrid.c:346-437 `crypto_sign_dilithium_ed25519_sphincs_open` -/
def openFullH (fuel : Nat) (m mlen sm : Option Ptr) (smlen : Nat) (pk : Option Ptr) : MH Int :=
  match m, mlen, sm, pk with
  | some m, some mlen, some sm, some pk =>
    if smlen < LEN_BYTES + ED_SIG + MIN_MSG_LEN + DIL_SIG + SPX_SIG ∨
       smlen > LEN_BYTES + ED_SIG + MAX_MSG_LEN + DIL_SIG + SPX_SIG then pure (-1) else do
    let id ← onM (load sm 0)
    if id.toNat ≠ FULL_ID then pure (-2) else do
    let lb ← onM (load sm 1)
    let msgLen := lb.toNat
    if msgLen ≤ 0 ∨ msgLen > MAX_MSG_LEN then pure (-3) else
    if smlen ≠ LEN_BYTES + ED_SIG + msgLen + DIL_SIG + SPX_SIG then pure (-4) else do
    let sig1Len := ED_SIG + msgLen
    let sig1 ← onM (copyIn (zeros 128) 0 sm LEN_BYTES sig1Len)
    let pk1 ← onM (copyIn (zeros 32) 0 pk 0 ED_PK)
    let (r1, msg1, msgLen1) ← onM (liftC ((real fuel).edOpen (zeros 128) 0 sig1 sig1Len pk1))
    if r1 ≠ 0 then pure (-5) else
    if toInt32 msgLen1 ≠ (msgLen : Int) then pure (-6) else do
    let sig2 ← onM (copyIn (zeros 2420) 0 sm (LEN_BYTES + ED_SIG + msgLen) DIL_SIG)
    let pk2 ← onM (copyIn (zeros 1312) 0 pk ED_PK DIL_PK)
    let msg ← onM (liftC (prefixOf msg1 msgLen))
    let r2 ← onK (dilVerifyH fuel sig2 msg pk2)
    if r2 ≠ 0 then pure (-7) else do
    let sig3 ← onM (copyIn (zeros 49856) 0 sm (LEN_BYTES + ED_SIG + msgLen + DIL_SIG) SPX_SIG)
    let pk3 ← onM (copyIn (zeros 64) 0 pk (ED_PK + DIL_PK) SPX_PK)
    let r3 ← onK (spxVerifyH sig3 msg pk3)
    if r3 ≠ 0 then pure (-8) else do
    onM (copyOut m 0 msg1 0 msgLen)
    onM (storeU64 mlen msgLen)
    pure 0
  | _, _, _, _ => pure (-1)

/-- hybrid-dilithium-sphincs/hybrid.c:439-466 `crypto_verify_dilithium_ed25519_sphincs` -/
def verifyFullH (fuel : Nat) (m : Option Ptr) (mlen : Nat) (sm : Option Ptr) (smlen : Nat) (pk : Option Ptr) : MH Int :=
  match m, sm, pk with
  | some m, some sm, some pk =>
    if mlen ≤ 0 ∨ mlen > MAX_MSG_LEN then pure (-1) else
    withLocalH (zeros 224) fun buf => withLocalH (zeros 8) fun lenp => do
      let r ← openFullH fuel (some buf) (some lenp) (some sm) smlen (some pk)
      if r ≠ 0 then pure (-2) else do
      let l ← onM (loadU64 lenp)
      if l ≠ mlen then pure (-3) else
      onM (cmpMem buf m 0 l)
  | _, _, _ => pure (-1)

/-- hybrid-dilithium-sphincs/hybrid.c:468-564 `crypto_sign_compact_dilithium_ed25519_sphincs` -/
def signCompactH (fuel : Nat) (sm smlen m : Option Ptr) (mlen : Nat) (sk : Option Ptr) : MH Int :=
  match sm, smlen, m, sk with
  | some sm, some smlen, some m, some sk =>
    if mlen ≤ 0 ∨ mlen > MAX_MSG_LEN then pure (-1) else do
    let sk1 ← onM (copyIn (zeros 64) 0 sk 0 ED_SK)
    let sk2 ← onM (copyIn (zeros 2560) 0 sk ED_SK DIL_SK)
    match ← onM (liftR (randombytes 40)) with
    | none => pure (-1)
    | some nonce => do
    let hybridMsg ← onM (liftC (copy (zeros 168) 0 nonce 0 NONCE_BYTES))
    let hybridMsg ← onM (copyIn hybridMsg NONCE_BYTES m 0 mlen)
    let hybridMsg ← onM (copyIn hybridMsg (NONCE_BYTES + mlen) sk (ED_SK + DIL_SK + DIL_PK + SPX_SK / 2) SPX_PK)
    let hin ← onM (liftC (prefixOf hybridMsg (NONCE_BYTES + mlen + SPX_PK)))
    let hash := (real fuel).sha3_512 hin
    let (r1, sig1, sigLen1) ← onM (liftC ((real fuel).edSign (zeros 128) 0 hash sk1))
    let (r2, sig2, sigLen2) ← onK (dilSignH fuel (zeros 2420) 0 hash sk2)
    if r1 ≠ 0 then pure (-2) else
    if r2 ≠ 0 then pure (-3) else
    if sigLen1 ≠ ED_SIG + HASH_LENGTH then pure (-4) else
    if sigLen2 ≠ DIL_SIG then pure (-5) else do
    onM (store sm 0 (BitVec.ofNat 8 COMPACT_ID))
    onM (store sm 1 (BitVec.ofNat 8 mlen))
    onM (copyOut sm LEN_BYTES sig1 0 ED_SIG)
    onM (copyOut sm (LEN_BYTES + ED_SIG) sig2 0 DIL_SIG)
    onM (copyOut sm (LEN_BYTES + ED_SIG + DIL_SIG) nonce 0 NONCE_BYTES)
    onM (copyMem sm (LEN_BYTES + ED_SIG + DIL_SIG + NONCE_BYTES) m 0 mlen)
    onM (storeU64 smlen (LEN_BYTES + ED_SIG + DIL_SIG + NONCE_BYTES + mlen))
    pure 0
  | _, _, _, _ => pure (-1)

/-- hybrid-dilithium-sphincs/hybrid.c:566-667 `crypto_sign_compact_dilithium_ed25519_sphincs_open` -/
def openCompactH (fuel : Nat) (m mlen sm : Option Ptr) (smlen : Nat) (pk : Option Ptr) : MH Int :=
  match m, mlen, sm, pk with
  | some m, some mlen, some sm, some pk =>
    if smlen < LEN_BYTES + ED_SIG + DIL_SIG + NONCE_BYTES + MIN_MSG_LEN ∨
       smlen > LEN_BYTES + ED_SIG + DIL_SIG + NONCE_BYTES + MAX_MSG_LEN then pure (-1) else do
    let id ← onM (load sm 0)
    if id.toNat ≠ COMPACT_ID then pure (-2) else do
    let lb ← onM (load sm 1)
    let msgLen := lb.toNat
    if msgLen ≤ 0 ∨ msgLen > MAX_MSG_LEN then pure (-3) else
    if smlen ≠ LEN_BYTES + ED_SIG + DIL_SIG + NONCE_BYTES + msgLen then pure (-4) else do
    let hybridMsg ← onM (copyIn (zeros 168) 0 sm (LEN_BYTES + ED_SIG + DIL_SIG) NONCE_BYTES)
    let hybridMsg ← onM (copyIn hybridMsg NONCE_BYTES sm (LEN_BYTES + ED_SIG + DIL_SIG + NONCE_BYTES) msgLen)
    let hybridMsg ← onM (copyIn hybridMsg (NONCE_BYTES + msgLen) pk (ED_PK + DIL_PK) SPX_PK)
    let hin ← onM (liftC (prefixOf hybridMsg (NONCE_BYTES + msgLen + SPX_PK)))
    let hash := (real fuel).sha3_512 hin
    let sig1 ← onM (copyIn (zeros 128) 0 sm LEN_BYTES ED_SIG)
    let sig1 ← onM (liftC (copy sig1 ED_SIG hash 0 HASH_LENGTH))
    let pk1 ← onM (copyIn (zeros 32) 0 pk 0 ED_PK)
    let (r1, msg1, msgLen1) ← onM (liftC ((real fuel).edOpen (zeros 128) 0 sig1 (ED_SIG + HASH_LENGTH) pk1))
    if r1 ≠ 0 then pure (-5) else
    if msgLen1 ≠ HASH_LENGTH then pure (-6) else do
    let m1 ← onM (liftC (prefixOf msg1 HASH_LENGTH))
    let h1 ← onM (liftC (prefixOf hash HASH_LENGTH))
    if m1 ≠ h1 then pure (-7) else do
    let sig2 ← onM (copyIn (zeros 2420) 0 sm (LEN_BYTES + ED_SIG) DIL_SIG)
    let pk2 ← onM (copyIn (zeros 1312) 0 pk ED_PK DIL_PK)
    let r2 ← onK (dilVerifyH fuel sig2 hash pk2)
    if r2 ≠ 0 then pure (-8) else do
    onM (copyMem m 0 sm (LEN_BYTES + ED_SIG + DIL_SIG + NONCE_BYTES) msgLen)
    onM (storeU64 mlen msgLen)
    pure 0
  | _, _, _, _ => pure (-1)

/-- hybrid-dilithium-sphincs/hybrid.c:669-696 `crypto_verify_compact_dilithium_ed25519_sphincs` -/
def verifyCompactH (fuel : Nat) (m : Option Ptr) (mlen : Nat) (sm : Option Ptr) (smlen : Nat) (pk : Option Ptr) : MH Int :=
  match m, sm, pk with
  | some m, some sm, some pk =>
    if mlen ≤ 0 ∨ mlen > MAX_MSG_LEN then pure (-1) else
    withLocalH (zeros 64) fun buf => withLocalH (zeros 8) fun lenp => do
      let r ← openCompactH fuel (some buf) (some lenp) (some sm) smlen (some pk)
      if r ≠ 0 then pure (-2) else do
      let l ← onM (loadU64 lenp)
      if l ≠ mlen then pure (-3) else
      onM (cmpMem buf m 0 l)
  | _, _, _ => pure (-1)

/-- hybrid-dilithium-sphincs/hybrid.c:698-711 `crypto_verify_dilithium` -/
def verifyDilithiumH (fuel : Nat) (m : Option Ptr) (mlen : Nat) (sm : Option Ptr) (smlen : Nat) (pk : Option Ptr) : MH Int :=
  match m, sm, pk with
  | some m, some sm, some pk =>
    if mlen ≤ 0 ∨ mlen > MAX_MSG_LEN then pure (-1) else
    if smlen ≠ DIL_SIG then pure (-2) else do
    let sig ← onM (readMem sm smlen)
    let msg ← onM (readMem m mlen)
    let pkb ← onM (readMem pk DIL_PK)
    let r ← onK (dilVerifyH fuel sig msg pkb)
    if r ≠ 0 then pure (-2) else pure 0
  | _, _, _ => pure (-1)

end Verif.Real.Heap
