import Verif.Mem

/-!
Model of hybrid-dilithium-sphincs/hybrid.c over an arbitrary set of component algorithms.

Lengths (`unsigned long long`) are `Nat`: no operation of the file on them can wrap, because every sum is formed
from constants and a value that has been checked to be at most 64.
-/

namespace Verif.Hybrid
open Verif

/-! Constants: common/hybrid-common.c:3-27. -/
/-- common/hybrid-common.c:3. -/
abbrev MIN_MSG_LEN : Nat := 1
/-- common/hybrid-common.c:4. -/
abbrev MAX_MSG_LEN : Nat := 64
/-- common/hybrid-common.c:5. -/
abbrev LEN_BYTES : Nat := 2
/-- common/hybrid-common.c:7. -/
abbrev ED_SEED : Nat := 32
/-- common/hybrid-common.c:8. -/
abbrev ED_PK : Nat := 32
/-- common/hybrid-common.c:9. -/
abbrev ED_SK : Nat := 64
/-- common/hybrid-common.c:10. -/
abbrev ED_SIG : Nat := 64
/-- common/hybrid-common.c:13. -/
abbrev DIL_SEED : Nat := 32
/-- common/hybrid-common.c:14. -/
abbrev DIL_PK : Nat := 1312
/-- common/hybrid-common.c:15. -/
abbrev DIL_SK : Nat := 2560
/-- common/hybrid-common.c:16. -/
abbrev DIL_SIG : Nat := 2420
/-- common/hybrid-common.c:18. -/
abbrev SPX_SEED : Nat := 96
/-- common/hybrid-common.c:19. -/
abbrev SPX_PK : Nat := 64
/-- common/hybrid-common.c:20. -/
abbrev SPX_SK : Nat := 128
/-- common/hybrid-common.c:21. -/
abbrev SPX_SIG : Nat := 49856
/-- common/hybrid-common.c:23. -/
abbrev NONCE_BYTES : Nat := 40
/-- common/hybrid-common.c:24. -/
abbrev HASH_LENGTH : Nat := 64
/-- common/hybrid-common.c:26. -/
abbrev COMPACT_ID : Nat := 1
/-- common/hybrid-common.c:27. -/
abbrev FULL_ID : Nat := 2

/-- A zero-initialised local array `unsigned char x[n] = { 0 };` (for example hybrid-dilithium-sphincs/hybrid.c:447). -/
def zeros (n : Nat) : Bytes := List.replicate n 0

/-- Conversion `(int) v` of an `unsigned long long` (for example hybrid-dilithium-sphincs/hybrid.c:327, 395). -/
def toInt32 (v : Nat) : Int := (BitVec.ofNat 32 v).toInt

/-- The component functions that hybrid.c calls, with the buffers they get.
Outputs are the return code and the new contents of the output buffers. -/
structure Prims where
  /-- tweetnacl/tweetnacl.c:658-678 `crypto_sign_ed25519_keypair_seed(pk, sk, seed)`: code, pk, sk -/
  edKeypairSeed : (pk sk seed : Bytes) → C (Int × Bytes × Bytes)
  /-- tweetnacl/tweetnacl.c:728-758 `crypto_sign_ed25519(sm, &smlen, m, n, sk)`: code, sm, smlen -/
  edSign : (sm : Bytes) → (smlen : Nat) → (m sk : Bytes) → C (Int × Bytes × Nat)
  /-- tweetnacl/tweetnacl.c:796-826 `crypto_sign_ed25519_open(m, &mlen, sm, n, pk)`: code, m, mlen.
  `sm` is the array passed, `n` the length passed. -/
  edOpen : (m : Bytes) → (mlen : Nat) → (sm : Bytes) → (n : Nat) → (pk : Bytes) → C (Int × Bytes × Nat)
  /-- dilithium2/sign.c:23-68 `crypto_sign_keypair_seed(pk, sk, seed)` -/
  dilKeypairSeed : (pk sk seed : Bytes) → C (Int × Bytes × Bytes)
  /-- dilithium2/sign.c:108-211 `crypto_sign_signature(sig, &siglen, m, mlen, sk)` -/
  dilSign : (sig : Bytes) → (siglen : Nat) → (m sk : Bytes) → C (Int × Bytes × Nat)
  /-- dilithium2/sign.c:257-328 `crypto_sign_verify(sig, siglen, m, mlen, pk)` -/
  dilVerify : (sig m pk : Bytes) → C Int
  /-- sphincs/sign.c:50-75 `crypto_sign_seed_keypair(pk, sk, seed)` -/
  spxKeypairSeed : (pk sk seed : Bytes) → C (Int × Bytes × Bytes)
  /-- sphincs/sign.c:96-163 `crypto_sign_signature(sig, &siglen, m, mlen, sk)` -/
  spxSign : (sig : Bytes) → (siglen : Nat) → (m sk : Bytes) → RandM (Int × Bytes × Nat)
  /-- sphincs/sign.c:168-247 `crypto_sign_verify(sig, siglen, m, mlen, pk)` -/
  spxVerify : (sig m pk : Bytes) → C Int
  /-- common/fips202.c:915-928 `sha3_512(out, in, inlen)` -/
  sha3_512 : Bytes → Bytes
  /-- common/shake_prng.c `seedexpander_wrapper(seed, seedlen, out, outlen)` with valid pointers: code, out -/
  seedexpander : (seed : Bytes) → (outlen : Nat) → C (Int × Bytes)

variable (P : Prims)

/-- The first `n` bytes of a local array that is passed with length `n` (no line of its own; an argument of the component calls in hybrid-dilithium-sphincs/hybrid.c:259-344). -/
def prefixOf (b : Bytes) (n : Nat) : C Bytes := if n ≤ b.length then .ok (b.take n) else .error .ub

/-- hybrid-dilithium-sphincs/hybrid.c:145-148: `for (int i = 0; i < 64; i++) { seedTemp[i] = seed[i]; i++; }`.
The body increments `i` a second time, so the k-th iteration handles index 2k; 32 iterations. -/
def expanderCopy (seedTemp : Bytes) (seed : Ptr) : M Bytes :=
  loopM (fun k b => do
    let v ← load seed (2 * k)
    liftC (wr b (2 * k) v)) 0 32 seedTemp

/-- hybrid-dilithium-sphincs/hybrid.c:140-172 `crypto_sign_dilithium_ed25519_sphincs_keypair_seed_expander`.  There is no NULL check:
a NULL argument is dereferenced. -/
def seedExpander (seed expandedSeed : Option Ptr) : M Int :=
  match seed with
  | none => fun _ => .error .ub
  | some seed => do
    let seedTemp ← expanderCopy (zeros 64) seed
    let (ret, tmp) ← liftC (P.seedexpander seedTemp 128)
    if ret ≠ 0 then pure ret else
    match expandedSeed with
    | none => fun _ => .error .ub
    | some ex => do
      copyOut ex 0 tmp 0 32
      copyMem ex 32 seed 64 32
      copyOut ex 64 tmp 32 96
      pure 0

/-- hybrid-dilithium-sphincs/hybrid.c:174-245 `crypto_sign_dilithium_ed25519_sphincs_keypair_seed` -/
def keypairSeed (pk sk seed : Option Ptr) : M Int :=
  match pk, sk, seed with
  | some pk, some sk, some seed => do
    let seed1 ← copyIn (zeros 32) 0 seed 0 ED_SEED
    let seed2 ← copyIn (zeros 32) 0 seed ED_SEED DIL_SEED
    let seed3 ← copyIn (zeros 96) 0 seed (ED_SEED + DIL_SEED) SPX_SEED
    let (r1, pk1, sk1) ← liftC (P.edKeypairSeed (zeros 32) (zeros 64) seed1)
    if r1 ≠ 0 then pure (-2) else do
    copyOut pk 0 pk1 0 ED_PK
    copyOut sk 0 sk1 0 ED_SK
    let (r2, pk2, sk2) ← liftC (P.dilKeypairSeed (zeros 1312) (zeros 2560) seed2)
    if r2 ≠ 0 then pure (-3) else do
    copyOut sk ED_SK sk2 0 DIL_SK
    -- hybrid-dilithium-sphincs/hybrid.c:224-227: one loop writes both destinations
    loopM (fun i (_ : Unit) => do
      let v ← liftC (rd pk2 i)
      store pk (ED_PK + i) v
      let v ← liftC (rd pk2 i)
      store sk (ED_SK + DIL_SK + i) v) 0 DIL_PK ()
    let (r3, pk3, sk3) ← liftC (P.spxKeypairSeed (zeros 64) (zeros 128) seed3)
    if r3 ≠ 0 then pure (-4) else do
    copyOut sk (ED_SK + DIL_SK + DIL_PK) sk3 0 SPX_SK
    copyOut pk (ED_PK + DIL_PK) pk3 0 SPX_PK
    pure 0
  | _, _, _ => pure (-1)

/-- hybrid-dilithium-sphincs/hybrid.c:247-257 `crypto_sign_dilithium_ed25519_sphincs_keypair` -/
def keypair (pk sk : Option Ptr) : M Int :=
  match pk, sk with
  | some pk, some sk => do
    match ← liftR (randombytes 160) with
    | none => pure (-1)
    | some seed => withLocal seed fun s => keypairSeed P (some pk) (some sk) (some s)
  | _, _ => pure (-1)

/-- hybrid-dilithium-sphincs/hybrid.c:259-344 `crypto_sign_dilithium_ed25519_sphincs` (full mode) -/
def signFull (sm smlen m : Option Ptr) (mlen : Nat) (sk : Option Ptr) : M Int :=
  match sm, smlen, m, sk with
  | some sm, some smlen, some m, some sk =>
    if mlen ≤ 0 ∨ mlen > MAX_MSG_LEN then pure (-1) else do
    let sk1 ← copyIn (zeros 64) 0 sk 0 ED_SK
    let sk2 ← copyIn (zeros 2560) 0 sk ED_SK DIL_SK
    let sk3 ← copyIn (zeros 128) 0 sk (ED_SK + DIL_SK + DIL_PK) SPX_SK
    let msg ← readMem m mlen
    let (r1, sig1, sigLen1) ← liftC (P.edSign (zeros 128) 0 msg sk1)
    let (r2, sig2, sigLen2) ← liftC (P.dilSign (zeros 2420) 0 msg sk2)
    let (r3, sig3, sigLen3) ← liftR (P.spxSign (zeros 49856) 0 msg sk3)
    if r1 ≠ 0 then pure (-2) else
    if r2 ≠ 0 then pure (-3) else
    if r3 ≠ 0 then pure (-4) else
    if sigLen1 ≠ ED_SIG + mlen then pure (-5) else
    if sigLen2 ≠ DIL_SIG then pure (-6) else
    if sigLen3 ≠ SPX_SIG then pure (-6) else do
    store sm 0 (BitVec.ofNat 8 FULL_ID)
    store sm 1 (BitVec.ofNat 8 mlen)
    copyOut sm LEN_BYTES sig1 0 sigLen1
    copyOut sm (LEN_BYTES + sigLen1) sig2 0 sigLen2
    copyOut sm (LEN_BYTES + sigLen1 + sigLen2) sig3 0 sigLen3
    storeU64 smlen (LEN_BYTES + ED_SIG + DIL_SIG + SPX_SIG + mlen)
    pure 0
  | _, _, _, _ => pure (-1)

/-- hybrid-dilithium-sphincs/hybrid.c:346-437 `crypto_sign_dilithium_ed25519_sphincs_open` -/
def openFull (m mlen sm : Option Ptr) (smlen : Nat) (pk : Option Ptr) : M Int :=
  match m, mlen, sm, pk with
  | some m, some mlen, some sm, some pk =>
    if smlen < LEN_BYTES + ED_SIG + MIN_MSG_LEN + DIL_SIG + SPX_SIG ∨
       smlen > LEN_BYTES + ED_SIG + MAX_MSG_LEN + DIL_SIG + SPX_SIG then pure (-1) else do
    let id ← load sm 0
    if id.toNat ≠ FULL_ID then pure (-2) else do
    let lb ← load sm 1
    let msgLen := lb.toNat
    if msgLen ≤ 0 ∨ msgLen > MAX_MSG_LEN then pure (-3) else
    if smlen ≠ LEN_BYTES + ED_SIG + msgLen + DIL_SIG + SPX_SIG then pure (-4) else do
    let sig1Len := ED_SIG + msgLen
    let sig1 ← copyIn (zeros 128) 0 sm LEN_BYTES sig1Len
    let pk1 ← copyIn (zeros 32) 0 pk 0 ED_PK
    let (r1, msg1, msgLen1) ← liftC (P.edOpen (zeros 128) 0 sig1 sig1Len pk1)
    if r1 ≠ 0 then pure (-5) else
    if toInt32 msgLen1 ≠ (msgLen : Int) then pure (-6) else do
    let sig2 ← copyIn (zeros 2420) 0 sm (LEN_BYTES + ED_SIG + msgLen) DIL_SIG
    let pk2 ← copyIn (zeros 1312) 0 pk ED_PK DIL_PK
    let msg ← liftC (prefixOf msg1 msgLen)
    let r2 ← liftC (P.dilVerify sig2 msg pk2)
    if r2 ≠ 0 then pure (-7) else do
    let sig3 ← copyIn (zeros 49856) 0 sm (LEN_BYTES + ED_SIG + msgLen + DIL_SIG) SPX_SIG
    let pk3 ← copyIn (zeros 64) 0 pk (ED_PK + DIL_PK) SPX_PK
    let r3 ← liftC (P.spxVerify sig3 msg pk3)
    if r3 ≠ 0 then pure (-8) else do
    copyOut m 0 msg1 0 msgLen
    storeU64 mlen msgLen
    pure 0
  | _, _, _, _ => pure (-1)

/-- hybrid-dilithium-sphincs/hybrid.c:439-466 `crypto_verify_dilithium_ed25519_sphincs` -/
def verifyFull (m : Option Ptr) (mlen : Nat) (sm : Option Ptr) (smlen : Nat) (pk : Option Ptr) : M Int :=
  match m, sm, pk with
  | some m, some sm, some pk =>
    if mlen ≤ 0 ∨ mlen > MAX_MSG_LEN then pure (-1) else
    withLocal (zeros 224) fun buf => withLocal (zeros 8) fun lenp => do
      let r ← openFull P (some buf) (some lenp) (some sm) smlen (some pk)
      if r ≠ 0 then pure (-2) else do
      let l ← loadU64 lenp
      if l ≠ mlen then pure (-3) else
      cmpMem buf m 0 l
  | _, _, _ => pure (-1)

/-- hybrid-dilithium-sphincs/hybrid.c:468-564 `crypto_sign_compact_dilithium_ed25519_sphincs` -/
def signCompact (sm smlen m : Option Ptr) (mlen : Nat) (sk : Option Ptr) : M Int :=
  match sm, smlen, m, sk with
  | some sm, some smlen, some m, some sk =>
    if mlen ≤ 0 ∨ mlen > MAX_MSG_LEN then pure (-1) else do
    let sk1 ← copyIn (zeros 64) 0 sk 0 ED_SK
    let sk2 ← copyIn (zeros 2560) 0 sk ED_SK DIL_SK
    match ← liftR (randombytes 40) with
    | none => pure (-1)
    | some nonce => do
    let hybridMsg ← liftC (copy (zeros 168) 0 nonce 0 NONCE_BYTES)
    let hybridMsg ← copyIn hybridMsg NONCE_BYTES m 0 mlen
    let hybridMsg ← copyIn hybridMsg (NONCE_BYTES + mlen) sk (ED_SK + DIL_SK + DIL_PK + SPX_SK / 2) SPX_PK
    let hin ← liftC (prefixOf hybridMsg (NONCE_BYTES + mlen + SPX_PK))
    let hash := P.sha3_512 hin
    let (r1, sig1, sigLen1) ← liftC (P.edSign (zeros 128) 0 hash sk1)
    let (r2, sig2, sigLen2) ← liftC (P.dilSign (zeros 2420) 0 hash sk2)
    if r1 ≠ 0 then pure (-2) else
    if r2 ≠ 0 then pure (-3) else
    if sigLen1 ≠ ED_SIG + HASH_LENGTH then pure (-4) else
    if sigLen2 ≠ DIL_SIG then pure (-5) else do
    store sm 0 (BitVec.ofNat 8 COMPACT_ID)
    store sm 1 (BitVec.ofNat 8 mlen)
    copyOut sm LEN_BYTES sig1 0 ED_SIG
    copyOut sm (LEN_BYTES + ED_SIG) sig2 0 DIL_SIG
    copyOut sm (LEN_BYTES + ED_SIG + DIL_SIG) nonce 0 NONCE_BYTES
    copyMem sm (LEN_BYTES + ED_SIG + DIL_SIG + NONCE_BYTES) m 0 mlen
    storeU64 smlen (LEN_BYTES + ED_SIG + DIL_SIG + NONCE_BYTES + mlen)
    pure 0
  | _, _, _, _ => pure (-1)

/-- hybrid-dilithium-sphincs/hybrid.c:566-667 `crypto_sign_compact_dilithium_ed25519_sphincs_open` -/
def openCompact (m mlen sm : Option Ptr) (smlen : Nat) (pk : Option Ptr) : M Int :=
  match m, mlen, sm, pk with
  | some m, some mlen, some sm, some pk =>
    if smlen < LEN_BYTES + ED_SIG + DIL_SIG + NONCE_BYTES + MIN_MSG_LEN ∨
       smlen > LEN_BYTES + ED_SIG + DIL_SIG + NONCE_BYTES + MAX_MSG_LEN then pure (-1) else do
    let id ← load sm 0
    if id.toNat ≠ COMPACT_ID then pure (-2) else do
    let lb ← load sm 1
    let msgLen := lb.toNat
    if msgLen ≤ 0 ∨ msgLen > MAX_MSG_LEN then pure (-3) else
    if smlen ≠ LEN_BYTES + ED_SIG + DIL_SIG + NONCE_BYTES + msgLen then pure (-4) else do
    let hybridMsg ← copyIn (zeros 168) 0 sm (LEN_BYTES + ED_SIG + DIL_SIG) NONCE_BYTES
    let hybridMsg ← copyIn hybridMsg NONCE_BYTES sm (LEN_BYTES + ED_SIG + DIL_SIG + NONCE_BYTES) msgLen
    let hybridMsg ← copyIn hybridMsg (NONCE_BYTES + msgLen) pk (ED_PK + DIL_PK) SPX_PK
    let hin ← liftC (prefixOf hybridMsg (NONCE_BYTES + msgLen + SPX_PK))
    let hash := P.sha3_512 hin
    let sig1 ← copyIn (zeros 128) 0 sm LEN_BYTES ED_SIG
    let sig1 ← liftC (copy sig1 ED_SIG hash 0 HASH_LENGTH)
    let pk1 ← copyIn (zeros 32) 0 pk 0 ED_PK
    let (r1, msg1, msgLen1) ← liftC (P.edOpen (zeros 128) 0 sig1 (ED_SIG + HASH_LENGTH) pk1)
    if r1 ≠ 0 then pure (-5) else
    if msgLen1 ≠ HASH_LENGTH then pure (-6) else do
    -- hybrid-dilithium-sphincs/hybrid.c:638-642: compare byte by byte, return -7 at the first difference
    let m1 ← liftC (prefixOf msg1 HASH_LENGTH)
    let h1 ← liftC (prefixOf hash HASH_LENGTH)
    if m1 ≠ h1 then pure (-7) else do
    let sig2 ← copyIn (zeros 2420) 0 sm (LEN_BYTES + ED_SIG) DIL_SIG
    let pk2 ← copyIn (zeros 1312) 0 pk ED_PK DIL_PK
    let r2 ← liftC (P.dilVerify sig2 hash pk2)
    if r2 ≠ 0 then pure (-8) else do
    copyMem m 0 sm (LEN_BYTES + ED_SIG + DIL_SIG + NONCE_BYTES) msgLen
    storeU64 mlen msgLen
    pure 0
  | _, _, _, _ => pure (-1)

/-- hybrid-dilithium-sphincs/hybrid.c:669-696 `crypto_verify_compact_dilithium_ed25519_sphincs` -/
def verifyCompact (m : Option Ptr) (mlen : Nat) (sm : Option Ptr) (smlen : Nat) (pk : Option Ptr) : M Int :=
  match m, sm, pk with
  | some m, some sm, some pk =>
    if mlen ≤ 0 ∨ mlen > MAX_MSG_LEN then pure (-1) else
    withLocal (zeros 64) fun buf => withLocal (zeros 8) fun lenp => do
      let r ← openCompact P (some buf) (some lenp) (some sm) smlen (some pk)
      if r ≠ 0 then pure (-2) else do
      let l ← loadU64 lenp
      if l ≠ mlen then pure (-3) else
      cmpMem buf m 0 l
  | _, _, _ => pure (-1)

/-- hybrid-dilithium-sphincs/hybrid.c:698-711 `crypto_verify_dilithium`.  The callee compares `smlen` with 2420 before it reads
anything (dilithium2/sign.c:273-275), so nothing is read when the length is different.  With the right length the model reads
signature, message and public key up front; the C code reads the message only after the signature's encoding and norm checks
(dilithium2/sign.c:277-284), so the model may report an out-of-bounds message where the C code would return -1 first. -/
def verifyDilithium (m : Option Ptr) (mlen : Nat) (sm : Option Ptr) (smlen : Nat) (pk : Option Ptr) : M Int :=
  match m, sm, pk with
  | some m, some sm, some pk =>
    if mlen ≤ 0 ∨ mlen > MAX_MSG_LEN then pure (-1) else
    if smlen ≠ DIL_SIG then pure (-2) else do
    let sig ← readMem sm smlen
    let msg ← readMem m mlen
    let pkb ← readMem pk DIL_PK
    let r ← liftC (P.dilVerify sig msg pkb)
    if r ≠ 0 then pure (-2) else pure 0
  | _, _, _ => pure (-1)

end Verif.Hybrid
