import Verif.Conc.Base
import Verif.Hybrid.Model

/-!
The functions of hybrid-dilithium-sphincs/hybrid.c as sequences of steps.  The text of every function is that of Hybrid/Model.lean; only the operations on memory are those of Conc/Base.lean, and full signing reads
the message once for each of the three algorithms.  `exec_call` in
Conc/Exec.lean shows that the steps without interruption do what Hybrid/Model.lean says.
-/

namespace Verif.Conc
open Verif
open Verif.Hybrid (Prims MIN_MSG_LEN MAX_MSG_LEN LEN_BYTES ED_SEED ED_PK ED_SK ED_SIG DIL_SEED DIL_PK DIL_SK DIL_SIG SPX_SEED SPX_PK SPX_SK SPX_SIG NONCE_BYTES HASH_LENGTH COMPACT_ID FULL_ID zeros toInt32 prefixOf)

variable (P : Prims)

/-- sphincs/sign.c:96-163 `crypto_sign_signature`: one draw of 32 bytes (line 125); if it succeeds the message is read for `gen_message_random` (line 130) and again for `hash_message` (line 133); `body` is what is
computed from that. -/
def spxSign (body : Bytes → Nat → Bytes → Bytes → Bytes → Option Bytes → C (Int × Bytes × Nat)) (sig : Bytes) (n : Nat) (m : Ptr) (mlen : Nat) (sk : Bytes) : Prog (Int × Bytes × Nat) := do
  match ← draw 32 with
  | none => liftC (body sig n [] [] sk none)
  | some opt => do
    let msg ← readMem m mlen
    let msg' ← readMem m mlen
    liftC (body sig n msg msg' sk (some opt))

/-- hybrid-dilithium-sphincs/hybrid.c:145-148: `for (int i = 0; i < 64; i++) { seedTemp[i] = seed[i]; i++; }`.
The body increments `i` a second time, so the k-th iteration handles index 2k; 32 iterations. -/
def expanderCopy (seedTemp : Bytes) (seed : Ptr) : Prog Bytes :=
  loopM (fun k b => do
    let v ← load seed (2 * k)
    liftC (wr b (2 * k) v)) 0 32 seedTemp

/-- hybrid-dilithium-sphincs/hybrid.c:140-172 `crypto_sign_dilithium_ed25519_sphincs_keypair_seed_expander`.  There is no NULL check:
a NULL argument is dereferenced. -/
def seedExpander (seed expandedSeed : Option Ptr) : Prog Int :=
  match seed with
  | none => .fail .ub
  | some seed => do
    let seedTemp ← expanderCopy (zeros 64) seed
    let (ret, tmp) ← liftC (P.seedexpander seedTemp 128)
    if ret ≠ 0 then pure ret else
    match expandedSeed with
    | none => .fail .ub
    | some ex => do
      copyOut ex 0 tmp 0 32
      copyMem ex 32 seed 64 32
      copyOut ex 64 tmp 32 96
      pure 0

/-- hybrid-dilithium-sphincs/hybrid.c:174-245 `crypto_sign_dilithium_ed25519_sphincs_keypair_seed` -/
def keypairSeed (pk sk seed : Option Ptr) : Prog Int :=
  match pk, sk, seed with
  | some pk, some sk, some seed => do
    let seed1 ← copyIn (zeros 32) 0 seed 0 ED_SEED
    let seed2 ← copyIn (zeros 32) 0 seed ED_SEED DIL_SEED
    let seed3 ← copyIn (zeros 96) 0 seed (ED_SEED + DIL_SEED) SPX_SEED
    let (r1, pk1, sk1) ← liftC (P.edKeypairSeed (zeros 32) (zeros 64) seed1)
    if r1 ≠ 0 then pure (-2) else do
    copyOut pk 0 pk1 0 ED_PK
    copyOut sk 0 sk1 0 ED_SK
    let (r2, pk2, sk2) ← liftC (P.dilKeypairSeed (zeros 1312) (zeros 2560) seed2)
    if r2 ≠ 0 then pure (-3) else do
    copyOut sk ED_SK sk2 0 DIL_SK
    -- hybrid-dilithium-sphincs/hybrid.c:224-227: one loop writes both destinations
    loopM (fun i (_ : Unit) => do
      let v ← liftC (rd pk2 i)
      store pk (ED_PK + i) v
      let v ← liftC (rd pk2 i)
      store sk (ED_SK + DIL_SK + i) v) 0 DIL_PK ()
    let (r3, pk3, sk3) ← liftC (P.spxKeypairSeed (zeros 64) (zeros 128) seed3)
    if r3 ≠ 0 then pure (-4) else do
    copyOut sk (ED_SK + DIL_SK + DIL_PK) sk3 0 SPX_SK
    copyOut pk (ED_PK + DIL_PK) pk3 0 SPX_PK
    pure 0
  | _, _, _ => pure (-1)

/-- hybrid-dilithium-sphincs/hybrid.c:247-257 `crypto_sign_dilithium_ed25519_sphincs_keypair` -/
def keypair (pk sk : Option Ptr) : Prog Int :=
  match pk, sk with
  | some pk, some sk => do
    match ← draw 160 with
    | none => pure (-1)
    | some seed => withLocal seed fun s => keypairSeed P (some pk) (some sk) (some s)
  | _, _ => pure (-1)

/-- hybrid-dilithium-sphincs/hybrid.c:259-344 `crypto_sign_dilithium_ed25519_sphincs` (full mode).  Each of the three signing functions gets the caller's pointer and reads the message itself: Ed25519 copies it once
(tweetnacl/tweetnacl.c:740), Dilithium absorbs it once (dilithium2/sign.c:133).  SPHINCS+ absorbs it twice (sphincs/sign.c:130 and 133). -/
def signFull (body : Bytes → Nat → Bytes → Bytes → Bytes → Option Bytes → C (Int × Bytes × Nat)) (sm smlen m : Option Ptr) (mlen : Nat) (sk : Option Ptr) : Prog Int :=
  match sm, smlen, m, sk with
  | some sm, some smlen, some m, some sk =>
    if mlen ≤ 0 ∨ mlen > MAX_MSG_LEN then pure (-1) else do
    let sk1 ← copyIn (zeros 64) 0 sk 0 ED_SK
    let sk2 ← copyIn (zeros 2560) 0 sk ED_SK DIL_SK
    let sk3 ← copyIn (zeros 128) 0 sk (ED_SK + DIL_SK + DIL_PK) SPX_SK
    let msg1 ← readMem m mlen
    let (r1, sig1, sigLen1) ← liftC (P.edSign (zeros 128) 0 msg1 sk1)
    let msg2 ← readMem m mlen
    let (r2, sig2, sigLen2) ← liftC (P.dilSign (zeros 2420) 0 msg2 sk2)
    let (r3, sig3, sigLen3) ← spxSign body (zeros 49856) 0 m mlen sk3
    if r1 ≠ 0 then pure (-2) else
    if r2 ≠ 0 then pure (-3) else
    if r3 ≠ 0 then pure (-4) else
    if sigLen1 ≠ ED_SIG + mlen then pure (-5) else
    if sigLen2 ≠ DIL_SIG then pure (-6) else
    if sigLen3 ≠ SPX_SIG then pure (-6) else do
    store sm 0 (BitVec.ofNat 8 FULL_ID)
    store sm 1 (BitVec.ofNat 8 mlen)
    copyOut sm LEN_BYTES sig1 0 sigLen1
    copyOut sm (LEN_BYTES + sigLen1) sig2 0 sigLen2
    copyOut sm (LEN_BYTES + sigLen1 + sigLen2) sig3 0 sigLen3
    storeU64 smlen (LEN_BYTES + ED_SIG + DIL_SIG + SPX_SIG + mlen)
    pure 0
  | _, _, _, _ => pure (-1)

/-- hybrid-dilithium-sphincs/hybrid.c:346-437 `crypto_sign_dilithium_ed25519_sphincs_open` -/
def openFull (m mlen sm : Option Ptr) (smlen : Nat) (pk : Option Ptr) : Prog Int :=
  match m, mlen, sm, pk with
  | some m, some mlen, some sm, some pk =>
    if smlen < LEN_BYTES + ED_SIG + MIN_MSG_LEN + DIL_SIG + SPX_SIG ∨
       smlen > LEN_BYTES + ED_SIG + MAX_MSG_LEN + DIL_SIG + SPX_SIG then pure (-1) else do
    let id ← load sm 0
    if id.toNat ≠ FULL_ID then pure (-2) else do
    let lb ← load sm 1
    let msgLen := lb.toNat
    if msgLen ≤ 0 ∨ msgLen > MAX_MSG_LEN then pure (-3) else
    if smlen ≠ LEN_BYTES + ED_SIG + msgLen + DIL_SIG + SPX_SIG then pure (-4) else do
    let sig1Len := ED_SIG + msgLen
    let sig1 ← copyIn (zeros 128) 0 sm LEN_BYTES sig1Len
    let pk1 ← copyIn (zeros 32) 0 pk 0 ED_PK
    let (r1, msg1, msgLen1) ← liftC (P.edOpen (zeros 128) 0 sig1 sig1Len pk1)
    if r1 ≠ 0 then pure (-5) else
    if toInt32 msgLen1 ≠ (msgLen : Int) then pure (-6) else do
    let sig2 ← copyIn (zeros 2420) 0 sm (LEN_BYTES + ED_SIG + msgLen) DIL_SIG
    let pk2 ← copyIn (zeros 1312) 0 pk ED_PK DIL_PK
    let msg ← liftC (prefixOf msg1 msgLen)
    let r2 ← liftC (P.dilVerify sig2 msg pk2)
    if r2 ≠ 0 then pure (-7) else do
    let sig3 ← copyIn (zeros 49856) 0 sm (LEN_BYTES + ED_SIG + msgLen + DIL_SIG) SPX_SIG
    let pk3 ← copyIn (zeros 64) 0 pk (ED_PK + DIL_PK) SPX_PK
    let r3 ← liftC (P.spxVerify sig3 msg pk3)
    if r3 ≠ 0 then pure (-8) else do
    copyOut m 0 msg1 0 msgLen
    storeU64 mlen msgLen
    pure 0
  | _, _, _, _ => pure (-1)

/-- hybrid-dilithium-sphincs/hybrid.c:439-466 `crypto_verify_dilithium_ed25519_sphincs` -/
def verifyFull (m : Option Ptr) (mlen : Nat) (sm : Option Ptr) (smlen : Nat) (pk : Option Ptr) : Prog Int :=
  match m, sm, pk with
  | some m, some sm, some pk =>
    if mlen ≤ 0 ∨ mlen > MAX_MSG_LEN then pure (-1) else
    withLocal (zeros 224) fun buf => withLocal (zeros 8) fun lenp => do
      let r ← openFull P (some buf) (some lenp) (some sm) smlen (some pk)
      if r ≠ 0 then pure (-2) else do
      let l ← loadU64 lenp
      if l ≠ mlen then pure (-3) else
      cmpMem buf m 0 l
  | _, _, _ => pure (-1)

/-- hybrid-dilithium-sphincs/hybrid.c:468-564 `crypto_sign_compact_dilithium_ed25519_sphincs` -/
def signCompact (sm smlen m : Option Ptr) (mlen : Nat) (sk : Option Ptr) : Prog Int :=
  match sm, smlen, m, sk with
  | some sm, some smlen, some m, some sk =>
    if mlen ≤ 0 ∨ mlen > MAX_MSG_LEN then pure (-1) else do
    let sk1 ← copyIn (zeros 64) 0 sk 0 ED_SK
    let sk2 ← copyIn (zeros 2560) 0 sk ED_SK DIL_SK
    match ← draw 40 with
    | none => pure (-1)
    | some nonce => do
    let hybridMsg ← liftC (copy (zeros 168) 0 nonce 0 NONCE_BYTES)
    let hybridMsg ← copyIn hybridMsg NONCE_BYTES m 0 mlen
    let hybridMsg ← copyIn hybridMsg (NONCE_BYTES + mlen) sk (ED_SK + DIL_SK + DIL_PK + SPX_SK / 2) SPX_PK
    let hin ← liftC (prefixOf hybridMsg (NONCE_BYTES + mlen + SPX_PK))
    let hash := P.sha3_512 hin
    let (r1, sig1, sigLen1) ← liftC (P.edSign (zeros 128) 0 hash sk1)
    let (r2, sig2, sigLen2) ← liftC (P.dilSign (zeros 2420) 0 hash sk2)
    if r1 ≠ 0 then pure (-2) else
    if r2 ≠ 0 then pure (-3) else
    if sigLen1 ≠ ED_SIG + HASH_LENGTH then pure (-4) else
    if sigLen2 ≠ DIL_SIG then pure (-5) else do
    store sm 0 (BitVec.ofNat 8 COMPACT_ID)
    store sm 1 (BitVec.ofNat 8 mlen)
    copyOut sm LEN_BYTES sig1 0 ED_SIG
    copyOut sm (LEN_BYTES + ED_SIG) sig2 0 DIL_SIG
    copyOut sm (LEN_BYTES + ED_SIG + DIL_SIG) nonce 0 NONCE_BYTES
    copyMem sm (LEN_BYTES + ED_SIG + DIL_SIG + NONCE_BYTES) m 0 mlen
    storeU64 smlen (LEN_BYTES + ED_SIG + DIL_SIG + NONCE_BYTES + mlen)
    pure 0
  | _, _, _, _ => pure (-1)

/-- hybrid-dilithium-sphincs/hybrid.c:566-667 `crypto_sign_compact_dilithium_ed25519_sphincs_open` -/
def openCompact (m mlen sm : Option Ptr) (smlen : Nat) (pk : Option Ptr) : Prog Int :=
  match m, mlen, sm, pk with
  | some m, some mlen, some sm, some pk =>
    if smlen < LEN_BYTES + ED_SIG + DIL_SIG + NONCE_BYTES + MIN_MSG_LEN ∨
       smlen > LEN_BYTES + ED_SIG + DIL_SIG + NONCE_BYTES + MAX_MSG_LEN then pure (-1) else do
    let id ← load sm 0
    if id.toNat ≠ COMPACT_ID then pure (-2) else do
    let lb ← load sm 1
    let msgLen := lb.toNat
    if msgLen ≤ 0 ∨ msgLen > MAX_MSG_LEN then pure (-3) else
    if smlen ≠ LEN_BYTES + ED_SIG + DIL_SIG + NONCE_BYTES + msgLen then pure (-4) else do
    let hybridMsg ← copyIn (zeros 168) 0 sm (LEN_BYTES + ED_SIG + DIL_SIG) NONCE_BYTES
    let hybridMsg ← copyIn hybridMsg NONCE_BYTES sm (LEN_BYTES + ED_SIG + DIL_SIG + NONCE_BYTES) msgLen
    let hybridMsg ← copyIn hybridMsg (NONCE_BYTES + msgLen) pk (ED_PK + DIL_PK) SPX_PK
    let hin ← liftC (prefixOf hybridMsg (NONCE_BYTES + msgLen + SPX_PK))
    let hash := P.sha3_512 hin
    let sig1 ← copyIn (zeros 128) 0 sm LEN_BYTES ED_SIG
    let sig1 ← liftC (copy sig1 ED_SIG hash 0 HASH_LENGTH)
    let pk1 ← copyIn (zeros 32) 0 pk 0 ED_PK
    let (r1, msg1, msgLen1) ← liftC (P.edOpen (zeros 128) 0 sig1 (ED_SIG + HASH_LENGTH) pk1)
    if r1 ≠ 0 then pure (-5) else
    if msgLen1 ≠ HASH_LENGTH then pure (-6) else do
    -- hybrid-dilithium-sphincs/hybrid.c:638-642: compare byte by byte, return -7 at the first difference
    let m1 ← liftC (prefixOf msg1 HASH_LENGTH)
    let h1 ← liftC (prefixOf hash HASH_LENGTH)
    if m1 ≠ h1 then pure (-7) else do
    let sig2 ← copyIn (zeros 2420) 0 sm (LEN_BYTES + ED_SIG) DIL_SIG
    let pk2 ← copyIn (zeros 1312) 0 pk ED_PK DIL_PK
    let r2 ← liftC (P.dilVerify sig2 hash pk2)
    if r2 ≠ 0 then pure (-8) else do
    copyMem m 0 sm (LEN_BYTES + ED_SIG + DIL_SIG + NONCE_BYTES) msgLen
    storeU64 mlen msgLen
    pure 0
  | _, _, _, _ => pure (-1)

/-- hybrid-dilithium-sphincs/hybrid.c:669-696 `crypto_verify_compact_dilithium_ed25519_sphincs` -/
def verifyCompact (m : Option Ptr) (mlen : Nat) (sm : Option Ptr) (smlen : Nat) (pk : Option Ptr) : Prog Int :=
  match m, sm, pk with
  | some m, some sm, some pk =>
    if mlen ≤ 0 ∨ mlen > MAX_MSG_LEN then pure (-1) else
    withLocal (zeros 64) fun buf => withLocal (zeros 8) fun lenp => do
      let r ← openCompact P (some buf) (some lenp) (some sm) smlen (some pk)
      if r ≠ 0 then pure (-2) else do
      let l ← loadU64 lenp
      if l ≠ mlen then pure (-3) else
      cmpMem buf m 0 l
  | _, _, _ => pure (-1)

/-- hybrid-dilithium-sphincs/hybrid.c:698-711 `crypto_verify_dilithium`.  The callee compares `smlen` with 2420 before it reads
anything (dilithium2/sign.c:273-275), so nothing is read when the length is different.  With the right length the model reads
signature, message and public key up front; the C code reads the message only after the signature's encoding and norm checks
(dilithium2/sign.c:277-284), so the model may report an out-of-bounds message where the C code would return -1 first. -/
def verifyDilithium (m : Option Ptr) (mlen : Nat) (sm : Option Ptr) (smlen : Nat) (pk : Option Ptr) : Prog Int :=
  match m, sm, pk with
  | some m, some sm, some pk =>
    if mlen ≤ 0 ∨ mlen > MAX_MSG_LEN then pure (-1) else
    if smlen ≠ DIL_SIG then pure (-2) else do
    let sig ← readMem sm smlen
    let msg ← readMem m mlen
    let pkb ← readMem pk DIL_PK
    let r ← liftC (P.dilVerify sig msg pkb)
    if r ≠ 0 then pure (-2) else pure 0
  | _, _, _ => pure (-1)

/-- A call of one of the ten functions with its arguments (hybrid-dilithium-sphincs/hybrid.c:140-711). -/
inductive Call where
  | seedExpander (seed expandedSeed : Option Ptr)
  | keypairSeed (pk sk seed : Option Ptr)
  | keypair (pk sk : Option Ptr)
  | signFull (sm smlen m : Option Ptr) (mlen : Nat) (sk : Option Ptr)
  | openFull (m mlen sm : Option Ptr) (smlen : Nat) (pk : Option Ptr)
  | verifyFull (m : Option Ptr) (mlen : Nat) (sm : Option Ptr) (smlen : Nat) (pk : Option Ptr)
  | signCompact (sm smlen m : Option Ptr) (mlen : Nat) (sk : Option Ptr)
  | openCompact (m mlen sm : Option Ptr) (smlen : Nat) (pk : Option Ptr)
  | verifyCompact (m : Option Ptr) (mlen : Nat) (sm : Option Ptr) (smlen : Nat) (pk : Option Ptr)
  | verifyDilithium (m : Option Ptr) (mlen : Nat) (sm : Option Ptr) (smlen : Nat) (pk : Option Ptr)

/-- The call as a sequence of steps (hybrid-dilithium-sphincs/hybrid.c:140-711). -/
def Call.prog (body : Bytes → Nat → Bytes → Bytes → Bytes → Option Bytes → C (Int × Bytes × Nat)) : Call → Prog Int
  | .seedExpander seed ex => Conc.seedExpander P seed ex
  | .keypairSeed pk sk seed => Conc.keypairSeed P pk sk seed
  | .keypair pk sk => Conc.keypair P pk sk
  | .signFull sm smlen m mlen sk => Conc.signFull P body sm smlen m mlen sk
  | .openFull m mlen sm smlen pk => Conc.openFull P m mlen sm smlen pk
  | .verifyFull m mlen sm smlen pk => Conc.verifyFull P m mlen sm smlen pk
  | .signCompact sm smlen m mlen sk => Conc.signCompact P sm smlen m mlen sk
  | .openCompact m mlen sm smlen pk => Conc.openCompact P m mlen sm smlen pk
  | .verifyCompact m mlen sm smlen pk => Conc.verifyCompact P m mlen sm smlen pk
  | .verifyDilithium m mlen sm smlen pk => Conc.verifyDilithium P m mlen sm smlen pk

/-- The call of Hybrid/Model.lean (hybrid-dilithium-sphincs/hybrid.c:140-711). -/
def Call.whole : Call → M Int
  | .seedExpander seed ex => Hybrid.seedExpander P seed ex
  | .keypairSeed pk sk seed => Hybrid.keypairSeed P pk sk seed
  | .keypair pk sk => Hybrid.keypair P pk sk
  | .signFull sm smlen m mlen sk => Hybrid.signFull P sm smlen m mlen sk
  | .openFull m mlen sm smlen pk => Hybrid.openFull P m mlen sm smlen pk
  | .verifyFull m mlen sm smlen pk => Hybrid.verifyFull P m mlen sm smlen pk
  | .signCompact sm smlen m mlen sk => Hybrid.signCompact P sm smlen m mlen sk
  | .openCompact m mlen sm smlen pk => Hybrid.openCompact P m mlen sm smlen pk
  | .verifyCompact m mlen sm smlen pk => Hybrid.verifyCompact P m mlen sm smlen pk
  | .verifyDilithium m mlen sm smlen pk => Hybrid.verifyDilithium P m mlen sm smlen pk

end Verif.Conc
