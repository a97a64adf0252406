import Verif.Real.Model
import Verif.Ct.Ed25519
import Verif.Ct.Dilithium
import Verif.Ct.Sphincs

/-!
hybrid-dilithium-sphincs/hybrid.c, the functions that handle secrets, with traces: the functions of Verif/Hybrid/Model.lean with every array index and every condition
recorded, and with the component functions of the other files of this directory put in.

An access through a pointer of the caller is recorded with its index relative to that pointer (the pointers are the caller's own and no secret).  The tests of all
arguments at the beginning of a function are one event.  What `randombytes` does inside is not recorded (it works for the operating system's bytes alone and has no
secret but its output); how it came out is.
-/

namespace Verif.Ct.Hybrid
open Verif Verif.Hybrid Verif.Ct.Keccak

variable {α β σ : Type}

/-- Computations with access to caller memory and the random source, with traces (compare `M`; hybrid-dilithium-sphincs/hybrid.c:259-344). -/
abbrev TM := StateT World T

/-- A computation on local data (no line of its own). -/
def liftT (x : T α) : TM α := fun W => do
  let a ← x
  pure (a, W)

/-- Records events (the tests of hybrid-dilithium-sphincs/hybrid.c:175, 263, 472). -/
def note (e : List Ev) : TM Unit := liftT (touch e)

/-- `p[i]` (for example hybrid-dilithium-sphincs/hybrid.c:146). -/
def load (p : Ptr) (i : Nat) : TM Byte := fun W => ⟨Verif.load p i W, [.read i]⟩

/-- `p[i] = v` (for example hybrid-dilithium-sphincs/hybrid.c:207-209). -/
def store (p : Ptr) (i : Nat) (v : Byte) : TM Unit := fun W => ⟨Verif.store p i v W, [.write i]⟩

/-- `if (c) t else e` (for example hybrid-dilithium-sphincs/hybrid.c:203-205). -/
def condM (c : Prop) [Decidable c] (t e : TM α) : TM α := fun W => cond c (t W) (e W)

/-- `for (k = i; k < i + n; k++) s = f(k, s)` (for example hybrid-dilithium-sphincs/hybrid.c:190-200). -/
def loopM (f : Nat → σ → TM σ) : (i n : Nat) → σ → TM σ
  | _, 0, s => do
    note [.branch false]
    pure s
  | i, n + 1, s => do
    note [.branch true]
    let s ← f i s
    loopM f (i + 1) n s

/-- `for (i = 0; i < n; i++) dst[d + i] = p[o + i];`, `dst` a local array (for example hybrid-dilithium-sphincs/hybrid.c:190-192). -/
def copyIn (dst : Bytes) (d : Nat) (p : Ptr) (o n : Nat) : TM Bytes :=
  loopM (fun i b => do
    let v ← load p (o + i)
    liftT (wr b (d + i) v)) 0 n dst

/-- `for (i = 0; i < n; i++) p[o + i] = src[s + i];`, `src` a local array (for example hybrid-dilithium-sphincs/hybrid.c:207-209). -/
def copyOut (p : Ptr) (o : Nat) (src : Bytes) (s n : Nat) : TM Unit :=
  loopM (fun i _ => do
    let v ← liftT (rd src (s + i))
    store p (o + i) v) 0 n ()

/-- `for (i = 0; i < n; i++) p[o + i] = q[s + i];` (for example hybrid-dilithium-sphincs/hybrid.c:163-165). -/
def copyMem (p : Ptr) (o : Nat) (q : Ptr) (s n : Nat) : TM Unit :=
  loopM (fun i _ => do
    let v ← load q (s + i)
    store p (o + i) v) 0 n ()

/-- The bytes that a component function reads through a caller pointer (for example the argument `m` in hybrid-dilithium-sphincs/hybrid.c:294-296); the component records its accesses. -/
def readMem (p : Ptr) (n : Nat) : TM Bytes := fun W => ⟨Verif.readMem p n W, []⟩

/-- `*p = v` for `unsigned long long *p` (hybrid-dilithium-sphincs/hybrid.c:341, 561). -/
def storeU64 (p : Ptr) (v : Nat) : TM Unit := fun W => ⟨Verif.storeU64 p v W, [.write 0]⟩

/-- One call of `randombytes` (for example hybrid-dilithium-sphincs/hybrid.c:253). -/
def random (n : Nat) : TM (Option Bytes) := fun W => ⟨liftR (randombytes n) W, []⟩

/-- A local array whose address is passed on (hybrid-dilithium-sphincs/hybrid.c:252-256). -/
def withLocal (init : Bytes) (f : Ptr → TM α) : TM α := fun W => do
  let (a, W2) ← f ⟨W.sp, 0⟩ { W with mem := Function.update W.mem W.sp (some init), sp := W.sp + 1 }
  pure (a, { W2 with mem := Function.update W2.mem W.sp none, sp := W.sp })

/-! ### The component calls -/

/-- A call whose arrays have the documented sizes (compare `Real.when`; common/hybrid-common.c:7-21). -/
def when (c : Prop) [Decidable c] (x : T α) : T α := if c then x else ub

/-- tweetnacl/tweetnacl.c:658-678 -/
def edKeypairSeed (pk sk seed : Bytes) : TM (Int × Bytes × Bytes) :=
  liftT (when (pk.length = 32 ∧ sk.length = 64 ∧ seed.length = 32) (Ed25519.keypairSeed pk sk seed))

/-- tweetnacl/tweetnacl.c:728-758 -/
def edSign (sm : Bytes) (smlen : Nat) (m sk : Bytes) : TM (Int × Bytes × Nat) :=
  liftT (when (sk.length = 64 ∧ m.length < 2 ^ 63 ∧ 64 + m.length ≤ sm.length) (Ed25519.sign sm smlen m sk))

/-- dilithium2/sign.c:23-68 -/
def dilKeypairSeed (fuel : Nat) (pk sk seed : Bytes) : TM (Int × Bytes × Bytes) :=
  liftT (when (pk.length = 1312 ∧ sk.length = 2560 ∧ seed.length = 32) (Dilithium.keypairSeed fuel pk sk seed))

/-- dilithium2/sign.c:108-211 -/
def dilSign (fuel : Nat) (sig : Bytes) (siglen : Nat) (m sk : Bytes) : TM (Int × Bytes × Nat) :=
  liftT (when (sig.length = 2420 ∧ sk.length = 2560) (Dilithium.signature fuel sig siglen m sk))

/-- sphincs/sign.c:50-75 -/
def spxKeypairSeed (pk sk seed : Bytes) : TM (Int × Bytes × Bytes) :=
  liftT (when (pk.length = 64 ∧ sk.length = 128 ∧ seed.length = 96) (Sphincs.seedKeypair pk sk seed))

/-- sphincs/sign.c:96-163: the draw, the test whether it succeeded (125-128), and the rest.  The statements before the draw are those at the start of `signBody`. -/
def spxSign (sig : Bytes) (siglen : Nat) (m sk : Bytes) : TM (Int × Bytes × Nat) :=
  if sig.length = 49856 ∧ sk.length = 128 then do
    match ← random 32 with
    | none => do
      note [.branch true]
      pure (-1, sig, siglen)
    | some optrand => do
      note [.branch false]
      let sig ← liftT (Sphincs.signBody sig m sk optrand)
      pure (0, sig, 49856)
  else liftT ub

/-- common/fips202.c:915-928 -/
def sha3_512 (m : Bytes) : TM Bytes := liftT (Keccak.sha3_512 (List.replicate 64 0) m m.length)

/-- common/shake_prng.c:67-83 -/
def seedexpander (seed : Bytes) (n : Nat) : TM (Int × Bytes) := do
  match ← liftT (Keccak.seedexpanderWrapper (some seed) seed.length (some (List.replicate n 0)) n) with
  | (r, some out) => pure (r, out)
  | (_, none) => liftT ub

/-- The first `n` bytes of a local array that is passed with length `n` (an argument of the calls in hybrid-dilithium-sphincs/hybrid.c:514). -/
def prefixOf (b : Bytes) (n : Nat) : TM Bytes := liftT ⟨Verif.Hybrid.prefixOf b n, []⟩

/-! ### hybrid.c -/

/-- hybrid-dilithium-sphincs/hybrid.c:145-148; see `Verif.Hybrid.expanderCopy`. -/
def expanderCopy (seedTemp : Bytes) (seed : Ptr) : TM Bytes :=
  loopM (fun k b => do
    let v ← load seed (2 * k)
    liftT (wr b (2 * k) v)) 0 32 seedTemp

/-- hybrid-dilithium-sphincs/hybrid.c:140-172 `crypto_sign_dilithium_ed25519_sphincs_keypair_seed_expander` -/
def seedExpander (seed expandedSeed : Option Ptr) : TM Int :=
  match seed with
  | none => liftT ub
  | some seed => do
    let seedTemp ← expanderCopy (zeros 64) seed
    let (ret, tmp) ← seedexpander seedTemp 128
    condM (ret ≠ 0) (pure ret) do
    match expandedSeed with
    | none => liftT ub
    | some ex => do
      copyOut ex 0 tmp 0 32
      copyMem ex 32 seed 64 32
      copyOut ex 64 tmp 32 96
      pure 0

/-- hybrid-dilithium-sphincs/hybrid.c:174-245 `crypto_sign_dilithium_ed25519_sphincs_keypair_seed` -/
def keypairSeed (fuel : Nat) (pk sk seed : Option Ptr) : TM Int :=
  match pk, sk, seed with
  | some pk, some sk, some seed => do
    note [.branch false]
    let seed1 ← copyIn (zeros 32) 0 seed 0 ED_SEED
    let seed2 ← copyIn (zeros 32) 0 seed ED_SEED DIL_SEED
    let seed3 ← copyIn (zeros 96) 0 seed (ED_SEED + DIL_SEED) SPX_SEED
    let (r1, pk1, sk1) ← edKeypairSeed (zeros 32) (zeros 64) seed1
    condM (r1 ≠ 0) (pure (-2)) do
    copyOut pk 0 pk1 0 ED_PK
    copyOut sk 0 sk1 0 ED_SK
    let (r2, pk2, sk2) ← dilKeypairSeed fuel (zeros 1312) (zeros 2560) seed2
    condM (r2 ≠ 0) (pure (-3)) do
    copyOut sk ED_SK sk2 0 DIL_SK
    loopM (fun i (_ : Unit) => do
      let v ← liftT (rd pk2 i)
      store pk (ED_PK + i) v
      let v ← liftT (rd pk2 i)
      store sk (ED_SK + DIL_SK + i) v) 0 DIL_PK ()
    let (r3, pk3, sk3) ← spxKeypairSeed (zeros 64) (zeros 128) seed3
    condM (r3 ≠ 0) (pure (-4)) do
    copyOut sk (ED_SK + DIL_SK + DIL_PK) sk3 0 SPX_SK
    copyOut pk (ED_PK + DIL_PK) pk3 0 SPX_PK
    pure 0
  | _, _, _ => do
    note [.branch true]
    pure (-1)

/-- hybrid-dilithium-sphincs/hybrid.c:247-257 `crypto_sign_dilithium_ed25519_sphincs_keypair` -/
def keypair (fuel : Nat) (pk sk : Option Ptr) : TM Int :=
  match pk, sk with
  | some pk, some sk => do
    note [.branch false]
    match ← random 160 with
    | none => do
      note [.branch true]
      pure (-1)
    | some seed => do
      note [.branch false]
      withLocal seed fun s => keypairSeed fuel (some pk) (some sk) (some s)
  | _, _ => do
    note [.branch true]
    pure (-1)

/-- hybrid-dilithium-sphincs/hybrid.c:259-344 `crypto_sign_dilithium_ed25519_sphincs` (full mode) -/
def signFull (fuel : Nat) (sm smlen m : Option Ptr) (mlen : Nat) (sk : Option Ptr) : TM Int :=
  match sm, smlen, m, sk with
  | some sm, some smlen, some m, some sk =>
    condM (mlen ≤ 0 ∨ mlen > MAX_MSG_LEN) (pure (-1)) do
    let sk1 ← copyIn (zeros 64) 0 sk 0 ED_SK
    let sk2 ← copyIn (zeros 2560) 0 sk ED_SK DIL_SK
    let sk3 ← copyIn (zeros 128) 0 sk (ED_SK + DIL_SK + DIL_PK) SPX_SK
    let msg ← readMem m mlen
    let (r1, sig1, sigLen1) ← edSign (zeros 128) 0 msg sk1
    let (r2, sig2, sigLen2) ← dilSign fuel (zeros 2420) 0 msg sk2
    let (r3, sig3, sigLen3) ← spxSign (zeros 49856) 0 msg sk3
    condM (r1 ≠ 0) (pure (-2)) do
    condM (r2 ≠ 0) (pure (-3)) do
    condM (r3 ≠ 0) (pure (-4)) do
    condM (sigLen1 ≠ ED_SIG + mlen) (pure (-5)) do
    condM (sigLen2 ≠ DIL_SIG) (pure (-6)) do
    condM (sigLen3 ≠ SPX_SIG) (pure (-6)) do
    store sm 0 (BitVec.ofNat 8 FULL_ID)
    store sm 1 (BitVec.ofNat 8 mlen)
    copyOut sm LEN_BYTES sig1 0 sigLen1
    copyOut sm (LEN_BYTES + sigLen1) sig2 0 sigLen2
    copyOut sm (LEN_BYTES + sigLen1 + sigLen2) sig3 0 sigLen3
    storeU64 smlen (LEN_BYTES + ED_SIG + DIL_SIG + SPX_SIG + mlen)
    pure 0
  | _, _, _, _ => do
    note [.branch true]
    pure (-1)

/-- hybrid-dilithium-sphincs/hybrid.c:468-564 `crypto_sign_compact_dilithium_ed25519_sphincs` -/
def signCompact (fuel : Nat) (sm smlen m : Option Ptr) (mlen : Nat) (sk : Option Ptr) : TM Int :=
  match sm, smlen, m, sk with
  | some sm, some smlen, some m, some sk =>
    condM (mlen ≤ 0 ∨ mlen > MAX_MSG_LEN) (pure (-1)) do
    let sk1 ← copyIn (zeros 64) 0 sk 0 ED_SK
    let sk2 ← copyIn (zeros 2560) 0 sk ED_SK DIL_SK
    match ← random 40 with
    | none => do
      note [.branch true]
      pure (-1)
    | some nonce => do
    note [.branch false]
    let hybridMsg ← liftT (copy (zeros 168) 0 nonce 0 NONCE_BYTES)
    let hybridMsg ← copyIn hybridMsg NONCE_BYTES m 0 mlen
    let hybridMsg ← copyIn hybridMsg (NONCE_BYTES + mlen) sk (ED_SK + DIL_SK + DIL_PK + SPX_SK / 2) SPX_PK
    let hin ← prefixOf hybridMsg (NONCE_BYTES + mlen + SPX_PK)
    let hash ← sha3_512 hin
    let (r1, sig1, sigLen1) ← edSign (zeros 128) 0 hash sk1
    let (r2, sig2, sigLen2) ← dilSign fuel (zeros 2420) 0 hash sk2
    condM (r1 ≠ 0) (pure (-2)) do
    condM (r2 ≠ 0) (pure (-3)) do
    condM (sigLen1 ≠ ED_SIG + HASH_LENGTH) (pure (-4)) do
    condM (sigLen2 ≠ DIL_SIG) (pure (-5)) do
    store sm 0 (BitVec.ofNat 8 COMPACT_ID)
    store sm 1 (BitVec.ofNat 8 mlen)
    copyOut sm LEN_BYTES sig1 0 ED_SIG
    copyOut sm (LEN_BYTES + ED_SIG) sig2 0 DIL_SIG
    copyOut sm (LEN_BYTES + ED_SIG + DIL_SIG) nonce 0 NONCE_BYTES
    copyMem sm (LEN_BYTES + ED_SIG + DIL_SIG + NONCE_BYTES) m 0 mlen
    storeU64 smlen (LEN_BYTES + ED_SIG + DIL_SIG + NONCE_BYTES + mlen)
    pure 0
  | _, _, _, _ => do
    note [.branch true]
    pure (-1)

end Verif.Ct.Hybrid
