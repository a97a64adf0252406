import Verif.Keccak.Model
import Mathlib.Logic.Function.Basic

/-!
The Keccak contexts of common/fips202.c live on the heap: `state->ctx` comes from `malloc` and goes back with `free`, and a failing
`malloc` ends the process with `exit(111)`.  Verif/Keccak/Model.lean passes the contexts around as values; this file has the
pointers.  The functions here are proved to agree with those there in Verif/Keccak/HeapProps.lean.
-/

namespace Verif.Keccak.Heap
open Verif Verif.Keccak

variable {α β : Type}

/-- How a call can end other than by returning (common/fips202.c:528 for `exit`). -/
inductive Stop where
  | ub
  | diverge
  | exit (code : Nat)
  deriving DecidableEq

/-- A block from `malloc(PQC_SHAKEINCCTX_BYTES)` or `malloc(PQC_SHAKECTX_BYTES)` (common/fips202.h:14-31); `none`: not yet written. -/
inductive Blk where
  | inc (c : Option Inc)
  | plain (s : Option (List W64))

/-- The heap: the allocated blocks, the number of `malloc` calls made, and which of them fail (arbitrary).  The k-th call returns address k,
so addresses are not used again and an access through an old pointer is seen (common/fips202.c:525-904). -/
structure Ctxs where
  cell : Nat → Option Blk
  next : Nat
  fails : Nat → Bool

/-- Addresses not yet given out hold no block (no line of its own). -/
def Ctxs.WF (h : Ctxs) : Prop := ∀ p, h.next ≤ p → h.cell p = none

/-- Computations with contexts on the heap (common/fips202.c:525-904). -/
abbrev K := StateT Ctxs (Except Stop)

/-- Outcomes of a computation on local data (no line of its own). -/
def toK : C α → Except Stop α
  | .ok a => .ok a
  | .error .ub => .error .ub
  | .error .diverge => .error .diverge

/-- A computation on local data (no line of its own). -/
def onC (x : C α) : K α := fun h => toK x >>= fun a => .ok (a, h)

/-- `exit(code)`, common/fips202.c:528. -/
def exit (code : Nat) : K α := fun _ => .error (.exit code)

/-- `malloc`, for example common/fips202.c:526. -/
def malloc (b : Blk) : K (Option Nat) := fun h =>
  if h.fails h.next then .ok (none, { h with next := h.next + 1 })
  else .ok (some h.next, { h with cell := Function.update h.cell h.next (some b), next := h.next + 1 })

/-- `free`, for example common/fips202.c:554; undefined for a pointer to no block. -/
def free (p : Nat) : K Unit := fun h =>
  match h.cell p with
  | none => .error .ub
  | some _ => .ok ((), { h with cell := Function.update h.cell p none })

/-- Reading the incremental context behind `p` (for example common/fips202.c:534). -/
def getInc (p : Nat) : K Inc := fun h =>
  match h.cell p with
  | some (.inc (some st)) => .ok (st, h)
  | _ => .error .ub

/-- Writing it (for example common/fips202.c:534, 566). -/
def putInc (p : Nat) (st : Inc) : K Unit := fun h =>
  match h.cell p with
  | some (.inc _) => .ok ((), { h with cell := Function.update h.cell p (some (.inc (some st))) })
  | _ => .error .ub

/-- Reading the state behind `p` (for example common/fips202.c:621). -/
def getPlain (p : Nat) : K (List W64) := fun h =>
  match h.cell p with
  | some (.plain (some s)) => .ok (s, h)
  | _ => .error .ub

/-- Writing it (for example common/fips202.c:621, 669). -/
def putPlain (p : Nat) (s : List W64) : K Unit := fun h =>
  match h.cell p with
  | some (.plain _) => .ok ((), { h with cell := Function.update h.cell p (some (.plain (some s))) })
  | _ => .error .ub

/-! ### common/fips202.c: incremental contexts -/

/-- common/fips202.c:525-531 `shake128_inc_init`, 557-563 `shake256_inc_init`, 747-753 `sha3_256_inc_init`, 808-814 `sha3_384_inc_init`,
869-875 `sha3_512_inc_init`: the same text. -/
def incInitH : K Nat := do
  match ← malloc (.inc none) with
  | none => exit 111
  | some p => do
    putInc p incInit
    pure p

/-- common/fips202.c:533-535 `shake128_inc_absorb` (r = 168), 565-567 `shake256_inc_absorb` (136), 767-769 `sha3_256_inc_absorb` (136),
824-826 `sha3_384_inc_absorb` (104), 885-887 `sha3_512_inc_absorb` (72) -/
def incAbsorbH (p r : Nat) (m : Bytes) (mlen : Nat) : K Unit := do
  let st ← getInc p
  let st ← onC (incAbsorb st r m mlen)
  putInc p st

/-- common/fips202.c:537-539 `shake128_inc_finalize` (r = 168), 569-571 `shake256_inc_finalize` (r = 136) -/
def incFinalizeH (p r : Nat) : K Unit := do
  let st ← getInc p
  let st ← onC (incFinalize st r 0x1F)
  putInc p st

/-- common/fips202.c:541-543 `shake128_inc_squeeze`, 573-575 `shake256_inc_squeeze` -/
def incSqueezeH (out : Bytes) (outlen : Nat) (p r : Nat) : K Bytes := do
  let st ← getInc p
  let (out, st) ← onC (incSqueeze out outlen st r)
  putInc p st
  pure out

/-- common/fips202.c:545-551 `shake128_inc_ctx_clone`, 577-583 `shake256_inc_ctx_clone`, 755-761 `sha3_256_inc_ctx_clone`,
816-822 `sha3_384_inc_ctx_clone`, 877-883 `sha3_512_inc_ctx_clone` -/
def incCloneH (src : Nat) : K Nat := do
  match ← malloc (.inc none) with
  | none => exit 111
  | some p => do
    let st ← getInc src
    putInc p st
    pure p

/-- common/fips202.c:553-555 `shake128_inc_ctx_release`, 585-587 `shake256_inc_ctx_release`, 763-765 `sha3_256_inc_ctx_release`,
828-830 `sha3_384_inc_ctx_release`, 889-891 `sha3_512_inc_ctx_release` -/
def incReleaseH (p : Nat) : K Unit := free p

/-- common/fips202.c:771-782 `sha3_256_inc_finalize` (r = 136, n = 32), 832-843 `sha3_384_inc_finalize` (104, 48), 893-904 `sha3_512_inc_finalize` (72, 64):
`keccak_squeezeblocks` works on the first 25 words of the context, which is then released. -/
def sha3IncFinalizeH (r n : Nat) (output : Bytes) (p : Nat) : K Bytes := do
  let st ← getInc p
  let st ← onC (incFinalize st r 0x06)
  putInc p st
  let st ← getInc p
  let (t, s) ← onC (squeezeblocks (List.replicate r 0) 1 st.s r)
  putInc p ⟨s, st.cnt⟩
  incReleaseH p
  onC (copy output 0 t 0 n)

/-! ### common/fips202.c: contexts of the non-incremental functions -/

/-- common/fips202.c:600-606 `shake128_absorb`, 648-654 `shake256_absorb` -/
def absorbH (r : Nat) (m : Bytes) (mlen : Nat) : K Nat := do
  match ← malloc (.plain none) with
  | none => exit 111
  | some p => do
    let s ← onC (absorb r m mlen 0x1F)
    putPlain p s
    pure p

/-- common/fips202.c:620-622 `shake128_squeezeblocks`, 668-670 `shake256_squeezeblocks` -/
def squeezeblocksH (out : Bytes) (nblocks p r : Nat) : K Bytes := do
  let s ← getPlain p
  let (out, s) ← onC (squeezeblocks out nblocks s r)
  putPlain p s
  pure out

/-- common/fips202.c:624-630 `shake128_ctx_clone`, 672-678 `shake256_ctx_clone` -/
def cloneH (src : Nat) : K Nat := do
  match ← malloc (.plain none) with
  | none => exit 111
  | some p => do
    let s ← getPlain src
    putPlain p s
    pure p

/-- common/fips202.c:633-635 `shake128_ctx_release`, 681-683 `shake256_ctx_release` -/
def releaseH (p : Nat) : K Unit := free p

/-- common/fips202.c:695-715 `shake128` (rate 168), 726-745 `shake256` (rate 136) -/
def shakeH (rate : Nat) (output : Bytes) (outlen : Nat) (input : Bytes) (inlen : Nat) : K Bytes := do
  let nblocks := outlen / rate
  let p ← absorbH rate input inlen
  let output ← squeezeblocksH output nblocks p rate
  let outlen := outlen - nblocks * rate
  let output ← (if outlen ≠ 0 then do
      let t ← squeezeblocksH (List.replicate rate 0) 1 p rate
      onC (copy output (nblocks * rate) t 0 outlen)
    else pure output : K Bytes)
  releaseH p
  pure output

/-! ### common/shake_prng.c -/

/-- common/shake_prng.c:19-25 `seedexpander_init` -/
def seedexpanderInitH (seed : Bytes) (seedlen : Nat) : K Nat := do
  let p ← incInitH
  incAbsorbH p SHAKE256_RATE seed seedlen
  incAbsorbH p SHAKE256_RATE [SEEDEXPANDER_DOMAIN] 1
  incFinalizeH p SHAKE256_RATE
  pure p

/-- common/shake_prng.c:37-50 `seedexpander` -/
def seedexpanderH (p : Nat) (output : Bytes) (outlen : Nat) : K Bytes := do
  let remainder := outlen % 8
  let output ← incSqueezeH output (outlen - remainder) p SHAKE256_RATE
  if remainder ≠ 0 then do
    let tmp ← incSqueezeH (List.replicate 8 0) 8 p SHAKE256_RATE
    onC (copy output (outlen - remainder) tmp 0 remainder)
  else pure output

/-- common/shake_prng.c:56-58 `seedexpander_release` -/
def seedexpanderReleaseH (p : Nat) : K Unit := incReleaseH p

/-- common/shake_prng.c:67-83 `seedexpander_wrapper` -/
def seedexpanderWrapperH (seed : Option Bytes) (seedlen : Nat) (output : Option Bytes) (outlen : Nat) : K (Int × Option Bytes) :=
  match seed, output with
  | some seed, some out =>
    if seedlen < 32 then pure (-2, some out) else
    if outlen ≤ seedlen then pure (-3, some out) else do
    let p ← seedexpanderInitH seed seedlen
    let out ← seedexpanderH p out outlen
    seedexpanderReleaseH p
    pure (0, some out)
  | _, output => pure (-1, output)

end Verif.Keccak.Heap
