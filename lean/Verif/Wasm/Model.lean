import Verif.Hybrid.Model
import Verif.Keccak.Model

/-!
Model of wasm/hybrid-pqc.c, the functions that the WebAssembly build exports to JavaScript.

In that build a pointer and `size_t` have 32 bits.  The caller memory is the block memory of Verif/Mem.lean; to it come the set of blocks
that `malloc` returned and a record of what was in the blocks that `free` gave back.
-/

namespace Verif.Wasm
open Verif Verif.Hybrid

/-- The memory of the module (wasm/hybrid-pqc.c:13-27): the caller memory, the blocks that may be freed, and the contents of the freed blocks at the time they were freed. -/
structure Heap where
  world : World
  live : List Nat
  freed : List Bytes

/-- Computations of the functions in wasm/hybrid-pqc.c:13-62. -/
abbrev H := StateT Heap C

/-- A function that does not use the heap (wasm/hybrid-pqc.c:29-62). -/
def onWorld {α : Type} (x : M α) : H α := fun h =>
  match x h.world with
  | .ok (a, W) => .ok (a, { h with world := W })
  | .error e => .error e

/-- `malloc(size)`, called in wasm/hybrid-pqc.c:15, 20.  The allocator `A` either fails or chooses the contents of the new block. -/
def malloc (A : Nat → Option Bytes) (size : Nat) : H (Option Ptr) := fun h =>
  match A size with
  | none => .ok (none, h)
  | some c => .ok (some ⟨h.world.sp, 0⟩, { h with
      world := { h.world with mem := Function.update h.world.mem h.world.sp (some c), sp := h.world.sp + 1 },
      live := h.world.sp :: h.live })

/-- `memset(ptr, 0, size)`, called in wasm/hybrid-pqc.c:25; a NULL pointer is undefined even for `size` 0. -/
def memset0 (p : Option Ptr) (size : Nat) : H Unit :=
  match p with
  | none => fun _ => .error .ub
  | some p => onWorld (copyOut p 0 (List.replicate size 0) 0 size)

/-- `free(ptr)`, called in wasm/hybrid-pqc.c:26: nothing for NULL; undefined for anything but the start of a block that `malloc` returned and that was not freed. -/
def free (p : Option Ptr) : H Unit := fun h =>
  match p with
  | none => .ok ((), h)
  | some p =>
    match h.world.mem p.blk with
    | none => .error .ub
    | some c =>
      if p.off = 0 ∧ p.blk ∈ h.live then
        .ok ((), { world := { h.world with mem := Function.update h.world.mem p.blk none }, live := h.live.erase p.blk, freed := h.freed ++ [c] })
      else .error .ub

/-- wasm/hybrid-pqc.c:13-16 `mem_alloc(size)` -/
def memAlloc (A : Nat → Option Bytes) (size : Nat) : H (Option Ptr) := malloc A size

/-- wasm/hybrid-pqc.c:18-21 `mem_alloc_long_long(size)`: `size` is in bytes. -/
def memAllocLongLong (A : Nat → Option Bytes) (size : Nat) : H (Option Ptr) := malloc A size

/-- wasm/hybrid-pqc.c:23-27 `mem_free(ptr, size)` -/
def memFree (p : Option Ptr) (size : Nat) : H Unit := do
  memset0 p size
  free p

variable (P : Prims)

/-- wasm/hybrid-pqc.c:29-32 -/
def dpSignKeypairSeed (pk sk seed : Option Ptr) : H Int := onWorld (keypairSeed P pk sk seed)

/-- wasm/hybrid-pqc.c:34-37 -/
def dpSignKeypair (pk sk : Option Ptr) : H Int := onWorld (keypair P pk sk)

/-- wasm/hybrid-pqc.c:39-42 `dp_sign(sm, smlen, m, mlen, sk)`: `smlen` is declared `size_t *`, four bytes, but passed on as `unsigned long long *`. -/
def dpSign (sm smlen m : Option Ptr) (mlen : Nat) (sk : Option Ptr) : H Int := onWorld (signCompact P sm smlen m mlen sk)

/-- wasm/hybrid-pqc.c:44-47 `dp_sign_verify(m, mlen, sm, smlen, pk)` -/
def dpSignVerify (m : Option Ptr) (mlen : Nat) (sm : Option Ptr) (smlen : Nat) (pk : Option Ptr) : H Int := onWorld (verifyCompact P m mlen sm smlen pk)

/-- wasm/hybrid-pqc.c:49-52 -/
def dpSignSeedexpander (seed expandedSeed : Option Ptr) : H Int := onWorld (seedExpander P seed expandedSeed)

/-- wasm/hybrid-pqc.c:54-57 `dp_randombytes(buf, n)`: `left` is what the buffer holds if the random source fails: it may have written some of it before it failed (C65), so `left` is arbitrary. For a NULL buffer a failed source is taken not to have written. -/
def dpRandombytes (left : Bytes) (buf : Option Ptr) (n : Nat) : H Int := onWorld do
  match ← liftR (randombytes n) with
  | none =>
    match buf with
    | none => pure (-1)
    | some p => do
      copyOut p 0 left 0 n
      pure (-1)
  | some b =>
    match buf with
    | none => if n = 0 then pure 0 else liftC (.error .ub)
    | some p => do
      copyOut p 0 b 0 n
      pure 0

/-- wasm/hybrid-pqc.c:59-62 and common/shake_prng.c:67-83: the tests come before the first access; the output is written after the whole seed was read. -/
def dpSeedexpander (seed : Option Ptr) (seedlen : Nat) (output : Option Ptr) (outlen : Nat) : H Int := onWorld do
  match seed, output with
  | some s, some o =>
    if seedlen < 32 then pure (-2) else
    if outlen ≤ seedlen then pure (-3) else do
    let sb ← readMem s seedlen
    let (r, x) ← liftC (Keccak.seedexpanderWrapper (some sb) seedlen (some (List.replicate outlen 0)) outlen)
    copyOut o 0 (x.getD []) 0 outlen
    pure r
  | _, _ => pure (-1)

end Verif.Wasm
