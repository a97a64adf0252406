import Verif.Base

/-!
random/randombytes.c on Linux: the getrandom loop and the /dev/urandom loop, against an arbitrary kernel.

Simplifications: `errno` is folded into the result of the call that sets it; pointers are positions in one list; the result of
`randombytes_linux_wait_for_entropy` (lines 185-274, never touches the buffer) is a parameter here and modelled in Entropy.lean.
-/

namespace Verif.Random
open Verif

/-- The result of one `getrandom` or `read` call: bytes written to the start of the destination (the return value is their number), or -1 with an
`errno` on which the caller tries again (EINTR; for `read` also EAGAIN), or -1 with another one (random/randombytes.c:152-156, 292-296). -/
inductive Sys where
  | data (b : Bytes)
  | again
  | fail

/-- The kernel: what the `i`-th call does when asked for `c` bytes (random/randombytes.c:136-138, 149-160, 290-299). -/
abbrev Kernel := Nat → Nat → Sys

/-- random/randombytes.c:152-154, the `do ... while` around `getrandom`: the bytes (`none`: ret < 0) and the number of the next call. -/
def retry (k : Kernel) (chunk : Nat) : Nat → Nat → C (Option Bytes × Nat)
  | 0, _ => .error .diverge
  | fuel + 1, i =>
    match k i chunk with
    | .data b => .ok (some b, i + 1)
    | .again => retry k chunk fuel (i + 1)
    | .fail => .ok (none, i + 1)

/-- random/randombytes.c:149-160, the `while (n > 0)` loop from the given `offset`, `n` and call number: return code, buffer, next call number. -/
def getrandomLoop (k : Kernel) : Nat → Nat → Nat → Nat → Bytes → C (Int × Bytes × Nat)
  | 0, _, _, _, _ => .error .diverge
  | fuel + 1, offset, n, i, buf =>
    if 0 < n then do
      let chunk := if n ≤ 33554431 then n else 33554431
      match ← retry k chunk fuel i with
      | (none, i) => .ok (-1, buf, i)
      | (some b, i) => do
        let buf ← copy buf offset b 0 b.length
        getrandomLoop k fuel (offset + b.length) (n - b.length) i buf
    else .ok (0, buf, i)

/-- random/randombytes.c:141-161 `randombytes_linux_randombytes_getrandom(buf, n)`, which is `randombytes` (358-391) where getrandom exists. -/
def randombytesGetrandom (k : Kernel) (fuel n : Nat) (buf : Bytes) : C (Int × Bytes × Nat) := getrandomLoop k fuel 0 n 0 buf

/-- random/randombytes.c:290-299, the `while (n > 0)` loop around `read`; `SSIZE_MAX` is 2^63 - 1. -/
def readLoop (k : Kernel) : Nat → Nat → Nat → Nat → Bytes → C (Int × Bytes × Nat)
  | 0, _, _, _, _ => .error .diverge
  | fuel + 1, offset, n, i, buf =>
    if 0 < n then do
      let count := if n ≤ 2 ^ 63 - 1 then n else 2 ^ 63 - 1
      match k i count with
      | .again => readLoop k fuel offset n (i + 1) buf
      | .fail => .ok (-1, buf, i + 1)
      | .data b => do
        let buf ← copy buf offset b 0 b.length
        readLoop k fuel (offset + b.length) (n - b.length) (i + 1) buf
    else .ok (0, buf, i)

/-- random/randombytes.c:282-284: `open` until it is not interrupted; `o i` is what the `i`-th `open` does (`data` stands for a descriptor). -/
def openRetry (o : Nat → Sys) : Nat → Nat → C Bool
  | 0, _ => .error .diverge
  | fuel + 1, i =>
    match o i with
    | .data _ => .ok true
    | .again => openRetry o fuel (i + 1)
    | .fail => .ok false

/-- random/randombytes.c:277-303 `randombytes_linux_randombytes_urandom(buf, n)`; `wait` is the result of `randombytes_linux_wait_for_entropy`. -/
def randombytesUrandom (o : Nat → Sys) (wait : Int) (k : Kernel) (fuel n : Nat) (buf : Bytes) : C (Int × Bytes × Nat) := do
  if ← openRetry o fuel 0 then
    if wait = -1 then .ok (-1, buf, 0)
    else readLoop k fuel 0 n 0 buf
  else .ok (-1, buf, 0)

end Verif.Random
