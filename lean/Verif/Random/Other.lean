import Verif.Base

/-!
random/randombytes.c on the other systems: Windows (83-122), WASI (126-129), BSD (309-313) and JavaScript (318-354).

The generators of the system are arbitrary.  Simplifications: `errno` and the handle of the Windows provider are left out.
-/

namespace Verif.Random
open Verif

/-- The Windows functions that random/randombytes.c:87-119 calls. `bcrypt c` is what BCryptGenRandom does when asked for `c` bytes: whether NT_SUCCESS holds and what it wrote to the start of the
buffer; `gen i c` is the same for the `i`-th CryptGenRandom; `acquire` and `release` say whether CryptAcquireContext and CryptReleaseContext succeed. -/
structure Win where
  bcrypt : Nat → Bool × Bytes
  acquire : Bool
  gen : Nat → Nat → Bool × Bytes
  release : Bool

/-- random/randombytes.c:109-115, the `while (n > 0)` loop: whether all calls succeeded, and the buffer. -/
def winLoop (w : Win) : Nat → Nat → Nat → Nat → Bytes → C (Bool × Bytes)
  | 0, _, _, _, _ => .error .diverge
  | fuel + 1, i, offset, n, buf =>
    if 0 < n then do
      let toRead := if n < 0xFFFFFFFF then n else 0xFFFFFFFF
      let q := w.gen i toRead
      let buf ← copy buf offset q.2 0 q.2.length
      if q.1 then winLoop w fuel (i + 1) (offset + toRead) (n - toRead) buf else .ok (false, buf)
    else .ok (true, buf)

/-- random/randombytes.c:83-122 `randombytes_win32_randombytes(buf, n)`.  `size_t` has 64 bits, the length argument of BCryptGenRandom (an ULONG) has 32. -/
def randombytesWin32 (w : Win) (n : Nat) (buf : Bytes) : C (Int × Bytes) := do
  let buf ← copy buf 0 (List.replicate n 0) 0 n
  let q := w.bcrypt (n % 2 ^ 32)
  let buf ← copy buf 0 q.2 0 q.2.length
  if q.1 then .ok (0, buf)
  else if !w.acquire then .ok (-1, buf)
  else do
    let (ok, buf) ← winLoop w (n + 1) 0 0 n buf
    if !ok then .ok (-1, buf)
    else if !w.release then .ok (-1, buf)
    else .ok (0, buf)

/-- random/randombytes.c:126-129 `randombytes_wasi_randombytes`, 309-313 `randombytes_bsd_randombytes`; `a` is arc4random_buf, which gives exactly as many bytes as asked for. -/
def randombytesArc4 (a : (n : Nat) → { b : Bytes // b.length = n }) (n : Nat) (buf : Bytes) : C (Int × Bytes) := do
  let buf ← copy buf 0 (a n).1 0 n
  .ok (0, buf)

/-- The JavaScript environment of random/randombytes.c:320-341: whether window.crypto.getRandomValues exists and what it does (`none`: it throws), whether `require('crypto')` succeeds, and what
`randomBytes` does (`none`: it throws). -/
structure Js where
  window : Bool
  getRandomValues : Nat → Option Bytes
  require : Bool
  randomBytes : Nat → Option Bytes

/-- random/randombytes.c:320-341, the JavaScript text: its value, or `none` if an exception leaves it. -/
def jsRandom (js : Js) (n : Nat) (buf : Bytes) : C (Option Int × Bytes) :=
  if js.window then
    match js.getRandomValues n with
    | none => .ok (none, buf)
    | some b => do
      let buf ← copy buf 0 b 0 b.length
      .ok (some 0, buf)
  else if !js.require then .ok (some (-2), buf)
  else
    match js.randomBytes n with
    | none => .ok (some (-1), buf)
    | some b => do
      let buf ← copy buf 0 b 0 b.length
      .ok (some 0, buf)

/-- The values that random/randombytes.c:346 and 349 give to errno. -/
inductive JsErrno where
  | einval
  | enosys
  deriving DecidableEq, Repr

/-- random/randombytes.c:318-354 `randombytes_js_randombytes_nodejs(buf, n)`: the result and what is stored in errno (`none`: nothing); `none` as a whole: the exception passes through. -/
def randombytesNodejs (js : Js) (n : Nat) (buf : Bytes) : C (Option (Int × Option JsErrno) × Bytes) := do
  let (ret, buf) ← jsRandom js n buf
  match ret with
  | none => .ok (none, buf)
  | some ret =>
    if ret = 0 then .ok (some (0, none), buf)
    else if ret = -1 then .ok (some (-1, some .einval), buf)
    else if ret = -2 then .ok (some (-1, some .enosys), buf)
    else .ok (some (-3, none), buf)

end Verif.Random
