import Verif.Random.Model

/-!
random/randombytes.c:163-304 in full: the variant that reads /dev/urandom, with the wait for entropy and the files it opens.

The operating system is arbitrary: its answer to a call may depend on all calls before.  Simplifications: `errno` is folded into the answer; a call that fails
changes none of its output arguments.
-/

namespace Verif.Random
open Verif

/-- The system and library calls of random/randombytes.c:167-304 other than `read`. -/
inductive Call where
  | openUrandom | ioctl | fopen | openRandom | poll | scan | close | fclose
deriving DecidableEq

/-- The answers (random/randombytes.c:167-304): success (for `poll` the return value 1), success with an entropy count (`ioctl`, `fscanf`), failure with EINTR (for `poll` also EAGAIN),
failure of `ioctl` with ENOTTY or ENOSYS, and any other failure. -/
inductive Ans where
  | ok
  | entropy (bits : Int)
  | again
  | unsupported
  | fail
deriving DecidableEq

/-- What random/randombytes.c:185-304 opens. -/
inductive File where
  | urandom | random | proc
deriving DecidableEq

/-- What happened in random/randombytes.c:185-304 so far: the calls with their answers, and the files that are open. -/
structure St where
  log : List (Call × Ans)
  files : List File

/-- The operating system under random/randombytes.c:185-304: the answer to a call after the given history. -/
abbrev OS := List (Call × Ans) → Call → Ans

/-- Computations of random/randombytes.c:167-304. -/
abbrev E := StateT St C

/-- One call (for example random/randombytes.c:169). -/
def sys (os : OS) (c : Call) : E Ans := fun s => .ok (os s.log c, { s with log := s.log ++ [(c, os s.log c)] })

/-- A file is opened (for example random/randombytes.c:213). -/
def opened (f : File) : E Unit := fun s => .ok ((), { s with files := f :: s.files })

/-- A file is closed (for example random/randombytes.c:301). -/
def closed (f : File) : E Unit := fun s => .ok ((), { s with files := s.files.erase f })

/-- Undefined behaviour in random/randombytes.c:263-265. -/
def ubE {α : Type} : E α := fun _ => .error .ub

/-- A loop that took more rounds than the fuel (random/randombytes.c:176-179, 225-227, 235-260, 261-266, 282-284). -/
def divergeE {α : Type} : E α := fun _ => .error .diverge

/-- random/randombytes.c:167-170 `randombytes_linux_read_entropy_ioctl(device, &entropy)`: return code, whether errno is ENOTTY or ENOSYS, `entropy`. -/
def readEntropyIoctl (os : OS) (entropy : Int) : E (Int × Bool × Int) := do
  match ← sys os .ioctl with
  | .entropy n => pure (0, false, n)
  | .unsupported => pure (-1, true, entropy)
  | _ => pure (-1, false, entropy)

/-- random/randombytes.c:172-183 `randombytes_linux_read_entropy_proc(stream, &entropy)` -/
def readEntropyProc (os : OS) (entropy : Int) : Nat → E (Int × Int)
  | 0 => divergeE
  | fuel + 1 => do
    match ← sys os .scan with
    | .entropy n => pure (0, n)
    | .again => readEntropyProc os entropy fuel
    | _ => pure (-1, entropy)

/-- random/randombytes.c:225-227, 282-284: `open` until it is not interrupted -/
def openLoop (os : OS) (c : Call) (f : File) : Nat → E Bool
  | 0 => divergeE
  | fuel + 1 => do
    match ← sys os c with
    | .again => openLoop os c f fuel
    | .ok => do
      opened f
      pure true
    | _ => pure false

/-- random/randombytes.c:240-246: read the count again, by the strategy chosen (`proc`: the strategy is PROC) -/
def readEntropy (os : OS) (proc : Bool) (entropy : Int) (fuel : Nat) : E (Int × Int) :=
  if proc then readEntropyProc os entropy fuel else do
    let (r, _, e) ← readEntropyIoctl os entropy
    pure (r, e)

/-- random/randombytes.c:235-260, the `for (;;)` loop: `retcode_error`. -/
def pollLoop (os : OS) (proc : Bool) : Int → Nat → E Int
  | _, 0 => divergeE
  | entropy, fuel + 1 => do
    match ← sys os .poll with
    | .again => pollLoop os proc entropy fuel
    | .ok => do
      let (retcode, entropy) ← readEntropy os proc entropy fuel
      if retcode ≠ 0 then pure retcode
      else if entropy ≥ 128 then pure 0
      else pollLoop os proc entropy fuel
    | _ => pure (-1)

/-- random/randombytes.c:261-263: `close` until it is not interrupted -/
def closeLoop (os : OS) : Nat → E Int
  | 0 => divergeE
  | fuel + 1 => do
    match ← sys os .close with
    | .again => closeLoop os fuel
    | .ok => do
      closed .random
      pure 0
    | _ => do
      closed .random
      pure (-1)

/-- random/randombytes.c:265-267: `fclose` until it is not interrupted.  The stream is gone after the first call, whatever that returns (C11 7.21.5.1), so the second call
of the loop is undefined. -/
def fcloseLoop (os : OS) : E Int := do
  match ← sys os .fclose with
  | .again => ubE
  | .ok => do
    closed .proc
    pure 0
  | _ => do
    closed .proc
    pure (-1)

/-- random/randombytes.c:224-273, after the first look at the entropy count -/
def waitPoll (os : OS) (fuel : Nat) (proc : Bool) (entropy : Int) : E Int := do
  if entropy ≥ 128 then pure 0
  else if ← openLoop os .openRandom .random fuel then do
    let err ← pollLoop os proc entropy fuel
    let retcode ← closeLoop os fuel
    let retcode ← if proc then fcloseLoop os else pure retcode
    if err ≠ 0 then pure err else pure retcode
  else pure (-1)

/-- random/randombytes.c:185-274 `randombytes_linux_wait_for_entropy(device)` -/
def waitForEntropy (os : OS) (fuel : Nat) : E Int := do
  let (retcode, unsupported, entropy) ← readEntropyIoctl os 0
  if retcode ≠ 0 ∧ unsupported then
    match ← sys os .fopen with
    | .ok => do
      opened .proc
      waitPoll os fuel true entropy
    | _ => pure (-1)
  else if retcode ≠ 0 then pure (-1)
  else waitPoll os fuel false entropy

/-- random/randombytes.c:277-304 `randombytes_linux_randombytes_urandom(buf, n)`: return code, buffer, number of `read` calls; `k` answers the `read` calls. -/
def urandom (os : OS) (k : Kernel) (fuel n : Nat) (buf : Bytes) : E (Int × Bytes × Nat) := do
  if ← openLoop os .openUrandom .urandom fuel then do
    let w ← waitForEntropy os fuel
    if w = -1 then pure (-1, buf, 0)
    else do
      let (r, buf, i) ← StateT.lift (readLoop k fuel 0 n 0 buf)
      if r = 0 then do
        let _ ← sys os .close
        closed .urandom
        pure (r, buf, i)
      else pure (r, buf, i)
  else pure (-1, buf, 0)

end Verif.Random
