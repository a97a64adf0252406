import Verif.Mem

/-!
Calls as sequences of single steps, and several of them at once.

The functions of Hybrid/Model.lean run from beginning to end.  Here a call is a tree of steps (`Prog`): one byte read, one byte written, one draw from the random source, one local array entered or left.
Between two steps of one thread other threads may do any number of steps.  What a thread computes on its own variables is part of the step before it.
-/

namespace Verif.Conc
open Verif

variable {α β : Type}

/-- A call that has some steps to go (no line of its own: the statements of hybrid-dilithium-sphincs/hybrid.c:140-711 that touch memory, for example lines 190-200). -/
inductive Prog (α : Type) : Type where
  | ret (a : α)
  | fail (e : Fault)
  | load (p : Ptr) (i : Nat) (k : Byte → Prog α)
  | store (p : Ptr) (i : Nat) (v : Byte) (k : Prog α)
  | draw (n : Nat) (k : Option Bytes → Prog α)
  | push (init : Bytes) (k : Ptr → Prog α)
  | pop (p : Ptr) (k : Prog α)

/-- One call after the other (no line of its own). -/
def Prog.bind : Prog α → (α → Prog β) → Prog β
  | .ret a, f => f a
  | .fail e, _ => .fail e
  | .load p i k, f => .load p i fun v => (k v).bind f
  | .store p i v k, f => .store p i v (k.bind f)
  | .draw n k, f => .draw n fun o => (k o).bind f
  | .push init k, f => .push init fun p => (k p).bind f
  | .pop p k, f => .pop p (k.bind f)

instance : Monad Prog where
  pure := .ret
  bind := .bind

/-! ### The operations of Mem.lean as steps -/

/-- A computation on local data only (no line of its own). -/
def liftC (x : C α) : Prog α :=
  match x with
  | .ok a => .ret a
  | .error e => .fail e

/-- `p[i]` (for example hybrid-dilithium-sphincs/hybrid.c:146). -/
def load (p : Ptr) (i : Nat) : Prog Byte := .load p i .ret

/-- `p[i] = v` (for example hybrid-dilithium-sphincs/hybrid.c:207-209). -/
def store (p : Ptr) (i : Nat) (v : Byte) : Prog Unit := .store p i v (.ret ())

/-- `randombytes(buf, n)` (random/randombytes.c:358-391). -/
def draw (n : Nat) : Prog (Option Bytes) := .draw n .ret

/-- `for (k = i; k < i + n; k++) s = f(k, s)` (for example hybrid-dilithium-sphincs/hybrid.c:190-200). -/
def loopM {σ : Type} (f : Nat → σ → Prog σ) : (i n : Nat) → σ → Prog σ
  | _, 0, s => pure s
  | i, n + 1, s => f i s >>= loopM f (i + 1) n

/-- `for (i = 0; i < n; i++) dst[d + i] = p[o + i];`, `dst` a local array (for example hybrid-dilithium-sphincs/hybrid.c:190-192). -/
def copyIn (dst : Bytes) (d : Nat) (p : Ptr) (o n : Nat) : Prog Bytes :=
  loopM (fun i b => do
    let v ← load p (o + i)
    liftC (wr b (d + i) v)) 0 n dst

/-- `for (i = 0; i < n; i++) p[o + i] = src[s + i];`, `src` a local array (for example hybrid-dilithium-sphincs/hybrid.c:207-209). -/
def copyOut (p : Ptr) (o : Nat) (src : Bytes) (s n : Nat) : Prog Unit :=
  loopM (fun i _ => do
    let v ← liftC (rd src (s + i))
    store p (o + i) v) 0 n ()

/-- `for (i = 0; i < n; i++) p[o + i] = q[s + i];`, both in caller memory (for example hybrid-dilithium-sphincs/hybrid.c:381-383). -/
def copyMem (p : Ptr) (o : Nat) (q : Ptr) (s n : Nat) : Prog Unit :=
  loopM (fun i _ => do
    let v ← load q (s + i)
    store p (o + i) v) 0 n ()

/-- The bytes that a component function reads through a caller pointer (for example the argument `m` in hybrid-dilithium-sphincs/hybrid.c:259-344).  Every byte is read in one step, in
order and once; the component may read it later and more often, which makes no difference where nobody writes it. -/
def readMem (p : Ptr) (n : Nat) : Prog Bytes := copyIn (List.replicate n 0) 0 p 0 n

/-- `*p = v` for `unsigned long long *p`, a byte at a time (hybrid-dilithium-sphincs/hybrid.c:341, 561). -/
def storeU64 (p : Ptr) (v : Nat) : Prog Unit := copyOut p 0 (le64 v) 0 8

/-- `*p` for `unsigned long long *p`, a byte at a time (hybrid-dilithium-sphincs/hybrid.c:395, 459). -/
def loadU64 (p : Ptr) : Prog Nat := do
  let b ← readMem p 8
  pure (ofLe b)

/-- A local array whose address is passed to other functions (for example hybrid-dilithium-sphincs/hybrid.c:447-450). -/
def withLocal (init : Bytes) (f : Ptr → Prog α) : Prog α := .push init fun p => (f p).bind fun a => .pop p (.ret a)

/-- `for (i = i0; i < i0 + n; i++) if (b[i] != m[i]) return -4;  return 0;` (hybrid-dilithium-sphincs/hybrid.c:459-463, 689-693). -/
def cmpMem (b m : Ptr) : (i n : Nat) → Prog Int
  | _, 0 => pure 0
  | i, n + 1 => do
    let x ← load b i
    let y ← load m i
    if x ≠ y then pure (-4) else cmpMem b m (i + 1) n

/-! ### One thread alone -/

/-- All steps without interruption (no line of its own). -/
def exec : Prog α → M α
  | .ret a => fun W => .ok (a, W)
  | .fail e => fun _ => .error e
  | .load p i k => Verif.load p i >>= fun v => exec (k v)
  | .store p i v k => Verif.store p i v >>= fun _ => exec k
  | .draw n k => Verif.liftR (randombytes n) >>= fun o => exec (k o)
  | .push init k => fun W => exec (k ⟨W.sp, 0⟩) { W with mem := Function.update W.mem W.sp (some init), sp := W.sp + 1 }
  | .pop p k => fun W => exec k { W with mem := Function.update W.mem p.blk none, sp := p.blk }

/-- One step: what is to go then, and the memory then.  A step that is undefined leaves a failed call (no line of its own). -/
def step : Prog α → World → Prog α × World
  | .ret a, W => (.ret a, W)
  | .fail e, W => (.fail e, W)
  | .load p i k, W =>
    match Verif.load p i W with
    | .ok (v, W') => (k v, W')
    | .error e => (.fail e, W)
  | .store p i v k, W =>
    match Verif.store p i v W with
    | .ok (_, W') => (k, W')
    | .error e => (.fail e, W)
  | .draw n k, W =>
    match Verif.liftR (randombytes n) W with
    | .ok (o, W') => (k o, W')
    | .error e => (.fail e, W)
  | .push init k, W => (k ⟨W.sp, 0⟩, { W with mem := Function.update W.mem W.sp (some init), sp := W.sp + 1 })
  | .pop p k, W => (k, { W with mem := Function.update W.mem p.blk none, sp := p.blk })

/-! ### Several threads -/

/-- A byte in memory: block and offset (no line of its own). -/
abbrev Addr := Nat × Nat

/-- The access that the next step makes: whether it writes, and where (no line of its own). -/
def access : Prog α → Option (Bool × Addr)
  | .load p i _ => some (false, (p.blk, p.off + i))
  | .store p i _ _ => some (true, (p.blk, p.off + i))
  | _ => none

/-- A thread: what it has to do, its stack (the blocks from `base` on) and the next free block in it.  For the statements only: the accesses it has made to memory that is not its stack, and the numbers of the
draws from the random source that it got (no line of its own). -/
structure Thread (α : Type) where
  prog : Prog α
  stack : Nat → Option Bytes
  sp : Nat
  acc : List (Bool × Addr)
  got : List Nat

/-- Threads that share the blocks below `base` and the random source (no line of its own). -/
structure Conf (ι α : Type) where
  base : Nat
  mem : Nat → Option Bytes
  rng : Rng
  thr : ι → Thread α

/-- What a thread sees (no line of its own). -/
def Conf.world {ι : Type} (c : Conf ι α) (i : ι) : World := ⟨fun b => if b < c.base then c.mem b else (c.thr i).stack b, (c.thr i).sp, c.rng⟩

/-- Thread `i` makes one step (no line of its own). -/
def Conf.next {ι : Type} [DecidableEq ι] (c : Conf ι α) (i : ι) : Conf ι α :=
  let r := step (c.thr i).prog (c.world i)
  { base := c.base
    mem := fun b => if b < c.base then r.2.mem b else c.mem b
    rng := r.2.rng
    thr := Function.update c.thr i
      { prog := r.1
        stack := r.2.mem
        sp := r.2.sp
        acc := (c.thr i).acc ++ (access (c.thr i).prog).toList.filter fun a => a.2.1 < c.base
        got := (c.thr i).got ++ (List.range' c.rng.log.length (r.2.rng.log.length - c.rng.log.length)) } }

/-- The threads run as the schedule says, one step for each entry (no line of its own). -/
def Conf.run {ι : Type} [DecidableEq ι] (c : Conf ι α) : List ι → Conf ι α
  | [] => c
  | i :: s => (c.next i).run s

/-- The beginning: every thread has its own empty stack, above the allocated memory (no line of its own). -/
def start {ι : Type} (W : World) (p : ι → Prog α) : Conf ι α := ⟨W.sp, W.mem, W.rng, fun i => ⟨p i, fun _ => none, W.sp, [], []⟩⟩

/-- The random source that a thread finds if it runs alone and its draws are answered as the draws number `g 0`, `g 1`, ... of the common source were (no line of its own). -/
def answers (R : Rng) (g : Nat → Nat) : Rng := ⟨fun j n => R.draw (g j) n, fun j n b h => R.len_draw (g j) n b h, []⟩

end Verif.Conc
