import Verif.Base

/-!
Caller memory, local blocks and the random source.

Models no particular function of /repo; it fixes how pointers, `unsigned long long` cells and
`randombytes` (random/randombytes.h) look to the hybrid layer.
-/

namespace Verif

variable {α β : Type}

/-- A non-NULL pointer: a memory block and a byte offset into it.  NULL is `none : Option Ptr` (the pointer arguments of hybrid-dilithium-sphincs/hybrid.c:140-711). -/
structure Ptr where
  blk : Nat
  off : Nat
  deriving DecidableEq, Repr

/-- `p + n`, as in hybrid-dilithium-sphincs/hybrid.c:698-711. -/
def Ptr.add (p : Ptr) (n : Nat) : Ptr := ⟨p.blk, p.off + n⟩

/-- The random source.  `draw i n` is what the `i`-th call of `randombytes(buf, n)` does:
`none` is a nonzero return code, `some b` fills the buffer with `b`.  It is arbitrary.
`log` records the draws made so far (random/randombytes.c:358-391). -/
structure Rng where
  draw : Nat → Nat → Option Bytes
  len_draw : ∀ i n b, draw i n = some b → b.length = n
  log : List (Nat × Option Bytes)

/-- Computations that may use the random source but not caller memory (for example tweetnacl/tweetnacl.c:680-690). -/
abbrev RandM := StateT Rng C

/-- One call of `randombytes(buf, n)` (random/randombytes.c:358-391).
`some b`: returned 0 and filled the buffer with `b`; `none`: returned nonzero. -/
def randombytes (n : Nat) : RandM (Option Bytes) := fun R =>
  let r := R.draw R.log.length n
  .ok (r, { R with log := R.log ++ [(n, r)] })

/-- The whole state a call of the library can see.
`mem b` is the content of block `b` (`none`: not allocated); blocks `sp`, `sp+1`, ... are free and are
used for local arrays whose address is passed to another function (no line of its own). -/
structure World where
  mem : Nat → Option Bytes
  sp : Nat
  rng : Rng

/-- Free blocks are not allocated (no line of its own). -/
def World.WF (W : World) : Prop := ∀ b, W.sp ≤ b → W.mem b = none

/-- Computations with access to caller memory and the random source (for example hybrid-dilithium-sphincs/hybrid.c:259-344). -/
abbrev M := StateT World C

@[simp] theorem M_bind_apply (x : M α) (f : α → M β) (W : World) :
    (x >>= f) W = (x W >>= fun p => f p.1 p.2) := rfl
@[simp] theorem M_pure_apply (a : α) (W : World) : (pure a : M α) W = .ok (a, W) := rfl
@[simp] theorem RandM_bind_apply (x : RandM α) (f : α → RandM β) (R : Rng) :
    (x >>= f) R = (x R >>= fun p => f p.1 p.2) := rfl
@[simp] theorem RandM_pure_apply (a : α) (R : Rng) : (pure a : RandM α) R = .ok (a, R) := rfl

/-- A computation on local data only (no line of its own). -/
def liftC (x : C α) : M α := fun W =>
  match x with
  | .ok a => .ok (a, W)
  | .error e => .error e

/-- A computation on local data inside `RandM` (no line of its own). -/
def liftCR (x : C α) : RandM α := fun R =>
  match x with
  | .ok a => .ok (a, R)
  | .error e => .error e

/-- A computation on local data and the random source (no line of its own). -/
def liftR (x : RandM α) : M α := fun W =>
  match x W.rng with
  | .ok (a, R) => .ok (a, { W with rng := R })
  | .error e => .error e

@[simp] theorem liftC_ok (a : α) (W : World) : liftC (.ok a : C α) W = .ok (a, W) := rfl
@[simp] theorem liftCR_ok (a : α) (R : Rng) : liftCR (.ok a : C α) R = .ok (a, R) := rfl
@[simp] theorem liftC_error (e : Fault) (W : World) : (liftC (.error e : C α)) W = .error e := rfl

/-- `p[i]` (for example hybrid-dilithium-sphincs/hybrid.c:146). -/
def load (p : Ptr) (i : Nat) : M Byte := fun W =>
  match W.mem p.blk with
  | none => .error .ub
  | some b => match rd b (p.off + i) with
    | .ok v => .ok (v, W)
    | .error e => .error e

/-- `p[i] = v` (for example hybrid-dilithium-sphincs/hybrid.c:207-209). -/
def store (p : Ptr) (i : Nat) (v : Byte) : M Unit := fun W =>
  match W.mem p.blk with
  | none => .error .ub
  | some b => match wr b (p.off + i) v with
    | .ok b' => .ok ((), { W with mem := Function.update W.mem p.blk (some b') })
    | .error e => .error e

/-- The `n` bytes at `p`, if they lie inside an allocated block (no line of its own; used to state results). -/
def World.view (W : World) (p : Ptr) (n : Nat) : Option Bytes :=
  match W.mem p.blk with
  | none => none
  | some b => if p.off + n ≤ b.length then some (slice b p.off n) else none

/-- `W` with the bytes at `p` overwritten by `x` (which must fit, otherwise `W` itself) (no line of its own; used to state results). -/
def World.write (W : World) (p : Ptr) (x : Bytes) : World :=
  match W.mem p.blk with
  | none => W
  | some b =>
    if p.off + x.length ≤ b.length then
      { W with mem := Function.update W.mem p.blk (some (splice b p.off x)) } else W

/-- `for (k = i; k < i + n; k++) s = f(k, s)` with access to memory (for example hybrid-dilithium-sphincs/hybrid.c:190-200). -/
def loopM {σ : Type} (f : Nat → σ → M σ) : (i n : Nat) → σ → M σ
  | _, 0, s => pure s
  | i, n + 1, s => f i s >>= loopM f (i + 1) n

/-- `for (i = 0; i < n; i++) dst[d + i] = p[o + i];`, `dst` a local array (for example hybrid-dilithium-sphincs/hybrid.c:190-192). -/
def copyIn (dst : Bytes) (d : Nat) (p : Ptr) (o n : Nat) : M Bytes :=
  loopM (fun i b => do
    let v ← load p (o + i)
    liftC (wr b (d + i) v)) 0 n dst

/-- `for (i = 0; i < n; i++) p[o + i] = src[s + i];`, `src` a local array (for example hybrid-dilithium-sphincs/hybrid.c:207-209). -/
def copyOut (p : Ptr) (o : Nat) (src : Bytes) (s n : Nat) : M Unit :=
  loopM (fun i _ => do
    let v ← liftC (rd src (s + i))
    store p (o + i) v) 0 n ()

/-- `for (i = 0; i < n; i++) p[o + i] = q[s + i];`, both in caller memory (for example hybrid-dilithium-sphincs/hybrid.c:381-383). -/
def copyMem (p : Ptr) (o : Nat) (q : Ptr) (s n : Nat) : M Unit :=
  loopM (fun i _ => do
    let v ← load q (s + i)
    store p (o + i) v) 0 n ()

/-- The bytes that a component function reads through a caller pointer (for example the argument `m` in hybrid-dilithium-sphincs/hybrid.c:259-344). -/
def readMem (p : Ptr) (n : Nat) : M Bytes := copyIn (List.replicate n 0) 0 p 0 n

/-- `*p = v` for `unsigned long long *p` (little endian) (hybrid-dilithium-sphincs/hybrid.c:341, 561). -/
def storeU64 (p : Ptr) (v : Nat) : M Unit := copyOut p 0 (le64 v) 0 8

/-- `*p` for `unsigned long long *p` (hybrid-dilithium-sphincs/hybrid.c:395, 459). -/
def loadU64 (p : Ptr) : M Nat := do
  let b ← readMem p 8
  pure (ofLe b)

/-- A local array with initial content `init` whose address is passed to other functions:
allocated on entry, released on exit (for example hybrid-dilithium-sphincs/hybrid.c:447-450). -/
def withLocal (init : Bytes) (f : Ptr → M α) : M α := fun W =>
  match f ⟨W.sp, 0⟩ { W with mem := Function.update W.mem W.sp (some init), sp := W.sp + 1 } with
  | .error e => .error e
  | .ok (a, W2) => .ok (a, { W2 with mem := Function.update W2.mem W.sp none, sp := W.sp })

/-- `for (i = i0; i < i0 + n; i++) if (b[i] != m[i]) return -4;  return 0;` (hybrid-dilithium-sphincs/hybrid.c:459-463, 689-693). -/
def cmpMem (b m : Ptr) : (i n : Nat) → M Int
  | _, 0 => pure 0
  | i, n + 1 => do
    let x ← load b i
    let y ← load m i
    if x ≠ y then pure (-4) else cmpMem b m (i + 1) n

/-! ### Rules -/

theorem loopM_ok {σ : Type} (Inv : Nat → σ → World → Prop) (f : Nat → σ → M σ) (i n : Nat) (s : σ) (W : World)
    (h0 : Inv i s W)
    (hs : ∀ k s W, i ≤ k → k < i + n → Inv k s W → ∃ s' W', f k s W = .ok (s', W') ∧ Inv (k + 1) s' W') :
    ∃ s' W', loopM f i n s W = .ok (s', W') ∧ Inv (i + n) s' W' := by
  induction n generalizing i s W with
  | zero => exact ⟨s, W, rfl, h0⟩
  | succ n ih =>
    obtain ⟨s1, W1, e1, h1⟩ := hs i s W (Nat.le_refl _) (by omega) h0
    obtain ⟨s2, W2, e2, h2⟩ := ih (i + 1) s1 W1 h1 (fun k s W hk hk' => hs k s W (by omega) (by omega))
    refine ⟨s2, W2, ?_, ?_⟩
    · show (f i s >>= loopM f (i + 1) n) W = _
      rw [M_bind_apply, e1]; exact e2
    · rwa [show i + 1 + n = i + (n + 1) by omega] at h2

theorem view_eq_some {W : World} {p : Ptr} {n : Nat} {x : Bytes} :
    W.view p n = some x ↔ ∃ b, W.mem p.blk = some b ∧ p.off + n ≤ b.length ∧ x = slice b p.off n := by
  unfold World.view
  split
  · rename_i h; simp [h]
  · rename_i b h
    by_cases hb : p.off + n ≤ b.length
    · simp [h, hb, eq_comm]
    · simp [h, hb]

theorem length_of_view {W : World} {p : Ptr} {n : Nat} {x : Bytes} (h : W.view p n = some x) : x.length = n := by
  obtain ⟨b, _, h2, rfl⟩ := view_eq_some.1 h
  exact length_slice h2

theorem slice_slice {b : List α} {o n i k : Nat} (h : i + k ≤ n) :
    slice (slice b o n) i k = slice b (o + i) k := by
  apply List.ext_getElem?
  intro j
  rw [getElem?_slice, getElem?_slice, getElem?_slice]
  by_cases hj : j < k
  · rw [if_pos hj, if_pos (by omega), if_pos hj, Nat.add_assoc]
  · rw [if_neg hj, if_neg hj]

/-- A part of a readable buffer is readable. -/
theorem view_sub {W : World} {p : Ptr} {n o k : Nat} {x : Bytes} (h : W.view p n = some x) (hk : o + k ≤ n) :
    W.view (p.add o) k = some (slice x o k) := by
  obtain ⟨b, h1, h2, rfl⟩ := view_eq_some.1 h
  refine view_eq_some.2 ⟨b, h1, ?_, ?_⟩
  · simp only [Ptr.add]; omega
  · rw [slice_slice hk]; rfl

theorem load_ok {W : World} {p : Ptr} {n i : Nat} {x : Bytes} (h : W.view p n = some x) (hi : i < n) :
    load p i W = .ok (x[i]'(by rw [length_of_view h]; exact hi), W) := by
  obtain ⟨b, h1, h2, rfl⟩ := view_eq_some.1 h
  unfold load
  simp only [h1]
  rw [rd_ok (by omega)]
  simp [slice]

theorem copyIn_ok {W : World} {p : Ptr} {o n d : Nat} {dst x : Bytes}
    (h : W.view (p.add o) n = some x) (hd : d + n ≤ dst.length) :
    copyIn dst d p o n W = .ok (splice dst d x, W) := by
  have hx := length_of_view h
  obtain ⟨b, h1, h2, hxs⟩ := view_eq_some.1 h
  obtain ⟨b', W', e, hb, hW⟩ := loopM_ok (fun k b W' => b = splice dst d (slice x 0 k) ∧ W' = W)
    (fun i b => do let v ← load p (o + i); liftC (wr b (d + i) v)) 0 n dst W (by simp [slice])
    (by
      rintro k c W' _ hk ⟨rfl, rfl⟩
      have hl : (slice x 0 k).length = k := length_slice (by omega)
      refine ⟨splice dst d (slice x 0 (k + 1)), W', ?_, rfl, rfl⟩
      have hld : load p (o + k) W' = .ok (x[k]'(by omega), W') := by
        have := load_ok h (i := k) (by omega)
        rw [← this]
        unfold load
        simp only [Ptr.add, Nat.add_assoc]
      rw [M_bind_apply, hld]
      simp only [ok_bind]
      rw [wr_ok (by rw [length_splice (by omega)]; omega), liftC_ok]
      congr 2
      have hs := slice_snoc (b := x) (o := 0) (n := k) (by omega)
      simp only [Nat.zero_add] at hs
      rw [hs, ← splice_snoc (by omega), hl])
  simp only [Nat.zero_add] at hb
  subst hW
  unfold copyIn
  rw [e, hb]
  have : slice x 0 n = x := by simp [slice, ← hx]
  rw [this]

theorem readMem_ok {W : World} {p : Ptr} {n : Nat} {x : Bytes} (h : W.view p n = some x) :
    readMem p n W = .ok (x, W) := by
  unfold readMem
  rw [copyIn_ok (x := x) (by simpa [Ptr.add] using h) (by simp), splice_all]
  simp [length_of_view h]

@[simp] theorem write_rng (W : World) (p : Ptr) (x : Bytes) : (W.write p x).rng = W.rng := by
  unfold World.write; split <;> try rfl
  split <;> rfl

@[simp] theorem write_sp (W : World) (p : Ptr) (x : Bytes) : (W.write p x).sp = W.sp := by
  unfold World.write; split <;> try rfl
  split <;> rfl

/-- Writing changes only the addressed bytes: the content of every block, byte by byte. -/
theorem write_mem {W : World} {p : Ptr} {x y : Bytes} {n : Nat} (h : W.view p n = some y) (hn : x.length = n) :
    ∃ b, W.mem p.blk = some b ∧ p.off + n ≤ b.length ∧
      (W.write p x).mem = Function.update W.mem p.blk (some (splice b p.off x)) := by
  obtain ⟨b, h1, h2, _⟩ := view_eq_some.1 h
  refine ⟨b, h1, h2, ?_⟩
  unfold World.write
  simp [h1, hn, h2]

theorem view_write_same {W : World} {p : Ptr} {x y : Bytes} {n : Nat} (h : W.view p n = some y) (hn : x.length = n) :
    (W.write p x).view p n = some x := by
  obtain ⟨b, h1, h2, h3⟩ := write_mem h hn
  refine view_eq_some.2 ⟨splice b p.off x, ?_, ?_, ?_⟩
  · rw [h3]; simp
  · rw [length_splice (by omega)]; omega
  · rw [← hn, slice_splice_same (by omega)]

theorem write_eq {W : World} {p : Ptr} {x b : Bytes} (h : W.mem p.blk = some b) (hl : p.off + x.length ≤ b.length) :
    W.write p x = { W with mem := Function.update W.mem p.blk (some (splice b p.off x)) } := by
  unfold World.write
  simp only [h, hl, if_true]

/-- Two byte ranges do not meet (no line of its own). -/
def Disj (p : Ptr) (n : Nat) (q : Ptr) (k : Nat) : Prop :=
  p.blk ≠ q.blk ∨ p.off + n ≤ q.off ∨ q.off + k ≤ p.off

theorem view_write_disj {W : World} {p q : Ptr} {x : Bytes} {k : Nat}
    (hd : Disj p x.length q k) : (W.write p x).view q k = W.view q k := by
  unfold World.write
  split
  · rfl
  · rename_i b hb
    split
    · rename_i hle
      unfold World.view
      simp only
      by_cases hq : q.blk = p.blk
      · rw [hq, Function.update_self, hb]
        simp only [length_splice hle]
        split
        · rename_i hk
          congr 1
          apply List.ext_getElem?
          intro i
          rw [getElem?_slice, getElem?_slice]
          split
          · rw [getElem?_splice _ _ _ _ hle]
            rcases hd with hd | hd | hd
            · exact absurd hq.symm hd
            · rw [if_neg (by omega)]
            · rw [if_neg (by omega)]
          · rfl
        · rfl
      · rw [Function.update_of_ne hq]
    · rfl

/-- Allocation is not changed by writes. -/
theorem view_write_isSome {W : World} {p q : Ptr} {x : Bytes} {k : Nat} :
    ((W.write p x).view q k).isSome = (W.view q k).isSome := by
  unfold World.write
  split
  · rfl
  · rename_i b hb
    split
    · rename_i hle
      unfold World.view
      simp only
      by_cases hq : q.blk = p.blk
      · rw [hq, Function.update_self, hb]
        simp only [length_splice hle]
        split <;> rfl
      · rw [Function.update_of_ne hq]
    · rfl

theorem write_nil (W : World) (p : Ptr) : W.write p [] = W := by
  unfold World.write
  split
  · rfl
  · rename_i b hb
    split
    · simp only [splice_nil]
      rw [← hb, Function.update_eq_self]
    · rfl

/-- Writing two adjacent pieces is writing their concatenation. -/
theorem write_append {W : World} {p : Ptr} {x y z : Bytes} (h : W.view p (x.length + y.length) = some z) :
    (W.write p x).write (p.add x.length) y = W.write p (x ++ y) := by
  obtain ⟨b, h1, h2, _⟩ := view_eq_some.1 h
  rw [write_eq h1 (x := x) (by omega), write_eq h1 (x := x ++ y) (by simp; omega),
    write_eq (b := splice b p.off x) (by simp [Ptr.add])
      (by rw [length_splice (by omega)]; simp only [Ptr.add]; omega)]
  simp only [Ptr.add, Function.update_idem]
  congr 3
  apply List.ext_getElem?
  intro i
  rw [getElem?_splice _ _ _ _ (by rw [length_splice (by omega)]; omega),
    getElem?_splice _ _ _ _ (by omega), getElem?_splice _ _ _ _ (by simp; omega)]
  simp only [List.length_append]
  by_cases hA : p.off ≤ i ∧ i < p.off + x.length
  · rw [if_neg (by omega), if_pos hA, if_pos (by omega), List.getElem?_append_left (by omega)]
  · by_cases hB : p.off + x.length ≤ i ∧ i < p.off + x.length + y.length
    · rw [if_pos hB, if_pos (by omega), List.getElem?_append_right (by omega)]
      congr 1; omega
    · rw [if_neg hB, if_neg hA, if_neg (by omega)]

theorem view_isSome_sub {W : World} {p : Ptr} {n o k : Nat} (h : (W.view p n).isSome) (hk : o + k ≤ n) :
    (W.view (p.add o) k).isSome := by
  obtain ⟨x, hx⟩ := Option.isSome_iff_exists.1 h
  rw [view_sub hx hk]; rfl

theorem store_ok {W : World} {p : Ptr} {n i : Nat} {v : Byte} (h : (W.view p n).isSome) (hi : i < n) :
    store p i v W = .ok ((), W.write (p.add i) [v]) := by
  obtain ⟨x, hx⟩ := Option.isSome_iff_exists.1 h
  obtain ⟨b, h1, h2, _⟩ := view_eq_some.1 hx
  rw [write_eq (b := b) (p := p.add i) h1 (by simp [Ptr.add]; omega)]
  unfold store
  simp only [h1]
  rw [wr_ok (by omega)]
  simp only [Ptr.add]
  congr 4
  have := splice_snoc (b := b) (x := []) (o := p.off + i) (v := v) (by simp; omega)
  simp at this
  rw [this]

theorem copyOut_ok {W : World} {p : Ptr} {o s n : Nat} {src : Bytes}
    (h : (W.view (p.add o) n).isSome) (hs : s + n ≤ src.length) :
    copyOut p o src s n W = .ok ((), W.write (p.add o) (slice src s n)) := by
  unfold copyOut
  obtain ⟨u, W', e, hW⟩ := loopM_ok (fun k _ W' => W' = W.write (p.add o) (slice src s k))
    (fun i (_ : Unit) => do let v ← liftC (rd src (s + i)); store p (o + i) v) 0 n () W
    (by simp [slice, write_nil])
    (by
      rintro k c W' _ hk rfl
      have hl : (slice src s k).length = k := length_slice (by omega)
      refine ⟨(), W.write (p.add o) (slice src s (k + 1)), ?_, rfl⟩
      rw [M_bind_apply, rd_ok (by omega), liftC_ok]
      simp only [ok_bind]
      have hv : ((W.write (p.add o) (slice src s k)).view (p.add o) n).isSome := by
        rw [view_write_isSome]; exact h
      have hst := store_ok (v := src[s + k]) hv (i := k) (by omega)
      have hst' : store p (o + k) src[s + k] (W.write (p.add o) (slice src s k)) =
          store (p.add o) k src[s + k] (W.write (p.add o) (slice src s k)) := by
        unfold store
        simp only [Ptr.add, Nat.add_assoc]
      rw [hst', hst]
      congr 2
      obtain ⟨z, hz⟩ := Option.isSome_iff_exists.1 (view_isSome_sub h (o := 0) (k := k + 1) (by omega))
      have := write_append (W := W) (p := p.add o) (x := slice src s k) (y := [src[s + k]]) (z := z)
        (by simpa [hl, Ptr.add] using hz)
      rw [hl] at this
      rw [this, ← slice_snoc (by omega)])
  simp only [Nat.zero_add] at hW
  rw [e, hW]

/-- Copying between two ranges of caller memory that do not meet. -/
theorem copyMem_ok {W : World} {p q : Ptr} {o s n : Nat} {x : Bytes}
    (h : (W.view (p.add o) n).isSome) (hq : W.view (q.add s) n = some x)
    (hd : Disj (p.add o) n (q.add s) n) :
    copyMem p o q s n W = .ok ((), W.write (p.add o) x) := by
  have hx := length_of_view hq
  unfold copyMem
  obtain ⟨u, W', e, hW⟩ := loopM_ok (fun k _ W' => W' = W.write (p.add o) (slice x 0 k))
    (fun i (_ : Unit) => do let v ← load q (s + i); store p (o + i) v) 0 n () W
    (by simp [slice, write_nil])
    (by
      rintro k c W' _ hk rfl
      have hl : (slice x 0 k).length = k := length_slice (by omega)
      refine ⟨(), W.write (p.add o) (slice x 0 (k + 1)), ?_, rfl⟩
      have hqv : (W.write (p.add o) (slice x 0 k)).view (q.add s) n = some x := by
        rw [view_write_disj, hq]
        rw [hl]
        rcases hd with hd | hd | hd
        · exact Or.inl hd
        · exact Or.inr (Or.inl (by omega))
        · exact Or.inr (Or.inr (by omega))
      have hld : load q (s + k) (W.write (p.add o) (slice x 0 k)) =
          .ok (x[k]'(by omega), W.write (p.add o) (slice x 0 k)) := by
        rw [← load_ok hqv (i := k) (by omega)]
        unfold load
        simp only [Ptr.add, Nat.add_assoc]
      rw [M_bind_apply, hld]
      simp only [ok_bind]
      have hv : ((W.write (p.add o) (slice x 0 k)).view (p.add o) n).isSome := by
        rw [view_write_isSome]; exact h
      have hst := store_ok (v := x[k]'(by omega)) hv (i := k) (by omega)
      have hst' : store p (o + k) (x[k]'(by omega)) (W.write (p.add o) (slice x 0 k)) =
          store (p.add o) k (x[k]'(by omega)) (W.write (p.add o) (slice x 0 k)) := by
        unfold store
        simp only [Ptr.add, Nat.add_assoc]
      rw [hst', hst]
      congr 2
      obtain ⟨z, hz⟩ := Option.isSome_iff_exists.1 (view_isSome_sub h (o := 0) (k := k + 1) (by omega))
      have := write_append (W := W) (p := p.add o) (x := slice x 0 k) (y := [x[k]'(by omega)]) (z := z)
        (by simpa [hl, Ptr.add] using hz)
      rw [hl] at this
      have hs := slice_snoc (b := x) (o := 0) (n := k) (by omega)
      simp only [Nat.zero_add] at hs
      rw [this, hs])
  simp only [Nat.zero_add] at hW
  rw [e, hW]
  have : slice x 0 n = x := by simp [slice, ← hx]
  rw [this]

theorem storeU64_ok {W : World} {p : Ptr} {v : Nat} (h : (W.view p 8).isSome) :
    storeU64 p v W = .ok ((), W.write p (le64 v)) := by
  unfold storeU64
  rw [copyOut_ok (by simpa [Ptr.add] using h) (by simp)]
  have : slice (le64 v) 0 8 = le64 v := by
    have := slice_zero_length (le64 v)
    rwa [length_le64] at this
  rw [this]; rfl

theorem loadU64_ok {W : World} {p : Ptr} {x : Bytes} (h : W.view p 8 = some x) :
    loadU64 p W = .ok (ofLe x, W) := by
  unfold loadU64
  rw [M_bind_apply, readMem_ok h]
  rfl

/-- The comparison loop decides equality of the two ranges. -/
theorem cmpMem_ok {W : World} {b m : Ptr} {N k i n : Nat} {x y : Bytes}
    (hb : W.view b N = some x) (hm : W.view m k = some y) (h1 : i + n ≤ N) (h2 : i + n ≤ k) :
    cmpMem b m i n W = .ok (if slice x i n = slice y i n then 0 else -4, W) := by
  have hx := length_of_view hb
  have hy := length_of_view hm
  induction n generalizing i with
  | zero => simp [cmpMem, slice]
  | succ n ih =>
    unfold cmpMem
    rw [M_bind_apply, load_ok hb (i := i) (by omega)]
    simp only [ok_bind]
    rw [M_bind_apply, load_ok hm (i := i) (by omega)]
    simp only [ok_bind]
    have e1 : slice x i (n + 1) = x[i]'(by omega) :: slice x (i + 1) n := by
      unfold slice
      rw [List.drop_eq_getElem_cons (show i < x.length by omega), List.take_succ_cons]
    have e2 : slice y i (n + 1) = y[i]'(by omega) :: slice y (i + 1) n := by
      unfold slice
      rw [List.drop_eq_getElem_cons (show i < y.length by omega), List.take_succ_cons]
    rw [e1, e2]
    by_cases hxy : x[i]'(by omega) = y[i]'(by omega)
    · rw [if_neg (by simpa using hxy), ih (by omega) (by omega)]
      simp [hxy]
    · rw [if_pos hxy]
      simp [hxy]

end Verif
