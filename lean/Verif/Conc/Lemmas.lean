import Verif.Conc.Base

/-!
Threads whose accesses to common memory stay inside given address sets.
-/

namespace Verif.Conc
open Verif

variable {α β ι : Type}

/-- The content of a byte of memory, `none` if it is not allocated (no line of its own). -/
def byteAt (m : Nat → Option Bytes) (a : Addr) : Option Byte := (m a.1).bind (·[a.2]?)

/-- Memory with one byte replaced (no line of its own). -/
def put (m : Nat → Option Bytes) (a : Addr) (v : Byte) : Nat → Option Bytes := Function.update m a.1 ((m a.1).map (·.set a.2 v))

theorem load_byteAt (p : Ptr) (i : Nat) (W : World) :
    Verif.load p i W = match byteAt W.mem (p.blk, p.off + i) with | some v => .ok (v, W) | none => .error .ub := by
  unfold Verif.load byteAt
  cases h : W.mem p.blk with
  | none => rfl
  | some b =>
    simp only [Option.bind, rd]
    cases b[p.off + i]? <;> rfl

theorem store_byteAt (p : Ptr) (i : Nat) (v : Byte) (W : World) :
    Verif.store p i v W = match byteAt W.mem (p.blk, p.off + i) with
      | some _ => .ok ((), { W with mem := put W.mem (p.blk, p.off + i) v }) | none => .error .ub := by
  unfold Verif.store byteAt put
  cases h : W.mem p.blk with
  | none => rfl
  | some b =>
    simp only [Option.bind, wr, Option.map]
    by_cases hl : p.off + i < b.length
    · simp [hl]
    · simp [hl]

theorem byteAt_put (m : Nat → Option Bytes) (a : Addr) (v : Byte) (x : Addr) :
    byteAt (put m a v) x = if x = a then (byteAt m a).map (fun _ => v) else byteAt m x := by
  obtain ⟨b, o⟩ := a
  obtain ⟨c, q⟩ := x
  unfold byteAt put
  by_cases h : c = b
  · subst h
    simp only [Function.update_self, Prod.mk.injEq, true_and]
    cases m c with
    | none => simp
    | some l =>
      simp only [Option.map_some, Option.bind_some, List.getElem?_set]
      by_cases h2 : o = q
      · subst h2
        by_cases h3 : o < l.length <;> simp [h3]
      · rw [if_neg h2, if_neg (fun e => h2 e.symm)]
  · rw [if_neg (by simp [h])]
    simp only [Function.update_of_ne h]

/-- The two memories agree on the bytes of `S` below `base` and on all blocks from `base` on (no line of its own). -/
def Agree (base : Nat) (S : Addr → Prop) (m m' : Nat → Option Bytes) : Prop :=
  (∀ a : Addr, a.1 < base → S a → byteAt m a = byteAt m' a) ∧ ∀ b, base ≤ b → m b = m' b

theorem Agree.byte {base : Nat} {S : Addr → Prop} {m m' : Nat → Option Bytes} (h : Agree base S m m') {a : Addr} (ha : a.1 < base → S a) : byteAt m a = byteAt m' a := by
  by_cases hb : a.1 < base
  · exact h.1 a hb (ha hb)
  · unfold byteAt; rw [h.2 a.1 (by omega)]

theorem Agree.put {base : Nat} {S : Addr → Prop} {m m' : Nat → Option Bytes} (h : Agree base S m m') {a : Addr} (ha : a.1 < base → S a) (v : Byte) :
    Agree base S (put m a v) (put m' a v) := by
  constructor
  · intro x hx hS
    rw [byteAt_put, byteAt_put, h.byte ha, h.1 x hx hS]
  · intro b hb
    unfold Conc.put
    by_cases e : b = a.1
    · subst e; simp only [Function.update_self, h.2 _ hb]
    · simp only [Function.update_of_ne e, h.2 _ hb]

theorem Agree.update {base : Nat} {S : Addr → Prop} {m m' : Nat → Option Bytes} (h : Agree base S m m') {b : Nat} (hb : base ≤ b) (x : Option Bytes) :
    Agree base S (Function.update m b x) (Function.update m' b x) := by
  constructor
  · intro a ha hS
    have := h.1 a ha hS
    unfold byteAt at this ⊢
    rwa [Function.update_of_ne (by omega), Function.update_of_ne (by omega)]
  · intro c hc
    by_cases e : c = b
    · subst e; simp
    · simp only [Function.update_of_ne e, h.2 _ hc]

/-- The accesses of the call to memory below `base` lie in `R` (reads) and `S` (writes), whatever it reads and draws; its local arrays are above (no line of its own). -/
def Within (base : Nat) (R S : Addr → Prop) : Prog α → Prop
  | .ret _ => True
  | .fail _ => True
  | .load p i k => (p.blk < base → R (p.blk, p.off + i)) ∧ ∀ v, Within base R S (k v)
  | .store p i _ k => (p.blk < base → S (p.blk, p.off + i)) ∧ Within base R S k
  | .draw _ k => ∀ o, Within base R S (k o)
  | .push _ k => ∀ p : Ptr, base ≤ p.blk → Within base R S (k p)
  | .pop p k => base ≤ p.blk ∧ Within base R S k

theorem Within.bind {base : Nat} {R S : Addr → Prop} {x : Prog α} {f : α → Prog β} (hx : Within base R S x) (hf : ∀ a, Within base R S (f a)) :
    Within base R S (x >>= f) := by
  show Within base R S (x.bind f)
  induction x with
  | ret a => exact hf a
  | fail e => trivial
  | load p i k ih => exact ⟨hx.1, fun v => ih v (hx.2 v)⟩
  | store p i v k ih => exact ⟨hx.1, ih hx.2⟩
  | draw n k ih => exact fun o => ih o (hx o)
  | push init k ih => exact fun p hp => ih p (hx p hp)
  | pop p k ih => exact ⟨hx.1, ih hx.2⟩

/-! ### One step -/

theorem step_load (p : Ptr) (i : Nat) (k : Byte → Prog α) (W : World) :
    step (.load p i k) W = match byteAt W.mem (p.blk, p.off + i) with | some v => (k v, W) | none => (.fail .ub, W) := by
  show (match Verif.load p i W with | .ok (v, W') => (k v, W') | .error e => (.fail e, W)) = _
  rw [load_byteAt]
  cases byteAt W.mem (p.blk, p.off + i) <;> rfl

theorem step_store (p : Ptr) (i : Nat) (v : Byte) (k : Prog α) (W : World) :
    step (.store p i v k) W = match byteAt W.mem (p.blk, p.off + i) with
      | some _ => (k, { W with mem := put W.mem (p.blk, p.off + i) v }) | none => (.fail .ub, W) := by
  show (match Verif.store p i v W with | .ok (_, W') => (k, W') | .error e => (.fail e, W)) = _
  rw [store_byteAt]
  cases byteAt W.mem (p.blk, p.off + i) <;> rfl

/-- What one step does, if the accesses are in the sets. -/
theorem step_within {base : Nat} {R S : Addr → Prop} {x : Prog α} {W : World} (h : Within base R S x) (hsp : base ≤ W.sp) :
    Within base R S (step x W).1 ∧ base ≤ (step x W).2.sp ∧
    (∀ a : Addr, a.1 < base → ¬ S a → byteAt (step x W).2.mem a = byteAt W.mem a) := by
  cases x with
  | ret a => exact ⟨trivial, hsp, fun _ _ _ => rfl⟩
  | fail e => exact ⟨trivial, hsp, fun _ _ _ => rfl⟩
  | load p i k =>
    rw [step_load]
    cases byteAt W.mem (p.blk, p.off + i) with
    | none => exact ⟨trivial, hsp, fun _ _ _ => rfl⟩
    | some v => exact ⟨h.2 v, hsp, fun _ _ _ => rfl⟩
  | store p i v k =>
    rw [step_store]
    cases byteAt W.mem (p.blk, p.off + i) with
    | none => exact ⟨trivial, hsp, fun _ _ _ => rfl⟩
    | some _ =>
      refine ⟨h.2, hsp, fun a ha hS => ?_⟩
      show byteAt (put W.mem _ v) a = _
      rw [byteAt_put, if_neg]
      rintro rfl
      exact hS (h.1 ha)
  | draw n k => exact ⟨h _, hsp, fun _ _ _ => rfl⟩
  | push init k =>
    refine ⟨h _ hsp, Nat.le_succ_of_le hsp, fun a ha _ => ?_⟩
    show ((Function.update W.mem W.sp (some init)) a.1).bind _ = _
    rw [Function.update_of_ne (by omega)]; rfl
  | pop p k =>
    have h1 := h.1
    refine ⟨h.2, h.1, fun a ha _ => ?_⟩
    show ((Function.update W.mem p.blk none) a.1).bind _ = _
    rw [Function.update_of_ne (by omega)]; rfl

/-- The same step in two memories that agree where the call may look. -/
theorem step_agree {base : Nat} {R S : Addr → Prop} {x : Prog α} {m m' : Nat → Option Bytes} {sp : Nat} {rng : Rng} (h : Within base R S x) (hsp : base ≤ sp)
    (hm : Agree base (fun a => R a ∨ S a) m m') :
    (step x ⟨m, sp, rng⟩).1 = (step x ⟨m', sp, rng⟩).1 ∧ (step x ⟨m, sp, rng⟩).2.sp = (step x ⟨m', sp, rng⟩).2.sp ∧
    (step x ⟨m, sp, rng⟩).2.rng = (step x ⟨m', sp, rng⟩).2.rng ∧ Agree base (fun a => R a ∨ S a) (step x ⟨m, sp, rng⟩).2.mem (step x ⟨m', sp, rng⟩).2.mem := by
  cases x with
  | ret a => exact ⟨rfl, rfl, rfl, hm⟩
  | fail e => exact ⟨rfl, rfl, rfl, hm⟩
  | load p i k =>
    simp only [step_load, hm.byte (a := (p.blk, p.off + i)) (fun hb => Or.inl (h.1 hb))]
    cases byteAt m' (p.blk, p.off + i) <;> exact ⟨rfl, rfl, rfl, hm⟩
  | store p i v k =>
    have ha : (p.blk, p.off + i).1 < base → R (p.blk, p.off + i) ∨ S (p.blk, p.off + i) := fun hb => Or.inr (h.1 hb)
    simp only [step_store, hm.byte ha]
    cases byteAt m' (p.blk, p.off + i) with
    | none => exact ⟨rfl, rfl, rfl, hm⟩
    | some _ => exact ⟨rfl, rfl, rfl, hm.put ha v⟩
  | draw n k => exact ⟨rfl, rfl, rfl, hm⟩
  | push init k => exact ⟨rfl, rfl, rfl, hm.update hsp _⟩
  | pop p k => exact ⟨rfl, rfl, rfl, hm.update h.1 _⟩

/-- A step does not change what is to come out. -/
theorem exec_step_eq (x : Prog α) (W : World) : exec x W = exec (step x W).1 (step x W).2 := by
  cases x with
  | ret a => rfl
  | fail e => rfl
  | load p i k =>
    show (Verif.load p i >>= _) W = _
    rw [M_bind_apply, step_load, load_byteAt]
    cases byteAt W.mem (p.blk, p.off + i) <;> rfl
  | store p i v k =>
    show (Verif.store p i v >>= _) W = _
    rw [M_bind_apply, step_store, store_byteAt]
    cases byteAt W.mem (p.blk, p.off + i) <;> rfl
  | draw n k => rfl
  | push init k => rfl
  | pop p k => rfl

/-- The number of draws in a step and what the draw gives. -/
theorem step_rng (x : Prog α) (m : Nat → Option Bytes) (sp : Nat) (rng : Rng) :
    (step x ⟨m, sp, rng⟩).2.rng = rng ∨
    ∃ n k, x = .draw n k ∧ (step x ⟨m, sp, rng⟩).2.rng = { rng with log := rng.log ++ [(n, rng.draw rng.log.length n)] } := by
  cases x with
  | ret a => exact Or.inl rfl
  | fail e => exact Or.inl rfl
  | load p i k =>
    left; rw [step_load]
    cases byteAt (World.mem ⟨m, sp, rng⟩) (p.blk, p.off + i) <;> rfl
  | store p i v k =>
    left; rw [step_store]
    cases byteAt (World.mem ⟨m, sp, rng⟩) (p.blk, p.off + i) <;> rfl
  | draw n k => exact Or.inr ⟨n, k, rfl, rfl⟩
  | push init k => exact Or.inl rfl
  | pop p k => exact Or.inl rfl

/-- A step that does not draw does not look at the random source. -/
theorem step_no_draw {x : Prog α} (hx : ∀ n k, x ≠ .draw n k) (m : Nat → Option Bytes) (sp : Nat) (rng rng' : Rng) :
    (step x ⟨m, sp, rng⟩).1 = (step x ⟨m, sp, rng'⟩).1 ∧ (step x ⟨m, sp, rng⟩).2.mem = (step x ⟨m, sp, rng'⟩).2.mem ∧
    (step x ⟨m, sp, rng⟩).2.sp = (step x ⟨m, sp, rng'⟩).2.sp := by
  cases x with
  | ret a => exact ⟨rfl, rfl, rfl⟩
  | fail e => exact ⟨rfl, rfl, rfl⟩
  | load p i k =>
    simp only [step_load]
    cases byteAt m (p.blk, p.off + i) <;> exact ⟨rfl, rfl, rfl⟩
  | store p i v k =>
    simp only [step_store]
    cases byteAt m (p.blk, p.off + i) <;> exact ⟨rfl, rfl, rfl⟩
  | draw n k => exact absurd rfl (hx n k)
  | push init k => exact ⟨rfl, rfl, rfl⟩
  | pop p k => exact ⟨rfl, rfl, rfl⟩

end Verif.Conc
