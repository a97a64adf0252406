import Verif.Keccak.Heap

/-! Lemmas for Verif/Keccak/HeapProps.lean. -/

namespace Verif.Keccak.Heap
open Verif Verif.Keccak

variable {α β : Type}

@[simp] theorem K_bind_apply (x : K α) (f : α → K β) (h : Ctxs) : (x >>= f) h = (x h >>= fun q => f q.1 q.2) := rfl
@[simp] theorem K_pure_apply (a : α) (h : Ctxs) : (pure a : K α) h = .ok (a, h) := rfl
@[simp] theorem K_ok_bind (a : α) (f : α → Except Stop β) : (Except.ok a >>= f : Except Stop β) = f a := rfl
@[simp] theorem K_error_bind (e : Stop) (f : α → Except Stop β) : (Except.error e >>= f : Except Stop β) = .error e := rfl
@[simp] theorem toK_ok (a : α) : toK (.ok a : C α) = .ok a := rfl
@[simp] theorem toK_pure (a : α) : toK (pure a : C α) = .ok a := rfl
@[simp] theorem toK_bind (x : C α) (f : α → C β) : toK (x >>= f) = (toK x >>= fun a => toK (f a)) := by
  cases x with
  | error e => cases e <;> rfl
  | ok a => rfl
@[simp] theorem onC_apply (x : C α) (h : Ctxs) : onC x h = (toK x >>= fun a => .ok (a, h)) := rfl

/-- `h` with block `b` behind `p`. -/
def Ctxs.at (h : Ctxs) (p : Nat) (b : Blk) : Ctxs := { h with cell := Function.update h.cell p (some b) }

@[simp] theorem at_at (h : Ctxs) (p : Nat) (b c : Blk) : (h.at p b).at p c = h.at p c := by simp [Ctxs.at]

@[simp] theorem getInc_at (h : Ctxs) (p : Nat) (st : Inc) : getInc p (h.at p (.inc (some st))) = .ok (st, h.at p (.inc (some st))) := by
  simp [getInc, Ctxs.at]
@[simp] theorem putInc_at (h : Ctxs) (p : Nat) (o : Option Inc) (st : Inc) : putInc p st (h.at p (.inc o)) = .ok ((), h.at p (.inc (some st))) := by
  simp [putInc, Ctxs.at]
@[simp] theorem getPlain_at (h : Ctxs) (p : Nat) (s : List W64) : getPlain p (h.at p (.plain (some s))) = .ok (s, h.at p (.plain (some s))) := by
  simp [getPlain, Ctxs.at]
@[simp] theorem putPlain_at (h : Ctxs) (p : Nat) (o : Option (List W64)) (s : List W64) : putPlain p s (h.at p (.plain o)) = .ok ((), h.at p (.plain (some s))) := by
  simp [putPlain, Ctxs.at]
@[simp] theorem free_at (h : Ctxs) (p : Nat) (b : Blk) : free p (h.at p b) = .ok ((), { h with cell := Function.update h.cell p none }) := by
  simp [free, Ctxs.at]

theorem malloc_run (h : Ctxs) (b : Blk) : malloc b h = if h.fails h.next then .ok (none, { h with next := h.next + 1 })
    else .ok (some h.next, ({ h with next := h.next + 1 } : Ctxs).at h.next b) := rfl

/-- The body `x` of a function that has a context behind `p` in state `st`: as `v`, which gives the result and the new state; nothing else changes. -/
def RunAt (p : Nat) (x : K α) (st : Inc) (v : C (α × Inc)) : Prop :=
  ∀ h : Ctxs, x (h.at p (.inc (some st))) = (toK v >>= fun q => .ok (q.1, h.at p (.inc (some q.2))))

theorem RunAt.absorb {p r : Nat} {m : Bytes} {n : Nat} {st : Inc} : RunAt p (incAbsorbH p r m n) st (incAbsorb st r m n >>= fun st => .ok ((), st)) := by
  intro h
  simp [incAbsorbH, bind_assoc]

theorem RunAt.finalize {p r : Nat} {st : Inc} : RunAt p (incFinalizeH p r) st (incFinalize st r 0x1F >>= fun st => .ok ((), st)) := by
  intro h
  simp [incFinalizeH, bind_assoc]

theorem RunAt.squeeze {p r : Nat} {out : Bytes} {n : Nat} {st : Inc} : RunAt p (incSqueezeH out n p r) st (incSqueeze out n st r) := by
  intro h
  simp only [incSqueezeH, K_bind_apply, getInc_at, K_ok_bind, onC_apply, bind_assoc, putInc_at, K_pure_apply]

theorem RunAt.onC {p : Nat} {x : C α} {st : Inc} : RunAt p (onC x) st (x >>= fun a => .ok (a, st)) := by
  intro h
  simp [bind_assoc]

theorem RunAt.pure {p : Nat} {a : α} {st : Inc} : RunAt p (pure a) st (.ok (a, st)) := by
  intro h
  rfl

theorem RunAt.bind {p : Nat} {x : K α} {st : Inc} {v : C (α × Inc)} {f : α → K β} {g : α × Inc → C (β × Inc)} (hx : RunAt p x st v)
    (hf : ∀ a st, RunAt p (f a) st (g (a, st))) : RunAt p (x >>= f) st (v >>= g) := by
  intro h
  rw [K_bind_apply, hx, toK_bind, bind_assoc, bind_assoc]
  congr 1
  funext q
  simp only [K_ok_bind]
  exact hf q.1 q.2 h

theorem RunAt.bind' {p : Nat} {x : K α} {st : Inc} {v : C (α × Inc)} {f : α → K β} {g : α → Inc → C (β × Inc)} (hx : RunAt p x st v)
    (hf : ∀ a st, RunAt p (f a) st (g a st)) : RunAt p (x >>= f) st (v >>= fun q => g q.1 q.2) := RunAt.bind hx hf

theorem RunAt.congr {p : Nat} {x : K α} {st : Inc} {v w : C (α × Inc)} (hx : RunAt p x st v) (e : v = w) : RunAt p x st w := e ▸ hx

/-- A function that makes one context and releases it. -/
def Single (x : K α) (v : C α) : Prop := ∀ h : Ctxs, h.WF →
  x h = if h.fails h.next then .error (.exit 111) else toK v >>= fun a => .ok (a, { h with next := h.next + 1 })

theorem restore {h : Ctxs} (hw : h.WF) : ({ cell := Function.update h.cell h.next none, next := h.next + 1, fails := h.fails } : Ctxs) = { h with next := h.next + 1 } := by
  have : Function.update h.cell h.next none = h.cell := by
    rw [Function.update_eq_self_iff]
    exact (hw _ (Nat.le_refl _)).symm
  rw [this]

theorem Single.of_body {body : Nat → K α} {v : C (α × Inc)} (hb : ∀ p, RunAt p (body p) incInit v) :
    Single (do let p ← incInitH; let a ← body p; incReleaseH p; pure a) (v >>= fun q => .ok q.1) := by
  intro h hw
  by_cases hf : h.fails h.next
  · simp [incInitH, malloc_run, hf, exit]
  · simp only [incInitH, K_bind_apply, malloc_run, hf, if_false, K_ok_bind, putInc_at, K_pure_apply, Bool.false_eq_true]
    rw [hb]
    simp only [bind_assoc, K_ok_bind, incReleaseH, free_at, toK_bind, toK_ok, restore hw]

theorem Single.congr {x : K α} {v w : C α} (hx : Single x v) (e : v = w) : Single x w := e ▸ hx

/-- As `RunAt`, for a body whose last state is of no interest. -/
def RunEnd (p : Nat) (x : K α) (st : Inc) (v : C α) : Prop :=
  ∀ h : Ctxs, ∃ F : α → Inc, x (h.at p (.inc (some st))) = (toK v >>= fun a => .ok (a, h.at p (.inc (some (F a)))))

theorem RunAt.bindEnd {p : Nat} {x : K α} {st : Inc} {v : C (α × Inc)} {f : α → K β} {g : α × Inc → C β} (hx : RunAt p x st v)
    (hf : ∀ a st, RunEnd p (f a) st (g (a, st))) : RunEnd p (x >>= f) st (v >>= g) := by
  intro h
  cases hv : v with
  | error e =>
    refine ⟨fun _ => incInit, ?_⟩
    rw [K_bind_apply, hx, hv]
    cases e <;> rfl
  | ok q =>
    obtain ⟨F, hF⟩ := hf q.1 q.2 h
    refine ⟨F, ?_⟩
    rw [K_bind_apply, hx, hv]
    simp only [toK_ok, K_ok_bind]
    exact hF

theorem RunEnd.onC {p : Nat} {x : C α} {st : Inc} : RunEnd p (onC x) st x := fun h => ⟨fun _ => st, by simp⟩

theorem RunEnd.pure {p : Nat} {a : α} {st : Inc} : RunEnd p (pure a) st (.ok a) := fun _ => ⟨fun _ => st, rfl⟩

theorem RunEnd.bindC {p : Nat} {x : C α} {st : Inc} {f : α → K β} {g : α → C β} (hf : ∀ a, RunEnd p (f a) st (g a)) : RunEnd p (Heap.onC x >>= f) st (x >>= g) := by
  intro h
  cases hv : x with
  | error e => exact ⟨fun _ => incInit, by cases e <;> rfl⟩
  | ok a =>
    obtain ⟨F, hF⟩ := hf a h
    exact ⟨F, hF⟩

theorem RunEnd.fault {p : Nat} {st : Inc} {e : Fault} : RunEnd p (Heap.onC (.error e : C α)) st (.error e) := RunEnd.onC

theorem Single.of_end {body : Nat → K α} {v : C α} (hb : ∀ p, RunEnd p (body p) incInit v) :
    Single (do let p ← incInitH; let a ← body p; incReleaseH p; pure a) v := by
  intro h hw
  by_cases hf : h.fails h.next
  · simp [incInitH, malloc_run, hf, exit]
  · simp only [incInitH, K_bind_apply, malloc_run, hf, if_false, K_ok_bind, putInc_at, K_pure_apply, Bool.false_eq_true]
    obtain ⟨F, hF⟩ := hb h.next { h with next := h.next + 1 }
    rw [hF]
    simp only [bind_assoc, K_ok_bind, incReleaseH, free_at, restore hw]

/-- `x` acts as the function on values `v` says and uses `N` contexts for it, as the calls of dilithium2/sign.c:22-332 do: if one of the next `N` calls of `malloc`
fails the process stops with `exit(111)`; if not, the result is that of `v`, and afterwards the same blocks are allocated, with the same contents, as before. -/
def Uses (N : Nat) (x : K α) (v : C α) : Prop := ∀ h : Ctxs, h.WF →
  x h = if (List.range N).any (fun i => h.fails (h.next + i)) then .error (.exit 111) else toK v >>= fun a => .ok (a, { h with next := h.next + N })

/-- `x` is as `v` with some number of contexts, which does not depend on the heap. -/
def Clean (x : K α) (v : C α) : Prop := ∃ N, Uses N x v

theorem Single.uses {x : K α} {v : C α} (hx : Single x v) : Uses 1 x v := by
  intro h hw
  rw [hx h hw]
  simp only [List.range_one, List.any_cons, List.any_nil, Bool.or_false, Nat.add_zero]

theorem Single.clean {x : K α} {v : C α} (hx : Single x v) : Clean x v := ⟨1, hx.uses⟩

theorem Uses.onC {x : C α} : Uses 0 (Heap.onC x) x := fun _ _ => rfl

theorem Uses.pure {a : α} : Uses 0 (pure a) (.ok a) := fun _ _ => rfl

theorem any_range_add (p : Nat → Bool) (N M : Nat) : (List.range (N + M)).any p = ((List.range N).any p || (List.range M).any (fun i => p (N + i))) := by
  rw [List.range_add, List.any_append, List.any_map]; rfl

theorem Uses.bind {N M : Nat} {x : K α} {v : C α} {f : α → K β} {g : α → C β} {a : α} (hx : Uses N x v) (hv : v = .ok a) (hf : Uses M (f a) (g a)) :
    Uses (N + M) (x >>= f) (v >>= g) := by
  intro h hw
  rw [K_bind_apply, hx h hw, any_range_add, hv]
  by_cases c : (List.range N).any (fun i => h.fails (h.next + i))
  · rw [if_pos c, c, Bool.true_or, if_pos rfl]; rfl
  · rw [if_neg c]
    have hw' : ({ h with next := h.next + N } : Ctxs).WF := fun p hp => hw p (by simp only [] at hp; omega)
    have := hf { h with next := h.next + N } hw'
    rw [Bool.not_eq_true] at c
    simp only [toK_ok, K_ok_bind, ok_bind, c, Bool.false_or, this, Nat.add_assoc]

theorem Uses.bind_error {N : Nat} {x : K α} {v : C α} {f : α → K β} {g : α → C β} {e : Fault} (hx : Uses N x v) (hv : v = .error e) : Uses N (x >>= f) (v >>= g) := by
  intro h hw
  rw [K_bind_apply, hx h hw, hv]
  split
  · rfl
  · cases e <;> rfl

theorem Clean.onC {x : C α} : Clean (Heap.onC x) x := ⟨0, Uses.onC⟩

theorem Clean.pure {a : α} : Clean (pure a) (.ok a) := ⟨0, Uses.pure⟩

theorem Clean.bind {x : K α} {v : C α} {f : α → K β} {g : α → C β} (hx : Clean x v) (hf : ∀ a, v = .ok a → Clean (f a) (g a)) : Clean (x >>= f) (v >>= g) := by
  obtain ⟨N, hx⟩ := hx
  cases hv : v with
  | error e => exact ⟨N, hv ▸ Uses.bind_error hx hv⟩
  | ok a =>
    obtain ⟨M, hf⟩ := hf a hv
    exact ⟨N + M, hv ▸ Uses.bind hx hv hf⟩

theorem Clean.bindC {x : C α} {f : α → K β} {g : α → C β} (hf : ∀ a, x = .ok a → Clean (f a) (g a)) : Clean (Heap.onC x >>= f) (x >>= g) := Clean.bind Clean.onC hf

theorem Clean.congr {x : K α} {v w : C α} (hx : Clean x v) (e : v = w) : Clean x w := e ▸ hx

theorem Single.tail {x : K α} {v : C α} (hx : Single x v) (f : α → C β) : Single (x >>= fun a => onC (f a)) (v >>= f) := by
  intro h hw
  rw [K_bind_apply, hx h hw]
  split
  · rfl
  · simp only [bind_assoc, K_ok_bind, onC_apply, toK_bind]

end Verif.Keccak.Heap
