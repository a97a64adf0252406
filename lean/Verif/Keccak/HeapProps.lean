import Verif.Keccak.HeapLemmas
import Verif.Keccak.Props

/-! The property C85: the contexts of common/fips202.c on the heap. -/

namespace Verif.Keccak.Heap
open Verif Verif.Keccak

variable {α β : Type}

/-- A heap for the examples: the context 0 is in use, the fourth call of `malloc` from here fails. -/
def demo : Ctxs := ⟨fun p => if p = 0 then some (.inc (some incInit)) else none, 1, fun n => n = 4⟩

theorem demo_wf : demo.WF := fun p hp => if_neg (show p ≠ 0 by have : 1 ≤ p := hp; omega)

/-- The same heap after `malloc` was called three times. -/
def demo4 : Ctxs := { demo with next := 4 }

theorem demo4_wf : demo4.WF := fun p hp => if_neg (show p ≠ 0 by have : 4 ≤ p := hp; omega)

/-- C85: `shake128` and `shake256` allocate one context and release it; they stop with `exit(111)` exactly if that allocation fails, and otherwise do what the functions on values do. -/
theorem ctx_shake (rate : Nat) (output : Bytes) (outlen : Nat) (input : Bytes) (inlen : Nat) :
    Single (shakeH rate output outlen input inlen) (shake rate output outlen input inlen) := by
  intro h hw
  by_cases hf : h.fails h.next
  · simp [shakeH, absorbH, malloc_run, hf, exit]
  · by_cases hr : outlen - outlen / rate * rate ≠ 0
    · simp only [shakeH, absorbH, squeezeblocksH, shake, K_bind_apply, malloc_run, hf, if_false, K_ok_bind, onC_apply, bind_assoc, putPlain_at, K_pure_apply, getPlain_at,
        if_pos hr, toK_bind, releaseH, free_at, restore hw, Bool.false_eq_true]
    · simp only [shakeH, absorbH, squeezeblocksH, shake, K_bind_apply, malloc_run, hf, if_false, K_ok_bind, onC_apply, bind_assoc, putPlain_at, K_pure_apply, getPlain_at,
        if_neg hr, toK_bind, toK_ok, releaseH, free_at, restore hw, Bool.false_eq_true]

/-- SHAKE256 of a message while another context is in use, and the call whose allocation fails. -/
example : (∃ d, shakeH 136 (List.replicate 32 0) 32 [1, 2, 3] 3 demo = .ok (d, { demo with next := 2 }) ∧ Spec.bits d = Spec.SHAKE256 (Spec.bits [1, 2, 3]) 256) ∧
    shakeH 136 (List.replicate 32 0) 32 [1, 2, 3] 3 demo4 = .error (.exit 111) := by
  constructor
  · obtain ⟨d, e, _, hs⟩ := (hash_functions_fips202 (List.replicate 32 0) [1, 2, 3]).2.2.2.2 32 (by simp)
    rw [List.drop_of_length_le (by simp), List.append_nil] at e
    refine ⟨d, ?_, hs⟩
    rw [ctx_shake _ _ _ _ _ demo demo_wf]
    have e : shake 136 (List.replicate 32 0) 32 [1, 2, 3] 3 = .ok d := e
    rw [e]; rfl
  · rw [ctx_shake _ _ _ _ _ demo4 demo4_wf]; rfl

/-- The body of `seedexpander` on values and on the heap. -/
theorem runAt_seedexpander (p : Nat) (st : Inc) (output : Bytes) (outlen : Nat) : RunAt p (seedexpanderH p output outlen) st (seedexpander st output outlen) := by
  unfold seedexpanderH seedexpander
  refine RunAt.bind RunAt.squeeze fun a st => ?_
  dsimp only
  split
  · refine RunAt.bind RunAt.squeeze fun a st => ?_
    exact RunAt.onC
  · exact RunAt.pure

/-- C85 for `seedexpander_wrapper`: the argument checks come before the allocation. -/
theorem ctx_seedexpander_wrapper (seed output : Option Bytes) (seedlen outlen : Nat) :
    (seed = none ∨ output = none ∨ seedlen < 32 ∨ outlen ≤ seedlen → ∀ h,
      seedexpanderWrapperH seed seedlen output outlen h = (toK (seedexpanderWrapper seed seedlen output outlen) >>= fun a => .ok (a, h))) ∧
    (∀ s o, seed = some s → output = some o → 32 ≤ seedlen → seedlen < outlen →
      Single (seedexpanderWrapperH seed seedlen output outlen) (seedexpanderWrapper seed seedlen output outlen)) := by
  constructor
  · intro hc h
    rcases seed with _ | s
    · rfl
    rcases output with _ | o
    · rfl
    unfold seedexpanderWrapperH seedexpanderWrapper
    by_cases h1 : seedlen < 32
    · simp only [if_pos h1]; rfl
    · have h2 : outlen ≤ seedlen := by
        rcases hc with h | h | h | h
        · cases h
        · cases h
        · omega
        · exact h
      simp only [if_neg h1, if_pos h2]; rfl
  · rintro s o rfl rfl h1 h2
    have key := Single.of_body (body := fun p => do
        incAbsorbH p SHAKE256_RATE s seedlen
        incAbsorbH p SHAKE256_RATE [SEEDEXPANDER_DOMAIN] 1
        incFinalizeH p SHAKE256_RATE
        let out ← seedexpanderH p o outlen
        pure ((0 : Int), some out)) (fun p => RunAt.bind' RunAt.absorb fun _ st => RunAt.bind' RunAt.absorb fun _ st =>
          RunAt.bind' RunAt.finalize fun _ st => RunAt.bind' (runAt_seedexpander p st o outlen) fun out st => RunAt.pure)
    intro h hw
    have := key h hw
    unfold seedexpanderWrapperH seedexpanderWrapper
    simp only [if_neg (show ¬ seedlen < 32 by omega), if_neg (show ¬ outlen ≤ seedlen by omega)]
    simp only [seedexpanderInitH, seedexpanderReleaseH, seedexpanderInit, bind_assoc, pure_bind, ok_bind, toK_bind] at this ⊢
    exact this

/-- 32 bytes expanded to 64: one context; a short seed needs none, even if no memory is left. -/
example : Single (seedexpanderWrapperH (some (List.replicate 32 7)) 32 (some (List.replicate 64 0)) 64) (seedexpanderWrapper (some (List.replicate 32 7)) 32 (some (List.replicate 64 0)) 64) ∧
    seedexpanderWrapperH (some [1]) 1 (some (List.replicate 64 0)) 64 demo4 = .ok ((-2, some (List.replicate 64 0)), demo4) :=
  ⟨(ctx_seedexpander_wrapper _ _ _ _).2 _ _ rfl rfl (by omega) (by omega), (ctx_seedexpander_wrapper _ _ _ _).1 (by simp) _⟩

/-- The incremental SHA-3 functions: `init`, any number of `absorb` calls, `finalize` (common/fips202.c:747-782, 808-843, 869-904). -/
def sha3SessionH (r n : Nat) (pieces : List Bytes) (output : Bytes) : K Bytes := do
  let p ← incInitH
  pieces.forM fun m => incAbsorbH p r m m.length
  sha3IncFinalizeH r n output p

theorem runAt_pieces (p r : Nat) (pieces : List Bytes) (st : Inc) :
    RunAt p (pieces.forM fun m => incAbsorbH p r m m.length) st (pieces.foldlM (fun st m => incAbsorb st r m m.length) st >>= fun st => .ok ((), st)) := by
  induction pieces generalizing st with
  | nil => exact RunAt.pure
  | cons m ms ih =>
    rw [List.foldlM_cons]
    refine (RunAt.bind' RunAt.absorb fun _ st => ih st).congr ?_
    simp only [bind_assoc, ok_bind]

/-- C85 for the incremental SHA-3 functions: `finalize` releases the context. -/
theorem ctx_sha3_session (r n : Nat) (pieces : List Bytes) (output : Bytes) :
    Single (sha3SessionH r n pieces output) (pieces.foldlM (fun st m => incAbsorb st r m m.length) incInit >>= fun st => sha3IncFinalize r n output st) := by
  intro h hw
  by_cases hf : h.fails h.next
  · simp [sha3SessionH, incInitH, malloc_run, hf, exit]
  · simp only [sha3SessionH, incInitH, K_bind_apply, malloc_run, hf, if_false, K_ok_bind, putInc_at, K_pure_apply, Bool.false_eq_true]
    rw [runAt_pieces]
    simp only [sha3IncFinalizeH, sha3IncFinalize, K_bind_apply, bind_assoc, K_ok_bind, toK_bind, toK_ok, getInc_at, onC_apply, putInc_at, incReleaseH, free_at, restore hw]

example : sha3SessionH 136 32 [[1], [2, 3]] (List.replicate 32 0) demo4 = .error (.exit 111) := by
  rw [ctx_sha3_session _ _ _ _ demo4 demo4_wf]; rfl

example : ∃ r, sha3SessionH 136 32 [[1], [2, 3]] (List.replicate 32 0) demo = toK r >>= fun a => .ok (a, { demo with next := 2 }) :=
  ⟨_, ctx_sha3_session 136 32 [[1], [2, 3]] (List.replicate 32 0) demo demo_wf⟩

/-- C85: cloning makes a second context in the same state; after that neither sees what is done with the other. -/
theorem ctx_clone {h : Ctxs} (hw : h.WF) {p : Nat} {st : Inc} (hp : h.cell p = some (.inc (some st))) :
    incCloneH p h = if h.fails h.next then .error (.exit 111) else .ok (h.next, ({ h with next := h.next + 1 } : Ctxs).at h.next (.inc (some st))) := by
  have hne : p ≠ h.next := by
    intro e
    have := hw p (by omega)
    rw [hp] at this
    cases this
  by_cases hf : h.fails h.next
  · simp [incCloneH, malloc_run, hf, exit]
  · have hg : getInc p (({ h with next := h.next + 1 } : Ctxs).at h.next (.inc none)) = .ok (st, ({ h with next := h.next + 1 } : Ctxs).at h.next (.inc none)) := by
      simp only [getInc, Ctxs.at, Function.update_of_ne hne, hp]
    simp only [incCloneH, K_bind_apply, malloc_run, hf, if_false, K_ok_bind, hg, putInc_at, K_pure_apply, Bool.false_eq_true]

example : (incCloneH 0 demo).map (fun q => (q.1, q.2.next)) = .ok (1, 2) := by rw [ctx_clone demo_wf rfl]; rfl

example : incCloneH 0 demo4 = .error (.exit 111) := by rw [ctx_clone demo4_wf rfl]; rfl

/-- C85: the same for the contexts of the non-incremental functions. -/
theorem ctx_clone_plain {h : Ctxs} (hw : h.WF) {p : Nat} {s : List W64} (hp : h.cell p = some (.plain (some s))) :
    cloneH p h = if h.fails h.next then .error (.exit 111) else .ok (h.next, ({ h with next := h.next + 1 } : Ctxs).at h.next (.plain (some s))) := by
  have hne : p ≠ h.next := by
    intro e
    have := hw p (by omega)
    rw [hp] at this
    cases this
  by_cases hf : h.fails h.next
  · simp [cloneH, malloc_run, hf, exit]
  · have hg : getPlain p (({ h with next := h.next + 1 } : Ctxs).at h.next (.plain none)) = .ok (s, ({ h with next := h.next + 1 } : Ctxs).at h.next (.plain none)) := by
      simp only [getPlain, Ctxs.at, Function.update_of_ne hne, hp]
    simp only [cloneH, K_bind_apply, malloc_run, hf, if_false, K_ok_bind, hg, putPlain_at, K_pure_apply, Bool.false_eq_true]

example : (⟨fun p => if p = 2 then some (.plain (some [1, 2])) else none, 3, fun _ => false⟩ : Ctxs).WF ∧
    (⟨fun p => if p = 2 then some (.plain (some [1, 2])) else none, 3, fun _ => false⟩ : Ctxs).cell 2 = some (.plain (some [1, 2])) :=
  ⟨fun p hp => if_neg (show p ≠ 2 by have : 3 ≤ p := hp; omega), rfl⟩

/-- The computation leaves the block behind `q`, which was given out before, alone. -/
def Leaves (q : Nat) (x : K α) : Prop := ∀ h a h', q < h.next → x h = .ok (a, h') → h'.cell q = h.cell q ∧ q < h'.next

theorem Leaves.bind {q : Nat} {x : K α} {f : α → K β} (hx : Leaves q x) (hf : ∀ a, Leaves q (f a)) : Leaves q (x >>= f) := by
  intro h b h' hq e
  rw [K_bind_apply] at e
  cases hv : x h with
  | error s => rw [hv] at e; cases e
  | ok t =>
    rw [hv] at e
    obtain ⟨e1, q1⟩ := hx _ _ _ hq hv
    obtain ⟨e2, q2⟩ := hf _ _ _ _ q1 e
    exact ⟨e2.trans e1, q2⟩

theorem Leaves.pure {q : Nat} (a : α) : Leaves q (pure a : K α) := by
  intro h b h' hq e
  cases e
  exact ⟨rfl, hq⟩

theorem Leaves.onC {q : Nat} (x : C α) : Leaves q (onC x) := by
  intro h b h' hq e
  rw [onC_apply] at e
  cases hv : toK x with
  | error s => rw [hv] at e; cases e
  | ok t => rw [hv] at e; cases e; exact ⟨rfl, hq⟩

theorem Leaves.exit {q n : Nat} : Leaves q (exit n : K α) := by
  intro h b h' hq e
  cases e

theorem Leaves.getInc {q : Nat} (p : Nat) : Leaves q (getInc p) := by
  intro h b h' hq e
  unfold Heap.getInc at e
  split at e
  · cases e; exact ⟨rfl, hq⟩
  · cases e

theorem Leaves.getPlain {q : Nat} (p : Nat) : Leaves q (getPlain p) := by
  intro h b h' hq e
  unfold Heap.getPlain at e
  split at e
  · cases e; exact ⟨rfl, hq⟩
  · cases e

theorem Leaves.putInc {q p : Nat} (hne : q ≠ p) (st : Inc) : Leaves q (putInc p st) := by
  intro h b h' hq e
  unfold Heap.putInc at e
  split at e
  · cases e; exact ⟨by simp only [Function.update_of_ne hne], hq⟩
  · cases e

theorem Leaves.putPlain {q p : Nat} (hne : q ≠ p) (s : List W64) : Leaves q (putPlain p s) := by
  intro h b h' hq e
  unfold Heap.putPlain at e
  split at e
  · cases e; exact ⟨by simp only [Function.update_of_ne hne], hq⟩
  · cases e

theorem Leaves.free {q p : Nat} (hne : q ≠ p) : Leaves q (free p) := by
  intro h b h' hq e
  unfold Heap.free at e
  split at e
  · cases e
  · cases e; exact ⟨by simp only [Function.update_of_ne hne], hq⟩

theorem Leaves.malloc {q : Nat} {b : Blk} {f : Option Nat → K α} (h0 : Leaves q (f none)) (h1 : ∀ p, q ≠ p → Leaves q (f (some p))) : Leaves q (malloc b >>= f) := by
  intro h a h' hq e
  rw [K_bind_apply] at e
  unfold Heap.malloc at e
  split at e
  · exact h0 { h with next := h.next + 1 } a h' (Nat.lt_succ_of_lt hq) e
  · obtain ⟨e1, q1⟩ := h1 _ (Nat.ne_of_lt hq) { h with cell := Function.update h.cell h.next (some b), next := h.next + 1 } a h' (Nat.lt_succ_of_lt hq) e
    exact ⟨e1.trans (Function.update_of_ne (Nat.ne_of_lt hq) ..), q1⟩

/-- C85: no operation touches a block that is not its own.  For a block `b` in use at `q`, every operation on another context leaves `b` where it is, and so does every function that makes a context. -/
theorem ctx_separate_all {h h' : Ctxs} (hw : h.WF) {p q : Nat} (hne : q ≠ p) {b : Blk} (hb : h.cell q = some b) :
    (∀ u, incInitH h = .ok (u, h') → h'.cell q = some b) ∧ (∀ r m n u, incAbsorbH p r m n h = .ok (u, h') → h'.cell q = some b) ∧
    (∀ r u, incFinalizeH p r h = .ok (u, h') → h'.cell q = some b) ∧ (∀ out n r x, incSqueezeH out n p r h = .ok (x, h') → h'.cell q = some b) ∧
    (∀ r n out x, sha3IncFinalizeH r n out p h = .ok (x, h') → h'.cell q = some b) ∧ (∀ s u, incCloneH s h = .ok (u, h') → h'.cell q = some b) ∧
    (∀ u, incReleaseH p h = .ok (u, h') → h'.cell q = some b) ∧ (∀ r m n u, absorbH r m n h = .ok (u, h') → h'.cell q = some b) ∧
    (∀ out n r x, squeezeblocksH out n p r h = .ok (x, h') → h'.cell q = some b) ∧ (∀ s u, cloneH s h = .ok (u, h') → h'.cell q = some b) ∧
    (∀ u, releaseH p h = .ok (u, h') → h'.cell q = some b) := by
  have hq : q < h.next := by
    by_contra c
    rw [hw q (by omega)] at hb
    cases hb
  have key : ∀ {α : Type} {x : K α} {a : α}, Leaves q x → x h = .ok (a, h') → h'.cell q = some b := fun hx e => ((hx _ _ _ hq e).1).trans hb
  refine ⟨fun _ => key ?_, fun _ _ _ _ => key ?_, fun _ _ => key ?_, fun _ _ _ _ => key ?_, fun _ _ _ _ => key ?_, fun _ _ => key ?_, fun _ => key ?_,
    fun _ _ _ _ => key ?_, fun _ _ _ _ => key ?_, fun _ _ => key ?_, fun _ => key ?_⟩
  · exact .malloc .exit fun p hp => .bind (.putInc hp _) fun _ => .pure _
  · exact .bind (.getInc _) fun _ => .bind (.onC _) fun _ => .putInc hne _
  · exact .bind (.getInc _) fun _ => .bind (.onC _) fun _ => .putInc hne _
  · exact .bind (.getInc _) fun _ => .bind (.onC _) fun _ => .bind (.putInc hne _) fun _ => .pure _
  · exact .bind (.getInc _) fun _ => .bind (.onC _) fun _ => .bind (.putInc hne _) fun _ => .bind (.getInc _) fun _ => .bind (.onC _) fun _ => .bind (.putInc hne _) fun _ =>
      .bind (.free hne) fun _ => .onC _
  · exact .malloc .exit fun p hp => .bind (.getInc _) fun _ => .bind (.putInc hp _) fun _ => .pure _
  · exact .free hne
  · exact .malloc .exit fun p hp => .bind (.onC _) fun _ => .bind (.putPlain hp _) fun _ => .pure _
  · exact .bind (.getPlain _) fun _ => .bind (.onC _) fun _ => .bind (.putPlain hne _) fun _ => .pure _
  · exact .malloc .exit fun p hp => .bind (.getPlain _) fun _ => .bind (.putPlain hp _) fun _ => .pure _
  · exact .free hne

/-- Making a second context, and releasing it, while the context 0 is in use. -/
example : ∃ p h' h'', incInitH demo = .ok (p, h') ∧ h'.cell 0 = some (.inc (some incInit)) ∧ incReleaseH p h' = .ok ((), h'') ∧ h''.cell 0 = some (.inc (some incInit)) :=
  ⟨1, _, _, rfl, (ctx_separate_all (p := 1) demo_wf (by decide) rfl).1 1 rfl, rfl, rfl⟩

/-- C85: a released context is gone, and release is defined only for a block. -/
theorem ctx_release (h : Ctxs) (p : Nat) :
    (∀ b, h.cell p = some b → ∃ h', incReleaseH p h = .ok ((), h') ∧ releaseH p h = .ok ((), h') ∧ h'.cell p = none ∧ ∀ q, q ≠ p → h'.cell q = h.cell q) := by
  intro b hb
  refine ⟨{ h with cell := Function.update h.cell p none }, ?_, ?_, Function.update_self .., fun q hq => Function.update_of_ne hq ..⟩
  · simp [incReleaseH, free, hb]
  · simp [releaseH, free, hb]

example : ∃ h', incReleaseH 0 demo = .ok ((), h') ∧ h'.cell 0 = none := by
  obtain ⟨h', a, _, b, _⟩ := ctx_release demo 0 (.inc (some incInit)) rfl
  exact ⟨h', a, b⟩

/-- C85: every use of a context that was released, or was never made, is undefined; so is a second release, and cloning it (unless the allocation for the clone fails, which stops the program first). -/
theorem ctx_misuse {h : Ctxs} {p : Nat} (hp : h.cell p = none) :
    (∀ r m n, incAbsorbH p r m n h = .error .ub) ∧ (∀ r, incFinalizeH p r h = .error .ub) ∧ (∀ out n r, incSqueezeH out n p r h = .error .ub) ∧
    incReleaseH p h = .error .ub ∧ releaseH p h = .error .ub ∧ (∀ out n r, squeezeblocksH out n p r h = .error .ub) ∧ (∀ r n out, sha3IncFinalizeH r n out p h = .error .ub) ∧
    (h.fails h.next = false → incCloneH p h = .error .ub ∧ cloneH p h = .error .ub) := by
  have hg : getInc p h = .error .ub := by simp [getInc, hp]
  have hg' : getPlain p h = .error .ub := by simp [getPlain, hp]
  refine ⟨?_, ?_, ?_, ?_, ?_, ?_, ?_, ?_⟩
  · intro r m n; simp only [incAbsorbH, K_bind_apply, hg, K_error_bind]
  · intro r; simp only [incFinalizeH, K_bind_apply, hg, K_error_bind]
  · intro out n r; simp only [incSqueezeH, K_bind_apply, hg, K_error_bind]
  · simp [incReleaseH, free, hp]
  · simp [releaseH, free, hp]
  · intro out n r; simp only [squeezeblocksH, K_bind_apply, hg', K_error_bind]
  · intro r n out; simp only [sha3IncFinalizeH, K_bind_apply, hg, K_error_bind]
  · intro hf
    have g1 : getInc p (({ h with next := h.next + 1 } : Ctxs).at h.next (.inc none)) = .error .ub := by
      by_cases e : p = h.next
      · subst e; simp [getInc, Ctxs.at]
      · simp [getInc, Ctxs.at, Function.update_of_ne e, hp]
    have g2 : getPlain p (({ h with next := h.next + 1 } : Ctxs).at h.next (.plain none)) = .error .ub := by
      by_cases e : p = h.next
      · subst e; simp [getPlain, Ctxs.at]
      · simp [getPlain, Ctxs.at, Function.update_of_ne e, hp]
    constructor
    · simp only [incCloneH, K_bind_apply, malloc_run, hf, if_false, K_ok_bind, g1, K_error_bind, Bool.false_eq_true]
    · simp only [cloneH, K_bind_apply, malloc_run, hf, if_false, K_ok_bind, g2, K_error_bind, Bool.false_eq_true]

/-- Releasing twice. -/
example : (do incReleaseH 0; incReleaseH 0) demo = .error .ub := by
  obtain ⟨h', a, _, b, _⟩ := ctx_release demo 0 (.inc (some incInit)) rfl
  rw [K_bind_apply, a]
  exact (ctx_misuse b).2.2.2.1

end Verif.Keccak.Heap
