import Verif.Conc.VerifySteps
import Verif.Conc.Run

/-!
How many steps a call makes at most, whatever it reads.
-/

namespace Verif.Conc
open Verif
open Verif.Hybrid (Prims MIN_MSG_LEN MAX_MSG_LEN LEN_BYTES ED_SEED ED_PK ED_SK ED_SIG DIL_SEED DIL_PK DIL_SK DIL_SIG SPX_SEED SPX_PK SPX_SK SPX_SIG NONCE_BYTES HASH_LENGTH zeros)

variable {α β ι : Type}

/-- The program ends after at most `n` steps, whatever bytes it reads, whatever the random source answers and wherever its local arrays are (no line of its own). -/
def Takes : Prog α → Nat → Prop
  | .ret _, _ => True
  | .fail _, _ => True
  | .load _ _ k, n => 0 < n ∧ ∀ v, Takes (k v) (n - 1)
  | .store _ _ _ k, n => 0 < n ∧ Takes k (n - 1)
  | .draw _ k, n => 0 < n ∧ ∀ o, Takes (k o) (n - 1)
  | .push _ k, n => 0 < n ∧ ∀ p, Takes (k p) (n - 1)
  | .pop _ k, n => 0 < n ∧ Takes k (n - 1)

theorem Takes.mono {x : Prog α} {n N : Nat} (h : Takes x n) (hn : n ≤ N) : Takes x N := by
  induction x generalizing n N with
  | ret a => trivial
  | fail e => trivial
  | load p i k ih => exact ⟨by have := h.1; omega, fun v => ih v (h.2 v) (by omega)⟩
  | store p i v k ih => exact ⟨by have := h.1; omega, ih h.2 (by omega)⟩
  | draw m k ih => exact ⟨by have := h.1; omega, fun v => ih v (h.2 v) (by omega)⟩
  | push b k ih => exact ⟨by have := h.1; omega, fun v => ih v (h.2 v) (by omega)⟩
  | pop p k ih => exact ⟨by have := h.1; omega, ih h.2 (by omega)⟩

theorem Takes.add {x : Prog α} {f : α → Prog β} {n m : Nat} (h : Takes x n) (hf : ∀ a, Takes (f a) m) : Takes (x >>= f) (n + m) := by
  show Takes (x.bind f) (n + m)
  induction x generalizing n with
  | ret a => exact (hf a).mono (by omega)
  | fail e => trivial
  | load p i k ih => exact ⟨by have := h.1; omega, fun v => (ih v (h.2 v)).mono (by have := h.1; omega)⟩
  | store p i v k ih => exact ⟨by have := h.1; omega, (ih h.2).mono (by have := h.1; omega)⟩
  | draw l k ih => exact ⟨by have := h.1; omega, fun v => (ih v (h.2 v)).mono (by have := h.1; omega)⟩
  | push b k ih => exact ⟨by have := h.1; omega, fun v => (ih v (h.2 v)).mono (by have := h.1; omega)⟩
  | pop p k ih => exact ⟨by have := h.1; omega, (ih h.2).mono (by have := h.1; omega)⟩

theorem Takes.step {x : Prog α} {f : α → Prog β} {n N : Nat} (h : Takes x n) (hn : n ≤ N) (hf : ∀ a, Takes (f a) (N - n)) : Takes (x >>= f) N :=
  (h.add hf).mono (by omega)

theorem takes_liftC (x : C α) : Takes (liftC x) 0 := by cases x <;> trivial

/-- What is computed on local data costs no step. -/
theorem takes_C {x : C α} {f : α → Prog β} {N : Nat} (hf : ∀ a, Takes (f a) N) : Takes (liftC x >>= f) N := (takes_liftC x).step (Nat.zero_le _) hf

theorem takes_load {p : Ptr} {i : Nat} : Takes (load p i) 1 := ⟨Nat.one_pos, fun _ => trivial⟩
theorem takes_store {p : Ptr} {i : Nat} {v : Byte} : Takes (store p i v) 1 := ⟨Nat.one_pos, trivial⟩
theorem takes_draw {n : Nat} : Takes (draw n) 1 := ⟨Nat.one_pos, fun _ => trivial⟩

theorem takes_loopM {σ : Type} {f : Nat → σ → Prog σ} {c : Nat} (h : ∀ k s, Takes (f k s) c) (i n : Nat) (s : σ) : Takes (loopM f i n s) (n * c) := by
  induction n generalizing i s with
  | zero => trivial
  | succ n ih =>
    exact ((h i s).add fun s' => ih (i + 1) s').mono (by rw [Nat.succ_mul]; omega)

theorem takes_copyIn {dst : Bytes} {d : Nat} {p : Ptr} {o n : Nat} : Takes (copyIn dst d p o n) n :=
  (takes_loopM (c := 1) (fun _ _ => takes_load.step (Nat.le_refl _) fun _ => takes_liftC _) 0 n dst).mono (by omega)

theorem takes_copyOut {p : Ptr} {o : Nat} {src : Bytes} {s n : Nat} : Takes (copyOut p o src s n) n :=
  (takes_loopM (c := 1) (fun _ _ => takes_C fun _ => takes_store) 0 n ()).mono (by omega)

theorem takes_copyMem {p : Ptr} {o : Nat} {q : Ptr} {s n : Nat} : Takes (copyMem p o q s n) (2 * n) :=
  (takes_loopM (c := 2) (fun _ _ => takes_load.add fun _ => takes_store) 0 n ()).mono (by omega)

theorem takes_readMem {p : Ptr} {n : Nat} : Takes (readMem p n) n := takes_copyIn

theorem takes_storeU64 {p : Ptr} {v : Nat} : Takes (storeU64 p v) 8 := takes_copyOut

theorem takes_loadU64 {p : Ptr} : Takes (loadU64 p) 8 := takes_readMem.step (Nat.le_refl _) fun _ => trivial

theorem takes_withLocal {init : Bytes} {f : Ptr → Prog α} {n : Nat} (h : ∀ p, Takes (f p) n) : Takes (withLocal init f) (n + 2) :=
  ⟨by omega, fun p => (Takes.add (f := fun a => .pop p (.ret a)) (m := 1) (h p) fun _ => ⟨Nat.one_pos, trivial⟩).mono (by omega)⟩

theorem takes_cmpMem {b m : Ptr} (i n : Nat) : Takes (cmpMem b m i n) (2 * n) := by
  induction n generalizing i with
  | zero => trivial
  | succ n ih =>
    unfold cmpMem
    refine takes_load.step (by omega) fun x => takes_load.step (by omega) fun y => ?_
    split
    · trivial
    · exact (ih _).mono (by omega)

/-! ### The functions -/

section
variable (P : Prims)

theorem takes_seedExpander (seed ex : Option Ptr) : Takes (seedExpander P seed ex) 224 := by
  unfold seedExpander
  cases seed with
  | none => trivial
  | some seed =>
    refine Takes.step (n := 32) (takes_loopM (c := 1) (fun _ _ => takes_load.step (Nat.le_refl _) fun _ => takes_liftC _) 0 32 _) (by omega) fun b => takes_C fun r => ?_
    obtain ⟨ret, tmp⟩ := r
    simp only
    split
    · trivial
    · cases ex with
      | none => trivial
      | some ex => exact takes_copyOut.step (by omega) fun _ => takes_copyMem.step (by omega) fun _ => takes_copyOut.step (by omega) fun _ => trivial

theorem takes_keypairSeed (pk sk seed : Option Ptr) : Takes (keypairSeed P pk sk seed) 5632 := by
  unfold keypairSeed
  split
  swap
  · trivial
  simp only [ED_SEED, DIL_SEED, SPX_SEED, ED_PK, ED_SK, DIL_SK, DIL_PK, SPX_SK, SPX_PK]
  refine takes_copyIn.step (by omega) fun _ => takes_copyIn.step (by omega) fun _ => takes_copyIn.step (by omega) fun _ => takes_C fun r => ?_
  obtain ⟨r1, pk1, sk1⟩ := r
  simp only
  split
  · trivial
  refine takes_copyOut.step (by omega) fun _ => takes_copyOut.step (by omega) fun _ => takes_C fun r => ?_
  obtain ⟨r2, pk2, sk2⟩ := r
  simp only
  split
  · trivial
  refine takes_copyOut.step (by omega) fun _ => (takes_loopM (c := 2) (fun _ _ => takes_C fun _ => takes_store.add fun _ => takes_C fun _ => takes_store) 0 1312 _).step (by omega) fun _ => takes_C fun r => ?_
  obtain ⟨r3, pk3, sk3⟩ := r
  simp only
  split
  · trivial
  exact takes_copyOut.step (by omega) fun _ => takes_copyOut.step (by omega) fun _ => trivial

theorem takes_keypair (pk sk : Option Ptr) : Takes (keypair P pk sk) 5635 := by
  unfold keypair
  split
  swap
  · trivial
  refine takes_draw.step (by omega) fun o => ?_
  cases o with
  | none => trivial
  | some seed => exact (takes_withLocal fun _ => takes_keypairSeed P _ _ _).mono (by omega)

theorem takes_signFull (body : Bytes → Nat → Bytes → Bytes → Bytes → Option Bytes → C (Int × Bytes × Nat)) (sm smlen m : Option Ptr) (mlen : Nat) (sk : Option Ptr) : Takes (signFull P body sm smlen m mlen sk) 55423 := by
  unfold signFull
  split
  swap
  · trivial
  simp only [ED_SK, DIL_SK, DIL_PK, SPX_SK, MAX_MSG_LEN, ED_SIG, DIL_SIG, SPX_SIG, LEN_BYTES]
  split
  · trivial
  refine takes_copyIn.step (by omega) fun _ => takes_copyIn.step (by omega) fun _ => takes_copyIn.step (by omega) fun _ => takes_readMem.step (by omega) fun _ => takes_C fun r => ?_
  obtain ⟨r1, sig1, sigLen1⟩ := r
  refine takes_readMem.step (by omega) fun _ => takes_C fun r => ?_
  obtain ⟨r2, sig2, sigLen2⟩ := r
  refine Takes.step (n := 1 + 2 * mlen) ?_ (by omega) fun r => ?_
  · refine takes_draw.step (by omega) fun o => ?_
    cases o with
    | none => exact (takes_liftC _).mono (by omega)
    | some b => exact takes_readMem.step (by omega) fun _ => takes_readMem.step (by omega) fun _ => (takes_liftC _).mono (by omega)
  obtain ⟨r3, sig3, sigLen3⟩ := r
  simp only
  repeat' split
  all_goals first
    | trivial
    | exact takes_store.step (by omega) fun _ => takes_store.step (by omega) fun _ => takes_copyOut.step (by omega) fun _ => takes_copyOut.step (by omega) fun _ => takes_copyOut.step (by omega) fun _ => takes_storeU64.step (by omega) fun _ => trivial

theorem takes_openFull (m mlen sm : Option Ptr) (smlen : Nat) (pk : Option Ptr) : Takes (openFull P m mlen sm smlen pk) 53886 := by
  unfold openFull
  split
  swap
  · trivial
  simp only [ED_PK, DIL_PK, SPX_PK, MAX_MSG_LEN, MIN_MSG_LEN, ED_SIG, DIL_SIG, SPX_SIG, LEN_BYTES]
  split
  · trivial
  refine takes_load.step (by omega) fun id => ?_
  split
  · trivial
  refine takes_load.step (by omega) fun lb => ?_
  split
  · trivial
  split
  · trivial
  refine takes_copyIn.step (by omega) fun _ => takes_copyIn.step (by omega) fun _ => takes_C fun r => ?_
  obtain ⟨r1, msg1, msgLen1⟩ := r
  simp only
  split
  · trivial
  split
  · trivial
  refine takes_copyIn.step (by omega) fun _ => takes_copyIn.step (by omega) fun _ => takes_C fun _ => takes_C fun r2 => ?_
  split
  · trivial
  refine takes_copyIn.step (by omega) fun _ => takes_copyIn.step (by omega) fun _ => takes_C fun r3 => ?_
  split
  · trivial
  exact takes_copyOut.step (by omega) fun _ => takes_storeU64.step (by omega) fun _ => trivial

theorem takes_verifyFull (m : Option Ptr) (mlen : Nat) (sm : Option Ptr) (smlen : Nat) (pk : Option Ptr) : Takes (verifyFull P m mlen sm smlen pk) 54026 := by
  unfold verifyFull
  split
  swap
  · trivial
  simp only [MAX_MSG_LEN]
  split
  · trivial
  refine Takes.mono (takes_withLocal (n := 54024) fun buf => Takes.mono (takes_withLocal (n := 54022) fun lenp => ?_) (by omega)) (by omega)
  refine (takes_openFull P _ _ _ _ _).step (by omega) fun r => ?_
  split
  · trivial
  refine takes_loadU64.step (by omega) fun l => ?_
  split
  · trivial
  exact (takes_cmpMem 0 l).mono (by omega)

theorem takes_signCompact (sm smlen m : Option Ptr) (mlen : Nat) (sk : Option Ptr) : Takes (signCompact P sm smlen m mlen sk) 5415 := by
  unfold signCompact
  split
  swap
  · trivial
  simp only [ED_SK, DIL_SK, DIL_PK, SPX_SK, SPX_PK, MAX_MSG_LEN, ED_SIG, DIL_SIG, LEN_BYTES, NONCE_BYTES, HASH_LENGTH]
  split
  · trivial
  refine takes_copyIn.step (by omega) fun _ => takes_copyIn.step (by omega) fun _ => takes_draw.step (by omega) fun o => ?_
  cases o with
  | none => trivial
  | some nonce =>
    refine takes_C fun _ => takes_copyIn.step (by omega) fun _ => takes_copyIn.step (by omega) fun _ => takes_C fun _ => takes_C fun r => ?_
    obtain ⟨r1, sig1, sigLen1⟩ := r
    refine takes_C fun r => ?_
    obtain ⟨r2, sig2, sigLen2⟩ := r
    simp only
    repeat' split
    all_goals first
      | trivial
      | exact takes_store.step (by omega) fun _ => takes_store.step (by omega) fun _ => takes_copyOut.step (by omega) fun _ => takes_copyOut.step (by omega) fun _ => takes_copyOut.step (by omega) fun _ => takes_copyMem.step (by omega) fun _ =>
          takes_storeU64.step (by omega) fun _ => trivial

theorem takes_openCompact (m mlen sm : Option Ptr) (smlen : Nat) (pk : Option Ptr) : Takes (openCompact P m mlen sm smlen pk) 4134 := by
  unfold openCompact
  split
  swap
  · trivial
  simp only [ED_PK, DIL_PK, SPX_PK, MAX_MSG_LEN, MIN_MSG_LEN, ED_SIG, DIL_SIG, LEN_BYTES, NONCE_BYTES, HASH_LENGTH]
  split
  · trivial
  refine takes_load.step (by omega) fun id => ?_
  split
  · trivial
  refine takes_load.step (by omega) fun lb => ?_
  split
  · trivial
  split
  · trivial
  refine takes_copyIn.step (by omega) fun _ => takes_copyIn.step (by omega) fun _ => takes_copyIn.step (by omega) fun _ => takes_C fun _ => takes_copyIn.step (by omega) fun _ => takes_C fun _ => takes_copyIn.step (by omega) fun _ => takes_C fun r => ?_
  obtain ⟨r1, msg1, msgLen1⟩ := r
  simp only
  split
  · trivial
  split
  · trivial
  refine takes_C fun _ => takes_C fun _ => ?_
  split
  · trivial
  refine takes_copyIn.step (by omega) fun _ => takes_copyIn.step (by omega) fun _ => takes_C fun r2 => ?_
  split
  · trivial
  exact takes_copyMem.step (by omega) fun _ => takes_storeU64.step (by omega) fun _ => trivial

theorem takes_verifyCompact (m : Option Ptr) (mlen : Nat) (sm : Option Ptr) (smlen : Nat) (pk : Option Ptr) : Takes (verifyCompact P m mlen sm smlen pk) 4274 := by
  unfold verifyCompact
  split
  swap
  · trivial
  simp only [MAX_MSG_LEN]
  split
  · trivial
  refine Takes.mono (takes_withLocal (n := 4272) fun buf => Takes.mono (takes_withLocal (n := 4270) fun lenp => ?_) (by omega)) (by omega)
  refine (takes_openCompact P _ _ _ _ _).step (by omega) fun r => ?_
  split
  · trivial
  refine takes_loadU64.step (by omega) fun l => ?_
  split
  · trivial
  exact (takes_cmpMem 0 l).mono (by omega)

end

/-! ### Dilithium-only verification -/

theorem takes_hintPoly {sig : Ptr} {i k : Nat} (n j : Nat) (hn : j + n = 256) (h : Dilithium.Poly) : Takes (hintPoly sig i k n j h) (4 * (n - 1) + 1) := by
  induction n generalizing j h with
  | zero => trivial
  | succ n ih =>
    unfold hintPoly
    refine takes_load.step (by omega) fun e => ?_
    split
    · trivial
    · have := e.isLt
      refine Takes.step (n := 2) ?_ (by omega) fun b => ?_
      · split
        · exact takes_load.step (by omega) fun _ => takes_load.step (by omega) fun _ => trivial
        · trivial
      · split
        · trivial
        · exact takes_load.step (by omega) fun x => takes_C fun h' => (ih (j + 1) (by omega) h').mono (by omega)

/-- The first position is not compared with one before it. -/
theorem takes_hintPoly_first {sig : Ptr} {i k : Nat} (hk : k ≤ 255) (h : Dilithium.Poly) : Takes (hintPoly sig i k (256 - k) k h) 1019 := by
  by_cases h0 : k = 0
  · subst h0
    show Takes (hintPoly sig i 0 (255 + 1) 0 h) 1019
    unfold hintPoly
    refine takes_load.step (by omega) fun e => ?_
    split
    · trivial
    · rw [if_neg (by omega)]
      refine Takes.step (n := 0) trivial (by omega) fun b => ?_
      split
      · trivial
      · exact takes_load.step (by omega) fun x => takes_C fun h' => (takes_hintPoly 255 1 (by omega) h').mono (by omega)
  · exact (takes_hintPoly (256 - k) k (by omega) h).mono (by omega)

theorem takes_hints {sig : Ptr} (n i k : Nat) (hk : k ≤ 255) : Takes (hints sig n i k) (1022 * n) := by
  induction n generalizing i k with
  | zero => trivial
  | succ n ih =>
    unfold hints
    refine takes_load.step (by omega) fun e => ?_
    split
    · trivial
    refine takes_load.step (by omega) fun e => ?_
    split
    · trivial
    refine (takes_hintPoly_first hk _).step (by omega) fun r => ?_
    rcases r with - | h
    · trivial
    · refine takes_load.step (by omega) fun e => Takes.step (ih (i + 1) e.toNat (by have := e.isLt; omega)) (by omega) fun r => ?_
      rcases r with - | ⟨hs, k⟩ <;> trivial

theorem takes_hintRest {sig : Ptr} (n j : Nat) : Takes (hintRest sig n j) n := by
  induction n generalizing j with
  | zero => trivial
  | succ n ih =>
    unfold hintRest
    refine takes_load.step (by omega) fun x => ?_
    split
    · trivial
    · exact ih _

theorem takes_readPoly {p : Ptr} {o w b : Nat} {coef : Nat → Bytes → C Int} (n j : Nat) : Takes (readPoly p o w b coef n j) (n * b) := by
  induction n generalizing j with
  | zero => trivial
  | succ n ih =>
    rw [Nat.succ_mul]
    unfold readPoly
    exact takes_copyIn.step (by omega) fun x => takes_C fun c => (ih (j + 1)).step (by omega) fun r => trivial

theorem takes_readVec {p : Ptr} {o size w b : Nat} {coef : Nat → Bytes → C Int} (n i : Nat) : Takes (readVec p o size w b coef n i) (n * (256 * b)) := by
  induction n generalizing i with
  | zero => trivial
  | succ n ih =>
    rw [Nat.succ_mul]
    unfold readVec
    exact (takes_readPoly 256 0).step (by omega) fun x => (ih (i + 1)).step (by omega) fun r => trivial

theorem takes_verifyDilithium (fuel : Nat) (m : Option Ptr) (mlen : Nat) (sm : Option Ptr) (smlen : Nat) (pk : Option Ptr) : Takes (verifyDilithiumSteps fuel m mlen sm smlen pk) (10664 + mlen) := by
  unfold verifyDilithiumSteps
  split
  swap
  · trivial
  split
  · trivial
  refine Takes.step (n := 10664 + mlen) ?_ (by omega) fun r => by split <;> trivial
  unfold dilVerifySteps
  split
  · trivial
  refine takes_copyIn.step (by omega) fun rho => (takes_readVec 4 0).step (by omega) fun t1 => Takes.step (n := 7272) ?_ (by omega) fun r => ?_
  · unfold unpackSigSteps
    refine takes_copyIn.step (by omega) fun c => (takes_readVec 4 0).step (by omega) fun z => (takes_hints 4 0 0 (by omega)).step (by omega) fun r => ?_
    rcases r with - | ⟨h, k⟩
    · trivial
    · exact (takes_hintRest _ _).step (by omega) fun b => by split <;> trivial
  · rcases r with - | ⟨c, z, h⟩
    · trivial
    · refine takes_C fun bad => ?_
      split
      · trivial
      · exact takes_readMem.step (by omega) fun _ => takes_C fun _ => takes_readMem.step (by omega) fun _ => takes_C fun _ => (takes_liftC _).mono (by omega)

/-! ### Several threads -/

theorem takes_next {x : Prog α} {n : Nat} (h : Takes x n) (W : World) : Takes (step x W).1 (n - 1) := by
  cases x with
  | ret a => trivial
  | fail e => trivial
  | load p i k =>
    simp only [step]
    split
    · exact h.2 _
    · trivial
  | store p i v k =>
    simp only [step]
    split
    · exact h.2
    · trivial
  | draw m k =>
    simp only [step]
    split
    · exact h.2 _
    · trivial
  | push b k => exact h.2 _
  | pop p k => exact h.2

theorem takes_run [DecidableEq ι] {c : Conf ι α} {i : ι} {n : Nat} (h : Takes (c.thr i).prog n) (s : List ι) : Takes ((c.run s).thr i).prog (n - s.count i) := by
  induction s generalizing c n with
  | nil => exact h
  | cons j s ih =>
    show Takes (((c.next j).run s).thr i).prog _
    by_cases hj : j = i
    · subst hj
      rw [List.count_cons_self]
      refine (ih (c := c.next j) (n := n - 1) ?_).mono (by omega)
      rw [next_thr_self]
      exact takes_next h _
    · rw [List.count_cons_of_ne hj]
      refine ih ?_
      rw [next_thr_ne c (fun e => hj e.symm)]
      exact h

theorem takes_zero {x : Prog α} (h : Takes x 0) : (∃ a, x = .ret a) ∨ ∃ e, x = .fail e := by
  cases x with
  | ret a => exact Or.inl ⟨a, rfl⟩
  | fail e => exact Or.inr ⟨e, rfl⟩
  | load p i k => exact absurd h.1 (by omega)
  | store p i v k => exact absurd h.1 (by omega)
  | draw m k => exact absurd h.1 (by omega)
  | push b k => exact absurd h.1 (by omega)
  | pop p k => exact absurd h.1 (by omega)

end Verif.Conc
