import Verif.Conc.Wait

/-!
How many steps a call makes that returns 0, whatever it reads.
-/

namespace Verif.Conc
open Verif
open Verif.Hybrid (Prims MIN_MSG_LEN MAX_MSG_LEN LEN_BYTES ED_SEED ED_PK ED_SK ED_SIG DIL_SEED DIL_PK DIL_SK DIL_SIG SPX_SEED SPX_PK SPX_SK SPX_SIG NONCE_BYTES HASH_LENGTH zeros)

variable {α β ι : Type}

/-- Whatever the program reads: if it returns `a` after `n` steps, then `Q a n` (no line of its own). -/
def Paths : Prog α → (α → Nat → Prop) → Prop
  | .ret a, Q => Q a 0
  | .fail _, _ => True
  | .load _ _ k, Q => ∀ v, Paths (k v) fun a n => Q a (n + 1)
  | .store _ _ _ k, Q => Paths k fun a n => Q a (n + 1)
  | .draw _ k, Q => ∀ o, Paths (k o) fun a n => Q a (n + 1)
  | .push _ k, Q => ∀ p, Paths (k p) fun a n => Q a (n + 1)
  | .pop _ k, Q => Paths k fun a n => Q a (n + 1)

theorem Paths.mono {x : Prog α} {Q Q' : α → Nat → Prop} (h : Paths x Q) (hq : ∀ a n, Q a n → Q' a n) : Paths x Q' := by
  induction x generalizing Q Q' with
  | ret a => exact hq _ _ h
  | fail e => trivial
  | load p i k ih => exact fun v => ih v (h v) fun a n => hq a (n + 1)
  | store p i v k ih => exact ih h fun a n => hq a (n + 1)
  | draw m k ih => exact fun v => ih v (h v) fun a n => hq a (n + 1)
  | push b k ih => exact fun v => ih v (h v) fun a n => hq a (n + 1)
  | pop p k ih => exact ih h fun a n => hq a (n + 1)

theorem Paths.bind {x : Prog α} {f : α → Prog β} {R : α → Nat → Prop} {Q : β → Nat → Prop} (h : Paths x R) (hf : ∀ a n, R a n → Paths (f a) fun b m => Q b (n + m)) : Paths (x >>= f) Q := by
  show Paths (x.bind f) Q
  induction x generalizing R Q with
  | ret a => exact (hf a 0 h).mono fun b m hb => by rwa [Nat.zero_add] at hb
  | fail e => trivial
  | load p i k ih => exact fun v => ih v (h v) fun a n hr => (hf a _ hr).mono fun b m hb => by rwa [Nat.add_right_comm] at hb
  | store p i v k ih => exact ih h fun a n hr => (hf a _ hr).mono fun b m hb => by rwa [Nat.add_right_comm] at hb
  | draw l k ih => exact fun v => ih v (h v) fun a n hr => (hf a _ hr).mono fun b m hb => by rwa [Nat.add_right_comm] at hb
  | push b k ih => exact fun v => ih v (h v) fun a n hr => (hf a _ hr).mono fun b m hb => by rwa [Nat.add_right_comm] at hb
  | pop p k ih => exact ih h fun a n hr => (hf a _ hr).mono fun b m hb => by rwa [Nat.add_right_comm] at hb

/-- If it returns, then after `n` steps (no line of its own). -/
def Fixed (x : Prog α) (n : Nat) : Prop := Paths x fun _ k => k = n

theorem Fixed.then {x : Prog α} {f : α → Prog β} {n : Nat} {Q : β → Nat → Prop} (h : Fixed x n) (hf : ∀ a, Paths (f a) fun b m => Q b (n + m)) : Paths (x >>= f) Q :=
  Paths.bind h fun a k hk => by rw [hk]; exact hf a

theorem fixed_liftC (x : C α) : Fixed (liftC x) 0 := by cases x <;> trivial

theorem paths_C {x : C α} {f : α → Prog β} {Q : β → Nat → Prop} (hf : ∀ a, Paths (f a) Q) : Paths (liftC x >>= f) Q := by
  cases x with
  | ok a => exact hf a
  | error e => trivial

theorem fixed_load {p : Ptr} {i : Nat} : Fixed (load p i) 1 := fun _ => rfl
theorem fixed_store {p : Ptr} {i : Nat} {v : Byte} : Fixed (store p i v) 1 := rfl
theorem fixed_draw {n : Nat} : Fixed (draw n) 1 := fun _ => rfl

theorem paths_pure {a : α} {Q : α → Nat → Prop} (h : Q a 0) : Paths (pure a) Q := h
theorem paths_fail {e : Fault} {Q : α → Nat → Prop} : Paths (.fail e) Q := trivial

theorem paths_withLocal {init : Bytes} {f : Ptr → Prog α} {Q : α → Nat → Prop} (h : ∀ p, Paths (f p) fun a n => Q a (n + 2)) : Paths (withLocal init f) Q := fun p =>
  Paths.bind (f := fun a => .pop p (.ret a)) (R := fun a n => Q a (n + 2)) (h p) fun _ _ hq => hq

theorem paths_step {x : Prog α} {Q : α → Nat → Prop} (h : Paths x Q) (W : World) (hx : ¬ x.done) : Paths (step x W).1 fun a n => Q a (n + 1) := by
  cases x with
  | ret a => exact absurd trivial hx
  | fail e => exact absurd trivial hx
  | load p i k =>
    simp only [step]
    split
    · exact h _
    · trivial
  | store p i v k =>
    simp only [step]
    split
    · exact h
    · trivial
  | draw m k =>
    simp only [step]
    split
    · exact h _
    · trivial
  | push b k => exact h _
  | pop p k => exact h

theorem paths_ret {a : α} {Q : α → Nat → Prop} (h : Paths (.ret a) Q) : Q a 0 := h

theorem paths_liftC {x : C α} {Q : α → Nat → Prop} (h : ∀ a, x = .ok a → Q a 0) : Paths (liftC x) Q := by
  cases x with
  | ok a => exact h a rfl
  | error e => trivial

theorem paths_any (x : Prog α) : Paths x fun _ _ => True := by
  induction x with
  | ret a => trivial
  | fail e => trivial
  | load p i k ih => exact fun v => ih v
  | store p i v k ih => exact ih
  | draw n k ih => exact fun v => ih v
  | push b k ih => exact fun v => ih v
  | pop p k ih => exact ih

attribute [irreducible] Paths

theorem fixed_loopM {σ : Type} {f : Nat → σ → Prog σ} {c : Nat} (h : ∀ k s, Fixed (f k s) c) (i n : Nat) (s : σ) : Fixed (loopM f i n s) (n * c) := by
  induction n generalizing i s with
  | zero => exact paths_pure (Nat.zero_mul c).symm
  | succ n ih => exact (h i s).then fun s' => (ih (i + 1) s').mono fun a k hk => by rw [hk, Nat.succ_mul, Nat.add_comm]

theorem fixed_copyIn {dst : Bytes} {d : Nat} {p : Ptr} {o n : Nat} : Fixed (copyIn dst d p o n) n :=
  (fixed_loopM (c := 1) (fun _ _ => fixed_load.then fun _ => (fixed_liftC _).mono fun _ k hk => by rw [hk]) 0 n dst).mono fun _ k hk => by rw [hk, Nat.mul_one]

theorem fixed_copyOut {p : Ptr} {o : Nat} {src : Bytes} {s n : Nat} : Fixed (copyOut p o src s n) n :=
  (fixed_loopM (c := 1) (fun _ _ => paths_C fun _ => fixed_store) 0 n ()).mono fun _ k hk => by rw [hk, Nat.mul_one]

theorem fixed_copyMem {p : Ptr} {o : Nat} {q : Ptr} {s n : Nat} : Fixed (copyMem p o q s n) (n * 2) :=
  fixed_loopM (c := 2) (fun _ _ => fixed_load.then fun _ => (fixed_store (p := p)).mono fun _ k hk => by rw [hk]) 0 n ()

theorem fixed_readMem {p : Ptr} {n : Nat} : Fixed (readMem p n) n := fixed_copyIn

theorem fixed_storeU64 {p : Ptr} {v : Nat} : Fixed (storeU64 p v) 8 := fixed_copyOut

theorem fixed_loadU64 {p : Ptr} : Fixed (loadU64 p) 8 := fixed_readMem.then fun _ => paths_pure rfl

theorem paths_cmpMem {b m : Ptr} (i n : Nat) : Paths (cmpMem b m i n) fun r k => r = 0 → k = 2 * n := by
  induction n generalizing i with
  | zero => exact paths_pure fun _ => rfl
  | succ n ih =>
    unfold cmpMem
    refine fixed_load.then fun x => fixed_load.then fun y => ?_
    split
    · exact paths_pure fun h => absurd h (by decide)
    · exact (ih _).mono fun r k hk h => by have := hk h; omega

/-! ### The functions -/

section
variable (P : Prims)

theorem paths_seedExpander (seed ex : Option Ptr) : Paths (seedExpander P seed ex) fun r n => r = 0 → n = 224 := by
  unfold seedExpander
  cases seed with
  | none => exact paths_fail
  | some seed =>
    refine Fixed.then (n := 32) (fixed_loopM (c := 1) (fun _ _ => fixed_load.then fun _ => (fixed_liftC _).mono fun _ k hk => by rw [hk]) 0 32 _) fun b => paths_C fun r => ?_
    obtain ⟨ret, tmp⟩ := r
    simp only
    split
    · rename_i h; exact paths_pure fun h0 => absurd h0 h
    · cases ex with
      | none => exact paths_fail
      | some ex => exact fixed_copyOut.then fun _ => fixed_copyMem.then fun _ => fixed_copyOut.then fun _ => paths_pure fun _ => rfl

theorem paths_keypairSeed (pk sk seed : Option Ptr) : Paths (keypairSeed P pk sk seed) fun r n => r = 0 → n = 5632 := by
  unfold keypairSeed
  split
  swap
  · exact paths_pure fun h => absurd h (by decide)
  simp only [ED_SEED, DIL_SEED, SPX_SEED, ED_PK, ED_SK, DIL_SK, DIL_PK, SPX_SK, SPX_PK]
  refine fixed_copyIn.then fun _ => fixed_copyIn.then fun _ => fixed_copyIn.then fun _ => paths_C fun r => ?_
  obtain ⟨r1, pk1, sk1⟩ := r
  simp only
  split
  · exact paths_pure fun h => absurd h (by decide)
  refine fixed_copyOut.then fun _ => fixed_copyOut.then fun _ => paths_C fun r => ?_
  obtain ⟨r2, pk2, sk2⟩ := r
  simp only
  split
  · exact paths_pure fun h => absurd h (by decide)
  refine fixed_copyOut.then fun _ => (fixed_loopM (c := 2) (fun _ _ => paths_C fun _ => fixed_store.then fun _ => paths_C fun _ => fixed_store.mono fun _ k hk => by rw [hk]) 0 1312 _).then fun _ => paths_C fun r => ?_
  obtain ⟨r3, pk3, sk3⟩ := r
  simp only
  split
  · exact paths_pure fun h => absurd h (by decide)
  exact fixed_copyOut.then fun _ => fixed_copyOut.then fun _ => paths_pure fun _ => rfl

theorem paths_keypair (pk sk : Option Ptr) : Paths (keypair P pk sk) fun r n => r = 0 → n = 5635 := by
  unfold keypair
  split
  swap
  · exact paths_pure fun h => absurd h (by decide)
  refine fixed_draw.then fun o => ?_
  cases o with
  | none => exact paths_pure fun h => absurd h (by decide)
  | some seed => exact paths_withLocal fun _ => (paths_keypairSeed P _ _ _).mono fun r n hn h => by have := hn h; omega

theorem paths_signFull (body : Bytes → Nat → Bytes → Bytes → Bytes → Option Bytes → C (Int × Bytes × Nat)) (hb : ∀ sig n a b sk r sig' n', body sig n a b sk none = .ok (r, sig', n') → r ≠ 0) (sm smlen m : Option Ptr) (mlen : Nat) (sk : Option Ptr) :
    Paths (signFull P body sm smlen m mlen sk) fun r n => r = 0 → n = 55103 + 5 * mlen := by
  unfold signFull
  split
  swap
  · exact paths_pure fun h => absurd h (by decide)
  simp only [ED_SK, DIL_SK, DIL_PK, SPX_SK, MAX_MSG_LEN, ED_SIG, DIL_SIG, SPX_SIG, LEN_BYTES]
  split
  · exact paths_pure fun h => absurd h (by decide)
  refine fixed_copyIn.then fun _ => fixed_copyIn.then fun _ => fixed_copyIn.then fun _ => fixed_readMem.then fun _ => paths_C fun r => ?_
  obtain ⟨r1, sig1, sigLen1⟩ := r
  refine fixed_readMem.then fun _ => paths_C fun r => ?_
  obtain ⟨r2, sig2, sigLen2⟩ := r
  refine Paths.bind (R := fun r n => r.1 = 0 → n = 1 + 2 * mlen) ?_ fun r k hk => ?_
  · refine fixed_draw.then fun o => ?_
    cases o with
    | none =>
      refine paths_liftC fun r hr h => ?_
      obtain ⟨r, sig', n'⟩ := r
      exact absurd h (hb _ _ _ _ _ _ _ _ hr)
    | some b => exact fixed_readMem.then fun _ => fixed_readMem.then fun _ => (fixed_liftC _).mono fun r k hk _ => by rw [hk]; omega
  obtain ⟨r3, sig3, sigLen3⟩ := r
  simp only
  split
  · exact paths_pure fun h => absurd h (by decide)
  split
  · exact paths_pure fun h => absurd h (by decide)
  split
  · exact paths_pure fun h => absurd h (by decide)
  rename_i h3
  split
  · exact paths_pure fun h => absurd h (by decide)
  split
  · exact paths_pure fun h => absurd h (by decide)
  split
  · exact paths_pure fun h => absurd h (by decide)
  have := hk (by simpa using h3)
  refine fixed_store.then fun _ => fixed_store.then fun _ => fixed_copyOut.then fun _ => fixed_copyOut.then fun _ => fixed_copyOut.then fun _ => fixed_storeU64.then fun _ => paths_pure fun _ => ?_
  omega

theorem paths_openFull (m mlen sm : Option Ptr) (smlen : Nat) (pk : Option Ptr) : Paths (openFull P m mlen sm smlen pk) fun r n => r = 0 → 52343 ≤ smlen ∧ smlen ≤ 52406 ∧ n = 53758 + 2 * (smlen - 52342) := by
  unfold openFull
  split
  swap
  · exact paths_pure fun h => absurd h (by decide)
  simp only [ED_PK, DIL_PK, SPX_PK, MAX_MSG_LEN, MIN_MSG_LEN, ED_SIG, DIL_SIG, SPX_SIG, LEN_BYTES]
  split
  · exact paths_pure fun h => absurd h (by decide)
  refine fixed_load.then fun id => ?_
  split
  · exact paths_pure fun h => absurd h (by decide)
  refine fixed_load.then fun lb => ?_
  split
  · exact paths_pure fun h => absurd h (by decide)
  split
  · exact paths_pure fun h => absurd h (by decide)
  refine fixed_copyIn.then fun _ => fixed_copyIn.then fun _ => paths_C fun r => ?_
  obtain ⟨r1, msg1, msgLen1⟩ := r
  simp only
  split
  · exact paths_pure fun h => absurd h (by decide)
  split
  · exact paths_pure fun h => absurd h (by decide)
  refine fixed_copyIn.then fun _ => fixed_copyIn.then fun _ => paths_C fun _ => paths_C fun r2 => ?_
  split
  · exact paths_pure fun h => absurd h (by decide)
  refine fixed_copyIn.then fun _ => fixed_copyIn.then fun _ => paths_C fun r3 => ?_
  split
  · exact paths_pure fun h => absurd h (by decide)
  refine fixed_copyOut.then fun _ => fixed_storeU64.then fun _ => paths_pure fun _ => ?_
  omega

theorem paths_verifyFull (m : Option Ptr) (mlen : Nat) (sm : Option Ptr) (smlen : Nat) (pk : Option Ptr) : Paths (verifyFull P m mlen sm smlen pk) fun r n => r = 0 → n = 53770 + 2 * (smlen - 52342) + 2 * mlen := by
  unfold verifyFull
  split
  swap
  · exact paths_pure fun h => absurd h (by decide)
  simp only [MAX_MSG_LEN]
  split
  · exact paths_pure fun h => absurd h (by decide)
  refine paths_withLocal fun buf => paths_withLocal fun lenp => Paths.bind (paths_openFull P _ _ _ _ _) fun r k hk => ?_
  split
  · exact paths_pure fun h => absurd h (by decide)
  rename_i hr
  have hk := hk (by simpa using hr)
  refine fixed_loadU64.then fun l => ?_
  split
  · exact paths_pure fun h => absurd h (by decide)
  refine (paths_cmpMem 0 l).mono fun r n hn h => ?_
  have := hn h
  omega

theorem paths_signCompact (sm smlen m : Option Ptr) (mlen : Nat) (sk : Option Ptr) : Paths (signCompact P sm smlen m mlen sk) fun r n => r = 0 → n = 5223 + 3 * mlen := by
  unfold signCompact
  split
  swap
  · exact paths_pure fun h => absurd h (by decide)
  simp only [ED_SK, DIL_SK, DIL_PK, SPX_SK, SPX_PK, MAX_MSG_LEN, ED_SIG, DIL_SIG, LEN_BYTES, NONCE_BYTES, HASH_LENGTH]
  split
  · exact paths_pure fun h => absurd h (by decide)
  refine fixed_copyIn.then fun _ => fixed_copyIn.then fun _ => fixed_draw.then fun o => ?_
  cases o with
  | none => exact paths_pure fun h => absurd h (by decide)
  | some nonce =>
    refine paths_C fun _ => fixed_copyIn.then fun _ => fixed_copyIn.then fun _ => paths_C fun _ => paths_C fun r => ?_
    obtain ⟨r1, sig1, sigLen1⟩ := r
    refine paths_C fun r => ?_
    obtain ⟨r2, sig2, sigLen2⟩ := r
    simp only
    split
    · exact paths_pure fun h => absurd h (by decide)
    split
    · exact paths_pure fun h => absurd h (by decide)
    split
    · exact paths_pure fun h => absurd h (by decide)
    split
    · exact paths_pure fun h => absurd h (by decide)
    refine fixed_store.then fun _ => fixed_store.then fun _ => fixed_copyOut.then fun _ => fixed_copyOut.then fun _ => fixed_copyOut.then fun _ => fixed_copyMem.then fun _ => fixed_storeU64.then fun _ => paths_pure fun _ => ?_
    omega

theorem paths_openCompact (m mlen sm : Option Ptr) (smlen : Nat) (pk : Option Ptr) : Paths (openCompact P m mlen sm smlen pk) fun r n => r = 0 → 2527 ≤ smlen ∧ smlen ≤ 2590 ∧ n = 3942 + 3 * (smlen - 2526) := by
  unfold openCompact
  split
  swap
  · exact paths_pure fun h => absurd h (by decide)
  simp only [ED_PK, DIL_PK, SPX_PK, MAX_MSG_LEN, MIN_MSG_LEN, ED_SIG, DIL_SIG, LEN_BYTES, NONCE_BYTES, HASH_LENGTH]
  split
  · exact paths_pure fun h => absurd h (by decide)
  refine fixed_load.then fun id => ?_
  split
  · exact paths_pure fun h => absurd h (by decide)
  refine fixed_load.then fun lb => ?_
  split
  · exact paths_pure fun h => absurd h (by decide)
  split
  · exact paths_pure fun h => absurd h (by decide)
  refine fixed_copyIn.then fun _ => fixed_copyIn.then fun _ => fixed_copyIn.then fun _ => paths_C fun _ => fixed_copyIn.then fun _ => paths_C fun _ => fixed_copyIn.then fun _ => paths_C fun r => ?_
  obtain ⟨r1, msg1, msgLen1⟩ := r
  simp only
  split
  · exact paths_pure fun h => absurd h (by decide)
  split
  · exact paths_pure fun h => absurd h (by decide)
  refine paths_C fun _ => paths_C fun _ => ?_
  split
  · exact paths_pure fun h => absurd h (by decide)
  refine fixed_copyIn.then fun _ => fixed_copyIn.then fun _ => paths_C fun r2 => ?_
  split
  · exact paths_pure fun h => absurd h (by decide)
  refine fixed_copyMem.then fun _ => fixed_storeU64.then fun _ => paths_pure fun _ => ?_
  omega

theorem paths_verifyCompact (m : Option Ptr) (mlen : Nat) (sm : Option Ptr) (smlen : Nat) (pk : Option Ptr) : Paths (verifyCompact P m mlen sm smlen pk) fun r n => r = 0 → n = 3954 + 3 * (smlen - 2526) + 2 * mlen := by
  unfold verifyCompact
  split
  swap
  · exact paths_pure fun h => absurd h (by decide)
  simp only [MAX_MSG_LEN]
  split
  · exact paths_pure fun h => absurd h (by decide)
  refine paths_withLocal fun buf => paths_withLocal fun lenp => Paths.bind (paths_openCompact P _ _ _ _ _) fun r k hk => ?_
  split
  · exact paths_pure fun h => absurd h (by decide)
  rename_i hr
  have hk := hk (by simpa using hr)
  refine fixed_loadU64.then fun l => ?_
  split
  · exact paths_pure fun h => absurd h (by decide)
  refine (paths_cmpMem 0 l).mono fun r n hn h => ?_
  have := hn h
  omega

end

/-! ### Dilithium-only verification -/

theorem fixed_readPoly {p : Ptr} {o w b : Nat} {coef : Nat → Bytes → C Int} (n j : Nat) : Fixed (readPoly p o w b coef n j) (n * b) := by
  induction n generalizing j with
  | zero => exact paths_pure (Nat.zero_mul b).symm
  | succ n ih =>
    unfold readPoly
    exact fixed_copyIn.then fun x => paths_C fun c => (ih (j + 1)).then fun r => paths_pure (by rw [Nat.succ_mul]; omega)

theorem fixed_readVec {p : Ptr} {o size w b : Nat} {coef : Nat → Bytes → C Int} (n i : Nat) : Fixed (readVec p o size w b coef n i) (n * (256 * b)) := by
  induction n generalizing i with
  | zero => exact paths_pure (Nat.zero_mul _).symm
  | succ n ih =>
    unfold readVec
    exact (fixed_readPoly 256 0).then fun x => (ih (i + 1)).then fun r => paths_pure (by rw [Nat.succ_mul n (256 * b)]; omega)

theorem paths_hintPoly {sig : Ptr} {i k n j : Nat} {h : Dilithium.Poly} : Paths (hintPoly sig i k n j h) fun _ m => 1 ≤ m := by
  cases n with
  | zero => exact paths_fail
  | succ n =>
    unfold hintPoly
    exact fixed_load.then fun e => (paths_any _).mono fun _ m _ => by omega

theorem paths_hints {sig : Ptr} (n i k : Nat) : Paths (hints sig n i k) fun r m => r.isSome → 4 * n ≤ m := by
  induction n generalizing i k with
  | zero => exact paths_pure fun _ => Nat.le_refl _
  | succ n ih =>
    unfold hints
    refine fixed_load.then fun e => ?_
    split
    · exact paths_pure fun h => absurd h (by decide)
    refine fixed_load.then fun e => ?_
    split
    · exact paths_pure fun h => absurd h (by decide)
    refine Paths.bind paths_hintPoly fun r l hl => ?_
    rcases r with - | h
    · exact paths_pure fun h => absurd h (by decide)
    · refine fixed_load.then fun e => Paths.bind (ih (i + 1) e.toNat) fun r m hm => ?_
      rcases r with - | ⟨hs, k⟩
      · exact paths_pure fun h => absurd h (by decide)
      · refine paths_pure fun _ => ?_
        have := hm rfl
        omega

theorem paths_verifyDilithium (fuel : Nat) (m : Option Ptr) (mlen : Nat) (sm : Option Ptr) (smlen : Nat) (pk : Option Ptr) : Paths (verifyDilithiumSteps fuel m mlen sm smlen pk) fun r n => r = 0 → 6512 + mlen ≤ n := by
  unfold verifyDilithiumSteps
  split
  swap
  · exact paths_pure fun h => absurd h (by decide)
  split
  · exact paths_pure fun h => absurd h (by decide)
  refine Paths.bind (R := fun r n => r = 0 → 6512 + mlen ≤ n) ?_ fun r n hn => ?_
  swap
  · split
    · exact paths_pure fun h => absurd h (by decide)
    · rename_i hr
      exact paths_pure fun _ => by simpa using hn (by simpa using hr)
  unfold dilVerifySteps
  split
  · exact paths_pure fun h => absurd h (by decide)
  refine fixed_copyIn.then fun rho => (fixed_readVec 4 0).then fun t1 => Paths.bind (R := fun r n => r.isSome → 3120 ≤ n) ?_ fun r n hn => ?_
  · unfold unpackSigSteps
    refine fixed_copyIn.then fun c => (fixed_readVec 4 0).then fun z => Paths.bind (paths_hints 4 0 0) fun r n hn => ?_
    rcases r with - | ⟨h, k⟩
    · exact paths_pure fun h => absurd h (by decide)
    · have := hn rfl
      exact (paths_any _).mono fun _ m _ _ => by omega
  · rcases r with - | ⟨c, z, h⟩
    · exact paths_pure fun h => absurd h (by decide)
    · have := hn rfl
      refine paths_C fun bad => ?_
      split
      · exact paths_pure fun h => absurd h (by decide)
      · exact fixed_readMem.then fun _ => paths_C fun _ => fixed_readMem.then fun _ => paths_C fun _ => (paths_any _).mono fun _ m _ _ => by omega

/-! ### Several threads -/

/-- After any schedule a call has used `k` of its turns: all of them, if it has not ended, and at least one, if it is no longer where it was. -/
theorem paths_run [DecidableEq ι] {c : Conf ι α} {i : ι} {Q : α → Nat → Prop} (h : Paths (c.thr i).prog Q) (s : List ι) :
    ∃ k, k ≤ s.count i ∧ (¬ ((c.run s).thr i).prog.done → k = s.count i) ∧ (k = 0 → ((c.run s).thr i).prog = (c.thr i).prog) ∧ Paths ((c.run s).thr i).prog fun a n => Q a (k + n) := by
  induction s generalizing c Q with
  | nil => exact ⟨0, Nat.le_refl _, fun _ => rfl, fun _ => rfl, h.mono fun a n hq => by rwa [Nat.zero_add]⟩
  | cons j s ih =>
    show ∃ k, k ≤ _ ∧ (¬ (((c.next j).run s).thr i).prog.done → _) ∧ (k = 0 → (((c.next j).run s).thr i).prog = _) ∧ Paths (((c.next j).run s).thr i).prog _
    by_cases hj : j = i
    · subst hj
      rw [List.count_cons_self]
      by_cases hd : (c.thr j).prog.done
      · have e := next_done hd j
        have e' : (((c.next j).run s).thr j).prog = (c.thr j).prog := by rw [run_done (by rw [e]; exact hd), e]
        exact ⟨0, by omega, fun hn => absurd (by rw [e']; exact hd) hn, fun _ => e', by rw [e']; exact h.mono fun a n hq => by rwa [Nat.zero_add]⟩
      · obtain ⟨k, hk, h1, _, hp⟩ := ih (c := c.next j) (Q := fun a n => Q a (n + 1)) (by rw [next_thr_self]; exact paths_step h _ hd)
        exact ⟨k + 1, by omega, fun hn => by rw [h1 hn], fun h0 => by omega, hp.mono fun a n hq => by rwa [Nat.add_right_comm] at hq⟩
    · rw [List.count_cons_of_ne hj]
      have e := next_thr_ne c (fun e => hj e.symm)
      have := ih (c := c.next j) (Q := Q) (by rw [e]; exact h)
      rwa [e] at this

/-- A call that has returned `r`, and returns it after `N` steps only, did so at its `N`-th turn. -/
theorem paths_turn [DecidableEq ι] {c : Conf ι α} {i : ι} {r : α} {N : Nat} (h : Paths (c.thr i).prog fun a n => a = r → n = N) {s : List ι} (hr : ((c.run s).thr i).prog = .ret r) {t : List ι} (ht : t <+: s) :
    ((c.run t).thr i).prog = .ret r ↔ N ≤ t.count i := by
  obtain ⟨k, hk, h1, _, hp⟩ := paths_run h t
  constructor
  · intro e
    rw [e] at hp
    have := paths_ret hp rfl
    omega
  · intro hn
    obtain ⟨u, rfl⟩ := ht
    rw [run_append] at hr
    by_cases hd : ((c.run t).thr i).prog.done
    · rw [← hr, run_done hd]
    · obtain ⟨k', _, _, h0, hp'⟩ := paths_run hp u
      rw [hr] at hp'
      have := paths_ret hp' rfl
      have := h1 hd
      have := h0 (by omega)
      rw [hr] at this
      exact absurd (by rw [← this]; trivial) hd

end Verif.Conc
