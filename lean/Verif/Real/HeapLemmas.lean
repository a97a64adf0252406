import Verif.Real.Heap

/-! Lemmas for C118: how the functions of hybrid-dilithium-sphincs/hybrid.c use the heap. -/

namespace Verif.Real.Heap
open Verif Verif.Hybrid Verif.Real Verif.Keccak.Heap Dilithium

variable {α β : Type}

theorem uses_of_iff {N : Nat} {x : K α} {a : α} (hx : ∀ h : Ctxs, h.WF →
    (OneFails h N → x h = .error (.exit 111)) ∧ (¬OneFails h N → x h = .ok (a, { h with next := h.next + N }))) : Uses N x (.ok a) := by
  intro h hw
  have e : (List.range N).any (fun i => h.fails (h.next + i)) = true ↔ OneFails h N := by
    simp only [List.any_eq_true, List.mem_range, OneFails]
  by_cases c : OneFails h N
  · rw [if_pos (e.2 c), (hx h hw).1 c]
  · rw [if_neg (fun d => c (e.1 d)), (hx h hw).2 c]; rfl

/-- `x` does what `v` says and makes a number of contexts of which `T` holds (no line of its own). -/
def Counts (T : α → Nat → Prop) (x : K α) (v : C α) : Prop := ∃ N, Uses N x v ∧ ∀ a, v = .ok a → T a N

/-- The same for a function on memory, called in the world `W` (no line of its own). -/
def CountsAt (W : World) (T : α → Nat → Prop) (x : MH α) (y : M α) : Prop := ∃ N, Uses N (x W) (y W) ∧ ∀ a W', y W = .ok (a, W') → T a N

variable {W : World} {T : β → Nat → Prop} {P : α → Nat → Prop}

theorem CountsAt.bind {x : MH α} {y : M α} {f : α → MH β} {g : α → M β} (hx : CountsAt W P x y)
    (hf : ∀ a W' N, y W = .ok (a, W') → P a N → CountsAt W' (fun b n => T b (N + n)) (f a) (g a)) : CountsAt W T (x >>= f) (y >>= g) := by
  obtain ⟨N, u, p⟩ := hx
  rw [CountsAt, M_bind_apply]
  cases hv : y W with
  | error e =>
    refine ⟨N, ?_, fun a W' h => by cases h⟩
    rw [hv] at u
    exact Uses.bind_error (f := fun p => f p.1 p.2) (g := fun p => g p.1 p.2) u rfl
  | ok q =>
    obtain ⟨M, u2, t⟩ := hf q.1 q.2 N hv (p q.1 q.2 hv)
    refine ⟨N + M, ?_, fun a W' h => t a W' h⟩
    rw [hv] at u
    exact Uses.bind (f := fun p => f p.1 p.2) (g := fun p => g p.1 p.2) u rfl u2

theorem CountsAt.onM {y : M α} : CountsAt W (fun _ n => n = 0) (onM y) y := ⟨0, Uses.onC, fun _ _ _ => rfl⟩

theorem CountsAt.bindM {y : M α} {f : α → MH β} {g : α → M β} (hf : ∀ a W', y W = .ok (a, W') → CountsAt W' T (f a) (g a)) : CountsAt W T (Heap.onM y >>= f) (y >>= g) := by
  refine CountsAt.bind CountsAt.onM ?_
  rintro a W' N h rfl
  simpa only [Nat.zero_add] using hf a W' h

theorem CountsAt.onK {x : K α} {v : C α} (hx : Counts P x v) : CountsAt W P (onK x) (liftC v) := by
  obtain ⟨N, u, p⟩ := hx
  have e : liftC v W = (v >>= fun a => .ok (a, W)) := by cases v <;> rfl
  rw [CountsAt, e]
  cases hv : v with
  | error e =>
    refine ⟨N, ?_, fun a W' h => by cases h⟩
    rw [hv] at u
    exact Uses.bind_error (f := fun a => pure (a, W)) (g := fun a => .ok (a, W)) u rfl
  | ok a =>
    refine ⟨N + 0, ?_, fun b W' h => ?_⟩
    · rw [hv] at u
      exact Uses.bind (f := fun a => pure (a, W)) (g := fun a => .ok (a, W)) u rfl Uses.pure
    · cases h; exact p _ hv

theorem liftC_world {v : C α} {W' : World} {a : α} (h : liftC v W = .ok (a, W')) : v = .ok a ∧ W' = W := by
  cases v with
  | error e => cases h
  | ok b => cases h; exact ⟨rfl, rfl⟩

theorem CountsAt.bindK {x : K α} {v : C α} {f : α → MH β} {g : α → M β} (hx : Counts P x v)
    (hf : ∀ a N, v = .ok a → P a N → CountsAt W (fun b n => T b (N + n)) (f a) (g a)) : CountsAt W T (Heap.onK x >>= f) (liftC v >>= g) := by
  refine CountsAt.bind (CountsAt.onK hx) ?_
  intro a W' N h hp
  obtain ⟨e, rfl⟩ := liftC_world h
  exact hf a N e hp

theorem CountsAt.pure {a : β} (h : T a 0) : CountsAt W T (pure a) (pure a) := ⟨0, Uses.pure, fun b W' e => by cases e; exact h⟩

theorem CountsAt.fail : CountsAt W T (Heap.onM fun _ => .error .ub) (fun _ => .error .ub) := ⟨0, Uses.onC, fun b W' e => by cases e⟩

theorem CountsAt.ite {c : Prop} [Decidable c] {x x' : MH β} {y y' : M β} (hx : c → CountsAt W T x y) (hy : ¬c → CountsAt W T x' y') :
    CountsAt W T (if c then x else x') (if c then y else y') := by
  by_cases h : c
  · rw [if_pos h, if_pos h]; exact hx h
  · rw [if_neg h, if_neg h]; exact hy h

theorem CountsAt.mono {T' : β → Nat → Prop} {x : MH β} {y : M β} (h : CountsAt W T x y) (ht : ∀ b n, T b n → T' b n) : CountsAt W T' x y :=
  h.elim fun N h => ⟨N, h.1, fun a W' e => ht _ _ (h.2 a W' e)⟩

theorem CountsAt.withLocal {init : Bytes} {f : Ptr → MH β} {g : Ptr → M β}
    (hf : CountsAt { W with mem := Function.update W.mem W.sp (some init), sp := W.sp + 1 } T (f ⟨W.sp, 0⟩) (g ⟨W.sp, 0⟩)) : CountsAt W T (withLocalH init f) (withLocal init g) := by
  obtain ⟨N, u, p⟩ := hf
  unfold CountsAt withLocalH Verif.withLocal
  cases hv : g ⟨W.sp, 0⟩ { W with mem := Function.update W.mem W.sp (some init), sp := W.sp + 1 } with
  | error e =>
    refine ⟨N, ?_, fun a W' h => by cases h⟩
    rw [hv] at u
    exact Uses.bind_error (f := fun q => Pure.pure (q.1, ({ q.2 with mem := Function.update q.2.mem W.sp none, sp := W.sp } : World))) (g := fun q => .ok (q.1, ({ q.2 with mem := Function.update q.2.mem W.sp none, sp := W.sp } : World))) u rfl
  | ok q =>
    refine ⟨N + 0, ?_, fun a W' h => ?_⟩
    · rw [hv] at u
      exact Uses.bind (f := fun q => Pure.pure (q.1, ({ q.2 with mem := Function.update q.2.mem W.sp none, sp := W.sp } : World))) (g := fun q => .ok (q.1, ({ q.2 with mem := Function.update q.2.mem W.sp none, sp := W.sp } : World))) u rfl Uses.pure
    · cases h; exact p _ _ hv

/-! ### The components -/

theorem Counts.when {c : Prop} [Decidable c] {x : K β} {v : C β} (h : c → Counts T x v) : Counts T (whenH c x) (Real.when c v) := by
  unfold whenH Real.when
  by_cases hc : c
  · rw [if_pos hc, if_pos hc]; exact h hc
  · rw [if_neg hc, if_neg hc]; exact ⟨0, Uses.onC, fun _ h => by cases h⟩

theorem counts_of {x : K β} {v : C β} (hc : Clean x v) (h : ∀ a, v = .ok a → ∃ N, Uses N x (.ok a) ∧ T a N) : Counts T x v := by
  cases hv : v with
  | error e =>
    obtain ⟨N, u⟩ := hc
    exact ⟨N, hv ▸ u, fun _ h => by cases h⟩
  | ok a =>
    obtain ⟨N, u, t⟩ := h a hv
    exact ⟨N, u, fun b h => by cases h; exact t⟩

theorem counts_dilKeypairSeed (fuel : Nat) (pk sk seed : Bytes) :
    Counts (fun q n => q.1 = 0 ∧ n = 26) (dilKeypairSeedH fuel pk sk seed) ((real fuel).dilKeypairSeed pk sk seed) := by
  refine Counts.when fun hc => counts_of (Dilithium.Heap.ctx_keypair_seed _ _ _ _) fun a ha => ?_
  obtain ⟨r, pk', sk'⟩ := a
  exact ⟨26, uses_of_iff fun h hw => Dilithium.Heap.dil_keygen_contexts ha h hw,
    ((dil_keygen_spec isShake128_S128 isShake256_S256 hc.1 hc.2.1 hc.2.2).2.1 _ _ _ _ ha).1, rfl⟩

theorem counts_dilSign (fuel : Nat) (sig : Bytes) (n : Nat) (m sk : Bytes) :
    Counts (fun q N => q.1 = 0 ∧ q.2.2 = 2420 ∧ ∃ k, Spec.Signs S128 S256 sk m k q.2.1 ∧ N = 24 + 6 * k) (dilSignH fuel sig n m sk) ((real fuel).dilSign sig n m sk) := by
  refine Counts.when fun hc => counts_of (Dilithium.Heap.ctx_signature _ _ _ _ _) fun a ha => ?_
  obtain ⟨r, sig', n'⟩ := a
  obtain ⟨k, hs, hu⟩ := Dilithium.Heap.dil_sign_contexts isShake128_S128 isShake256_S256 hc.2 hc.1 ha
  obtain ⟨h0, h1, -⟩ := (dil_sign_spec isShake128_S128 isShake256_S256 hc.2 hc.1).2.1 _ _ _ _ ha
  exact ⟨_, uses_of_iff hu, h0, h1, k, hs, by omega⟩

theorem counts_dilVerify (fuel : Nat) (sig m pk : Bytes) :
    Counts (fun r N => N = 20 ∨ N = 0 ∧ r = -1) (dilVerifyH fuel sig m pk) ((real fuel).dilVerify sig m pk) := by
  refine Counts.when fun hc => counts_of (Dilithium.Heap.ctx_verify _ _ _ _ _) fun a ha => ?_
  obtain ⟨N, hN, hu⟩ := Dilithium.Heap.verify_uses ha
  exact ⟨N, uses_of_iff hu, hN.imp (·.1) fun h => ⟨h.1, h.2.1⟩⟩

theorem counts_spxKeypairSeed (fuel : Nat) (pk sk seed : Bytes) :
    Counts (fun q n => q.1 = 0 ∧ n = 17183) (spxKeypairSeedH pk sk seed) ((real fuel).spxKeypairSeed pk sk seed) := by
  refine Counts.when fun hc => ?_
  rw [Sphincs.spx_keygen_spec Sphincs.length_shake256F pk sk seed hc.1 hc.2.1 hc.2.2]
  exact ⟨17183, uses_of_iff fun h hw => Sphincs.Heap.spx_keygen_contexts pk sk seed hc.1 hc.2.1 hc.2.2 h hw, fun a h => by cases h; exact ⟨rfl, rfl⟩⟩

theorem counts_spxVerify (fuel : Nat) (sig m pk : Bytes) (hl : sig.length = 49856) :
    Counts (fun _ N => 1202 ≤ N ∧ N ≤ 17267) (spxVerifyH sig m pk) ((real fuel).spxVerify sig m pk) := by
  refine Counts.when fun hc => ?_
  rw [hl, Sphincs.verify_run Sphincs.length_shake256F hc (Nat.le_of_eq hl.symm) m]
  obtain ⟨h1, h2, hu⟩ := Sphincs.Heap.spx_verify_contexts sig m pk (Nat.le_of_eq hl.symm) hc
  exact ⟨_, uses_of_iff hu, fun _ _ => ⟨h1, h2⟩⟩

theorem counts_seedexpander (fuel : Nat) (seed : Bytes) (n : Nat) :
    Counts (fun _ N => N = if seed.length < 32 ∨ n ≤ seed.length then 0 else 1) (seedexpanderRealH seed n) ((real fuel).seedexpander seed n) := by
  have key : ∃ N, Uses N (seedexpanderWrapperH (some seed) seed.length (some (List.replicate n 0)) n) (Keccak.seedexpanderWrapper (some seed) seed.length (some (List.replicate n 0)) n) ∧
      N = if seed.length < 32 ∨ n ≤ seed.length then 0 else 1 := by
    by_cases c : seed.length < 32 ∨ n ≤ seed.length
    · refine ⟨0, ?_, by rw [if_pos c]⟩
      intro h hw
      rw [(ctx_seedexpander_wrapper _ _ _ _).1 (Or.inr (Or.inr c))]
      rfl
    · exact ⟨1, ((ctx_seedexpander_wrapper _ _ _ _).2 _ _ rfl rfl (by omega) (by omega)).uses, by rw [if_neg c]⟩
  obtain ⟨N, u, e⟩ := key
  unfold seedexpanderRealH real
  dsimp only
  cases hv : Keccak.seedexpanderWrapper (some seed) seed.length (some (List.replicate n 0)) n with
  | error f =>
    rw [hv] at u
    exact ⟨N, Uses.bind_error u rfl, fun _ h => by cases h⟩
  | ok q =>
    rw [hv] at u
    refine ⟨N + 0, Uses.bind u rfl ?_, fun _ _ => e⟩
    obtain ⟨r, o⟩ := q
    cases o with
    | none => exact Uses.onC
    | some o => exact Uses.pure

theorem liftR_eq {x : RandM α} {a : α} {R : Rng} (h : x W.rng = .ok (a, R)) : liftR x W = .ok (a, { W with rng := R }) := by
  rw [liftR, h]

theorem countsAt_spxSign (fuel : Nat) (sig : Bytes) (n : Nat) (m sk : Bytes) :
    CountsAt W (fun q N => (W.rng.draw W.rng.log.length 32 = none ∧ q.1 = -1 ∧ N = 0) ∨ ((W.rng.draw W.rng.log.length 32).isSome ∧ q.1 = 0 ∧ q.2.2 = 49856 ∧ N = 345874)) (spxSignH sig n m sk) (liftR ((real fuel).spxSign sig n m sk)) := by
  unfold spxSignH CountsAt
  have e : liftR ((real fuel).spxSign sig n m sk) W = if sig.length = 49856 ∧ sk.length = 128 then liftR (Sphincs.signature Sphincs.shake256F sig n m sk) W else .error .ub := by
    unfold real liftR Real.when
    dsimp only
    by_cases c : sig.length = 49856 ∧ sk.length = 128
    · rw [if_pos c, if_pos c]
    · rw [if_neg c, if_neg c]
  rw [e]
  by_cases c : sig.length = 49856 ∧ sk.length = 128
  swap
  · rw [if_neg c, if_neg c]
    exact ⟨0, Uses.onC, fun _ _ h => by cases h⟩
  rw [if_pos c, if_pos c]
  rw [liftR_eq (Sphincs.spx_sign_spec Sphincs.length_shake256F sig m sk n W.rng (Nat.le_of_eq c.1.symm) c.2)]
  cases hd : W.rng.draw W.rng.log.length 32 with
  | none =>
    refine ⟨0, ?_, fun q W' h => Or.inl ⟨rfl, by cases h; rfl, rfl⟩⟩
    intro h hw
    simp only [onM, liftR, randombytes, hd, StateT.bind, bind, onC, toK, Except.bind, pure, StateT.pure, Except.pure, Sphincs.drawn]
    rfl
  | some opt =>
    have hu := uses_of_iff fun h hw => Sphincs.Heap.spx_sign_contexts sig m sk opt (Nat.le_of_eq c.1.symm) c.2 (W.rng.len_draw _ _ _ hd) h hw
    refine ⟨345874 + 0, ?_, fun q W' h => Or.inr ⟨rfl, by cases h; exact ⟨rfl, rfl, rfl⟩⟩⟩
    have := Uses.bind (f := fun s => (pure ((0, s, 49856), ({ W with rng := Sphincs.drawn W.rng 32 } : World)) : K ((Int × Bytes × Nat) × World)))
      (g := fun s => .ok ((0, s, 49856), ({ W with rng := Sphincs.drawn W.rng 32 } : World))) hu rfl Uses.pure
    intro h hw
    refine Eq.trans ?_ (this h hw)
    simp only [onM, onK, liftR, randombytes, hd, StateT.bind, bind, onC, toK, Except.bind, pure, StateT.pure, Except.pure, Sphincs.drawn]
    cases Sphincs.Heap.signBodyH sig m sk opt h <;> rfl

end Verif.Real.Heap
