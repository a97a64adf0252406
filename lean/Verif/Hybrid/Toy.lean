import Verif.Hybrid.Lemmas

/-!
A small set of component algorithms that meets all contracts, and a concrete memory.
Used only in `example`s, to show that the hypotheses of the hybrid theorems can be met.
It models nothing in /repo.
-/

namespace Verif.Hybrid.Toy
open Verif

/-- Cut or zero-pad to `n` bytes. -/
def fit (n : Nat) (x : Bytes) : Bytes := (x ++ List.replicate n 0).take n

@[simp] theorem length_fit (n : Nat) (x : Bytes) : (fit n x).length = n := by simp [fit]

theorem fit_self {n : Nat} {x : Bytes} (h : x.length = n) : fit n x = x := by
  subst h; simp [fit]

/-- An Ed25519 signature of the toy components. -/
def edSig (pk m : Bytes) : Bytes := fit 64 (pk ++ m.take 32)

/-- Toy components, for examples. -/
def toy : Prims where
  edKeypairSeed pk sk s := .ok (0, fit pk.length (fit 32 s), fit sk.length (fit 32 s ++ fit 32 s))
  edSign b _ m sk := .ok (0, fit b.length (edSig (sk.drop 32) m ++ m), 64 + m.length)
  edOpen b n sm k pk :=
    if 64 ≤ k ∧ k ≤ sm.length ∧ sm.take 64 = edSig pk ((sm.drop 64).take (k - 64)) then
      .ok (0, fit b.length ((sm.drop 64).take (k - 64)), k - 64)
    else .ok (-1, b, n)
  dilKeypairSeed pk sk s := .ok (0, fit pk.length (fit 32 s), fit sk.length (fit 32 s))
  dilSign b _ m sk := .ok (0, fit b.length (fit 2420 (sk.take 32 ++ m.take 64)), 2420)
  dilVerify s m pk := .ok (if s = fit 2420 (pk.take 32 ++ m.take 64) then 0 else -1)
  spxKeypairSeed pk sk s := .ok (0, fit pk.length (fit 64 s), fit sk.length (fit 64 s ++ fit 64 s))
  spxSign b n m sk := fun R =>
    .ok (match R.draw R.log.length 32 with
      | none => (-1, b, n)
      | some r => (0, fit b.length (r ++ fit 49824 (sk.drop 64 ++ m.take 64)), 49856),
      { R with log := R.log ++ [(32, R.draw R.log.length 32)] })
  spxVerify s m pk := .ok (if s.drop 32 = fit 49824 (pk ++ m.take 64) then 0 else -1)
  sha3_512 x := fit 64 x
  seedexpander s n := .ok (0, fit n s)

theorem toy_sized : toy.Sized where
  edKeypairSeed pk sk s r pk' sk' h := by
    simp only [toy, Except.ok.injEq, Prod.mk.injEq] at h; obtain ⟨-, rfl, rfl⟩ := h; simp
  edSign b n m sk r b' n' h := by
    simp only [toy, Except.ok.injEq, Prod.mk.injEq] at h; obtain ⟨-, rfl, rfl⟩ := h; simp
  edOpen b n sm k pk r b' n' h := by
    simp only [toy] at h
    split at h <;> · simp only [Except.ok.injEq, Prod.mk.injEq] at h; obtain ⟨-, rfl, rfl⟩ := h; simp
  dilKeypairSeed pk sk s r pk' sk' h := by
    simp only [toy, Except.ok.injEq, Prod.mk.injEq] at h; obtain ⟨-, rfl, rfl⟩ := h; simp
  dilSign b n m sk r b' n' h := by
    simp only [toy, Except.ok.injEq, Prod.mk.injEq] at h; obtain ⟨-, rfl, rfl⟩ := h; simp
  spxKeypairSeed pk sk s r pk' sk' h := by
    simp only [toy, Except.ok.injEq, Prod.mk.injEq] at h; obtain ⟨-, rfl, rfl⟩ := h; simp
  spxSign b n m sk R r b' n' R' h := by
    simp only [toy, Except.ok.injEq, Prod.mk.injEq] at h
    obtain ⟨h, -⟩ := h
    cases hd : R.draw R.log.length 32 <;>
    · simp only [hd, Prod.mk.injEq] at h; obtain ⟨-, rfl, rfl⟩ := h; simp
  sha3_512 x := by simp [toy]
  seedexpander s n r out h := by
    simp only [toy, Except.ok.injEq, Prod.mk.injEq] at h; obtain ⟨-, rfl⟩ := h; simp

theorem fit_append_left {n : Nat} {x y : Bytes} (h : x.length ≤ n) : (fit n (x ++ y)).take x.length = x := by
  unfold fit
  rw [List.take_take, Nat.min_eq_left h, List.append_assoc, List.take_append_of_le_length (Nat.le_refl _),
    List.take_of_length_le (Nat.le_refl _)]

theorem slice_fit {n k : Nat} {x y : Bytes} (hx : x.length = k) (h : k + y.length ≤ n) :
    ((fit n (x ++ y)).drop k).take y.length = y := by
  subst hx
  unfold fit
  rw [List.drop_take, List.take_take, Nat.min_eq_left (by omega), List.append_assoc, List.drop_left,
    List.take_append_of_le_length (Nat.le_refl _), List.take_of_length_le (Nat.le_refl _)]

@[simp] theorem length_edSig (pk m : Bytes) : (edSig pk m).length = 64 := by simp [edSig]

theorem take_fit {n k : Nat} {x : Bytes} (hk : k ≤ n) (hx : x.length = k) : (fit n x).take k = x := by
  subst hx
  unfold fit
  rw [List.take_take, Nat.min_eq_left hk, List.take_append_of_le_length (Nat.le_refl _),
    List.take_of_length_le (Nat.le_refl _)]

theorem toy_edShape : toy.EdShape where
  sign m sk b n hm h := by
    simp only [toy, Except.ok.injEq, Prod.mk.injEq] at h
    obtain ⟨-, rfl, rfl⟩ := h
    exact ⟨rfl, slice_fit (by simp) (by rw [List.length_replicate]; omega)⟩
  open_ sm n pk out l hs h1 h2 h := by
    simp only [toy] at h
    split at h
    · simp only [Except.ok.injEq, Prod.mk.injEq] at h
      obtain ⟨-, rfl, rfl⟩ := h
      exact ⟨rfl, take_fit (by rw [List.length_replicate]; omega) (by simp; omega)⟩
    · simp at h

theorem toy_keyShape : toy.KeyShape where
  ed s pk sk h := by
    simp only [toy, Except.ok.injEq, Prod.mk.injEq, List.length_replicate, true_and] at h
    obtain ⟨rfl, rfl⟩ := h
    rw [fit_self (n := 64) (x := _ ++ _) (by simp), List.drop_left' (by simp), fit_self (x := fit 32 s) (by simp)]
  spx s pk sk h := by
    simp only [toy, Except.ok.injEq, Prod.mk.injEq, List.length_replicate, true_and] at h
    obtain ⟨rfl, rfl⟩ := h
    rw [fit_self (n := 128) (x := _ ++ _) (by simp), List.drop_left' (by simp), fit_self (x := fit 64 s) (by simp)]

theorem toy_spxDraw : toy.SpxDraw where
  log b n m sk R r R' h := by
    simp only [toy, Except.ok.injEq, Prod.mk.injEq] at h
    obtain ⟨-, rfl⟩ := h
    exact ⟨rfl, rfl⟩
  fail b n m sk R r R' h hf := by
    simp only [toy, Except.ok.injEq, Prod.mk.injEq, hf] at h
    obtain ⟨rfl, -⟩ := h
    simp

theorem toy_correct : toy.Correct where
  ed s pk sk m b n hm hk hs := by
    have hd := toy_keyShape.ed s pk sk hk
    simp only [toy, Except.ok.injEq, Prod.mk.injEq] at hs
    obtain ⟨-, rfl, rfl⟩ := hs
    have h64 : (fit (List.replicate 128 (0 : Byte)).length (edSig (sk.drop 32) m ++ m)).take 64 = edSig pk m := by
      have := fit_append_left (n := 128) (x := edSig (sk.drop 32) m) (y := m) (by simp)
      simp only [length_edSig] at this
      rw [List.length_replicate, this, hd]
    rw [h64]
    have e1 : ((edSig pk m ++ m ++ List.replicate (64 - m.length) 0).drop 64).take m.length = m := by
      have := slice_here (x := edSig pk m) (y := m) (z := List.replicate (64 - m.length) 0) (o := 64) (n := m.length) (by simp) rfl
      rwa [slice_eq, ← List.append_assoc] at this
    have e2 : (edSig pk m ++ m ++ List.replicate (64 - m.length) 0).take 64 = edSig pk m := by
      rw [List.append_assoc, List.take_left' (by simp)]
    refine ⟨fit 128 m, m.length, ?_⟩
    simp only [toy]
    simp only [length_edSig, Nat.add_sub_cancel_left, e1, e2, List.length_replicate]
    rw [if_pos]
    exact ⟨by omega, by simp, trivial⟩
  dil s pk sk m b hk hs := by
    simp only [toy, Except.ok.injEq, Prod.mk.injEq, List.length_replicate, true_and] at hk hs
    obtain ⟨rfl, rfl⟩ := hk
    rw [← hs.1]
    simp only [DilAccepts, toy]
    rw [if_pos]
    rw [fit_self (n := 2420) (by simp), take_fit (by omega) (by simp), take_fit (by omega) (by simp)]
  spx s pk sk m b R R' hk hs := by
    have hd := toy_keyShape.spx s pk sk hk
    simp only [toy, Except.ok.injEq, Prod.mk.injEq] at hs
    obtain ⟨hs, -⟩ := hs
    cases hr : R.draw R.log.length 32 with
    | none => simp only [hr, Prod.mk.injEq] at hs; exact absurd hs.1 (by decide)
    | some r =>
      simp only [hr, Prod.mk.injEq, List.length_replicate, true_and] at hs
      obtain ⟨rfl, -⟩ := hs
      simp only [SpxAccepts, toy]
      have hl := R.len_draw _ _ _ hr
      rw [if_pos]
      rw [hd, fit_self (n := 49856) (by simp [hl]), List.drop_left' hl]

theorem toy_noUB : toy.NoUB where
  edKeypairSeed _ _ h := by simp only [toy] at h; cases h
  edSign _ _ _ _ h := by simp only [toy] at h; cases h
  edOpen _ _ _ _ _ _ h := by simp only [toy] at h; split at h <;> cases h
  dilKeypairSeed _ _ h := by simp only [toy] at h; cases h
  dilSign _ _ _ h := by simp only [toy] at h; cases h
  dilVerify _ _ _ _ _ h := by simp only [toy] at h; cases h
  spxKeypairSeed _ _ h := by simp only [toy] at h; cases h
  spxSign _ _ _ _ h := by simp only [toy] at h; cases h
  spxVerify _ _ _ _ _ h := by simp only [toy] at h; cases h
  seedexpander _ _ h := by simp only [toy] at h; cases h

/-! ### A concrete memory -/

/-- Block sizes: 0 signature, 1 length cell, 2 message (64 bytes, all 5), 3 secret key, 4 public key, 5 seed, 6 other message,
7 second length cell. -/
def demoMem : Nat → Option Bytes
  | 0 => some (List.replicate 60000 9)
  | 1 => some (List.replicate 8 9)
  | 2 => some (List.replicate 64 5)
  | 3 => some (List.replicate 4064 3)
  | 4 => some (List.replicate 1408 4)
  | 5 => some (List.replicate 160 6)
  | 6 => some (List.replicate 64 7)
  | 7 => some (List.replicate 8 7)
  | _ => none

/-- A random source whose `i`-th draw repeats byte `i`, and that fails from draw 100 on. -/
def demoRng : Rng where
  draw i n := if i < 100 then some (List.replicate n (BitVec.ofNat 8 i)) else none
  len_draw i n b h := by
    split at h
    · simp only [Option.some.injEq] at h; subst h; simp
    · simp at h
  log := []

/-- A memory for examples. -/
def demo : World := { mem := demoMem, sp := 8, rng := demoRng }

/-- The same with a random source that always fails. -/
def demoFail : World := { demo with rng := { draw := fun _ _ => none, len_draw := fun _ _ _ h => by simp at h, log := [] } }

theorem demo_WF : demo.WF := by
  intro b hb
  have hb' : 8 ≤ b := hb
  show demoMem b = none
  unfold demoMem
  split <;> first | omega | rfl

theorem view_replicate {W : World} {b N n : Nat} {v : Byte} (h : W.mem b = some (List.replicate N v)) (hn : n ≤ N) :
    W.view ⟨b, 0⟩ n = some (List.replicate n v) := by
  refine view_eq_some.2 ⟨_, h, by rw [List.length_replicate]; simpa using hn, ?_⟩
  simp [slice, hn]

theorem demo_m (n : Nat) (hn : n ≤ 64) : demo.view ⟨2, 0⟩ n = some (List.replicate n 5) := view_replicate rfl hn
theorem demo_sm (n : Nat) (hn : n ≤ 60000) : demo.view ⟨0, 0⟩ n = some (List.replicate n 9) := view_replicate rfl hn
theorem demo_len : demo.view ⟨1, 0⟩ 8 = some (List.replicate 8 9) := view_replicate rfl (by omega)
theorem demo_sk : demo.view ⟨3, 0⟩ 4064 = some (List.replicate 4064 3) := view_replicate rfl (by omega)
theorem demo_pk : demo.view ⟨4, 0⟩ 1408 = some (List.replicate 1408 4) := view_replicate rfl (by omega)
theorem demo_seed (n : Nat) (hn : n ≤ 160) : demo.view ⟨5, 0⟩ n = some (List.replicate n 6) := view_replicate rfl hn
theorem demo_m2 (n : Nat) (hn : n ≤ 64) : demo.view ⟨6, 0⟩ n = some (List.replicate n 7) := view_replicate rfl hn
theorem demo_len2 : demo.view ⟨7, 0⟩ 8 = some (List.replicate 8 7) := view_replicate rfl (by omega)

theorem some_isSome {α : Type} {o : Option α} {x : α} (h : o = some x) : o.isSome := by rw [h]; rfl

/-- In the demo memory full signing with the toy components returns 0. -/
theorem demo_sign : ∃ W', signFull toy (some ⟨0, 0⟩) (some ⟨1, 0⟩) (some ⟨2, 0⟩) 20 (some ⟨3, 0⟩) demo = .ok (0, W') := by
  rw [signFull_run toy_sized (demo_m 20 (by omega)) demo_sk (some_isSome (demo_sm _ (by omega))) (some_isSome demo_len)
    (by omega) (by omega)]
  simp only [fullSig, RandM_bind_apply]
  simp only [toy, liftCR_ok, ok_bind]
  simp only [demo, demoRng, List.length_nil, show (0 : Nat) < 100 by omega, if_true]
  simp only [ne_eq, not_true_eq_false, if_false, RandM_pure_apply, ok_bind, List.length_replicate]
  exact ⟨_, rfl⟩

/-- In the demo memory compact signing with the toy components returns 0. -/
theorem demo_signCompact :
    ∃ W', signCompact toy (some ⟨0, 0⟩) (some ⟨1, 0⟩) (some ⟨2, 0⟩) 20 (some ⟨3, 0⟩) demo = .ok (0, W') := by
  rw [signCompact_run toy_sized (demo_m 20 (by omega)) demo_sk (some_isSome (demo_sm _ (by omega))) (some_isSome demo_len)
    (Or.inl (by decide)) (by omega) (by omega)]
  simp only [compactSig, RandM_bind_apply, randombytes, ok_bind]
  simp only [demo, demoRng, List.length_nil, show (0 : Nat) < 100 by omega, if_true, RandM_bind_apply]
  simp only [toy, liftCR_ok, ok_bind, length_fit]
  simp only [ne_eq, not_true_eq_false, if_false, RandM_pure_apply, ok_bind]
  exact ⟨_, rfl⟩

/-- In the demo memory seeded key generation with the toy components returns 0. -/
theorem demo_keypairSeed :
    ∃ W', keypairSeed toy (some ⟨4, 0⟩) (some ⟨3, 0⟩) (some ⟨5, 0⟩) demo = .ok (0, W') := by
  rw [keypairSeed_run toy_sized (demo_seed 160 (by omega)) (some_isSome demo_pk) (some_isSome demo_sk) (Or.inl (by decide))]
  simp only [keyBytes, toy, ok_bind, ne_eq, not_true_eq_false, if_false]
  exact ⟨_, rfl⟩

end Verif.Hybrid.Toy
