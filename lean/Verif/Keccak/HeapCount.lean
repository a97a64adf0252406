import Verif.Keccak.HeapLemmas

/-! Lemmas for C114: functions that make a known number of contexts. -/

namespace Verif.Keccak.Heap
open Verif Verif.Keccak

variable {α β : Type}

/-- `x` acts as `v` says, releases all its contexts, and makes at most `hi` of them; if it completes it has made at least `lo` (no line of its own: a
statement about functions such as sphincs/wots.c:25-38). -/
def Between (lo hi : Nat) (x : K α) (v : C α) : Prop := ∃ N, Uses N x v ∧ N ≤ hi ∧ ((∃ a, v = .ok a) → lo ≤ N)

theorem Between.clean {lo hi : Nat} {x : K α} {v : C α} (h : Between lo hi x v) : Clean x v := h.elim fun N h => ⟨N, h.1⟩

theorem Between.exact {N : Nat} {x : K α} {v : C α} {a : α} (h : Between N N x v) (hv : v = .ok a) : Uses N x v := by
  obtain ⟨M, h1, h2, h3⟩ := h
  rw [show N = M from Nat.le_antisymm (h3 ⟨a, hv⟩) h2]
  exact h1

theorem Between.exact' {N : Nat} {x : K α} {v : C α} {a : α} (h : Between N N x v) (hv : v = .ok a) : Uses N x (.ok a) := hv ▸ h.exact hv

theorem Between.mono {lo hi lo' hi' : Nat} {x : K α} {v : C α} (h : Between lo hi x v) (h1 : lo' ≤ lo) (h2 : hi ≤ hi') : Between lo' hi' x v :=
  h.elim fun N h => ⟨N, h.1, Nat.le_trans h.2.1 h2, fun e => Nat.le_trans h1 (h.2.2 e)⟩

theorem Between.onC {x : C α} : Between 0 0 (Heap.onC x) x := ⟨0, Uses.onC, Nat.le_refl _, fun _ => Nat.le_refl _⟩

theorem Between.pure {a : α} : Between 0 0 (pure a) (.ok a) := ⟨0, Uses.pure, Nat.le_refl _, fun _ => Nat.le_refl _⟩

theorem Between.fault {lo hi : Nat} {e : Fault} : Between lo hi (Heap.onC (.error e : C α)) (.error e) := ⟨0, Uses.onC, Nat.zero_le _, fun h => by obtain ⟨a, h⟩ := h; cases h⟩

theorem single_between {x : K α} {v : C α} (h : Single x v) : Between 1 1 x v := ⟨1, h.uses, Nat.le_refl _, fun _ => Nat.le_refl _⟩

theorem Between.bind {l1 h1 l2 h2 : Nat} {x : K α} {v : C α} {f : α → K β} {g : α → C β} (hx : Between l1 h1 x v) (hf : ∀ a, v = .ok a → Between l2 h2 (f a) (g a)) :
    Between (l1 + l2) (h1 + h2) (x >>= f) (v >>= g) := by
  obtain ⟨N, hx, b1, b2⟩ := hx
  cases hv : v with
  | error e =>
    refine ⟨N, hv ▸ Uses.bind_error hx hv, by omega, fun h => ?_⟩
    obtain ⟨b, h⟩ := h
    cases h
  | ok a =>
    obtain ⟨M, hf, c1, c2⟩ := hf a hv
    refine ⟨N + M, hv ▸ Uses.bind hx hv hf, by omega, fun h => ?_⟩
    have := b2 ⟨a, hv⟩
    have := c2 h
    omega

theorem Between.bindC {lo hi : Nat} {x : C α} {f : α → K β} {g : α → C β} (hf : ∀ a, x = .ok a → Between lo hi (f a) (g a)) : Between lo hi (Heap.onC x >>= f) (x >>= g) := by
  have := Between.bind Between.onC hf
  rwa [Nat.zero_add, Nat.zero_add] at this

theorem Between.bind0 {lo hi : Nat} {x : K α} {v : C α} {f : α → K β} {g : α → C β} (hx : Between 0 0 x v) (hf : ∀ a, v = .ok a → Between lo hi (f a) (g a)) :
    Between lo hi (x >>= f) (v >>= g) := by
  have := Between.bind hx hf
  rwa [Nat.zero_add, Nat.zero_add] at this

theorem Between.bind1 {lo hi : Nat} {x : K α} {v : C α} {f : α → K β} {g : α → C β} (hx : Between lo hi x v) (hf : ∀ a, v = .ok a → Between 0 0 (f a) (g a)) :
    Between lo hi (x >>= f) (v >>= g) := Between.bind hx hf

theorem Between.bindOk {l1 h1 l2 h2 : Nat} {x : K α} {a : α} {f : α → K β} {w : C β} (hx : Between l1 h1 x (.ok a)) (hf : Between l2 h2 (f a) w) :
    Between (l1 + l2) (h1 + h2) (x >>= f) w := by
  have := Between.bind (g := fun _ => w) hx (fun b hb => by cases hb; exact hf)
  exact this

theorem Between.ite {lo hi : Nat} {c : Prop} [Decidable c] {x y : K α} {v w : C α} (hx : c → Between lo hi x v) (hy : ¬c → Between lo hi y w) :
    Between lo hi (if c then x else y) (if c then v else w) := by
  by_cases h : c
  · rw [if_pos h, if_pos h]; exact hx h
  · rw [if_neg h, if_neg h]; exact hy h

/-- One of the next `N` calls of `malloc` in common/fips202.c:530-755 fails. -/
def OneFails (h : Ctxs) (N : Nat) : Prop := ∃ i < N, h.fails (h.next + i) = true

theorem uses_iff {α : Type} {N : Nat} {x : K α} {a : α} (hx : Uses N x (.ok a)) (h : Ctxs) (hw : h.WF) :
    (OneFails h N → x h = .error (.exit 111)) ∧ (¬OneFails h N → x h = .ok (a, { h with next := h.next + N })) := by
  have e : (List.range N).any (fun i => h.fails (h.next + i)) = true ↔ OneFails h N := by
    simp only [List.any_eq_true, List.mem_range, OneFails]
  rw [hx h hw]
  refine ⟨fun c => if_pos (e.2 c), fun c => ?_⟩
  rw [if_neg (fun d => c (e.1 d))]
  rfl

end Verif.Keccak.Heap
