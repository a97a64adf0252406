import Verif.Hybrid.Props2

/-!
The properties C09 and C11: open against verify, and lengths that verify rejects.
-/

namespace Verif.Hybrid
open Verif Toy
variable {P : Prims}

/-- Inside the two local blocks of a verify call the caller's blocks are unchanged. -/
theorem push_push_mem {W : World} (hW : W.WF) (x y : Bytes) {q : Nat} {b : Bytes} (h : W.mem q = some b) : (push (push W x) y).mem q = some b := by
  have : q < W.sp := by
    by_contra hc
    rw [hW q (by omega)] at h
    cases h
  simp only [push]
  rw [Function.update_of_ne (by omega), Function.update_of_ne (by omega), h]

theorem verifyFull_open {m sm pk : Option Ptr} {k n : Nat} {W W' : World} (h : verifyFull P m k sm n pk W = .ok (0, W')) :
    ∃ buf lenp V, openFull P buf lenp sm n pk (push (push W (zeros 224)) (zeros 8)) = .ok (0, V) := by
  unfold verifyFull at h
  split at h
  · split at h
    · simp at h
    rw [withLocal_eq] at h
    obtain ⟨⟨r, W1⟩, h1, h⟩ := bind_eq_ok.1 h
    rw [withLocal_eq] at h1
    obtain ⟨⟨r2, W2⟩, h2, h1⟩ := bind_eq_ok.1 h1
    rw [M_bind_apply] at h2
    obtain ⟨⟨r3, W3⟩, h3, h2⟩ := bind_eq_ok.1 h2
    simp only [Except.ok.injEq, Prod.mk.injEq] at h h1
    obtain ⟨rfl, -⟩ := h
    obtain ⟨rfl, -⟩ := h1
    simp only at h2
    split at h2
    · simp at h2
    · rename_i c
      simp only [ne_eq, not_not] at c
      subst c
      exact ⟨_, _, _, h3⟩
  · simp at h

theorem verifyCompact_open {m sm pk : Option Ptr} {k n : Nat} {W W' : World} (h : verifyCompact P m k sm n pk W = .ok (0, W')) :
    ∃ buf lenp V, openCompact P buf lenp sm n pk (push (push W (zeros 64)) (zeros 8)) = .ok (0, V) := by
  unfold verifyCompact at h
  split at h
  · split at h
    · simp at h
    rw [withLocal_eq] at h
    obtain ⟨⟨r, W1⟩, h1, h⟩ := bind_eq_ok.1 h
    rw [withLocal_eq] at h1
    obtain ⟨⟨r2, W2⟩, h2, h1⟩ := bind_eq_ok.1 h1
    rw [M_bind_apply] at h2
    obtain ⟨⟨r3, W3⟩, h3, h2⟩ := bind_eq_ok.1 h2
    simp only [Except.ok.injEq, Prod.mk.injEq] at h h1
    obtain ⟨rfl, -⟩ := h
    obtain ⟨rfl, -⟩ := h1
    simp only at h2
    split at h2
    · simp at h2
    · rename_i c
      simp only [ne_eq, not_not] at c
      subst c
      exact ⟨_, _, _, h3⟩
  · simp at h

/-- C09, open against verify: a buffer that one mode opens is not accepted by the other mode's verify, whatever the lengths, keys, messages and outputs. -/
theorem modes_exclusive_cross {m mlen pk m' pk' : Option Ptr} {sm : Option Ptr} {n n' k : Nat} {W W1 W2 : World} (hW : W.WF) :
    (openFull P m mlen sm n pk W = .ok (0, W1) → verifyCompact P m' k sm n' pk' W ≠ .ok (0, W2)) ∧
    (openCompact P m mlen sm n pk W = .ok (0, W1) → verifyFull P m' k sm n' pk' W ≠ .ok (0, W2)) := by
  constructor
  · intro hf hc
    obtain ⟨p, b, e1, e2, e3⟩ := load_id hf
    obtain ⟨_, _, _, hc⟩ := verifyCompact_open hc
    obtain ⟨p', b', e1', e2', e3'⟩ := load_id_compact hc
    rw [e1] at e1'
    obtain rfl := Option.some.inj e1'
    rw [push_push_mem hW _ _ e2] at e2'
    obtain rfl := Option.some.inj e2'
    rw [e3] at e3'
    exact absurd e3' (by decide)
  · intro hf hc
    obtain ⟨p, b, e1, e2, e3⟩ := load_id_compact hf
    obtain ⟨_, _, _, hc⟩ := verifyFull_open hc
    obtain ⟨p', b', e1', e2', e3'⟩ := load_id hc
    rw [e1] at e1'
    obtain rfl := Option.some.inj e1'
    rw [push_push_mem hW _ _ e2] at e2'
    obtain rfl := Option.some.inj e2'
    rw [e3] at e3'
    exact absurd e3' (by decide)

/-- A buffer that compact open accepts, in a memory that is well formed. -/
example : ∃ W W1 : World, W.WF ∧ openCompact toy (some ⟨2, 0⟩) (some ⟨3, 0⟩) (some ⟨0, 0⟩) 2527 (some ⟨1, 0⟩) W = .ok (0, W1) := by
  have hv : CompactValid toy toyPk [7] _ := toy_compactValid (nonce := List.replicate 40 0) (by simp) (by simp) (by simp)
  have hl := (wire_compact_slices (ed := toyEd (compactHash toy (List.replicate 40 0) [7] (pkSpx toyPk))) (dil := toyDil (compactHash toy (List.replicate 40 0) [7] (pkSpx toyPk)))
    (nonce := List.replicate 40 0) (msg := [7]) (length_edSig _ _) (by simp [toyDil]) (by simp) (by simp)).1
  generalize compactWire (toyEd (compactHash toy (List.replicate 40 0) [7] (pkSpx toyPk))) (toyDil (compactHash toy (List.replicate 40 0) [7] (pkSpx toyPk))) (List.replicate 40 0) [7] = w at hv hl
  have v0 : (holding [w, toyPk, [0], List.replicate 8 0]).view ⟨0, 0⟩ 2527 = some w := holding_view rfl hl
  have v1 : (holding [w, toyPk, [0], List.replicate 8 0]).view ⟨1, 0⟩ 1408 = some toyPk := holding_view rfl (by simp [toyPk])
  have v2 : (holding [w, toyPk, [0], List.replicate 8 0]).view ⟨2, 0⟩ (2527 - 2526) = some [0] := holding_view rfl rfl
  have v3 : (holding [w, toyPk, [0], List.replicate 8 0]).view ⟨3, 0⟩ 8 = some (List.replicate 8 0) := holding_view rfl rfl
  exact ⟨_, _, holding_WF _, (compact_open_iff toy_sized toy_edShape v0 v1 (by rw [v2]; rfl) (by rw [v3]; rfl) (Or.inl (by decide))).2 ⟨_, hv, rfl⟩⟩

theorem withLocal_pure {init : Bytes} {f : Ptr → M Int} {W : World} (hW : W.WF) {r : Int} (h : f ⟨W.sp, 0⟩ (push W init) = .ok (r, push W init)) : withLocal init f W = .ok (r, W) := by
  rw [withLocal_eq, h]
  simp only [ok_bind, push, Function.update_idem, Except.ok.injEq, Prod.mk.injEq, true_and]
  rw [show Function.update W.mem W.sp none = W.mem from by
    conv_rhs => rw [← Function.update_eq_self W.sp W.mem]
    rw [hW W.sp (Nat.le_refl _)]]

/-- C11, verify with a signed length out of range: the code is -2 (the open call's -1 is replaced), and the world is as it was. -/
theorem verify_bad_length {W : World} (hW : W.WF) {m sm pk : Ptr} {k n : Nat} (h1 : 1 ≤ k) (h2 : k ≤ 64) :
    (n < 52343 ∨ 52406 < n → verifyFull P (some m) k (some sm) n (some pk) W = .ok (-2, W)) ∧
    (n < 2527 ∨ 2590 < n → verifyCompact P (some m) k (some sm) n (some pk) W = .ok (-2, W)) ∧
    (n ≠ 2420 → verifyDilithium P (some m) k (some sm) n (some pk) W = .ok (-2, W)) := by
  have hk : ¬ (k ≤ 0 ∨ k > MAX_MSG_LEN) := by simp only [MAX_MSG_LEN]; omega
  refine ⟨?_, ?_, ?_⟩
  · intro hn
    simp only [verifyFull, if_neg hk]
    refine withLocal_pure hW (withLocal_pure (push_WF hW _) ?_)
    rw [M_bind_apply, ((invalid_arguments (P := P) _ _ none _ none _ _ none 1 _).2.1 (.inr hn))]
    rfl
  · intro hn
    simp only [verifyCompact, if_neg hk]
    refine withLocal_pure hW (withLocal_pure (push_WF hW _) ?_)
    rw [M_bind_apply, ((invalid_arguments (P := P) _ _ none _ none _ _ none 1 _).2.2.1 (.inr hn))]
    rfl
  · intro hn
    simp only [verifyDilithium, if_neg hk]
    rw [if_pos (by simpa only [DIL_SIG] using hn)]
    rfl

example : demo.WF ∧ verifyFull toy (some ⟨2, 0⟩) 20 (some ⟨0, 0⟩) 2527 (some ⟨4, 0⟩) demo = .ok (-2, demo) :=
  ⟨demo_WF, (verify_bad_length demo_WF (by omega) (by omega)).1 (.inl (by omega))⟩

end Verif.Hybrid
