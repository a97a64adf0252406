import Verif.Ed25519.Props
import Verif.Ed25519.Top
import Mathlib.Data.Set.Card

/-! Property C107, the part on Ed25519: how often every scalar comes out of the reduction and of clamping. -/

namespace Verif.Ed25519
open Verif Spec

theorem ncard_bytes (n : Nat) (P : Nat → Prop) : {r : Bytes | r.length = n ∧ P (leVal r)}.ncard = {N : Nat | N < 256 ^ n ∧ P N}.ncard := by
  refine Set.ncard_congr (fun r _ => leVal r) ?_ ?_ ?_
  · rintro r ⟨h, hp⟩
    exact ⟨by have := leVal_lt r; rwa [h] at this, hp⟩
  · rintro r r' ⟨h, _⟩ ⟨h', _⟩ e
    rw [← leBytes_leVal r, ← leBytes_leVal r', h, h', e]
  · rintro N ⟨h, hp⟩
    have e : leVal (leBytes n N) = N := by rw [leVal_leBytes, Nat.mod_eq_of_lt h]
    exact ⟨leBytes n N, ⟨length_leBytes _ _, by rw [e]; exact hp⟩, e⟩

theorem ncard_mod {M v : Nat} (hv : v < M) (B : Nat) (hB : v < B) : {N : Nat | N < B ∧ N % M = v}.ncard = (B - 1 - v) / M + 1 := by
  have hM : 0 < M := by omega
  have key : {N : Nat | N < B ∧ N % M = v} = (fun k => M * k + v) '' ((Finset.range ((B - 1 - v) / M + 1) : Finset Nat) : Set Nat) := by
    ext N
    rw [Set.mem_image]
    constructor
    · rintro ⟨a, rfl⟩
      refine ⟨N / M, ?_, Nat.div_add_mod _ _⟩
      rw [Finset.mem_coe, Finset.mem_range, Nat.lt_succ_iff, Nat.le_div_iff_mul_le hM]
      have := Nat.div_add_mod' N M
      omega
    · rintro ⟨k, hk, rfl⟩
      rw [Finset.mem_coe, Finset.mem_range, Nat.lt_succ_iff, Nat.le_div_iff_mul_le hM, Nat.mul_comm] at hk
      exact ⟨by omega, by rw [Nat.mul_add_mod, Nat.mod_eq_of_lt hv]⟩
  rw [key, Set.InjOn.ncard_image, Set.ncard_coe_finset, Finset.card_range]
  intro a _ b _ e
  dsimp only at e
  exact Nat.eq_of_mul_eq_mul_left hM (by omega)

/-- `reduce` gives the scalar v for (2^512 - 1 - v) / L + 1 strings of 64 bytes, so the numbers for two scalars differ by at most 1 in
at least 2^259. -/
theorem ed_reduce_balanced {v : Nat} (hv : v < L) :
    {r : Bytes | r.length = 64 ∧ reduce r = .ok (leBytes 32 v ++ List.replicate 32 0)}.ncard = (256 ^ 64 - 1 - v) / L + 1 ∧
    (∀ w, w < L → {r : Bytes | r.length = 64 ∧ reduce r = .ok (leBytes 32 w ++ List.replicate 32 0)}.ncard ≤
      {r : Bytes | r.length = 64 ∧ reduce r = .ok (leBytes 32 v ++ List.replicate 32 0)}.ncard + 1) ∧
    2 ^ 259 ≤ {r : Bytes | r.length = 64 ∧ reduce r = .ok (leBytes 32 v ++ List.replicate 32 0)}.ncard := by
  have hL : 0 < L := by omega
  have hL32 : L < 256 ^ 32 := by decide +kernel
  have hL64 : 2 ^ 259 * L + L ≤ 256 ^ 64 - 1 := by decide +kernel
  have main : ∀ v, v < L → {r : Bytes | r.length = 64 ∧ reduce r = .ok (leBytes 32 v ++ List.replicate 32 0)}.ncard = (256 ^ 64 - 1 - v) / L + 1 := by
    intro v hv
    have e : {r : Bytes | r.length = 64 ∧ reduce r = .ok (leBytes 32 v ++ List.replicate 32 0)} = {r : Bytes | r.length = 64 ∧ leVal r % L = v} := by
      ext r
      constructor
      · rintro ⟨h, e⟩
        rw [scalar_reduce h] at e
        injection e with e
        have e := congrArg leVal (List.append_cancel_right e)
        rw [leVal_leBytes, leVal_leBytes, Nat.mod_eq_of_lt (Nat.lt_trans (Nat.mod_lt _ hL) hL32), Nat.mod_eq_of_lt (Nat.lt_trans hv hL32)] at e
        exact ⟨h, e⟩
      · rintro ⟨h, rfl⟩
        exact ⟨h, scalar_reduce h⟩
    rw [e, ncard_bytes 64 (fun N => N % L = v), ncard_mod hv]
    exact Nat.lt_of_lt_of_le (Nat.lt_trans hv hL32) (Nat.pow_le_pow_right (by decide) (by decide))
  generalize 256 ^ 64 - 1 = B at *
  refine ⟨main v hv, fun w hw => ?_, ?_⟩
  · rw [main v hv, main w hw]
    have := Nat.div_le_div_right (c := L) (show B - w ≤ B - v + L by omega)
    rw [Nat.add_div_right _ hL] at this
    omega
  · rw [main v hv]
    refine Nat.le_succ_of_le ((Nat.le_div_iff_mul_le hL).2 ?_)
    generalize 2 ^ 259 * L = C at *
    omega

/-- A scalar (tweetnacl/tweetnacl.c:720-726). -/
example : 2 ^ 259 ≤ {r : Bytes | r.length = 64 ∧ reduce r = .ok (leBytes 32 5 ++ List.replicate 32 0)}.ncard := (ed_reduce_balanced (by unfold L; omega)).2.2

/-- Clamping gives each of the 2^251 scalars 2^254 + 8 k for exactly 32 values of the first 32 bytes, whatever the other bytes are, and no
other scalar; the other bytes are kept. -/
theorem ed_clamp_balanced {t : Bytes} (ht : t.length = 32) :
    (∀ k, k < 2 ^ 251 → {d : Bytes | d.length = 32 ∧ clamp (d ++ t) = .ok (leBytes 32 (2 ^ 254 + 8 * k) ++ t)}.ncard = 32) ∧
    ∀ d : Bytes, d.length = 32 → ∃ k, k < 2 ^ 251 ∧ clamp (d ++ t) = .ok (leBytes 32 (2 ^ 254 + 8 * k) ++ t) := by
  have run : ∀ d : Bytes, d.length = 32 → clamp (d ++ t) = .ok (leBytes 32 (2 ^ 254 + 8 * (leVal d / 8 % 2 ^ 251)) ++ t) := by
    intro d hd
    obtain ⟨s, e, hs, hv⟩ := clamp_ok (d := d ++ t) (by rw [List.length_append, hd, ht])
    rw [List.take_left' hd] at hv
    rw [e, List.drop_left' hd, ← hv, ← hs, leBytes_leVal]
  refine ⟨fun k hk => ?_, fun d hd => ⟨_, Nat.mod_lt _ (by norm_num), run d hd⟩⟩
  have e : {d : Bytes | d.length = 32 ∧ clamp (d ++ t) = .ok (leBytes 32 (2 ^ 254 + 8 * k) ++ t)} = {d : Bytes | d.length = 32 ∧ leVal d / 8 % 2 ^ 251 = k} := by
    ext d
    constructor
    · rintro ⟨h, e⟩
      rw [run d h] at e
      injection e with e
      have e := congrArg leVal (List.append_cancel_right e)
      have := Nat.mod_lt (leVal d / 8) (show 2 ^ 251 > 0 by norm_num)
      have a1 : 2 ^ 254 + 8 * (leVal d / 8 % 2 ^ 251) < 256 ^ 32 := by norm_num at this ⊢; omega
      have a2 : 2 ^ 254 + 8 * k < 256 ^ 32 := by norm_num at hk ⊢; omega
      rw [leVal_leBytes, leVal_leBytes, Nat.mod_eq_of_lt a1, Nat.mod_eq_of_lt a2] at e
      exact ⟨h, by omega⟩
    · rintro ⟨h, rfl⟩
      exact ⟨h, run d h⟩
  have key : {N : Nat | N < 256 ^ 32 ∧ N / 8 % 2 ^ 251 = k} =
      (fun p : Nat × Nat => 2 ^ 254 * p.1 + 8 * k + p.2) '' ((Finset.range 4 ×ˢ Finset.range 8 : Finset (Nat × Nat)) : Set (Nat × Nat)) := by
    ext N
    rw [Set.mem_image]
    constructor
    · rintro ⟨a, b⟩
      refine ⟨(N / 2 ^ 254, N % 8), ?_, ?_⟩
      · rw [Finset.mem_coe, Finset.mem_product, Finset.mem_range, Finset.mem_range]
        norm_num at a ⊢; omega
      · dsimp only; norm_num at b ⊢; omega
    · rintro ⟨⟨u, v⟩, hp, rfl⟩
      rw [Finset.mem_coe, Finset.mem_product, Finset.mem_range, Finset.mem_range] at hp
      dsimp only at hp ⊢
      norm_num at hk ⊢; omega
  rw [e, ncard_bytes 32 (fun N => N / 8 % 2 ^ 251 = k), key, Set.InjOn.ncard_image, Set.ncard_coe_finset, Finset.card_product, Finset.card_range, Finset.card_range]
  rintro ⟨u, v⟩ hp ⟨u', v'⟩ hp' e
  rw [Finset.mem_coe, Finset.mem_product, Finset.mem_range, Finset.mem_range] at hp hp'
  dsimp only at hp hp' e
  rw [Prod.mk.injEq]
  norm_num at e; omega

/-- A scalar and remaining bytes (tweetnacl/tweetnacl.c:669-671). -/
example : {d : Bytes | d.length = 32 ∧ clamp (d ++ List.replicate 32 9) = .ok (leBytes 32 (2 ^ 254 + 8 * 77) ++ List.replicate 32 9)}.ncard = 32 :=
  (ed_clamp_balanced rfl).1 77 (by norm_num)

end Verif.Ed25519
