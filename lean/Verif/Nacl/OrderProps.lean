import Verif.Nacl.Small
import Verif.Nacl.Props
import Verif.Ed25519.BalanceProps

/-!
The rest of property C78 and the property C112: when X25519 gives zero, and when two secret keys give the same result.
The curve has 8 (2^252 + 27742317777372353535851937790883648493) points over the field and its twist 4 (2^253 - 55484635554744707071703875581767296995); both are counted, not assumed.
-/

namespace Verif.Nacl
open Verif Verif.Ed25519 Verif.Nacl.Spec
open Verif.Ed25519.Spec (leVal leBytes F p L natCast_eq natCast_ne_zero)

theorem scalar_k (n : Bytes) : ∃ k, scalar n = 8 * k ∧ 2 ^ 251 ≤ k ∧ k < 2 ^ 252 :=
  ⟨2 ^ 251 + leVal n % 2 ^ 254 / 8, by rw [scalar_eight, Nat.mul_comm], by omega, by omega⟩

theorem low_mem {u : Nat} (hu : u < 2 ^ 255 - 19) : ((u : Nat) : F) ∈ lowList ↔
    u ∈ [0, 1, 2 ^ 255 - 20, 325606250916557431795983626356110631294008115727848805560023387167927233504, 39382357235489614581723060781553021112529911719440698176882885853963445705823] := by
  have inj : ∀ a : Nat, a < 2 ^ 255 - 19 → (((u : Nat) : F) = (a : Nat) ↔ u = a) := by
    intro a ha
    rw [ZMod.natCast_eq_natCast_iff', Nat.mod_eq_of_lt (show u < p from hu), Nat.mod_eq_of_lt (show a < p from ha)]
  have h0 := inj 0 (by norm_num)
  have h1 := inj 1 (by norm_num)
  have h2 := inj (p - 1) (by decide +kernel)
  rw [cast_pred] at h2
  rw [Nat.cast_zero] at h0
  rw [Nat.cast_one] at h1
  have h3 := inj 325606250916557431795983626356110631294008115727848805560023387167927233504 (by norm_num)
  have h4 := inj 39382357235489614581723060781553021112529911719440698176882885853963445705823 (by norm_num)
  unfold lowList
  simp only [List.mem_cons, List.not_mem_nil, or_false]
  rw [h0, h1, h2, h3, h4]
  rfl

theorem coordinate_mod (q : Bytes) : coordinate q = ((leVal q % 2 ^ 255 % (2 ^ 255 - 19) : Nat) : F) := (ZMod.natCast_eq_natCast_iff' _ _ _).2 (Nat.mod_mod _ _).symm

theorem low_coordinate (q : Bytes) : coordinate q ∈ lowList ↔ leVal q % 2 ^ 255 % (2 ^ 255 - 19) ∈ [0, 1, 2 ^ 255 - 20, 325606250916557431795983626356110631294008115727848805560023387167927233504,
      39382357235489614581723060781553021112529911719440698176882885853963445705823] := by
  rw [coordinate_mod]
  exact low_mem (Nat.mod_lt _ (by norm_num))

theorem val_bytes_inj {v w : F} : leBytes 32 v.val = leBytes 32 w.val ↔ v = w := by
  constructor
  · intro h
    have h2 : (256 : Nat) ^ 32 = 2 ^ 256 := by norm_num
    have := leBytes_inj (by have := fval_lt v; omega) (by have := fval_lt w; omega) h
    exact ZMod.val_injective p this
  · rintro rfl
    rfl

/-! ### C78: the only public keys that give zero -/

/-- `crypto_scalarmult` writes zeros for the five coordinates of points of order 1, 2, 4 and 8 and for no other public key, whatever the secret key. -/
theorem nacl_x25519_zero_iff {n q : Bytes} (hn : n.length = 32) (hq : q.length = 32) :
    scalarmultX n q = .ok (List.replicate 32 0) ↔
      leVal q % 2 ^ 255 % (2 ^ 255 - 19) ∈ [0, 1, 2 ^ 255 - 20, 325606250916557431795983626356110631294008115727848805560023387167927233504,
        39382357235489614581723060781553021112529911719440698176882885853963445705823] := by
  refine ⟨fun h => ?_, nacl_x25519_low_order hn hq⟩
  rw [← low_coordinate]
  obtain ⟨v, e, i⟩ := scalarmultX_ok hn hq
  have hv : v = 0 := by
    rw [h] at e
    injection e with e
    rw [← val_bytes_inj, ← e, ZMod.val_zero]
    decide
  obtain ⟨Q, hQ⟩ := exists_point (coordinate q)
  obtain ⟨k, hk, k1, k2⟩ := scalar_k n
  have := i Kbar Q hQ
  rw [hk, hv, map_zero] at this
  exact zero_result (by omega) k2 hQ this

/-- The base point is not among them. -/
example : leVal nine % 2 ^ 255 % (2 ^ 255 - 19) ∉ [0, 1, 2 ^ 255 - 20, 325606250916557431795983626356110631294008115727848805560023387167927233504,
        39382357235489614581723060781553021112529911719440698176882885853963445705823] := by decide +kernel

/-! ### C112: secret keys with the same result -/

/-- For a public key that is not one of the five, two secret keys give the same result exactly if their scalars are equal or add up to eight times the prime of the curve (if the coordinate belongs to a point of the curve)
or of the twist (if it does not). -/
theorem nacl_x25519_same {n n' q : Bytes} (hn : n.length = 32) (hn' : n'.length = 32) (hq : q.length = 32)
    (hu : leVal q % 2 ^ 255 % (2 ^ 255 - 19) ∉ [0, 1, 2 ^ 255 - 20, 325606250916557431795983626356110631294008115727848805560023387167927233504,
        39382357235489614581723060781553021112529911719440698176882885853963445705823]) :
    (IsSquare ((coordinate q) ^ 3 + 486662 * (coordinate q) ^ 2 + coordinate q) →
      (scalarmultX n q = scalarmultX n' q ↔ scalar n = scalar n' ∨ scalar n + scalar n' = 8 * (2 ^ 252 + 27742317777372353535851937790883648493))) ∧
    (¬ IsSquare ((coordinate q) ^ 3 + 486662 * (coordinate q) ^ 2 + coordinate q) →
      (scalarmultX n q = scalarmultX n' q ↔ scalar n = scalar n' ∨ scalar n + scalar n' = 8 * (2 ^ 253 - 55484635554744707071703875581767296995))) := by
  rw [← low_coordinate] at hu
  have main : scalarmultX n q = scalarmultX n' q ↔ scalar n = scalar n' ∨ scalar n + scalar n' = 8 * primeOf (coordinate q) := by
    obtain ⟨v, e, i⟩ := scalarmultX_ok hn hq
    obtain ⟨v', e', i'⟩ := scalarmultX_ok hn' hq
    obtain ⟨Q, hQ⟩ := exists_point (coordinate q)
    obtain ⟨k, hk, k1, k2⟩ := scalar_k n
    obtain ⟨j, hj, j1, j2⟩ := scalar_k n'
    have i := i Kbar Q hQ
    have i' := i' Kbar Q hQ
    have s := same_result k1 k2 j1 j2 hu hQ
    rw [← hk, ← hj, i, i', (algebraMap F Kbar).injective.eq_iff] at s
    rw [e, e', Except.ok.injEq, val_bytes_inj, s, hk, hj]
    omega
  unfold primeOf at main
  constructor
  · intro h
    rw [if_pos h] at main
    exact main
  · intro h
    rw [if_neg h] at main
    exact main

theorem nine_square : IsSquare ((coordinate nine) ^ 3 + 486662 * (coordinate nine) ^ 2 + coordinate nine) := by
  have e : coordinate nine = ((9 : Nat) : F) := by
    unfold coordinate
    congr 1
  refine ⟨((14781619447589544791020593568409986887264606134616475288964881837755586237401 : Nat) : F), ?_⟩
  have := natCast_eq (a := 9 ^ 3 + 486662 * 9 ^ 2 + 9)
    (b := 14781619447589544791020593568409986887264606134616475288964881837755586237401 * 14781619447589544791020593568409986887264606134616475288964881837755586237401) (by decide +kernel)
  rw [Nat.cast_mul, Nat.cast_add, Nat.cast_add, Nat.cast_mul, Nat.cast_pow, Nat.cast_pow] at this
  rw [e, ← this]
  norm_num

/-- Two secret keys have the same public key exactly if their scalars are equal or add up to eight times the order of the base point. -/
theorem nacl_public_key_same {n n' : Bytes} (hn : n.length = 32) (hn' : n'.length = 32) :
    scalarmultBase n = scalarmultBase n' ↔ scalar n = scalar n' ∨ scalar n + scalar n' = 8 * (2 ^ 252 + 27742317777372353535851937790883648493) :=
  (nacl_x25519_same hn hn' (by decide) (by decide +kernel)).1 nine_square

/-- Two different scalars with the same public key. -/
example : scalarmultBase (leBytes 32 (2 ^ 254)) = scalarmultBase (leBytes 32 (2 ^ 254 + 8 * 27742317777372353535851937790883648493)) ∧
    scalar (leBytes 32 (2 ^ 254)) ≠ scalar (leBytes 32 (2 ^ 254 + 8 * 27742317777372353535851937790883648493)) :=
  ⟨(nacl_public_key_same (length_leBytes _ _) (length_leBytes _ _)).2 (by decide +kernel), by decide +kernel⟩

/-- A coordinate of the twist. -/
example : ¬ IsSquare ((coordinate (leBytes 32 2)) ^ 3 + 486662 * (coordinate (leBytes 32 2)) ^ 2 + coordinate (leBytes 32 2)) := by
  have e : coordinate (leBytes 32 2) = 2 := by
    unfold coordinate
    rw [show leVal (leBytes 32 2) % 2 ^ 255 = 2 by decide +kernel, Nat.cast_ofNat]
  rw [e]
  have := not_square (n := 2 ^ 3 + 486662 * 2 ^ 2 + 2) (by decide +kernel) (by decide +kernel)
  push_cast at this
  exact this

theorem card_scalar {s : Nat} (h8 : s % 8 = 0) (h1 : 2 ^ 254 ≤ s) (h2 : s < 2 ^ 255) : {n : Bytes | n.length = 32 ∧ scalar n = s}.ncard = 32 := by
  obtain ⟨k, rfl⟩ : ∃ k, s = 2 ^ 254 + 8 * k := ⟨(s - 2 ^ 254) / 8, by omega⟩
  have key : {N : Nat | N < 256 ^ 32 ∧ 2 ^ 254 + 8 * (N % 2 ^ 254 / 8) = 2 ^ 254 + 8 * k} =
      (fun p : Nat × Nat => 2 ^ 254 * p.1 + 8 * k + p.2) '' ((Finset.range 4 ×ˢ Finset.range 8 : Finset (Nat × Nat)) : Set (Nat × Nat)) := by
    ext N
    rw [Set.mem_image]
    constructor
    · rintro ⟨a, b⟩
      refine ⟨(N / 2 ^ 254, N % 8), ?_, ?_⟩
      · rw [Finset.mem_coe, Finset.mem_product, Finset.mem_range, Finset.mem_range]
        norm_num at a ⊢; omega
      · dsimp only; norm_num at b ⊢; omega
    · rintro ⟨⟨u, v⟩, hp, rfl⟩
      rw [Finset.mem_coe, Finset.mem_product, Finset.mem_range, Finset.mem_range] at hp
      dsimp only at hp ⊢
      refine ⟨?_, ?_⟩ <;> norm_num at h2 ⊢ <;> omega
  have e := ncard_bytes 32 (fun N => 2 ^ 254 + 8 * (N % 2 ^ 254 / 8) = 2 ^ 254 + 8 * k)
  unfold scalar
  rw [e, key, Set.InjOn.ncard_image, Set.ncard_coe_finset, Finset.card_product, Finset.card_range, Finset.card_range]
  rintro ⟨u, v⟩ hp ⟨u', v'⟩ hp' e
  rw [Finset.mem_coe, Finset.mem_product, Finset.mem_range, Finset.mem_range] at hp hp'
  dsimp only at hp hp' e
  rw [Prod.mk.injEq]
  norm_num at e; omega

/-- Each public key has 32 secret keys, except that those whose scalar is at most 2^254 + 8 * 27742317777372353535851937790883648493 share their public key with 32 more. -/
theorem nacl_secret_key_count {n : Bytes} (hn : n.length = 32) :
    {n' : Bytes | n'.length = 32 ∧ scalarmultBase n' = scalarmultBase n}.ncard = if scalar n ≤ 2 ^ 254 + 8 * 27742317777372353535851937790883648493 then 64 else 32 := by
  obtain ⟨k, hk, k1, k2⟩ := scalar_k n
  have e : {n' : Bytes | n'.length = 32 ∧ scalarmultBase n' = scalarmultBase n} =
      {n' : Bytes | n'.length = 32 ∧ scalar n' = scalar n} ∪ {n' : Bytes | n'.length = 32 ∧ scalar n' = 8 * (2 ^ 252 + 27742317777372353535851937790883648493) - scalar n} := by
    ext n'
    have b := scalar_lt n
    constructor
    · rintro ⟨h, h1⟩
      rcases (nacl_public_key_same h hn).1 h1 with h2 | h2
      · exact Or.inl ⟨h, h2⟩
      · exact Or.inr ⟨h, by omega⟩
    · rintro (⟨h, h2⟩ | ⟨h, h2⟩)
      · exact ⟨h, (nacl_public_key_same h hn).2 (Or.inl h2)⟩
      · exact ⟨h, (nacl_public_key_same h hn).2 (Or.inr (by omega))⟩
  have c1 := card_scalar (s := scalar n) (by omega) (by omega) (by omega)
  rw [e]
  split
  · rename_i h
    have c2 := card_scalar (s := 8 * (2 ^ 252 + 27742317777372353535851937790883648493) - scalar n) (by omega) (by omega) (by omega)
    have hd : Disjoint {n' : Bytes | n'.length = 32 ∧ scalar n' = scalar n} {n' : Bytes | n'.length = 32 ∧ scalar n' = 8 * (2 ^ 252 + 27742317777372353535851937790883648493) - scalar n} := by
      rw [Set.disjoint_left]
      rintro n' ⟨-, h1⟩ ⟨-, h2⟩
      omega
    rw [Set.ncard_union_eq hd (Set.finite_of_ncard_ne_zero (by omega)) (Set.finite_of_ncard_ne_zero (by omega)), c1, c2]
  · rename_i h
    have : {n' : Bytes | n'.length = 32 ∧ scalar n' = 8 * (2 ^ 252 + 27742317777372353535851937790883648493) - scalar n} = ∅ := by
      rw [Set.eq_empty_iff_forall_notMem]
      rintro n' ⟨-, h1⟩
      unfold scalar at h1 h
      omega
    rw [this, Set.union_empty, c1]

example : scalar (List.replicate 32 (1 : Byte)) > 2 ^ 254 + 8 * 27742317777372353535851937790883648493 ∧ (List.replicate 32 (1 : Byte)).length = 32 := by decide +kernel

/-- The number of public keys that `crypto_scalarmult_base` can produce: one for almost every one of the 2^251 scalars. -/
theorem nacl_public_key_count : {y : Bytes | ∃ n : Bytes, n.length = 32 ∧ scalarmultBase n = .ok y}.ncard = 2 ^ 251 - 13871158888686176767925968895441824247 := by
  have hs : ∀ k, 2 ^ 251 ≤ k → k < 2 ^ 252 → scalar (leBytes 32 (8 * k)) = 8 * k := by
    intro k h1 h2
    unfold scalar
    have h3 : (256 : Nat) ^ 32 = 2 ^ 256 := by norm_num
    rw [leVal_leBytes, h3]
    omega
  have hok : ∀ n : Bytes, n.length = 32 → ∃ y, scalarmultBase n = .ok y := fun n hn =>
    let ⟨_, e, _⟩ := scalarmultX_ok hn (show nine.length = 32 by decide)
    ⟨_, e⟩
  have hc : ((Finset.Ico (2 ^ 251 + 13871158888686176767925968895441824247) (2 ^ 252) : Finset Nat) : Set Nat).ncard = 2 ^ 251 - 13871158888686176767925968895441824247 := by
    rw [Set.ncard_coe_finset, Nat.card_Ico]
    norm_num
  rw [← hc]
  symm
  choose y hy using fun k => hok (leBytes 32 (8 * k)) (length_leBytes _ _)
  refine Set.ncard_congr (fun k _ => y k) ?_ ?_ ?_
  · intro k _
    exact ⟨_, length_leBytes _ _, hy k⟩
  · intro k j hk hj e
    rw [Finset.mem_coe, Finset.mem_Ico] at hk hj
    have h : scalarmultBase (leBytes 32 (8 * k)) = scalarmultBase (leBytes 32 (8 * j)) := by rw [hy, hy, e]
    rw [nacl_public_key_same (length_leBytes _ _) (length_leBytes _ _), hs k (by omega) hk.2, hs j (by omega) hj.2] at h
    omega
  · rintro z ⟨n, hn, e⟩
    obtain ⟨k, hk, k1, k2⟩ := scalar_k n
    by_cases hb : 2 ^ 251 + 13871158888686176767925968895441824247 ≤ k
    · refine ⟨k, by rw [Finset.mem_coe, Finset.mem_Ico]; exact ⟨hb, k2⟩, ?_⟩
      have h := (nacl_public_key_same (length_leBytes 32 (8 * k)) hn).2 (Or.inl (by rw [hs k k1 k2, hk]))
      rw [hy, e] at h
      injection h
    · have j1 : 2 ^ 251 ≤ 2 ^ 252 + 27742317777372353535851937790883648493 - k := by omega
      have j2 : 2 ^ 252 + 27742317777372353535851937790883648493 - k < 2 ^ 252 := by omega
      refine ⟨2 ^ 252 + 27742317777372353535851937790883648493 - k, by rw [Finset.mem_coe, Finset.mem_Ico]; omega, ?_⟩
      have h := (nacl_public_key_same (length_leBytes 32 (8 * (2 ^ 252 + 27742317777372353535851937790883648493 - k))) hn).2 (Or.inr (by rw [hs _ j1 j2, hk]; omega))
      rw [hy, e] at h
      injection h

end Verif.Nacl
