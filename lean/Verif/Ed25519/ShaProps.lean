import Verif.Ed25519.ShaLemmas
import Mathlib.Data.Fintype.Pigeonhole

/-!
The property C115: the structure of the SHA-512 of tweetnacl.  A collision of `crypto_hash` contains an explicit collision of one step of `crypto_hashblocks`; the hash
of a message and its length are enough to hash every continuation of the padded message; every block has exactly one chain value that it leaves as it is.
-/

namespace Verif.Ed25519
open Verif Spec

theorem chain_step {H : Vars} {p : Bytes} {i : Nat} (h : 128 * (i + 1) ≤ p.length) :
    hashblocks (compressAll H p i).bytes ((p.drop (128 * i)).take 128) 128 = .ok (compressAll H p (i + 1)).bytes := by
  rw [hashblocks_ok _ (by rw [List.length_take, List.length_drop]; omega)]
  show Except.ok (compress _ ((((p.drop (128 * i)).take 128).drop 0).take 128)).bytes = _
  rw [List.drop_zero, List.take_take, Nat.min_self]
  rfl

theorem chain_run {p : Bytes} {i : Nat} (h : 128 * i ≤ p.length) : hashblocks shaIv p (128 * i) = .ok (compressAll initVars p i).bytes := by
  rw [shaIv_eq, hashblocks_ok initVars h, Nat.mul_div_cancel_left _ (by omega)]

/-- C115, collisions: if `crypto_hash` gives one value for two different messages, then there are two places in the padded messages, equally far from their ends, where one step of
`crypto_hashblocks` maps different pairs of chain value and block to the same chain value; what follows is equal (tweetnacl/tweetnacl.c:521-588). -/
theorem sha_collision {m m' h : Bytes} (hm : m.length < 2 ^ 64) (hm' : m'.length < 2 ^ 64) (hne : m ≠ m')
    (e : cryptoHash m m.length = .ok h) (e' : cryptoHash m' m'.length = .ok h) :
    ∃ i i' x x' y, 128 * (i + 1) ≤ (pad m).length ∧ 128 * (i' + 1) ≤ (pad m').length ∧
      hashblocks shaIv (pad m) (128 * i) = .ok x ∧ hashblocks shaIv (pad m') (128 * i') = .ok x' ∧
      (x, ((pad m).drop (128 * i)).take 128) ≠ (x', ((pad m').drop (128 * i')).take 128) ∧
      hashblocks x (((pad m).drop (128 * i)).take 128) 128 = .ok y ∧ hashblocks x' (((pad m').drop (128 * i')).take 128) 128 = .ok y ∧
      (pad m).drop (128 * (i + 1)) = (pad m').drop (128 * (i' + 1)) := by
  rw [cryptoHash_ok (Nat.le_refl _) hm, List.take_length] at e
  rw [cryptoHash_ok (Nat.le_refl _) hm', List.take_length] at e'
  have eh : sha512 m = sha512 m' := by injection e with e; injection e' with e'; rw [e, e']
  have ev : compressAll initVars (pad m) ((pad m).length / 128) = compressAll initVars (pad m') ((pad m').length / 128) := vars_bytes_inj eh
  obtain ⟨⟨N, hN⟩, g⟩ := length_pad m
  obtain ⟨⟨N', hN'⟩, g'⟩ := length_pad m'
  rw [hN, hN', Nat.mul_div_cancel_left _ (by omega), Nat.mul_div_cancel_left _ (by omega)] at ev
  by_cases hl : m.length = m'.length
  · have hNN : N = N' := by
      have : (pad m).length = (pad m').length := by
        unfold pad
        simp only [List.length_append, List.length_replicate, length_beBytes, List.length_singleton, hl]
      omega
    subst hNN
    -- the last place where chain value or block differ
    have key : ∀ j, j ≤ N → compressAll initVars (pad m) j = compressAll initVars (pad m') j → (pad m).drop (128 * j) = (pad m').drop (128 * j) → (pad m).take (128 * j) ≠ (pad m').take (128 * j) →
        ∃ i, i < N ∧ (compressAll initVars (pad m) i, ((pad m).drop (128 * i)).take 128) ≠ (compressAll initVars (pad m') i, ((pad m').drop (128 * i)).take 128) ∧
          compressAll initVars (pad m) (i + 1) = compressAll initVars (pad m') (i + 1) ∧ (pad m).drop (128 * (i + 1)) = (pad m').drop (128 * (i + 1)) := by
      intro j
      induction j with
      | zero => intro _ _ _ ht; exact absurd (by rw [Nat.mul_zero, List.take_zero, List.take_zero]) ht
      | succ j ih =>
        intro hj hc hd ht
        by_cases hx : (compressAll initVars (pad m) j, ((pad m).drop (128 * j)).take 128) = (compressAll initVars (pad m') j, ((pad m').drop (128 * j)).take 128)
        · injection hx with h1 h2
          refine ih (by omega) h1 ?_ ?_
          · rw [← List.take_append_drop 128 ((pad m).drop (128 * j)), ← List.take_append_drop 128 ((pad m').drop (128 * j)), h2, List.drop_drop, List.drop_drop]
            rw [show 128 * j + 128 = 128 * (j + 1) by omega, hd]
          · intro h3
            apply ht
            rw [show 128 * (j + 1) = 128 * j + 128 by omega, List.take_add, List.take_add, h3, h2]
        · exact ⟨j, by omega, hx, hc, hd⟩
    obtain ⟨i, hi, hx, hc, hd⟩ := key N (Nat.le_refl _) ev (by rw [← hN, List.drop_length, hN, ← hN', List.drop_length]) (by
      rw [← hN, List.take_length, hN, ← hN', List.take_length]
      intro hp
      rw [pad_eq, pad_eq] at hp
      exact hne (List.append_inj hp hl).1)
    refine ⟨i, i, _, _, _, by omega, by omega, chain_run (by omega), chain_run (by omega), ?_, chain_step (by omega), ?_, hd⟩
    · intro hp
      injection hp with h1 h2
      exact hx (by rw [vars_bytes_inj h1, h2])
    · rw [chain_step (by omega), hc]
  · obtain ⟨K, rfl⟩ : ∃ K, N = K + 1 := ⟨N - 1, by omega⟩
    obtain ⟨K', rfl⟩ : ∃ K', N' = K' + 1 := ⟨N' - 1, by omega⟩
    refine ⟨K, K', _, _, _, by omega, by omega, chain_run (by omega), chain_run (by omega), ?_, chain_step (by omega), ?_, ?_⟩
    · intro hp
      injection hp with _ h2
      rw [List.take_of_length_le (by rw [List.length_drop]; omega), List.take_of_length_le (by rw [List.length_drop]; omega)] at h2
      have h3 := congrArg (List.drop 112) h2
      rw [List.drop_drop, List.drop_drop, show 128 * K + 112 = (pad m).length - 16 by omega, show 128 * K' + 112 = (pad m').length - 16 by omega] at h3
      have := pad_tail hm
      rw [h3, pad_tail hm'] at this
      omega
    · rw [chain_step (by omega), ev]
    · rw [List.drop_of_length_le (by omega), List.drop_of_length_le (by omega)]

/-- C115, continuation: who knows the hash of a message and its length, but not the message, computes with `crypto_hashblocks` the hash of the message followed by its padding and any further string
(tweetnacl/tweetnacl.c:521-588). -/
theorem sha_extension {m x h : Bytes} (hl : (m ++ padding m.length ++ x).length < 2 ^ 64) (e : cryptoHash m m.length = .ok h) :
    hashblocks h (x ++ padding (m ++ padding m.length ++ x).length) (x ++ padding (m ++ padding m.length ++ x).length).length =
      cryptoHash (m ++ padding m.length ++ x) (m ++ padding m.length ++ x).length := by
  have hm : m.length < 2 ^ 64 := by rw [List.length_append, List.length_append] at hl; omega
  rw [cryptoHash_ok (Nat.le_refl _) hm, List.take_length] at e
  injection e with e
  subst e
  rw [cryptoHash_ok (Nat.le_refl _) hl, List.take_length]
  unfold sha512
  obtain ⟨⟨N, hN⟩, -⟩ := length_pad m
  obtain ⟨⟨K, hK⟩, -⟩ := length_pad (m ++ padding m.length ++ x)
  have hp := pad_eq m
  generalize hy : m ++ padding m.length ++ x = y at *
  have ey : pad y = pad m ++ (x ++ padding y.length) := by rw [pad_eq y, hp, ← List.append_assoc, hy]
  have hlen : (x ++ padding y.length).length = 128 * (K - N) := by
    have := congrArg List.length ey
    rw [List.length_append] at this
    omega
  have hKN : K = N + (K - N) := by
    have := congrArg List.length ey
    rw [List.length_append] at this
    omega
  rw [hashblocks_ok _ (Nat.le_refl _), hlen, hN, hK, Nat.mul_div_cancel_left _ (by omega), Nat.mul_div_cancel_left _ (by omega), Nat.mul_div_cancel_left _ (by omega)]
  conv_rhs => rw [hKN, compressAll_add, ey, compressAll_prefix _ _ _ _ (by omega), ← hN, List.drop_left]

/-- C115, the rounds: for every sixteen words of a block the eighty rounds of the code are a bijection of the 2^512 states (a block cipher with the block as its key; tweetnacl/tweetnacl.c:530-541). -/
theorem sha_rounds_bijective {w t : List (BitVec 64)} (hw : w.length = 16) (ht : t.length = 8) :
    ∃! a : List (BitVec 64), a.length = 8 ∧ ∃ w', loop (fun i (s : List (BitVec 64) × List (BitVec 64)) => shaRound i s.1 s.2) 0 80 (a, w) = .ok (t, w') := by
  obtain ⟨M, hM⟩ : ∃ M : Nat → Word, wl M 0 = w := by
    refine ⟨fun i => w.getD i 0, ?_⟩
    apply List.ext_getElem (by rw [length_wl, hw])
    intro i h1 h2
    rw [length_wl] at h1
    simp [wl, W_first _ _ h1, hw, h1]
  have hv : ∀ a : List (BitVec 64), a.length = 8 → ∃ v, vl v = a := by
    intro a ha
    match a, ha with
    | [a0, a1, a2, a3, a4, a5, a6, a7], _ => exact ⟨⟨a0, a1, a2, a3, a4, a5, a6, a7⟩, rfl⟩
  have inj : ∀ u v : Vars, vl u = vl v → u = v := by
    intro u v h
    cases u; cases v
    simpa [vl] using h
  obtain ⟨vt, rfl⟩ := hv t ht
  obtain ⟨v, rfl⟩ := (rounds_bij M 80).2 vt
  subst hM
  refine ⟨vl v, ⟨rfl, shaRounds_ok M v⟩, ?_⟩
  rintro a ⟨ha, w', e⟩
  obtain ⟨u, rfl⟩ := hv a ha
  obtain ⟨w'', e'⟩ := shaRounds_ok M u
  rw [e'] at e
  rw [(rounds_bij M 80).1 (inj _ _ (Prod.mk.inj (Except.ok.inj e)).1)]

/-- C115, fixed points: for every block of 128 bytes there is exactly one chain value that `crypto_hashblocks` leaves as it is (tweetnacl/tweetnacl.c:521-551). -/
theorem sha_fixed_point {b : Bytes} (hb : b.length = 128) : ∃! x : Bytes, x.length = 64 ∧ hashblocks x b 128 = .ok x := by
  have hc : ∀ v : Vars, hashblocks v.bytes b 128 = .ok v.bytes ↔ compress v b = v := by
    intro v
    have e := chain_step (H := v) (p := b) (i := 0) (by omega)
    rw [Nat.mul_zero, List.drop_zero, List.take_of_length_le (by omega)] at e
    have e1 : compressAll v b (0 + 1) = compress v b := by
      show compress v ((b.drop (128 * 0)).take 128) = _
      rw [Nat.mul_zero, List.drop_zero, List.take_of_length_le (by omega)]
    rw [e1] at e
    rw [show (compressAll v b 0) = v from rfl] at e
    rw [e]
    exact ⟨fun h => vars_bytes_inj (Except.ok.inj h), fun h => by rw [h]⟩
  obtain ⟨v, hv⟩ := (rounds_bij (fun i => BitVec.ofNat 64 (beVal ((b.drop (8 * i)).take 8))) 80).2 ⟨0, 0, 0, 0, 0, 0, 0, 0⟩
  refine ⟨v.bytes, ⟨length_bytes v, (hc v).2 ((compress_fixed v b).2 hv)⟩, ?_⟩
  rintro x ⟨hx, e⟩
  obtain ⟨u, rfl⟩ := vars_bytes_surj hx
  have := (compress_fixed u b).1 ((hc u).1 e)
  rw [(rounds_bij _ 80).1 (this.trans hv.symm)]

/-- There are different messages with one hash (more strings of 65 bytes than hash values), so that the theorem on collisions is about something. -/
example : ∃ m m' h : Bytes, m.length < 2 ^ 64 ∧ m'.length < 2 ^ 64 ∧ m ≠ m' ∧ cryptoHash m m.length = .ok h ∧ cryptoHash m' m'.length = .ok h := by
  have hlt : ∀ b : Bytes, leVal (sha512 b) < 256 ^ 64 := fun b => by
    have := leVal_lt (sha512 b)
    rwa [length_sha512] at this
  obtain ⟨a, b, hab, he⟩ := Fintype.exists_ne_map_eq_of_card_lt (fun n : Fin (256 ^ 65) => (⟨leVal (sha512 (leBytes 65 n)), hlt _⟩ : Fin (256 ^ 64)))
    (by rw [Fintype.card_fin, Fintype.card_fin]; exact Nat.pow_lt_pow_right (by omega) (by omega))
  have hl : ∀ n, (leBytes 65 n).length < 2 ^ 64 := fun n => by rw [length_leBytes]; omega
  have hs : sha512 (leBytes 65 a) = sha512 (leBytes 65 b) := by
    have h1 := leBytes_leVal (sha512 (leBytes 65 a))
    have h2 := leBytes_leVal (sha512 (leBytes 65 b))
    rw [length_sha512] at h1 h2
    rw [← h1, ← h2, Fin.mk.inj he]
  refine ⟨leBytes 65 a, leBytes 65 b, sha512 (leBytes 65 a), hl _, hl _, ?_, ?_, ?_⟩
  · intro e
    have := congrArg leVal e
    rw [leVal_leBytes, leVal_leBytes, Nat.mod_eq_of_lt a.isLt, Nat.mod_eq_of_lt b.isLt] at this
    exact hab (Fin.ext this)
  · rw [cryptoHash_ok (Nat.le_refl _) (hl _), List.take_length]
  · rw [cryptoHash_ok (Nat.le_refl _) (hl _), List.take_length, hs]

/-- The continuation theorem applied: from the hash of any three bytes the hash of these, their padding and any two more bytes. -/
example (a b c d f : Byte) (h : Bytes) (e : cryptoHash [a, b, c] 3 = .ok h) :
    hashblocks h ([d, f] ++ padding ([a, b, c] ++ padding 3 ++ [d, f]).length) ([d, f] ++ padding ([a, b, c] ++ padding 3 ++ [d, f]).length).length =
      cryptoHash ([a, b, c] ++ padding 3 ++ [d, f]) ([a, b, c] ++ padding 3 ++ [d, f]).length :=
  sha_extension (m := [a, b, c]) (x := [d, f]) (by simp only [padding, List.length_append, List.length_cons, List.length_nil, List.length_replicate, length_beBytes]; omega) e

/-- Exactly one state leads to the zero state with the zero block. -/
example : ∃! a : List (BitVec 64), a.length = 8 ∧
    ∃ w', loop (fun i (s : List (BitVec 64) × List (BitVec 64)) => shaRound i s.1 s.2) 0 80 (a, List.replicate 16 0) = .ok (List.replicate 8 0, w') :=
  sha_rounds_bijective (List.length_replicate ..) (List.length_replicate ..)

/-- The zero block has exactly one fixed point. -/
example : ∃! x : Bytes, x.length = 64 ∧ hashblocks x (List.replicate 128 0) 128 = .ok x := sha_fixed_point (List.length_replicate ..)

end Verif.Ed25519
