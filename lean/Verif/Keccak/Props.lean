import Verif.Keccak.Fips

/-! Properties C25 to C29. -/

namespace Verif.Keccak
open Verif

/-! ### C25 -/

/-- C25: for every state of 25 words the permutation does not fault and is KECCAK-f[1600] of FIPS 202, where word 5y + x is
lane (x, y) and bit z of the word is bit z of the lane. -/
theorem keccakF1600_fips202 (s : List W64) (h : s.length = 25) :
    ∃ s', permute s = .ok s' ∧ s'.length = 25 ∧
      (fun (x y : Fin 5) (z : Fin 64) => (s'.getD (5 * y.val + x.val) 0).getLsbD z.val) =
        Spec.keccakF (fun x y z => (s.getD (5 * y.val + x.val) 0).getLsbD z.val) :=
  permute_run s h

/-- The permutation of the zero state is not the zero state (the first word is the published value). -/
example : (match permute (List.replicate 25 0) with | .ok s => s.getD 0 0 | .error _ => 0) = 0xF1258F7940E1DDE7 := by decide +kernel

/-! ### C26 -/

theorem shake_run {r : Nat} (h0 : 0 < r) (hr : r ≤ 200) (h8 : r % 8 = 0) (output input : Bytes) (n : Nat) (hn : n ≤ output.length) :
    shake r output n input input.length = .ok (splice output 0 (stream r 0x1F input n)) := by
  have hda := Nat.div_add_mod n r
  have hlt := Nat.mod_lt n h0
  have hcm : n / r * r = r * (n / r) := Nat.mul_comm _ _
  obtain ⟨s', e, hl, hst⟩ := squeezeblocks_run (r := r) (h := output) (n := n / r) (length_padded (p := 0x1F) (m := input) h0 hr) h0 hr h8 (by omega)
  rw [shake, absorb_run h0 hr h8, ok_bind, e, ok_bind]
  simp only
  have hrest : n - n / r * r = n % r := by omega
  rw [hrest]
  by_cases c : n % r = 0
  · rw [if_neg (not_not.2 c), stream, show n = r * (n / r) by omega, Nat.mul_div_cancel_left _ h0]
  · rw [if_pos c]
    obtain ⟨s2, e2, -, -⟩ := squeezeblocks_run (r := r) (h := List.replicate r 0) (s := s') (n := 1) hl h0 hr h8 (by simp)
    rw [e2, ok_bind]
    simp only [Nat.mul_one]
    have hsp : splice (List.replicate r (0 : Byte)) 0 (nextN r ⟨s', 0⟩ r).1 = (nextN r ⟨s', 0⟩ r).1 := splice_all (by simp)
    rw [hsp, copy_ok (by simp; omega) (by rw [length_splice (by simp; omega)]; omega), hcm]
    have hpre : slice (nextN r ⟨s', 0⟩ r).1 0 (n % r) = (nextN r ⟨s', 0⟩ (n % r)).1 := by
      have : r = n % r + (r - n % r) := by omega
      conv_lhs => rw [this, nextN_add]
      rw [← this]
      simp only [slice, List.drop_zero]
      rw [List.take_left' (by simp)]
    rw [hpre]
    have := splice_append (h := output) (x := (nextN r ⟨padded r 0x1F input, 0⟩ (r * (n / r))).1) (y := (nextN r ⟨s', 0⟩ (n % r)).1) (o := 0) (by simp; omega)
    rw [length_nextN, Nat.zero_add] at this
    rw [this, stream, ← hst]
    conv_rhs => rw [← hda, nextN_add]

theorem sha3_run {r : Nat} (h0 : 0 < r) (hr : r ≤ 200) (h8 : r % 8 = 0) (output input : Bytes) (n : Nat) (hn : n ≤ output.length) (hnr : n ≤ r) :
    sha3 r n output input input.length = .ok (splice output 0 (stream r 0x06 input n)) := by
  obtain ⟨s2, e2, -, -⟩ := squeezeblocks_run (r := r) (h := List.replicate r 0) (n := 1) (length_padded (p := 0x06) (m := input) h0 hr) h0 hr h8 (by simp)
  rw [sha3, absorb_run h0 hr h8, ok_bind, e2, ok_bind]
  simp only [Nat.mul_one]
  rw [splice_all (by simp), copy_ok (by simp; omega) (by omega)]
  have : slice (nextN r ⟨padded r 0x06 input, 0⟩ r).1 0 n = stream r 0x06 input n := by
    rw [← stream_prefix r 0x06 input n (r - n), Nat.add_sub_cancel' hnr]; rfl
  rw [this]

/-- What an output buffer looks like when its first bytes have been set to `d` and nothing else. -/
theorem splice_front {output d : Bytes} : splice output 0 d = d ++ output.drop d.length := by
  simp [splice]

/-- C26: the five one-shot functions.  For every input and every output buffer that is long enough, the call does not
fault, the first bytes of the buffer become the FIPS 202 digest of the input and the rest of the buffer keeps its contents. -/
theorem hash_functions_fips202 (output input : Bytes) :
    (32 ≤ output.length → ∃ d, sha3_256 output input input.length = .ok (d ++ output.drop 32) ∧ d.length = 32 ∧
      Spec.bits d = Spec.SHA3_256 (Spec.bits input)) ∧
    (48 ≤ output.length → ∃ d, sha3_384 output input input.length = .ok (d ++ output.drop 48) ∧ d.length = 48 ∧
      Spec.bits d = Spec.SHA3_384 (Spec.bits input)) ∧
    (64 ≤ output.length → ∃ d, sha3_512 output input input.length = .ok (d ++ output.drop 64) ∧ d.length = 64 ∧
      Spec.bits d = Spec.SHA3_512 (Spec.bits input)) ∧
    (∀ n, n ≤ output.length → ∃ d, shake128 output n input input.length = .ok (d ++ output.drop n) ∧ d.length = n ∧
      Spec.bits d = Spec.SHAKE128 (Spec.bits input) (8 * n)) ∧
    (∀ n, n ≤ output.length → ∃ d, shake256 output n input input.length = .ok (d ++ output.drop n) ∧ d.length = n ∧
      Spec.bits d = Spec.SHAKE256 (Spec.bits input) (8 * n)) := by
  refine ⟨fun h => ?_, fun h => ?_, fun h => ?_, fun n h => ?_, fun n h => ?_⟩
  · refine ⟨stream 136 0x06 input 32, ?_, by simp, stream_spec (by omega) (by omega) suffix_sha3 _ _⟩
    rw [sha3_256, sha3_run (by decide) (by decide) (by decide) _ _ _ h (by decide), splice_front]; simp
  · refine ⟨stream 104 0x06 input 48, ?_, by simp, stream_spec (by omega) (by omega) suffix_sha3 _ _⟩
    rw [sha3_384, sha3_run (by decide) (by decide) (by decide) _ _ _ h (by decide), splice_front]; simp
  · refine ⟨stream 72 0x06 input 64, ?_, by simp, stream_spec (by omega) (by omega) suffix_sha3 _ _⟩
    rw [sha3_512, sha3_run (by decide) (by decide) (by decide) _ _ _ h (by decide), splice_front]; simp
  · refine ⟨stream 168 0x1F input n, ?_, by simp, stream_spec (by omega) (by omega) suffix_shake _ _⟩
    rw [shake128, shake_run (by decide) (by decide) (by decide) _ _ _ h, splice_front]; simp
  · refine ⟨stream 136 0x1F input n, ?_, by simp, stream_spec (by omega) (by omega) suffix_shake _ _⟩
    rw [shake256, shake_run (by decide) (by decide) (by decide) _ _ _ h, splice_front]; simp

/-- The published SHA3-256 digest of the empty string, computed by the model. -/
example : (match sha3_256 (List.replicate 32 0) [] 0 with | .ok d => d.take 4 | .error _ => []) = [0xa7, 0xff, 0xc6, 0xf8] := by
  decide +kernel

/-! ### C27, C28: the incremental interface -/

/-- Absorb the pieces one after the other with calls of `keccak_inc_absorb`. -/
def absorbPieces (r : Nat) (st : Inc) : List Bytes → C Inc
  | [] => .ok st
  | m :: ms => incAbsorb st r m m.length >>= fun st => absorbPieces r st ms

/-- Squeeze the given numbers of bytes one after the other with calls of `keccak_inc_squeeze`, each into a fresh buffer of that
size with arbitrary contents `junk`; collect the outputs. -/
def squeezePieces (r : Nat) (junk : Byte) (st : Inc) : List Nat → C (List Bytes)
  | [] => .ok []
  | n :: ns => incSqueeze (List.replicate n junk) n st r >>= fun x => squeezePieces r junk x.2 ns >>= fun l => .ok (x.1 :: l)

theorem absorbPieces_run {r : Nat} (hr : r ≤ 200) {st : Inc} (h : st.Ok r) (ms : List Bytes) :
    absorbPieces r st ms = .ok (feedAll r st ms.flatten) := by
  induction ms generalizing st with
  | nil => rfl
  | cons m ms ih =>
    rw [absorbPieces, incAbsorb_run h hr (Nat.le_refl _), ok_bind, List.take_length, ih (feedAll_ok h hr m), List.flatten_cons, feedAll_append]

theorem squeezePieces_run {r : Nat} (h0 : 0 < r) (hr : r ≤ 200) {st : Inc} (h : st.SqOk r) (junk : Byte) (ns : List Nat) :
    ∃ l, squeezePieces r junk st ns = .ok l ∧ l.map List.length = ns ∧ l.flatten = (nextN r st ns.sum).1 := by
  induction ns generalizing st with
  | nil => exact ⟨[], rfl, rfl, rfl⟩
  | cons n ns ih =>
    obtain ⟨l, e, h1, h2⟩ := ih (nextN_sqOk h n)
    refine ⟨(nextN r st n).1 :: l, ?_, by simp [h1], ?_⟩
    · rw [squeezePieces, incSqueeze_run h h0 hr (by simp), ok_bind]
      simp only
      rw [e, ok_bind, splice_all (by simp)]
    · rw [List.flatten_cons, h2, List.sum_cons, nextN_add]

/-- C27 and C28 for the two SHAKE functions (rate 168 or 136): however the input is cut into pieces for absorbing and
the output into pieces for squeezing, the concatenated outputs are the one-shot output on the concatenated input. -/
theorem shake_incremental (r : Nat) (hr : r = 168 ∨ r = 136) (junk : Byte) (ms : List Bytes) (ns : List Nat) :
    ∃ st1 st2 l, absorbPieces r incInit ms = .ok st1 ∧ incFinalize st1 r 0x1F = .ok st2 ∧ squeezePieces r junk st2 ns = .ok l ∧
      l.map List.length = ns ∧
      shake r (List.replicate ns.sum 0) ns.sum ms.flatten ms.flatten.length = .ok l.flatten := by
  have h0 : 0 < r := by omega
  have h1 : r ≤ 200 := by omega
  obtain ⟨l, e, hl, hf⟩ := squeezePieces_run h0 h1 (st := ⟨padded r 0x1F ms.flatten, 0⟩) ⟨length_padded h0 h1, by simp⟩ junk ns
  refine ⟨_, _, l, absorbPieces_run h1 (incInit_ok h0) ms, incFinalize_run h0 h1 (by decide), e, hl, ?_⟩
  rw [shake_run h0 h1 (by omega) _ _ _ (by simp), splice_all (by simp), hf]; rfl

/-- C28 for whole blocks: `shake128_absorb` or `shake256_absorb` followed by any sequence of `squeezeblocks` calls gives
consecutive pieces of the one-shot output. -/
def squeezeBlockPieces (r : Nat) (junk : Byte) (s : List W64) : List Nat → C (List Bytes)
  | [] => .ok []
  | n :: ns => squeezeblocks (List.replicate (r * n) junk) n s r >>= fun x => squeezeBlockPieces r junk x.2 ns >>= fun l => .ok (x.1 :: l)

theorem squeezeBlockPieces_run {r : Nat} (h0 : 0 < r) (hr : r ≤ 200) (h8 : r % 8 = 0) {s : List W64} (h : s.length = 25) (junk : Byte) (ns : List Nat) :
    ∃ l, squeezeBlockPieces r junk s ns = .ok l ∧ l.map List.length = ns.map (r * ·) ∧ l.flatten = (nextN r ⟨s, 0⟩ (r * ns.sum)).1 := by
  induction ns generalizing s with
  | nil => exact ⟨[], rfl, rfl, rfl⟩
  | cons n ns ih =>
    obtain ⟨s', e, hl, hst⟩ := squeezeblocks_run (r := r) (h := List.replicate (r * n) junk) (n := n) h h0 hr h8 (by simp)
    obtain ⟨l, e2, h1, h2⟩ := ih hl
    refine ⟨(nextN r ⟨s, 0⟩ (r * n)).1 :: l, ?_, by simp [h1], ?_⟩
    · rw [squeezeBlockPieces, e, ok_bind]
      simp only
      rw [e2, ok_bind, splice_all (by simp)]
    · rw [List.flatten_cons, h2, List.sum_cons, Nat.mul_add, nextN_add, hst]

theorem shake_blocks (r : Nat) (hr : r = 168 ∨ r = 136) (junk : Byte) (m : Bytes) (ns : List Nat) :
    ∃ s l, absorb r m m.length 0x1F = .ok s ∧ squeezeBlockPieces r junk s ns = .ok l ∧ l.map List.length = ns.map (r * ·) ∧
      shake r (List.replicate (r * ns.sum) 0) (r * ns.sum) m m.length = .ok l.flatten := by
  have h0 : 0 < r := by omega
  have h1 : r ≤ 200 := by omega
  obtain ⟨l, e, hl, hf⟩ := squeezeBlockPieces_run h0 h1 (by omega) (length_padded (p := 0x1F) (m := m) h0 h1) junk ns
  refine ⟨_, l, absorb_run h0 h1 (by omega), e, hl, ?_⟩
  rw [shake_run h0 h1 (by omega) _ _ _ (by simp), splice_all (by simp), hf]; rfl

/-- C27 for SHA3: incremental hashing of any pieces equals the one-shot function on the concatenation. -/
theorem sha3_incremental (r n : Nat) (h : (r, n) = (136, 32) ∨ (r, n) = (104, 48) ∨ (r, n) = (72, 64)) (output : Bytes)
    (hn : n ≤ output.length) (ms : List Bytes) :
    ∃ st d, absorbPieces r incInit ms = .ok st ∧ sha3IncFinalize r n output st = .ok d ∧
      sha3 r n output ms.flatten ms.flatten.length = .ok d := by
  obtain ⟨h0, h1, h8, hnr⟩ : 0 < r ∧ r ≤ 200 ∧ r % 8 = 0 ∧ n ≤ r := by
    simp only [Prod.mk.injEq] at h; omega
  refine ⟨_, _, absorbPieces_run h1 (incInit_ok h0) ms, ?_, sha3_run h0 h1 h8 _ _ _ hn hnr⟩
  obtain ⟨s2, e2, -, -⟩ := squeezeblocks_run (r := r) (h := List.replicate r 0) (n := 1) (length_padded (p := 0x06) (m := ms.flatten) h0 h1) h0 h1 h8 (by simp)
  rw [sha3IncFinalize, incFinalize_run h0 h1 (by decide), ok_bind, e2, ok_bind]
  simp only [Nat.mul_one]
  rw [splice_all (by simp), copy_ok (by simp; omega) (by omega)]
  have : slice (nextN r ⟨padded r 0x06 ms.flatten, 0⟩ r).1 0 n = stream r 0x06 ms.flatten n := by
    rw [← stream_prefix r 0x06 ms.flatten n (r - n), Nat.add_sub_cancel' hnr]; rfl
  rw [this]

/-- A cut that crosses a block boundary, and one with an empty piece. -/
example : ∃ st1 st2 l, absorbPieces 136 incInit [List.replicate 135 1, [], [2, 3]] = .ok st1 ∧ incFinalize st1 136 0x1F = .ok st2 ∧
    squeezePieces 136 7 st2 [1, 0, 136, 3] = .ok l ∧ l.map List.length = [1, 0, 136, 3] ∧
    shake 136 (List.replicate 140 0) 140 (List.replicate 135 1 ++ [2, 3]) 137 = .ok l.flatten :=
  shake_incremental 136 (Or.inr rfl) 7 [List.replicate 135 1, [], [2, 3]] [1, 0, 136, 3]

/-! ### C29: the seed expander stream -/

theorem seedexpanderInit_run (seed : Bytes) : seedexpanderInit seed seed.length = .ok ⟨padded 136 0x1F (seed ++ [2]), 0⟩ := by
  rw [seedexpanderInit, incAbsorb_run (incInit_ok (by decide)) (by decide) (Nat.le_refl _), ok_bind, List.take_length,
    incAbsorb_run (feedAll_ok (incInit_ok (by decide)) (by decide) _) (by decide) (by simp), ok_bind]
  rw [show ([SEEDEXPANDER_DOMAIN].take 1 : Bytes) = [2] from rfl, ← feedAll_append, incFinalize_run (by decide) (by decide) (by decide)]

theorem seedexpander_run (st : Inc) (h : st.SqOk 136) (out : Bytes) (n : Nat) (hn : n ≤ out.length) :
    seedexpander st out n = .ok (splice out 0 (nextN 136 st n).1, (nextN 136 st (8 * ((n + 7) / 8))).2) := by
  rw [seedexpander]
  simp only
  rw [incSqueeze_run h (by omega) (by omega) (by omega), ok_bind]
  simp only
  by_cases c : n % 8 = 0
  · rw [if_neg (not_not.2 c), c, Nat.sub_zero, show 8 * ((n + 7) / 8) = n by omega]
  · rw [if_pos c, incSqueeze_run (nextN_sqOk h _) (by omega) (by omega) (by simp), ok_bind]
    simp only
    have h8 : splice (List.replicate 8 (0 : Byte)) 0 (nextN 136 (nextN 136 st (n - n % 8)).2 8).1 = (nextN 136 (nextN 136 st (n - n % 8)).2 8).1 :=
      splice_all (by simp)
    rw [h8, copy_ok (by simp; omega) (by rw [length_splice (by simp; omega)]; omega), ok_bind]
    have hst : (nextN 136 (nextN 136 st (n - n % 8)).2 8).2 = (nextN 136 st (8 * ((n + 7) / 8))).2 := by
      rw [show 8 * ((n + 7) / 8) = (n - n % 8) + 8 by omega, nextN_add]
    rw [hst]
    refine congrArg _ (Prod.ext ?_ rfl)
    simp only
    have h1 : slice (nextN 136 (nextN 136 st (n - n % 8)).2 8).1 0 (n % 8) = (nextN 136 (nextN 136 st (n - n % 8)).2 (n % 8)).1 := by
      have : 8 = n % 8 + (8 - n % 8) := by omega
      conv_lhs => rw [this, nextN_add]
      rw [← this]
      simp only [slice, List.drop_zero]
      rw [List.take_left' (by simp)]
    rw [h1]
    have := splice_append (h := out) (x := (nextN 136 st (n - n % 8)).1) (y := (nextN 136 (nextN 136 st (n - n % 8)).2 (n % 8)).1) (o := 0) (by simp; omega)
    rw [length_nextN, Nat.zero_add] at this
    rw [this]
    have h2 : n = (n - n % 8) + n % 8 := by omega
    conv_rhs => rw [h2, nextN_add]

/-- C29: return codes and output of `seedexpander_wrapper`.  `seedlen` is the length passed with the seed and `outlen` the length
requested; the buffer `out` may be longer. -/
theorem seedexpander_wrapper_spec (seed out : Option Bytes) (outlen : Nat) :
    ((seed = none ∨ out = none) → ∀ seedlen, seedexpanderWrapper seed seedlen out outlen = .ok (-1, out)) ∧
    (∀ s o, seed = some s → out = some o →
      (s.length < 32 → seedexpanderWrapper seed s.length out outlen = .ok (-2, out)) ∧
      (32 ≤ s.length → outlen ≤ s.length → seedexpanderWrapper seed s.length out outlen = .ok (-3, out)) ∧
      (32 ≤ s.length → s.length < outlen → outlen ≤ o.length → ∃ d, d.length = outlen ∧
        seedexpanderWrapper seed s.length out outlen = .ok (0, some (d ++ o.drop outlen)) ∧
        Spec.bits d = Spec.SHAKE256 (Spec.bits (s ++ [2])) (8 * outlen))) := by
  refine ⟨?_, ?_⟩
  · rintro (rfl | rfl) n
    · rfl
    · cases seed <;> rfl
  · rintro s o rfl rfl
    refine ⟨fun h => ?_, fun h1 h2 => ?_, fun h1 h2 h3 => ?_⟩
    · simp [seedexpanderWrapper, h]
    · simp [seedexpanderWrapper, h2, show ¬ s.length < 32 by omega]
    · refine ⟨stream 136 0x1F (s ++ [2]) outlen, by simp, ?_, stream_spec (by omega) (by omega) suffix_shake _ _⟩
      have e := seedexpander_run ⟨padded 136 0x1F (s ++ [2]), 0⟩ ⟨length_padded (by omega) (by omega), by simp⟩ o outlen h3
      simp only [seedexpanderWrapper]
      rw [if_neg (by omega), if_neg (by omega), seedexpanderInit_run, ok_bind, e, ok_bind]
      simp only
      rw [splice_front]
      simp [stream]

/-- C29: a longer request extends a shorter one. -/
theorem seedexpander_prefix (s o o' : Bytes) (n k : Nat) (h1 : 32 ≤ s.length) (h2 : s.length < n) (h3 : n ≤ o.length)
    (h4 : n + k ≤ o'.length) :
    ∃ b b', seedexpanderWrapper (some s) s.length (some o) n = .ok (0, some b) ∧
      seedexpanderWrapper (some s) s.length (some o') (n + k) = .ok (0, some b') ∧ b.take n = b'.take n := by
  obtain ⟨d, hd, e, hb⟩ := ((seedexpander_wrapper_spec (some s) (some o) n).2 s o rfl rfl).2.2 h1 h2 h3
  obtain ⟨d', hd', e', hb'⟩ := ((seedexpander_wrapper_spec (some s) (some o') (n + k)).2 s o' rfl rfl).2.2 h1 (by omega) h4
  refine ⟨_, _, e, e', ?_⟩
  rw [List.take_left' hd, List.take_append_of_le_length (by omega)]
  apply bits_injective
  apply List.ext_getElem?
  intro i
  rw [hb, getElem?_bits]
  rw [Spec.SHAKE256, Spec.sponge]
  have hi := congrArg (fun l => l[i]?) hb'
  simp only [getElem?_bits, Spec.SHAKE256, Spec.sponge, hd'] at hi
  simp only [List.getElem?_map] at hi ⊢
  rw [List.length_take, hd', Nat.min_eq_left (by omega)]
  by_cases c : i < 8 * n
  · rw [if_pos (by omega), List.getElem?_range (by omega)] at hi
    rw [if_pos c, List.getElem?_range c, ← hi]
    congr 2
    rw [List.getD_eq_getElem?_getD, List.getD_eq_getElem?_getD, List.getElem?_take_of_lt (by omega)]
  · rw [if_neg c, List.getElem?_eq_none (by simpa using c)]; rfl

/-- C58: the exact part of the stream that consecutive calls of `seedexpander` on one state return: every call starts at a
multiple of 8, so a call for n bytes with n not divisible by 8 throws away the following 8 - n % 8 bytes of the stream. -/
theorem seedexpander_two_calls (seed o1 o2 : Bytes) (n1 n2 : Nat) (h1 : n1 ≤ o1.length) (h2 : n2 ≤ o2.length) :
    ∃ st0 st1 st2 d1 d2 skipped, seedexpanderInit seed seed.length = .ok st0 ∧
      seedexpander st0 o1 n1 = .ok (d1 ++ o1.drop n1, st1) ∧ seedexpander st1 o2 n2 = .ok (d2 ++ o2.drop n2, st2) ∧
      d1.length = n1 ∧ d2.length = n2 ∧ (skipped : Bytes).length = 8 * ((n1 + 7) / 8) - n1 ∧
      Spec.bits (d1 ++ skipped ++ d2) = Spec.SHAKE256 (Spec.bits (seed ++ [2])) (8 * (8 * ((n1 + 7) / 8) + n2)) := by
  let st0 : Inc := ⟨padded 136 0x1F (seed ++ [2]), 0⟩
  have hst0 : st0.SqOk 136 := ⟨length_padded (by omega) (by omega), by simp [st0]⟩
  let a := 8 * ((n1 + 7) / 8)
  have ha : a = n1 + (a - n1) := by omega
  refine ⟨st0, (nextN 136 st0 a).2, (nextN 136 (nextN 136 st0 a).2 (8 * ((n2 + 7) / 8))).2, (nextN 136 st0 n1).1, (nextN 136 (nextN 136 st0 a).2 n2).1,
    (nextN 136 (nextN 136 st0 n1).2 (a - n1)).1, seedexpanderInit_run seed, ?_, ?_, by simp, by simp, by simp [a], ?_⟩
  · rw [seedexpander_run st0 hst0 o1 n1 h1, splice_front, length_nextN]
  · rw [seedexpander_run _ (nextN_sqOk hst0 _) o2 n2 h2, splice_front, length_nextN]
  · rw [Spec.SHAKE256]
    rw [← stream_spec (r := 136) (p := 0x1F) (by omega) (by omega) suffix_shake, stream]
    congr 1
    show _ = (nextN 136 st0 (a + n2)).1
    have hs : nextN 136 st0 a = nextN 136 st0 (n1 + (a - n1)) := by rw [← ha]
    rw [nextN_add, hs, nextN_add]

/-- Two calls for 3 and 5 bytes: bytes 3 to 7 of the stream are lost. -/
example : 8 * ((3 + 7) / 8) - 3 = 5 := by decide

/-- A call with a 64-byte seed and 131 bytes of output. -/
example : ∃ d, d.length = 131 ∧ seedexpanderWrapper (some (List.replicate 64 7)) 64 (some (List.replicate 140 0)) 131 =
    .ok (0, some (d ++ List.replicate 9 0)) := by
  obtain ⟨d, h1, h2, -⟩ := ((seedexpander_wrapper_spec (some (List.replicate 64 7)) (some (List.replicate 140 0)) 131).2 _ _ rfl rfl).2.2
    (by rw [List.length_replicate]; omega) (by rw [List.length_replicate]; omega) (by rw [List.length_replicate]; omega)
  rw [List.length_replicate, List.drop_replicate] at h2
  exact ⟨d, h1, h2⟩

end Verif.Keccak
