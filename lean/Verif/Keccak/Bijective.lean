import Verif.Keccak.Props
import Mathlib.Data.Set.Finite.List
import Mathlib.Data.Fintype.Pi

/-!
The Keccak permutation is a bijection, and what this means for absorbing: lemmas for C110.
-/

namespace Verif.Keccak
open Verif

theorem xor_cancel_l : ∀ {a b c : Bool}, (a ^^ b) = (a ^^ c) → b = c := by decide

theorem xor_cancel_r : ∀ {a b c : Bool}, (a ^^ c) = (b ^^ c) → a = b := by decide

/-! ### theta -/

/-- The map of column parities that theta performs, with steps `a` in x and `b` in z (no line of its own). -/
def spread (a : Fin 5) (b : Fin 64) (p : Fin 5 → Fin 64 → Bool) : Fin 5 → Fin 64 → Bool := fun x z => p x z ^^ (p (x - a) z ^^ p (x + a) (z - b))

theorem spread_twice (a : Fin 5) (b : Fin 64) (p : Fin 5 → Fin 64 → Bool) : spread a b (spread a b p) = spread (a + a) (b + b) p := by
  funext x z
  have e1 : x - a - a = x - (a + a) := by revert x a; decide
  have e2 : x - a + a = x := by revert x a; decide
  have e3 : x + a - a = x := by revert x a; decide
  have e4 : x + a + a = x + (a + a) := by revert x a; decide
  have e5 : z - b - b = z - (b + b) := by omega
  unfold spread
  rw [e1, e2, e3, e4, e5]
  generalize p x z = c1
  generalize p (x - a) z = c2
  generalize p (x + a) (z - b) = c3
  generalize p (x - (a + a)) z = c4
  generalize p x (z - b) = c5
  generalize p (x + (a + a)) (z - (b + b)) = c6
  revert c1 c2 c3 c4 c5 c6
  decide

theorem spread_injective {p q : Fin 5 → Fin 64 → Bool} (h : spread 1 1 p = spread 1 1 q) : p = q := by
  have up : ∀ {a : Fin 5} {b : Fin 64} (c : Fin 5) (d : Fin 64), a + a = c → b + b = d → spread a b p = spread a b q → spread c d p = spread c d q := by
    intro a b c d hc hd h
    rw [← hc, ← hd, ← spread_twice, ← spread_twice, h]
  have h1 := up 2 2 (by decide) (by decide) h
  have h2 := up 4 4 (by decide) (by decide) h1
  have h3 := up 3 8 (by decide) (by decide) h2
  have h4 := up 1 16 (by decide) (by decide) h3
  have h5 := up 2 32 (by decide) (by decide) h4
  have h2 := up 4 0 (by decide) (by decide) h5
  funext x z
  have e0 := congrFun (congrFun h2 x) z
  have e2 := congrFun (congrFun h2 (x - 2)) z
  have e3 := congrFun (congrFun h2 (x - 3)) z
  unfold spread at e0 e2 e3
  rw [show z - 0 = z by omega] at e0 e2 e3
  clear h h1 h2 h3 h4 h5 up
  rw [show x - 4 = x + 1 by clear e0 e2 e3; revert x; decide] at e0
  rw [show x - 2 - 4 = x + 4 by clear e0 e2 e3; revert x; decide, show x - 2 + 4 = x + 2 by clear e0 e2 e3; revert x; decide, show x - 2 = x + 3 by clear e0 e2 e3; revert x; decide] at e2
  rw [show x - 3 - 4 = x + 3 by clear e0 e2 e3; revert x; decide, show x - 3 + 4 = x + 1 by clear e0 e2 e3; revert x; decide, show x - 3 = x + 2 by clear e0 e2 e3; revert x; decide] at e3
  revert e0 e2 e3
  generalize p x z = a0
  generalize p (x + 1) z = a1
  generalize p (x + 2) z = a2
  generalize p (x + 3) z = a3
  generalize p (x + 4) z = a4
  generalize q x z = b0
  generalize q (x + 1) z = b1
  generalize q (x + 2) z = b2
  generalize q (x + 3) z = b3
  generalize q (x + 4) z = b4
  revert a0 a1 a2 a3 a4 b0 b1 b2 b3 b4
  decide +kernel

open Spec in
theorem column_theta (A : State) : column (theta A) = spread 1 1 (column A) := by
  funext x z
  have e : ∀ (A : State) x z, column A x z = (A x 0 z ^^ A x 1 z ^^ A x 2 z ^^ A x 3 z ^^ A x 4 z) := fun _ _ _ => rfl
  unfold theta spread
  rw [e, e A x z]
  generalize column A (x - 1) z = c
  generalize column A (x + 1) (z - 1) = d
  generalize A x 0 z = a0
  generalize A x 1 z = a1
  generalize A x 2 z = a2
  generalize A x 3 z = a3
  generalize A x 4 z = a4
  revert a0 a1 a2 a3 a4 c d
  decide

open Spec in
theorem theta_injective {A B : State} (h : theta A = theta B) : A = B := by
  have hc : column A = column B := spread_injective (by rw [← column_theta, ← column_theta, h])
  funext x y z
  have := congrFun (congrFun (congrFun h x) y) z
  unfold theta at this
  rw [hc] at this
  exact xor_cancel_r this

/-! ### The other steps -/

open Spec in
theorem rho_injective {A B : State} (h : rho A = rho B) : A = B := by
  funext x y z
  have := congrFun (congrFun (congrFun h x) y) (z + Fin.ofNat 64 (offset x y))
  unfold rho at this
  generalize Fin.ofNat 64 (offset x y) = o at this
  rwa [show z + o - o = z by omega] at this

open Spec in
theorem pi_injective {A B : State} (h : pi A = pi B) : A = B := by
  funext u v z
  have := congrFun (congrFun (congrFun h v) (2 * (u - v))) z
  unfold pi at this
  rwa [show v + 3 * (2 * (u - v)) = u by clear this; revert u v; decide] at this

theorem row_injective : ∀ a0 a1 a2 a3 a4 b0 b1 b2 b3 b4 : Bool,
    (a0 ^^ (!a1 && a2)) = (b0 ^^ (!b1 && b2)) → (a1 ^^ (!a2 && a3)) = (b1 ^^ (!b2 && b3)) → (a2 ^^ (!a3 && a4)) = (b2 ^^ (!b3 && b4)) →
    (a3 ^^ (!a4 && a0)) = (b3 ^^ (!b4 && b0)) → (a4 ^^ (!a0 && a1)) = (b4 ^^ (!b0 && b1)) → a0 = b0 ∧ a1 = b1 ∧ a2 = b2 ∧ a3 = b3 ∧ a4 = b4 := by
  decide +kernel

open Spec in
theorem chi_injective {A B : State} (h : chi A = chi B) : A = B := by
  funext x y z
  have e : ∀ x, chi A x y z = chi B x y z := fun x => congrFun (congrFun (congrFun h x) y) z
  obtain ⟨h0, h1, h2, h3, h4⟩ := row_injective _ _ _ _ _ _ _ _ _ _ (e 0) (e 1) (e 2) (e 3) (e 4)
  have hx : x = 0 ∨ x = 1 ∨ x = 2 ∨ x = 3 ∨ x = 4 := by revert x; decide
  rcases hx with rfl | rfl | rfl | rfl | rfl <;> assumption

open Spec in
theorem iota_injective {i : Nat} {A B : State} (h : iota i A = iota i B) : A = B := by
  funext x y z
  have := congrFun (congrFun (congrFun h x) y) z
  unfold iota at this
  split at this
  · exact xor_cancel_r this
  · exact this

open Spec in
theorem rounds_injective (n : Nat) {A B : State} (h : rounds n A = rounds n B) : A = B := by
  induction n with
  | zero => exact h
  | succ n ih => exact ih (theta_injective (rho_injective (pi_injective (chi_injective (iota_injective h)))))

theorem keccakF_injective {A B : Spec.State} (h : Spec.keccakF A = Spec.keccakF B) : A = B := rounds_injective 24 h

/-! ### Words -/

theorem drop_of_sbit {s s' : List W64} (h : s.length = 25) (h' : s'.length = 25) (a : Nat) (he : ∀ k, 64 * a ≤ k → k < 1600 → sbit s k = sbit s' k) : s.drop a = s'.drop a := by
  apply List.ext_getElem (by rw [List.length_drop, List.length_drop, h, h'])
  intro i h1 h2
  rw [List.length_drop] at h1 h2
  rw [List.getElem_drop, List.getElem_drop]
  apply BitVec.eq_of_getLsbD_eq
  intro j hj
  have := he (64 * (a + i) + j) (by omega) (by omega)
  unfold sbit at this
  rw [show (64 * (a + i) + j) / 64 = a + i by omega, show (64 * (a + i) + j) % 64 = j by omega] at this
  rwa [List.getD_eq_getElem?_getD, List.getD_eq_getElem?_getD, List.getElem?_eq_getElem (by omega), List.getElem?_eq_getElem (by omega)] at this

theorem stateOf_injective {s s' : List W64} (h : s.length = 25) (h' : s'.length = 25) (e : stateOf s = stateOf s') : s = s' := by
  have := drop_of_sbit h h' 0 fun k _ hk => by
    rw [← bitOf_stateOf s ⟨k, hk⟩, ← bitOf_stateOf s' ⟨k, hk⟩, e]
  simpa using this

theorem perm_injective {s s' : List W64} (h : s.length = 25) (h' : s'.length = 25) (e : perm s = perm s') : s = s' := by
  apply stateOf_injective h h'
  apply keccakF_injective
  rw [← stateOf_perm h, ← stateOf_perm h', e]

theorem perm_surjective {t : List W64} (h : t.length = 25) : ∃ s, s.length = 25 ∧ perm s = t := by
  have : Finite W64 := Finite.of_injective (fun b : W64 => b.toFin) fun _ _ h => BitVec.eq_of_toFin_eq h
  have : Finite {s : List W64 // s.length = 25} := (List.finite_length_eq W64 25).to_subtype
  let f : {s : List W64 // s.length = 25} → {s : List W64 // s.length = 25} := fun s => ⟨perm s.1, length_perm s.2⟩
  have hf : Function.Injective f := fun a b hab => Subtype.ext (perm_injective a.2 b.2 (congrArg Subtype.val hab))
  obtain ⟨s, hs⟩ := Finite.surjective_of_injective hf ⟨t, h⟩
  exact ⟨s.1, s.2, congrArg Subtype.val hs⟩

/-! ### Blocks -/

theorem block_injective {s : List W64} (hs : s.length = 25) {B B' : Bytes} (hl : B.length = B'.length) (h200 : B.length ≤ 200) (h : xorBytes s 0 B = xorBytes s 0 B') : B = B' := by
  apply List.ext_getElem hl
  intro i h1 h2
  apply BitVec.eq_of_getLsbD_eq
  intro j hj
  have := congrArg (fun t => sbit t (8 * i + j)) h
  simp only [sbit_xorBytes _ _ _ hs (show 0 + B.length ≤ 200 by omega), sbit_xorBytes _ _ _ hs (show 0 + B'.length ≤ 200 by omega)] at this
  rw [show (8 * i + j) / 8 = i by omega, show (8 * i + j) % 8 = j by omega, decide_eq_true (by omega), decide_eq_true (by omega), Bool.true_and, Bool.true_and, Nat.sub_zero] at this
  have := xor_cancel_l this
  rwa [List.getD_eq_getElem?_getD, List.getD_eq_getElem?_getD, List.getElem?_eq_getElem h1, List.getElem?_eq_getElem h2] at this

theorem inner_eq {s s' : List W64} (hs : s.length = 25) (hs' : s'.length = 25) {B B' : Bytes} {r : Nat} (hr : r ≤ 200) (h8 : r % 8 = 0) (hB : B.length = r) (hB' : B'.length = r)
    (h : xorBytes s 0 B = xorBytes s' 0 B') : s.drop (r / 8) = s'.drop (r / 8) := by
  apply drop_of_sbit hs hs'
  intro k hk _
  have := congrArg (fun t => sbit t k) h
  simp only [sbit_xorBytes _ _ _ hs (show 0 + B.length ≤ 200 by omega), sbit_xorBytes _ _ _ hs' (show 0 + B'.length ≤ 200 by omega)] at this
  rwa [decide_eq_false (by omega), decide_eq_false (by omega), Bool.false_and, Bool.false_and, Bool.xor_false, Bool.xor_false] at this

/-- The words of the state after the first `i` blocks of `P` (no line of its own; what common/fips202.c:349-380 has computed by then). -/
def after (r : Nat) (P : Bytes) (i : Nat) : List W64 := (feedAll r incInit (P.take (r * i))).s

theorem after_run {r : Nat} (h0 : 0 < r) (hr : r ≤ 200) {P : Bytes} {i : Nat} (hi : r * i ≤ P.length) : feedAll r incInit (P.take (r * i)) = ⟨after r P i, 0⟩ ∧ (after r P i).length = 25 := by
  obtain ⟨s, e, hl, -⟩ := absorb_spec h0 hr P i hi
  unfold after
  rw [e]
  exact ⟨rfl, hl⟩

theorem after_succ {r : Nat} (h0 : 0 < r) (hr : r ≤ 200) {P : Bytes} {i : Nat} (hi : r * (i + 1) ≤ P.length) : after r P (i + 1) = perm (xorBytes (after r P i) 0 (slice P (r * i) r)) := by
  have hi' : r * i + r ≤ P.length := by rw [Nat.mul_add, Nat.mul_one] at hi; exact hi
  have e : P.take (r * (i + 1)) = P.take (r * i) ++ slice P (r * i) r := by rw [Nat.mul_add, Nat.mul_one, List.take_add]; rfl
  rw [after, e, feedAll_append, (after_run h0 hr (by omega)).1, feedAll_eq _ _ (by simp only [Nat.zero_add]; exact length_slice hi') h0]

/-- Two different prefixes of whole blocks that lead to states with the same inner part (no line of its own). -/
def Inner (r : Nat) (P P' : Bytes) (n n' : Nat) : Prop :=
  ∃ i i', i ≤ n ∧ i' ≤ n' ∧ P.take (r * i) ≠ P'.take (r * i') ∧ (after r P i).drop (r / 8) = (after r P' i').drop (r / 8)

theorem Inner.mono {r : Nat} {P P' : Bytes} {n n' k k' : Nat} (h : Inner r P P' n n') (h1 : n ≤ k) (h2 : n' ≤ k') : Inner r P P' k k' := by
  obtain ⟨i, i', a, b, c⟩ := h
  exact ⟨i, i', by omega, by omega, c⟩

theorem length_ne {r n : Nat} (h0 : 0 < r) {P P' : Bytes} (hn : r * (n + 1) ≤ P.length) : P.take (r * (n + 1)) ≠ P'.take (r * 0) := by
  intro e
  have := congrArg List.length e
  rw [List.length_take, Nat.mul_zero, List.take_zero, List.length_nil, Nat.mul_add] at this
  rw [Nat.mul_add] at hn
  omega

theorem take_succ {r i : Nat} {P : Bytes} : P.take (r * (i + 1)) = P.take (r * i) ++ slice P (r * i) r := by rw [Nat.mul_add, Nat.mul_one, List.take_add]; rfl

theorem step {r : Nat} (h0 : 0 < r) (hr : r ≤ 200) (h8 : r % 8 = 0) {P P' : Bytes} {n n' : Nat} (hn : r * (n + 1) ≤ P.length) (hn' : r * (n' + 1) ≤ P'.length)
    (ih : after r P n = after r P' n' → P.take (r * n) = P'.take (r * n') ∨ Inner r P P' n n')
    (e : xorBytes (after r P n) 0 (slice P (r * n) r) = xorBytes (after r P' n') 0 (slice P' (r * n') r)) :
    P.take (r * (n + 1)) = P'.take (r * (n' + 1)) ∨ Inner r P P' n n' := by
  rw [Nat.mul_add, Nat.mul_one] at hn hn'
  have l1 : (slice P (r * n) r).length = r := length_slice hn
  have l2 : (slice P' (r * n') r).length = r := length_slice hn'
  have a1 := (after_run h0 hr (P := P) (i := n) (by omega)).2
  have a2 := (after_run h0 hr (P := P') (i := n') (by omega)).2
  by_cases hs : after r P n = after r P' n'
  · rcases ih hs with ht | hi
    · left
      rw [← hs] at e
      rw [take_succ, take_succ, ht, block_injective a1 (by rw [l1, l2]) (by omega) e]
    · exact .inr hi
  · right
    refine ⟨n, n', Nat.le_refl _, Nat.le_refl _, fun ht => hs ?_, inner_eq a1 a2 hr h8 l1 l2 e⟩
    rw [after, after, ht]

theorem same_state {r : Nat} (h0 : 0 < r) (hr : r ≤ 200) (h8 : r % 8 = 0) {P P' : Bytes} (n : Nat) : ∀ n', r * n ≤ P.length → r * n' ≤ P'.length →
    after r P n = after r P' n' → P.take (r * n) = P'.take (r * n') ∨ Inner r P P' n n' := by
  induction n with
  | zero =>
    intro n' hn hn' e
    cases n' with
    | zero => left; rw [Nat.mul_zero, List.take_zero, List.take_zero]
    | succ n' => exact .inr ⟨0, n' + 1, by omega, by omega, (length_ne h0 hn').symm, by rw [e]⟩
  | succ n ih =>
    intro n' hn hn' e
    cases n' with
    | zero => exact .inr ⟨n + 1, 0, by omega, by omega, length_ne h0 hn, by rw [e]⟩
    | succ n' =>
      have b1 : r * n ≤ P.length := by rw [Nat.mul_add] at hn; omega
      have b2 : r * n' ≤ P'.length := by rw [Nat.mul_add] at hn'; omega
      rw [after_succ h0 hr hn, after_succ h0 hr hn'] at e
      have e' := perm_injective (by rw [length_xorBytes, (after_run h0 hr b1).2]) (by rw [length_xorBytes, (after_run h0 hr b2).2]) e
      exact (step h0 hr h8 hn hn' (fun h => ih n' b1 b2 h) e').imp id fun h => h.mono (by omega) (by omega)

/-! ### Padding -/

theorem pad_head {r : Nat} {p : Byte} {len : Nat} (hp : p = 0x1F ∨ p = 0x06) : ∃ b t, padBytes r p len = b :: t ∧ b ≠ 0 ∧ b ≠ 128 ∧ ∀ x ∈ t, x = 0 ∨ x = 128 := by
  unfold padBytes
  dsimp only
  split
  · exact ⟨_, [], rfl, by rcases hp with rfl | rfl <;> decide, by rcases hp with rfl | rfl <;> decide, by simp⟩
  · refine ⟨p, _, rfl, by rcases hp with rfl | rfl <;> decide, by rcases hp with rfl | rfl <;> decide, fun x hx => ?_⟩
    rw [List.mem_append] at hx
    rcases hx with hx | hx
    · exact .inl (List.eq_of_mem_replicate hx)
    · exact .inr (by simpa using hx)

theorem pad_p {r len : Nat} {p p' : Byte} (hp : p = 0x1F ∨ p = 0x06) (hp' : p' = 0x1F ∨ p' = 0x06) (h : padBytes r p len = padBytes r p' len) : p = p' := by
  unfold padBytes at h
  dsimp only at h
  split at h
  · rcases hp with rfl | rfl <;> rcases hp' with rfl | rfl <;> first | rfl | (revert h; decide)
  · exact (List.cons.inj h).1

theorem pad_tail {a b : Bytes} {x y : Byte} {t u : Bytes} (h : a ++ x :: t = b ++ y :: u) (hx : x ≠ 0 ∧ x ≠ 128) (hu : ∀ z ∈ u, z = 0 ∨ z = 128) : ¬ b.length < a.length := by
  intro hl
  have e := congrArg (fun l : Bytes => l[a.length]?) h
  rw [List.getElem?_append_right (Nat.le_refl _), Nat.sub_self, List.getElem?_append_right (by omega), show a.length - b.length = (a.length - b.length - 1) + 1 by omega,
    List.getElem?_cons_zero, List.getElem?_cons_succ] at e
  have := hu x (List.mem_of_getElem? e.symm)
  rcases this with h | h
  · exact hx.1 h
  · exact hx.2 h

theorem pad_injective {r : Nat} {m m' : Bytes} {p p' : Byte} (hp : p = 0x1F ∨ p = 0x06) (hp' : p' = 0x1F ∨ p' = 0x06)
    (h : m ++ padBytes r p m.length = m' ++ padBytes r p' m'.length) : m = m' ∧ p = p' := by
  obtain ⟨b, t, e, b0, b1, ht⟩ := pad_head (r := r) (p := p) (len := m.length) hp
  obtain ⟨b', t', e', b0', b1', ht'⟩ := pad_head (r := r) (p := p') (len := m'.length) hp'
  have h' := h
  rw [e, e'] at h'
  have l1 := pad_tail h' ⟨b0, b1⟩ ht'
  have l2 := pad_tail h'.symm ⟨b0', b1'⟩ ht
  have hl : m.length = m'.length := by omega
  obtain ⟨hm, hpad⟩ := List.append_inj h hl
  refine ⟨hm, pad_p hp hp' (r := r) (len := m.length) ?_⟩
  rw [hpad, hm]

/-! ### The padded state -/

theorem length_pad {r : Nat} (h0 : 0 < r) (p : Byte) (m : Bytes) : (m ++ padBytes r p m.length).length = r * (m.length / r + 1) := by
  have := Nat.mod_lt m.length h0
  have := Nat.div_add_mod m.length r
  rw [List.length_append, length_padBytes h0, Nat.mul_add, Nat.mul_one]
  omega

theorem padded_after {r : Nat} (h0 : 0 < r) (hr : r ≤ 200) (p : Byte) (m : Bytes) :
    padded r p m = xorBytes (after r (m ++ padBytes r p m.length) (m.length / r)) 0 (slice (m ++ padBytes r p m.length) (r * (m.length / r)) r) := by
  have hlt := Nat.mod_lt m.length h0
  have hda := Nat.div_add_mod m.length r
  have hlen := length_pad h0 p m
  rw [Nat.mul_add, Nat.mul_one] at hlen
  obtain ⟨e, -⟩ := after_run h0 hr (P := m ++ padBytes r p m.length) (i := m.length / r) (by omega)
  rw [List.take_append_of_le_length (by omega)] at e
  have es : slice (m ++ padBytes r p m.length) (r * (m.length / r)) r = m.drop (r * (m.length / r)) ++ padBytes r p m.length := by
    unfold slice
    rw [List.drop_append_of_le_length (by omega), List.take_of_length_le]
    rw [List.length_append, List.length_drop, length_padBytes h0]
    omega
  unfold padded
  dsimp only
  have em : feedAll r incInit m = feedAll r ⟨after r (m ++ padBytes r p m.length) (m.length / r), 0⟩ (m.drop (r * (m.length / r))) := by
    rw [← e, ← feedAll_append, List.take_append_drop]
  rw [em, feedAll_lt _ _ (by simp only [List.length_drop, Nat.zero_add]; omega), es, xorBytes_append]

theorem padded_same {r : Nat} (h0 : 0 < r) (hr : r ≤ 200) (h8 : r % 8 = 0) {p p' : Byte} {m m' : Bytes} (hp : p = 0x1F ∨ p = 0x06) (hp' : p' = 0x1F ∨ p' = 0x06)
    (h : padded r p m = padded r p' m') : (m = m' ∧ p = p') ∨ Inner r (m ++ padBytes r p m.length) (m' ++ padBytes r p' m'.length) (m.length / r) (m'.length / r) := by
  rw [padded_after h0 hr, padded_after h0 hr] at h
  have hl := length_pad h0 p m
  have hl' := length_pad h0 p' m'
  have s1 : r * (m.length / r + 1) = r * (m.length / r) + r := by rw [Nat.mul_add, Nat.mul_one]
  have s2 : r * (m'.length / r + 1) = r * (m'.length / r) + r := by rw [Nat.mul_add, Nat.mul_one]
  rcases step h0 hr h8 (by omega) (by omega) (fun e => same_state h0 hr h8 _ _ (by omega) (by omega) e) h with ht | hi
  · left
    rw [← hl, ← hl', List.take_length, List.take_length] at ht
    exact pad_injective hp hp' ht
  · exact .inr hi

end Verif.Keccak
