import Mathlib.Data.List.Basic
import Mathlib.Tactic.Common

/-!
Foundations of the model of the C code: outcomes, checked array access, loops.

This file models no particular function of /repo.  It fixes how C constructs are read:
* `Fault.ub`      : the C program has undefined behaviour here (out-of-bounds access, signed overflow, ...)
* `Fault.diverge` : a loop with no static bound did not finish within the fuel given to the model.
-/

namespace Verif

/-- `unsigned char` and `uint8_t`, the `u8` of tweetnacl/tweetnacl.c:5. -/
abbrev Byte := BitVec 8
/-- An array of bytes, such as `seedTemp` in hybrid-dilithium-sphincs/hybrid.c:142. -/
abbrev Bytes := List Byte

/-- Abnormal outcomes of a piece of C code (no line of its own). -/
inductive Fault where
  | ub
  | diverge
  deriving DecidableEq, Repr

/-- A C computation without access to caller memory (no line of its own). -/
abbrev C := Except Fault

variable {α β σ : Type}

@[simp] theorem ok_bind (a : α) (f : α → C β) : ((Except.ok a : C α) >>= f) = f a := rfl
@[simp] theorem error_bind (e : Fault) (f : α → C β) : ((Except.error e : C α) >>= f) = .error e := rfl
@[simp] theorem pure_eq_ok (a : α) : (pure a : C α) = .ok a := rfl

theorem bind_eq_ok {x : C α} {f : α → C β} {b : β} :
    (x >>= f) = .ok b ↔ ∃ a, x = .ok a ∧ f a = .ok b := by
  cases x with
  | error e => simp
  | ok a => simp

/-- Array read `a[i]`; outside the array it is undefined behaviour (for example hybrid-dilithium-sphincs/hybrid.c:146). -/
def rd (a : List α) (i : Nat) : C α :=
  match a[i]? with
  | some x => .ok x
  | none => .error .ub

/-- Array write `a[i] = x`; outside the array it is undefined behaviour (for example hybrid-dilithium-sphincs/hybrid.c:146). -/
def wr (a : List α) (i : Nat) (x : α) : C (List α) :=
  if i < a.length then .ok (a.set i x) else .error .ub

theorem rd_ok {a : List α} {i : Nat} (h : i < a.length) : rd a i = .ok a[i] := by
  simp [rd, h]

theorem rd_eq_ok_iff {a : List α} {i : Nat} {x : α} : rd a i = .ok x ↔ a[i]? = some x := by
  unfold rd; split <;> simp_all

theorem wr_ok {a : List α} {i : Nat} {x : α} (h : i < a.length) : wr a i x = .ok (a.set i x) := by
  simp [wr, h]

/-- `for (k = i; k < i + n; k++) s = f(k, s)` (for example hybrid-dilithium-sphincs/hybrid.c:145-148). -/
def loop (f : Nat → σ → C σ) : (i n : Nat) → σ → C σ
  | _, 0, s => .ok s
  | i, n + 1, s => f i s >>= loop f (i + 1) n

@[simp] theorem loop_zero (f : Nat → σ → C σ) (i : Nat) (s : σ) : loop f i 0 s = .ok s := rfl

theorem loop_succ (f : Nat → σ → C σ) (i n : Nat) (s : σ) :
    loop f i (n + 1) s = f i s >>= loop f (i + 1) n := rfl

/-- Total-correctness rule: an invariant that every iteration preserves without fault. -/
theorem loop_inv (Inv : Nat → σ → Prop) (f : Nat → σ → C σ) (i n : Nat) (s : σ)
    (h0 : Inv i s)
    (hs : ∀ k s, i ≤ k → k < i + n → Inv k s → ∃ s', f k s = .ok s' ∧ Inv (k + 1) s') :
    ∃ s', loop f i n s = .ok s' ∧ Inv (i + n) s' := by
  induction n generalizing i s with
  | zero => exact ⟨s, rfl, h0⟩
  | succ n ih =>
    obtain ⟨s1, e1, h1⟩ := hs i s (Nat.le_refl _) (by omega) h0
    obtain ⟨s2, e2, h2⟩ := ih (i + 1) s1 h1 (fun k s hk hk' => hs k s (by omega) (by omega))
    refine ⟨s2, ?_, ?_⟩
    · rw [loop_succ, e1]; exact e2
    · have : i + 1 + n = i + (n + 1) := by omega
      rwa [this] at h2

/-- A loop splits at any point. -/
theorem loop_add (f : Nat → σ → C σ) (i m n : Nat) (s : σ) :
    loop f i (m + n) s = loop f i m s >>= loop f (i + m) n := by
  induction m generalizing i s with
  | zero => simp
  | succ m ih =>
    rw [show m + 1 + n = (m + n) + 1 by omega, loop_succ, loop_succ]
    cases f i s with
    | error e => simp
    | ok s1 =>
      simp only [ok_bind]
      rw [ih, show i + 1 + m = i + (m + 1) by omega]

theorem loop_congr {f g : Nat → σ → C σ} (i n : Nat) (s : σ)
    (h : ∀ k s, i ≤ k → k < i + n → f k s = g k s) : loop f i n s = loop g i n s := by
  induction n generalizing i s with
  | zero => rfl
  | succ n ih =>
    rw [loop_succ, loop_succ, h i s (Nat.le_refl _) (by omega)]
    cases g i s with
    | error e => rfl
    | ok s1 => simpa using ih (i + 1) s1 (fun k s hk hk' => h k s (by omega) (by omega))

/-- Partial-correctness rule. -/
theorem loop_inv_partial (Inv : Nat → σ → Prop) (f : Nat → σ → C σ) (i n : Nat) (s s' : σ)
    (h0 : Inv i s)
    (hs : ∀ k s s', i ≤ k → k < i + n → Inv k s → f k s = .ok s' → Inv (k + 1) s')
    (he : loop f i n s = .ok s') : Inv (i + n) s' := by
  induction n generalizing i s with
  | zero => simp at he; subst he; exact h0
  | succ n ih =>
    rw [loop_succ, bind_eq_ok] at he
    obtain ⟨s1, e1, e2⟩ := he
    have h1 := hs i s s1 (Nat.le_refl _) (by omega) h0 e1
    have := ih (i + 1) s1 h1 (fun k s s' hk hk' => hs k s s' (by omega) (by omega)) e2
    rwa [show i + 1 + n = i + (n + 1) by omega] at this

/-- The `n` elements of `b` from position `o` on (no line of its own; used to state results). -/
def slice (b : List α) (o n : Nat) : List α := (b.drop o).take n

/-- `b` with the elements from position `o` on overwritten by `x` (no line of its own; used to state results). -/
def splice (b : List α) (o : Nat) (x : List α) : List α := b.take o ++ x ++ b.drop (o + x.length)

theorem length_slice {b : List α} {o n : Nat} (h : o + n ≤ b.length) : (slice b o n).length = n := by
  simp [slice]; omega

theorem length_splice {b x : List α} {o : Nat} (h : o + x.length ≤ b.length) :
    (splice b o x).length = b.length := by
  simp [splice]; omega

@[simp] theorem slice_zero_length (b : List α) : slice b 0 b.length = b := by simp [slice]
@[simp] theorem splice_nil (b : List α) (o : Nat) : splice b o [] = b := by simp [splice]

theorem splice_all {b x : List α} (h : x.length = b.length) : splice b 0 x = x := by
  simp [splice, h]

theorem slice_splice_same {b x : List α} {o : Nat} (h : o ≤ b.length) :
    slice (splice b o x) o x.length = x := by
  unfold slice splice
  rw [List.append_assoc, List.drop_append_of_le_length (by simp; omega)]
  simp

/-- Element-wise description of `splice`. -/
theorem getElem?_splice (b x : List α) (o i : Nat) (h : o + x.length ≤ b.length) :
    (splice b o x)[i]? = if o ≤ i ∧ i < o + x.length then x[i - o]? else b[i]? := by
  unfold splice
  rw [List.append_assoc]
  by_cases h1 : i < o
  · rw [List.getElem?_append_left (by simp; omega)]
    simp [h1]; omega
  · rw [List.getElem?_append_right (by simp; omega)]
    have hl : (List.take o b).length = o := by simp; omega
    rw [hl]
    by_cases h2 : i < o + x.length
    · rw [List.getElem?_append_left (by omega)]
      simp [h2]; omega
    · rw [List.getElem?_append_right (by omega)]
      simp [h2]
      congr 1; omega

theorem getElem?_slice (b : List α) (o n i : Nat) :
    (slice b o n)[i]? = if i < n then b[o + i]? else none := by
  simp [slice, List.getElem?_take]

/-- `for (i = 0; i < n; i++) dst[d + i] = src[s + i];` on arrays that do not overlap (for example hybrid-dilithium-sphincs/hybrid.c:190-192, and `memcpy` as in sphincs/address.c:36-38). -/
def copy (dst : List α) (d : Nat) (src : List α) (s n : Nat) : C (List α) :=
  loop (fun i b => do
    let v ← rd src (s + i)
    wr b (d + i) v) 0 n dst

theorem splice_snoc {b x : List α} {o : Nat} {v : α} (h : o + x.length < b.length) :
    (splice b o x).set (o + x.length) v = splice b o (x ++ [v]) := by
  apply List.ext_getElem?
  intro i
  have hx : (x ++ [v]).length = x.length + 1 := by simp
  rw [List.getElem?_set, getElem?_splice b x o i (by omega), length_splice (by omega),
    getElem?_splice b (x ++ [v]) o i (by omega), hx]
  by_cases h1 : o + x.length = i
  · subst h1
    simp [h]
  · rw [if_neg h1]
    by_cases h2 : o ≤ i ∧ i < o + x.length
    · rw [if_pos h2, if_pos (by omega), List.getElem?_append_left (by omega)]
    · rw [if_neg h2, if_neg (by omega)]

theorem slice_snoc {b : List α} {o n : Nat} (h : o + n < b.length) :
    slice b o (n + 1) = slice b o n ++ [b[o + n]] := by
  apply List.ext_getElem?
  intro i
  rw [getElem?_slice]
  by_cases h1 : i < n
  · rw [List.getElem?_append_left (by rw [length_slice (by omega)]; omega), getElem?_slice]
    simp [h1]; omega
  · rw [List.getElem?_append_right (by rw [length_slice (by omega)]; omega), length_slice (by omega)]
    by_cases h2 : i = n
    · subst h2; simp [h]
    · rw [if_neg (by omega), List.getElem?_eq_none]
      simp; omega

theorem copy_ok {dst src : List α} {d s n : Nat} (hs : s + n ≤ src.length) (hd : d + n ≤ dst.length) :
    copy dst d src s n = .ok (splice dst d (slice src s n)) := by
  unfold copy
  obtain ⟨b, e, h⟩ := loop_inv (fun k b => b = splice dst d (slice src s k))
    (fun i b => do let v ← rd src (s + i); wr b (d + i) v) 0 n dst (by simp [slice])
    (by
      intro k b _ hk hb
      subst hb
      have hl : (slice src s k).length = k := length_slice (by omega)
      refine ⟨splice dst d (slice src s (k + 1)), ?_, rfl⟩
      rw [rd_ok (by omega), ok_bind, wr_ok (by rw [length_splice (by omega)]; omega)]
      rw [slice_snoc (by omega), ← splice_snoc (by omega), hl])
  simp only [Nat.zero_add] at h
  rw [e, h]

/-- Little-endian bytes of a 64-bit value, as written by `*p = v` on a little-endian machine (for example hybrid-dilithium-sphincs/hybrid.c:341). -/
def le64 (v : Nat) : Bytes := (List.range 8).map fun i => BitVec.ofNat 8 (v >>> (8 * i))

/-- The value read by `*p` from eight little-endian bytes (for example hybrid-dilithium-sphincs/hybrid.c:395). -/
def ofLe : Bytes → Nat
  | [] => 0
  | b :: bs => b.toNat + 256 * ofLe bs

@[simp] theorem length_le64 (v : Nat) : (le64 v).length = 8 := by simp [le64]

theorem ofLe_le64 (v : Nat) (h : v < 2 ^ 64) : ofLe (le64 v) = v := by
  simp [le64, List.range_succ, ofLe, Nat.shiftRight_eq_div_pow]
  omega

end Verif
