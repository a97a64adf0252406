import Verif.Conc.Run
import Verif.Conc.Foot
import Mathlib.Data.Set.Basic
import Mathlib.Data.Set.Insert
import Mathlib.Data.List.Induction

/-!
A call while other threads change the memory that it reads: a logic for one thread in which every read of common memory gives an arbitrary byte.
-/

namespace Verif.Conc
open Verif

variable {α β ι : Type}

/-- Bytes with their addresses (no line of its own). -/
abbrev Facts := Set (Addr × Byte)

/-- The bytes `x` at `p + o` (no line of its own). -/
def At (p : Ptr) (o : Nat) (x : Bytes) : Facts := {f | f.1.1 = p.blk ∧ ∃ k, x[k]? = some f.2 ∧ f.1.2 = p.off + (o + k)}

@[simp] theorem At_nil (p : Ptr) (o : Nat) : At p o [] = ∅ := by
  ext f; simp [At]

theorem At_append (p : Ptr) (o : Nat) (x y : Bytes) : At p o (x ++ y) = At p o x ∪ At p (o + x.length) y := by
  ext ⟨⟨b, q⟩, v⟩
  simp only [At, Set.mem_ofPred_eq, Set.mem_union]
  constructor
  · rintro ⟨h1, k, h2, h3⟩
    by_cases hk : k < x.length
    · rw [List.getElem?_append_left hk] at h2
      exact Or.inl ⟨h1, k, h2, h3⟩
    · rw [List.getElem?_append_right (by omega)] at h2
      exact Or.inr ⟨h1, k - x.length, h2, by omega⟩
  · rintro (⟨h1, k, h2, h3⟩ | ⟨h1, k, h2, h3⟩)
    · refine ⟨h1, k, ?_, h3⟩
      have hk : k < x.length := by
        by_contra hc
        rw [List.getElem?_eq_none (by omega)] at h2; cases h2
      rw [List.getElem?_append_left hk, h2]
    · refine ⟨h1, x.length + k, ?_, by omega⟩
      rw [List.getElem?_append_right (by omega), Nat.add_sub_cancel_left, h2]

theorem At_single (p : Ptr) (o : Nat) (v : Byte) : At p o [v] = {((p.blk, p.off + o), v)} := by
  ext ⟨⟨b, q⟩, w⟩
  simp only [At, Set.mem_ofPred_eq, Set.mem_singleton_iff, Prod.mk.injEq]
  constructor
  · rintro ⟨h1, k, h2, h3⟩
    cases k with
    | zero => simp only [List.getElem?_cons_zero, Option.some.injEq] at h2; exact ⟨⟨h1, by omega⟩, h2.symm⟩
    | succ k => simp at h2
  · rintro ⟨⟨h1, h2⟩, h3⟩
    exact ⟨h1, 0, by rw [h3]; rfl, by omega⟩

theorem At_snoc (p : Ptr) (o : Nat) (x : Bytes) (v : Byte) : At p o (x ++ [v]) = At p o x ∪ {((p.blk, p.off + (o + x.length)), v)} := by
  rw [At_append, At_single]

/-- Whatever the common memory (the blocks below `base`) holds at each read: when the program stores a byte into it, `G` holds of what it has read so far, the address and the byte; when it ends, `Q` holds of its stack,
of what it has read and stored, and of the result.  (No line of its own.) -/
def Safe (base : Nat) (G : Facts → Addr → Byte → Prop) (Q : (Nat → Option Bytes) → Nat → Facts → Facts → α → Prop) : Prog α → (Nat → Option Bytes) → Nat → Facts → Facts → Prop
  | .ret a, st, sp, R, S => Q st sp R S a
  | .fail _, _, _, _, _ => True
  | .load p i k, st, sp, R, S =>
    (p.blk < base → ∀ v, Safe base G Q (k v) st sp (R ∪ {((p.blk, p.off + i), v)}) S) ∧
    (base ≤ p.blk → ∀ v, byteAt st (p.blk, p.off + i) = some v → Safe base G Q (k v) st sp R S)
  | .store p i v k, st, sp, R, S =>
    (p.blk < base → G R (p.blk, p.off + i) v ∧ Safe base G Q k st sp R (S ∪ {((p.blk, p.off + i), v)})) ∧
    (base ≤ p.blk → Safe base G Q k (put st (p.blk, p.off + i) v) sp R S)
  | .draw n k, st, sp, R, S => ∀ o, (∀ b, o = some b → b.length = n) → Safe base G Q (k o) st sp R S
  | .push init k, st, sp, R, S => base ≤ sp ∧ Safe base G Q (k ⟨sp, 0⟩) (Function.update st sp (some init)) (sp + 1) R S
  | .pop p k, st, _, R, S => base ≤ p.blk ∧ Safe base G Q k (Function.update st p.blk none) p.blk R S

variable {base : Nat} {G : Facts → Addr → Byte → Prop} {Q : (Nat → Option Bytes) → Nat → Facts → Facts → α → Prop}
  {Q' : (Nat → Option Bytes) → Nat → Facts → Facts → β → Prop} {st : Nat → Option Bytes} {sp : Nat} {R S : Facts}

theorem Safe.bind {x : Prog α} {f : α → Prog β} (hx : Safe base G (fun st sp R S a => Safe base G Q' (f a) st sp R S) x st sp R S) : Safe base G Q' (x >>= f) st sp R S := by
  show Safe base G Q' (x.bind f) st sp R S
  induction x generalizing st sp R S with
  | ret a => exact hx
  | fail e => trivial
  | load p i k ih => exact ⟨fun hb v => ih v (hx.1 hb v), fun hb v hv => ih v (hx.2 hb v hv)⟩
  | store p i v k ih => exact ⟨fun hb => ⟨(hx.1 hb).1, ih (hx.1 hb).2⟩, fun hb => ih (hx.2 hb)⟩
  | draw n k ih => exact fun o ho => ih o (hx o ho)
  | push init k ih => exact ⟨hx.1, ih _ hx.2⟩
  | pop p k ih => exact ⟨hx.1, ih hx.2⟩

theorem Safe.mono {G₂ : Facts → Addr → Byte → Prop} {Q₂ : (Nat → Option Bytes) → Nat → Facts → Facts → α → Prop} {x : Prog α} (hG : ∀ R a v, G R a v → G₂ R a v)
    (h : ∀ st sp R S a, Q st sp R S a → Q₂ st sp R S a) (hx : Safe base G Q x st sp R S) : Safe base G₂ Q₂ x st sp R S := by
  induction x generalizing st sp R S with
  | ret a => exact h _ _ _ _ _ hx
  | fail e => trivial
  | load p i k ih => exact ⟨fun hb v => ih v (hx.1 hb v), fun hb v hv => ih v (hx.2 hb v hv)⟩
  | store p i v k ih => exact ⟨fun hb => ⟨hG _ _ _ (hx.1 hb).1, ih (hx.1 hb).2⟩, fun hb => ih (hx.2 hb)⟩
  | draw n k ih => exact fun o ho => ih o (hx o ho)
  | push init k ih => exact ⟨hx.1, ih _ hx.2⟩
  | pop p k ih => exact ⟨hx.1, ih hx.2⟩

theorem safe_pure {a : α} (h : Q st sp R S a) : Safe base G Q (pure a : Prog α) st sp R S := h

theorem safe_liftC {x : C α} (h : ∀ a, x = .ok a → Q st sp R S a) : Safe base G Q (liftC x) st sp R S := by
  cases x with
  | ok a => exact h a rfl
  | error e => trivial

theorem safe_load {Q : (Nat → Option Bytes) → Nat → Facts → Facts → Byte → Prop} {p : Ptr} {i : Nat} (hp : p.blk < base) (h : ∀ v, Q st sp (R ∪ {((p.blk, p.off + i), v)}) S v) :
    Safe base G Q (load p i) st sp R S := ⟨fun _ => h, fun hb => absurd hp (by omega)⟩

/-- Reading `n` bytes of common memory into a local array. -/
theorem safe_copyIn {Q : (Nat → Option Bytes) → Nat → Facts → Facts → Bytes → Prop} {dst : Bytes} {d : Nat} {p : Ptr} {o n : Nat} (hp : p.blk < base) (hd : d + n ≤ dst.length)
    (h : ∀ x : Bytes, x.length = n → Q st sp (R ∪ At p o x) S (splice dst d x)) : Safe base G Q (copyIn dst d p o n) st sp R S := by
  have key : ∀ n i (x : Bytes), x.length = i → d + (i + n) ≤ dst.length → (∀ y : Bytes, y.length = n → Q st sp (R ∪ At p o (x ++ y)) S (splice dst d (x ++ y))) →
      Safe base G Q (loopM (fun i b => do let v ← load p (o + i); liftC (wr b (d + i) v)) i n (splice dst d x)) st sp (R ∪ At p o x) S := by
    intro n
    induction n with
    | zero =>
      intro i x hx hl h
      have := h [] rfl
      rw [List.append_nil] at this
      exact this
    | succ n ih =>
      intro i x hx hl h
      refine Safe.bind (Safe.bind (safe_load hp fun v => safe_liftC fun b hb => ?_))
      rw [wr_ok (by rw [length_splice (by omega)]; omega)] at hb
      injection hb with hb
      rw [← hx, splice_snoc (by omega)] at hb
      subst hb
      rw [Set.union_assoc, ← hx, ← At_snoc]
      refine ih (x.length + 1) (x ++ [v]) (by simp) (by omega) fun y hy => ?_
      have := h (v :: y) (by simp [hy])
      rw [List.append_assoc]
      exact this
  have := key n 0 [] rfl (by omega) (by simpa using h)
  unfold copyIn
  simpa [splice] using this

/-- Writing to common memory. -/
theorem safe_copyOut {Q : (Nat → Option Bytes) → Nat → Facts → Facts → Unit → Prop} {src : Bytes} {s : Nat} {p : Ptr} {o n : Nat} (hp : p.blk < base) (hs : s + n ≤ src.length)
    (hG : ∀ f ∈ At p o (slice src s n), G R f.1 f.2) (h : Q st sp R (S ∪ At p o (slice src s n)) ()) : Safe base G Q (copyOut p o src s n) st sp R S := by
  have key : ∀ n i, s + (i + n) ≤ src.length → (∀ f ∈ At p o (slice src s (i + n)), G R f.1 f.2) → Q st sp R (S ∪ At p o (slice src s (i + n))) () →
      Safe base G Q (loopM (fun i _ => do let v ← liftC (rd src (s + i)); store p (o + i) v) i n ()) st sp R (S ∪ At p o (slice src s i)) := by
    intro n
    induction n with
    | zero => intro i _ _ h; exact h
    | succ n ih =>
      intro i hl hG h
      refine Safe.bind (Safe.bind (safe_liftC fun v hv => ⟨fun _ => ?_, fun hb => absurd hp (by omega)⟩))
      rw [rd_ok (by omega)] at hv
      injection hv with hv
      have hsl : (slice src s i).length = i := length_slice (by omega)
      have e : S ∪ At p o (slice src s i) ∪ {((p.blk, p.off + (o + i)), v)} = S ∪ At p o (slice src s (i + 1)) := by
        have hsn := slice_snoc (b := src) (o := s) (n := i) (by omega)
        rw [Set.union_assoc, hsn, ← hv, At_snoc, hsl]
      constructor
      · refine hG ((p.blk, p.off + (o + i)), v) ⟨rfl, i, ?_, rfl⟩
        show (List.take (i + (n + 1)) (List.drop s src))[i]? = some v
        rw [List.getElem?_take_of_lt (by omega), List.getElem?_drop, List.getElem?_eq_getElem (by omega), hv]
      · show Safe base G Q _ st sp R _
        rw [e]
        refine ih (i + 1) (by omega) ?_ ?_
        · rw [show i + 1 + n = i + (n + 1) by omega]; exact hG
        · rw [show i + 1 + n = i + (n + 1) by omega]; exact h
  have := key n 0 (by omega) (by simpa using hG) (by simpa using h)
  unfold copyOut
  simpa [slice] using this

/-- Writing to a local array. -/
theorem safe_copyOut_local {Q : (Nat → Option Bytes) → Nat → Facts → Facts → Unit → Prop} {src b : Bytes} {s : Nat} {k o n : Nat} (hp : base ≤ k) (hs : s + n ≤ src.length)
    (hb : o + n ≤ b.length) (h : Q (Function.update st k (some (splice b o (slice src s n)))) sp R S ()) :
    Safe base G Q (copyOut ⟨k, 0⟩ o src s n) (Function.update st k (some b)) sp R S := by
  have key : ∀ n i, s + (i + n) ≤ src.length → o + (i + n) ≤ b.length → Q (Function.update st k (some (splice b o (slice src s (i + n))))) sp R S () →
      Safe base G Q (loopM (fun i _ => do let v ← liftC (rd src (s + i)); store ⟨k, 0⟩ (o + i) v) i n ()) (Function.update st k (some (splice b o (slice src s i)))) sp R S := by
    intro n
    induction n with
    | zero => intro i _ _ h; exact h
    | succ n ih =>
      intro i hl hl' h
      refine Safe.bind (Safe.bind (safe_liftC fun v hv => ⟨fun hb => absurd hp (by simp only at hb; omega), fun _ => ?_⟩))
      rw [rd_ok (by omega)] at hv
      injection hv with hv
      have hsl : (slice src s i).length = i := length_slice (by omega)
      have e : put (Function.update st k (some (splice b o (slice src s i)))) (k, 0 + (o + i)) v = Function.update st k (some (splice b o (slice src s (i + 1)))) := by
        have hsn := slice_snoc (b := src) (o := s) (n := i) (by omega)
        unfold put
        rw [Function.update_self, Function.update_idem, hsn, ← splice_snoc (by omega), hsl, ← hv]
        simp
      show Safe base G Q _ (put _ (k, 0 + (o + i)) v) sp R S
      rw [e]
      exact ih (i + 1) (by omega) (by omega) (by rw [show i + 1 + n = i + (n + 1) by omega]; exact h)
  have := key n 0 (by omega) (by omega) (by simpa using h)
  unfold copyOut
  simpa [slice, splice] using this

/-- Copying from common memory to common memory. -/
theorem safe_copyMem {Q : (Nat → Option Bytes) → Nat → Facts → Facts → Unit → Prop} {p q : Ptr} {o s n : Nat} (hp : p.blk < base) (hq : q.blk < base)
    (hG : ∀ x : Bytes, x.length ≤ n → ∀ f ∈ At p o x, G (R ∪ At q s x) f.1 f.2) (h : ∀ x : Bytes, x.length = n → Q st sp (R ∪ At q s x) (S ∪ At p o x) ()) :
    Safe base G Q (copyMem p o q s n) st sp R S := by
  have key : ∀ n i (x : Bytes), x.length = i → (∀ y : Bytes, y.length ≤ n → ∀ f ∈ At p o (x ++ y), G (R ∪ At q s (x ++ y)) f.1 f.2) →
      (∀ y : Bytes, y.length = n → Q st sp (R ∪ At q s (x ++ y)) (S ∪ At p o (x ++ y)) ()) →
      Safe base G Q (loopM (fun i _ => do let v ← load q (s + i); store p (o + i) v) i n ()) st sp (R ∪ At q s x) (S ∪ At p o x) := by
    intro n
    induction n with
    | zero =>
      intro i x _ _ h
      have := h [] rfl
      rw [List.append_nil] at this
      exact this
    | succ n ih =>
      intro i x hx hG h
      refine Safe.bind (Safe.bind (safe_load hq fun v => ⟨fun _ => ?_, fun hb => absurd hp (by omega)⟩))
      rw [Set.union_assoc, ← hx, ← At_snoc]
      constructor
      · refine hG [v] (by simp) ((p.blk, p.off + (o + x.length)), v) ⟨rfl, x.length, ?_, rfl⟩
        simp
      · show Safe base G Q _ st sp _ (S ∪ At p o x ∪ _)
        rw [Set.union_assoc S, ← At_snoc]
        refine ih (x.length + 1) (x ++ [v]) (by simp) (fun y hy f hf => ?_) fun y hy => ?_
        · have := hG (v :: y) (by simp [hy]) f
          rw [List.append_assoc] at hf ⊢
          exact this hf
        · have := h (v :: y) (by simp [hy])
          rw [List.append_assoc]
          exact this
  have := key n 0 [] rfl (by simpa using hG) (by simpa using h)
  unfold copyMem
  simpa using this

/-- Copying from common memory to a local array. -/
theorem safe_copyMem_local {Q : (Nat → Option Bytes) → Nat → Facts → Facts → Unit → Prop} {q : Ptr} {b : Bytes} {k o s n : Nat} (hp : base ≤ k) (hq : q.blk < base) (hb : o + n ≤ b.length)
    (h : ∀ x : Bytes, x.length = n → Q (Function.update st k (some (splice b o x))) sp (R ∪ At q s x) S ()) :
    Safe base G Q (copyMem ⟨k, 0⟩ o q s n) (Function.update st k (some b)) sp R S := by
  have key : ∀ n i (x : Bytes), x.length = i → o + (i + n) ≤ b.length →
      (∀ y : Bytes, y.length = n → Q (Function.update st k (some (splice b o (x ++ y)))) sp (R ∪ At q s (x ++ y)) S ()) →
      Safe base G Q (loopM (fun i _ => do let v ← load q (s + i); store ⟨k, 0⟩ (o + i) v) i n ()) (Function.update st k (some (splice b o x))) sp (R ∪ At q s x) S := by
    intro n
    induction n with
    | zero =>
      intro i x _ _ h
      have := h [] rfl
      rw [List.append_nil] at this
      exact this
    | succ n ih =>
      intro i x hx hl h
      refine Safe.bind (Safe.bind (safe_load hq fun v => ⟨fun hb => absurd hp (by simp only at hb; omega), fun _ => ?_⟩))
      rw [Set.union_assoc, ← hx, ← At_snoc]
      have e : put (Function.update st k (some (splice b o x))) (k, 0 + (o + x.length)) v = Function.update st k (some (splice b o (x ++ [v]))) := by
        unfold put
        rw [Function.update_self, Function.update_idem, ← splice_snoc (by omega)]
        simp
      show Safe base G Q _ (put _ (k, 0 + (o + x.length)) v) sp _ S
      rw [e]
      refine ih (x.length + 1) (x ++ [v]) (by simp) (by omega) fun y hy => ?_
      have := h (v :: y) (by simp [hy])
      rw [List.append_assoc]
      exact this
  have := key n 0 [] rfl (by omega) (by simpa using h)
  unfold copyMem
  simpa [splice] using this

/-- Comparing a local array with common memory: no difference was found, so the bytes were read there. -/
theorem safe_cmpMem {Q : (Nat → Option Bytes) → Nat → Facts → Facts → Int → Prop} {m : Ptr} {b : Bytes} {k n : Nat} (hk : base ≤ k) (hm : m.blk < base) (hst : st k = some b) (hn : n ≤ b.length)
    (h0 : Q st sp (R ∪ At m 0 (b.take n)) S 0) (h4 : ∀ R', R ⊆ R' → Q st sp R' S (-4)) : Safe base G Q (cmpMem ⟨k, 0⟩ m 0 n) st sp R S := by
  have key : ∀ n i, i + n ≤ b.length → Q st sp (R ∪ At m 0 (b.take (i + n))) S 0 → Safe base G Q (cmpMem ⟨k, 0⟩ m i n) st sp (R ∪ At m 0 (b.take i)) S := by
    intro n
    induction n with
    | zero => intro i _ h; exact h
    | succ n ih =>
      intro i hl h
      refine Safe.bind ⟨fun hb => absurd hk (by simp only at hb; omega), fun _ x hx => Safe.bind (safe_load hm fun y => ?_)⟩
      have hx' : x = b[i] := by
        unfold byteAt at hx
        simp only [hst, Option.bind_some, Nat.zero_add] at hx
        rw [List.getElem?_eq_getElem (by omega)] at hx
        exact (Option.some.inj hx).symm
      by_cases hxy : x = y
      · rw [if_neg (not_not.2 hxy)]
        have e : R ∪ At m 0 (b.take i) ∪ {((m.blk, m.off + i), y)} = R ∪ At m 0 (b.take (i + 1)) := by
          rw [List.take_add_one, List.getElem?_eq_getElem (by omega), Option.toList_some, At_snoc, List.length_take, Nat.min_eq_left (by omega), Set.union_assoc, ← hxy, hx', Nat.zero_add]
        rw [e]
        exact ih (i + 1) (by omega) (by rw [show i + 1 + n = i + (n + 1) by omega]; exact h)
      · rw [if_pos hxy]
        exact h4 _ (fun f hf => Or.inl (Or.inl hf))
  have := key n 0 (by omega) (by simpa using h0)
  simpa using this

/-- Reading a local array. -/
theorem safe_copyIn_local {Q : (Nat → Option Bytes) → Nat → Facts → Facts → Bytes → Prop} {dst b : Bytes} {k n : Nat} (hk : base ≤ k) (hst : st k = some b) (hn : n ≤ b.length) (hd : n ≤ dst.length)
    (h : Q st sp R S (splice dst 0 (b.take n))) : Safe base G Q (copyIn dst 0 ⟨k, 0⟩ 0 n) st sp R S := by
  have key : ∀ n i, i + n ≤ b.length → i + n ≤ dst.length → Q st sp R S (splice dst 0 (b.take (i + n))) →
      Safe base G Q (loopM (fun i c => do let v ← load ⟨k, 0⟩ (0 + i); liftC (wr c (0 + i) v)) i n (splice dst 0 (b.take i))) st sp R S := by
    intro n
    induction n with
    | zero => intro i _ _ h; exact h
    | succ n ih =>
      intro i hl hl' h
      refine Safe.bind (Safe.bind ⟨fun hb => absurd hk (by simp only at hb; omega), fun _ x hx => safe_liftC fun c hc => ?_⟩)
      have hx' : b[i]? = some x := by
        unfold byteAt at hx
        simpa only [hst, Option.bind_some, Nat.zero_add] using hx
      have ht : (b.take i).length = i := by rw [List.length_take]; omega
      rw [wr_ok (by rw [length_splice (by omega)]; omega)] at hc
      injection hc with hc
      have e : splice dst 0 (b.take (i + 1)) = c := by
        rw [List.take_add_one, hx', Option.toList_some, ← splice_snoc (by omega), ht, hc]
      rw [← e]
      exact ih (i + 1) (by omega) (by omega) (by rw [show i + 1 + n = i + (n + 1) by omega]; exact h)
  have := key n 0 (by omega) (by omega) (by simpa using h)
  unfold copyIn
  simpa [splice] using this

theorem safe_loadU64_local {Q : (Nat → Option Bytes) → Nat → Facts → Facts → Nat → Prop} {k v : Nat} (hk : base ≤ k) (hst : st k = some (le64 v)) (hv : v < 2 ^ 64)
    (h : Q st sp R S v) : Safe base G Q (loadU64 ⟨k, 0⟩) st sp R S := by
  unfold loadU64 readMem
  refine Safe.bind (safe_copyIn_local hk hst (by simp) (by simp) ?_)
  have e : splice (List.replicate 8 0) 0 ((le64 v).take 8) = le64 v := by
    rw [List.take_of_length_le (by simp), splice_all (by simp)]
  rw [e]
  show Q st sp R S (ofLe (le64 v))
  rw [ofLe_le64 v hv]
  exact h

theorem safe_withLocal {init : Bytes} {f : Ptr → Prog α} (hsp : base ≤ sp)
    (h : Safe base G (fun st' _ R S a => Q (Function.update st' sp none) sp R S a) (f ⟨sp, 0⟩) (Function.update st sp (some init)) (sp + 1) R S) :
    Safe base G Q (withLocal init f) st sp R S := by
  refine ⟨hsp, ?_⟩
  refine Safe.bind (f := fun a => .pop ⟨sp, 0⟩ (.ret a)) (h.mono (fun _ _ _ h => h) fun st' sp' R' S' a hq => ⟨hsp, hq⟩)

/-! ### What it says about a run -/

section
variable [DecidableEq ι]

/-- At some moment of the run the common memory held the byte `v` at `a` (no line of its own). -/
def Held (c : Conf ι α) (s : List ι) (a : Addr) (v : Byte) : Prop := ∃ t, t <+: s ∧ byteAt (c.run t).mem a = some v

/-- In some step of the run thread `i` stored the byte `v` at `a` in common memory (no line of its own). -/
def Stored (c : Conf ι α) (i : ι) (s : List ι) (a : Addr) (v : Byte) : Prop :=
  ∃ t u p j k, s = t ++ i :: u ∧ ((c.run t).thr i).prog = .store p j v k ∧ a = (p.blk, p.off + j) ∧ a.1 < c.base ∧ (byteAt (c.run t).mem a).isSome

theorem run_base (c : Conf ι α) (s : List ι) : (c.run s).base = c.base := by
  induction s generalizing c with
  | nil => rfl
  | cons i s ih => exact ih _

theorem run_snoc (c : Conf ι α) (s : List ι) (i : ι) : c.run (s ++ [i]) = (c.run s).next i := by
  rw [run_append]; rfl

theorem Held.snoc {c : Conf ι α} {s : List ι} {i : ι} {a : Addr} {v : Byte} (h : Held c s a v) : Held c (s ++ [i]) a v := by
  obtain ⟨t, h1, h2⟩ := h
  exact ⟨t, h1.trans (List.prefix_append _ _), h2⟩

theorem stored_snoc {c : Conf ι α} {s : List ι} {i j : ι} {a : Addr} {v : Byte} :
    Stored c i (s ++ [j]) a v ↔ Stored c i s a v ∨ (j = i ∧ ∃ p o k, ((c.run s).thr i).prog = .store p o v k ∧ a = (p.blk, p.off + o) ∧ a.1 < c.base ∧ (byteAt (c.run s).mem a).isSome) := by
  constructor
  · rintro ⟨t, u, p, o, k, h1, h2⟩
    rcases List.eq_nil_or_concat u with rfl | ⟨u', x, rfl⟩
    · have := List.append_inj' h1 rfl
      obtain ⟨rfl, e⟩ := this
      right
      exact ⟨by simpa using e, p, o, k, h2⟩
    · have e : s ++ [j] = (t ++ i :: u') ++ [x] := by rw [h1]; simp
      have := List.append_inj' e rfl
      exact Or.inl ⟨t, u', p, o, k, this.1, h2⟩
  · rintro (⟨t, u, p, o, k, h1, h2⟩ | ⟨rfl, p, o, k, h2⟩)
    · exact ⟨t, u ++ [j], p, o, k, by rw [h1]; simp, h2⟩
    · exact ⟨s, [], p, o, k, rfl, h2⟩

/-- What is known about thread `i` after the schedule `s`: what it has read was there, and what it has stored is known (no line of its own). -/
theorem safe_run_from {G : Facts → Addr → Byte → Prop} {Q : (Nat → Option Bytes) → Nat → Facts → Facts → α → Prop} {c0 : Conf ι α} {i : ι} {st0 : Nat → Option Bytes}
    (hst0 : ∀ b, c0.base ≤ b → st0 b = (c0.thr i).stack b) (hsp0 : c0.base ≤ (c0.thr i).sp) (h : Safe c0.base G Q (c0.thr i).prog st0 (c0.thr i).sp ∅ ∅) (s : List ι) :
    (∀ a v, Stored c0 i s a v → ∃ R : Facts, (∀ f ∈ R, Held c0 s f.1 f.2) ∧ G R a v) ∧
    ∃ st R S, (∀ b, c0.base ≤ b → st b = ((c0.run s).thr i).stack b) ∧ c0.base ≤ ((c0.run s).thr i).sp ∧
      (∀ f ∈ R, Held c0 s f.1 f.2) ∧ (∀ a v, (a, v) ∈ S ↔ Stored c0 i s a v) ∧
      Safe c0.base G Q ((c0.run s).thr i).prog st ((c0.run s).thr i).sp R S := by
  induction s using List.reverseRecOn with
  | nil =>
    have none_ : ∀ a v, ¬ Stored c0 i [] a v := by
      rintro a v ⟨t, u, q, j, k, h1, -⟩
      simp at h1
    refine ⟨fun a v h => absurd h (none_ a v), st0, ∅, ∅, hst0, hsp0, fun f hf => hf.elim, fun a v => ⟨fun hf => hf.elim, fun h => absurd h (none_ a v)⟩, h⟩
  | append_singleton s j ih =>
    obtain ⟨ih1, st, R, S, hst, hsp, hR, hS, hsafe⟩ := ih
    have ih1' : ∀ a v, Stored c0 i s a v → ∃ R : Facts, (∀ f ∈ R, Held c0 (s ++ [j]) f.1 f.2) ∧ G R a v := by
      intro a v h
      obtain ⟨R, h1, h2⟩ := ih1 a v h
      exact ⟨R, fun f hf => (h1 f hf).snoc, h2⟩
    have hR' : ∀ f ∈ R, Held c0 (s ++ [j]) f.1 f.2 := fun f hf => (hR f hf).snoc
    by_cases hj : j = i
    swap
    · have old : ∀ a v, Stored c0 i (s ++ [j]) a v ↔ Stored c0 i s a v := by
        intro a v
        rw [stored_snoc]
        exact ⟨fun h => h.resolve_right fun h => hj h.1, Or.inl⟩
      rw [run_snoc, next_thr_ne _ (Ne.symm hj)]
      exact ⟨fun a v h => ih1' a v ((old a v).1 h), st, R, S, hst, hsp, hR', fun a v => (hS a v).trans (old a v).symm, hsafe⟩
    subst hj
    have hb : (c0.run s).base = c0.base := run_base _ _
    generalize hc : c0.run s = c at hst hsp hsafe hb ih1
    have hprog : ((c.next j).thr j).prog = (step (c.thr j).prog (c.world j)).1 := next_thr_self c j
    have hstk : ((c.next j).thr j).stack = (step (c.thr j).prog (c.world j)).2.mem := by simp [Conf.next]
    have hsp' : ((c.next j).thr j).sp = (step (c.thr j).prog (c.world j)).2.sp := by simp [Conf.next]
    rw [run_snoc, hc, hprog, hstk, hsp']
    have hw : ∀ b, c0.base ≤ b → (c.world j).mem b = st b := by
      intro b hbb
      show (if b < c.base then _ else _) = _
      rw [if_neg (by omega), hst b hbb]
    have hheld : ∀ a v, a.1 < c0.base → byteAt (c.world j).mem a = some v → Held c0 (s ++ [j]) a v := by
      intro a v ha h
      rw [world_byte (by rw [hb]; exact ha)] at h
      exact ⟨s, List.prefix_append _ _, by rw [hc]; exact h⟩
    have keep : (∀ q o v k, (c.thr j).prog = .store q o v k → ¬ q.blk < c0.base ∨ byteAt (c.world j).mem (q.blk, q.off + o) = none) →
        (∀ a v, Stored c0 j (s ++ [j]) a v ↔ Stored c0 j s a v) := by
      intro hno a v
      rw [stored_snoc]
      refine ⟨fun h => h.resolve_right ?_, Or.inl⟩
      rintro ⟨-, q, o, k, h1, rfl, h3, h4⟩
      rw [hc] at h1 h4
      have h3' : (q.blk, q.off + o).1 < c0.base := h3
      rcases hno q o v k h1 with h | h
      · exact h h3'
      · rw [world_byte (by rw [hb]; exact h3')] at h
        rw [h] at h4; cases h4
    cases hx : (c.thr j).prog with
    | ret a =>
      rw [hx] at hsafe
      have K := keep (by intro q o v k h; rw [hx] at h; cases h)
      exact ⟨fun a v h => ih1' a v ((K a v).1 h), st, R, S, fun b hb => (hw b hb).symm, hsp, hR', fun a v => (hS a v).trans (K a v).symm, hsafe⟩
    | fail e =>
      have K := keep (by intro q o v k h; rw [hx] at h; cases h)
      exact ⟨fun a v h => ih1' a v ((K a v).1 h), st, R, S, fun b hb => (hw b hb).symm, hsp, hR', fun a v => (hS a v).trans (K a v).symm, trivial⟩
    | load q o k =>
      rw [hx] at hsafe
      have K := keep (by intro q o v k h; rw [hx] at h; cases h)
      rw [step_load]
      cases hv : byteAt (c.world j).mem (q.blk, q.off + o) with
      | none => exact ⟨fun a v h => ih1' a v ((K a v).1 h), st, R, S, fun b hb => (hw b hb).symm, hsp, hR', fun a v => (hS a v).trans (K a v).symm, trivial⟩
      | some v =>
        by_cases hq : q.blk < c0.base
        · refine ⟨fun a v h => ih1' a v ((K a v).1 h), st, _, S, fun b hb => (hw b hb).symm, hsp, ?_, fun a v => (hS a v).trans (K a v).symm, hsafe.1 hq v⟩
          rintro f (hf | hf)
          · exact hR' f hf
          · rw [Set.mem_singleton_iff] at hf
            subst hf
            exact hheld _ _ hq hv
        · refine ⟨fun a v h => ih1' a v ((K a v).1 h), st, R, S, fun b hb => (hw b hb).symm, hsp, hR', fun a v => (hS a v).trans (K a v).symm, hsafe.2 (by omega) v ?_⟩
          unfold byteAt at hv ⊢
          rwa [hw _ (by simp only; omega)] at hv
    | store q o v k =>
      rw [hx] at hsafe
      rw [step_store]
      cases hv : byteAt (c.world j).mem (q.blk, q.off + o) with
      | none =>
        have K := keep (by
          intro q' o' v' k' h; rw [hx] at h
          injection h with h1 h2 h3 h4
          subst h1 h2
          exact Or.inr hv)
        exact ⟨fun a v h => ih1' a v ((K a v).1 h), st, R, S, fun b hb => (hw b hb).symm, hsp, hR', fun a v => (hS a v).trans (K a v).symm, trivial⟩
      | some v0 =>
        by_cases hq : q.blk < c0.base
        · have new : ∀ a w, Stored c0 j (s ++ [j]) a w ↔ Stored c0 j s a w ∨ (a = (q.blk, q.off + o) ∧ w = v) := by
            intro a w
            rw [stored_snoc, hc, hx]
            constructor
            · rintro (h | ⟨-, q', o', k', h1, h2, -⟩)
              · exact Or.inl h
              · injection h1 with h11 h12 h13 h14
                subst h11 h12 h13
                exact Or.inr ⟨h2, rfl⟩
            · rintro (h | ⟨rfl, rfl⟩)
              · exact Or.inl h
              · refine Or.inr ⟨rfl, q, o, k, rfl, rfl, hq, ?_⟩
                rw [world_byte (by rw [hb]; exact hq)] at hv
                rw [hv]; rfl
          refine ⟨fun a w h => ?_, st, R, _, fun b hbb => ?_, hsp, hR', fun a w => ?_, (hsafe.1 hq).2⟩
          · rcases (new a w).1 h with h | ⟨rfl, rfl⟩
            · exact ih1' a w h
            · exact ⟨R, hR', (hsafe.1 hq).1⟩
          · show st b = put (c.world j).mem _ v b
            unfold put
            rw [Function.update_of_ne (by simp only; omega), hw b hbb]
          · rw [new, ← hS]
            simp only [Set.mem_union, Set.mem_singleton_iff, Prod.mk.injEq]
        · have K := keep (by
            intro q' o' v' k' h; rw [hx] at h
            injection h with h1 h2 h3 h4
            subst h1 h2
            exact Or.inl hq)
          refine ⟨fun a v h => ih1' a v ((K a v).1 h), put st (q.blk, q.off + o) v, R, S, fun b hbb => ?_, hsp, hR', fun a v => (hS a v).trans (K a v).symm, hsafe.2 (by omega)⟩
          show _ = put (c.world j).mem _ v b
          unfold put
          by_cases e : b = q.blk
          · subst e; simp only [Function.update_self, hw _ hbb]
          · simp only [Function.update_of_ne e, hw _ hbb]
    | draw n k =>
      rw [hx] at hsafe
      have K := keep (by intro q o v k h; rw [hx] at h; cases h)
      exact ⟨fun a v h => ih1' a v ((K a v).1 h), st, R, S, fun b hb => (hw b hb).symm, hsp, hR', fun a v => (hS a v).trans (K a v).symm, hsafe _ fun b hb => (c.world j).rng.len_draw _ _ _ hb⟩
    | push init k =>
      rw [hx] at hsafe
      have K := keep (by intro q o v k h; rw [hx] at h; cases h)
      refine ⟨fun a v h => ih1' a v ((K a v).1 h), _, R, S, fun b hbb => ?_, Nat.le_succ_of_le hsp, hR', fun a v => (hS a v).trans (K a v).symm, hsafe.2⟩
      show _ = Function.update (c.world j).mem (c.thr j).sp (some init) b
      by_cases e : b = (c.thr j).sp
      · subst e; simp only [Function.update_self]
      · simp only [Function.update_of_ne e, hw _ hbb]
    | pop q k =>
      rw [hx] at hsafe
      have K := keep (by intro q o v k h; rw [hx] at h; cases h)
      refine ⟨fun a v h => ih1' a v ((K a v).1 h), _, R, S, fun b hbb => ?_, hsafe.1, hR', fun a v => (hS a v).trans (K a v).symm, hsafe.2⟩
      show _ = Function.update (c.world j).mem q.blk none b
      by_cases e : b = q.blk
      · subst e; simp only [Function.update_self]
      · simp only [Function.update_of_ne e, hw _ hbb]

/-- What is known about thread `i` after the schedule `s`: what it has read was there, and what it has stored is known (no line of its own). -/
theorem safe_run {G : Facts → Addr → Byte → Prop} {Q : (Nat → Option Bytes) → Nat → Facts → Facts → α → Prop} {W : World} {p : ι → Prog α} {i : ι}
    (h : Safe W.sp G Q (p i) (fun _ => none) W.sp ∅ ∅) (s : List ι) :
    (∀ a v, Stored (start W p) i s a v → ∃ R : Facts, (∀ f ∈ R, Held (start W p) s f.1 f.2) ∧ G R a v) ∧
    ∃ st R S, (∀ b, W.sp ≤ b → st b = (((start W p).run s).thr i).stack b) ∧ W.sp ≤ (((start W p).run s).thr i).sp ∧
      (∀ f ∈ R, Held (start W p) s f.1 f.2) ∧ (∀ a v, (a, v) ∈ S ↔ Stored (start W p) i s a v) ∧
      Safe W.sp G Q (((start W p).run s).thr i).prog st (((start W p).run s).thr i).sp R S :=
  safe_run_from (c0 := start W p) (fun _ _ => rfl) (Nat.le_refl _) h s

end

end Verif.Conc
