import Verif.Base

/-!
Traces.  A computation of the type `T` gives, beside its outcome, the list of everything an observer of the control flow and of
the memory addresses sees: which index of an array is read or written, and how each condition came out.  Which array is meant and which
condition, follows from the position in the program, and that follows from the conditions seen so far.

Not part of the trace: the time an instruction takes for different operands (the code has no division by a variable), and what the
compiler makes of the source.

The files Verif/Ct/*.lean hold copies of the models in this form; each copy is proved equal to the model once the trace is erased.
-/

namespace Verif.Ct
open Verif

/-- What is seen: an index that is read, an index that is written, the outcome of a condition (no line of its own). -/
inductive Ev where
  | read (i : Nat)
  | write (i : Nat)
  | branch (b : Bool)
  deriving DecidableEq, Repr

/-- An outcome together with its trace (no line of its own). -/
structure T (α : Type) where
  res : C α
  tr : List Ev

/-- One computation after another (no line of its own). -/
def T.bind {α β : Type} (x : T α) (f : α → T β) : T β :=
  match x.res with
  | .ok a => ⟨(f a).res, x.tr ++ (f a).tr⟩
  | .error e => ⟨.error e, x.tr⟩

instance : Monad T where
  pure a := ⟨.ok a, []⟩
  bind := T.bind

variable {α β γ δ σ τ : Type}

/-- Undefined behaviour (no line of its own). -/
def ub : T α := ⟨.error .ub, []⟩

/-- Array read `a[i]` (for example tweetnacl/tweetnacl.c:270). -/
def rd (a : List α) (i : Nat) : T α := ⟨Verif.rd a i, [.read i]⟩

/-- Array write `a[i] = x` (for example tweetnacl/tweetnacl.c:270). -/
def wr (a : List α) (i : Nat) (x : α) : T (List α) := ⟨Verif.wr a i x, [.write i]⟩

/-- `if (c) t else e` (for example tweetnacl/tweetnacl.c:376); also `c ? t : e` (for example tweetnacl/tweetnacl.c:207). -/
def cond (c : Prop) [Decidable c] (t e : T α) : T α := ⟨(if c then t else e).res, .branch c :: (if c then t else e).tr⟩

/-- `for (k = i; k < i + n; k++) s = f(k, s)` (for example tweetnacl/tweetnacl.c:270): the loop condition is seen before each pass and at the end. -/
def loop (f : Nat → σ → T σ) : (i n : Nat) → σ → T σ
  | _, 0, s => ⟨.ok s, [.branch false]⟩
  | i, n + 1, s => ⟨(f i s >>= loop f (i + 1) n).res, .branch true :: (f i s >>= loop f (i + 1) n).tr⟩

/-- `for (i = 0; i < n; i++) dst[d + i] = src[s + i];` (for example tweetnacl/tweetnacl.c:665). -/
def copy (dst : List α) (d : Nat) (src : List α) (s n : Nat) : T (List α) :=
  loop (fun i b => do
    let v ← rd src (s + i)
    wr b (d + i) v) 0 n dst

/-! ### Erasing the trace -/

theorem bind_res {x : T α} {f : α → T β} {y : C α} {g : α → C β} (h : x.res = y) (hf : ∀ a, (f a).res = g a) : (x >>= f).res = y >>= g := by
  subst h
  show (T.bind x f).res = _
  unfold T.bind
  cases x.res with
  | ok a => exact hf a
  | error e => rfl

theorem pure_res (a : α) : (pure a : T α).res = .ok a := rfl
theorem pure_res' (a : α) : (pure a : T α).res = (pure a : C α) := rfl
theorem ub_res : (ub : T α).res = .error .ub := rfl
theorem ub_bind_res (f : β → C α) : (ub : T α).res = (.error .ub : C β) >>= f := rfl
theorem rd_res (a : List α) (i : Nat) : (rd a i).res = Verif.rd a i := rfl
theorem wr_res (a : List α) (i : Nat) (x : α) : (wr a i x).res = Verif.wr a i x := rfl

theorem cond_res {c : Prop} [Decidable c] {t e : T α} {t' e' : C α} (ht : t.res = t') (he : e.res = e') : (cond c t e).res = if c then t' else e' := by
  unfold cond
  split <;> assumption

theorem cond_res_pos {c : Prop} [Decidable c] {t e : T α} {t' : C α} (h : c) (ht : t.res = t') : (cond c t e).res = t' := by
  unfold cond
  rw [if_pos h]
  exact ht

theorem cond_res_neg {c : Prop} [Decidable c] {t e : T α} {e' : C α} (h : ¬ c) (he : e.res = e') : (cond c t e).res = e' := by
  unfold cond
  rw [if_neg h]
  exact he

theorem loop_res {f : Nat → σ → T σ} {g : Nat → σ → C σ} (h : ∀ k s, (f k s).res = g k s) (i n : Nat) (s : σ) : (loop f i n s).res = Verif.loop g i n s := by
  induction n generalizing i s with
  | zero => rfl
  | succ n ih => exact bind_res (h i s) (ih (i + 1))

theorem copy_res (dst : List α) (d : Nat) (src : List α) (s n : Nat) : (copy dst d src s n).res = Verif.copy dst d src s n :=
  loop_res (fun _ _ => bind_res rfl fun _ => rfl) 0 n dst

/-! ### Comparing two runs -/

/-- If both computations end normally, their traces are the same and their results are related by `R`. -/
def Rel (R : α → β → Prop) (x : T α) (y : T β) : Prop := ∀ a b, x.res = .ok a → y.res = .ok b → x.tr = y.tr ∧ R a b

/-- The same without a claim about the results. -/
abbrev Same (x : T α) (y : T β) : Prop := Rel (fun _ _ => True) x y

theorem Rel.mono {R S : α → β → Prop} {x : T α} {y : T β} (h : Rel R x y) (hs : ∀ a b, R a b → S a b) : Rel S x y :=
  fun a b ha hb => ⟨(h a b ha hb).1, hs a b (h a b ha hb).2⟩

theorem Rel.same {R : α → β → Prop} {x : T α} {y : T β} (h : Rel R x y) : Same x y := h.mono fun _ _ _ => trivial

theorem Rel.bind {R : α → β → Prop} {S : γ → δ → Prop} {x : T α} {y : T β} {f : α → T γ} {g : β → T δ} (h : Rel R x y) (hf : ∀ a b, R a b → Rel S (f a) (g b)) :
    Rel S (x >>= f) (y >>= g) := by
  intro c d hc hd
  have ec : (x >>= f) = T.bind x f := rfl
  have ed : (y >>= g) = T.bind y g := rfl
  rw [ec] at hc ⊢
  rw [ed] at hd ⊢
  unfold T.bind at *
  cases hx : x.res with
  | error e => rw [hx] at hc; cases hc
  | ok a =>
    cases hy : y.res with
    | error e => rw [hy] at hd; cases hd
    | ok b =>
      rw [hx] at hc
      rw [hy] at hd
      obtain ⟨h1, h2⟩ := h a b hx hy
      obtain ⟨h3, h4⟩ := hf a b h2 c d hc hd
      exact ⟨by show x.tr ++ _ = y.tr ++ _; rw [h1, h3], h4⟩

theorem Rel.pure {R : α → β → Prop} {a : α} {b : β} (h : R a b) : Rel R (Pure.pure a : T α) (Pure.pure b) := by
  intro a' b' ha hb
  cases ha
  cases hb
  exact ⟨rfl, h⟩

theorem Rel.ub {R : α → β → Prop} {y : T β} : Rel R (ub : T α) y := by
  intro a b ha
  cases ha

theorem Rel.ub' {R : α → β → Prop} {x : T α} : Rel R x (Ct.ub : T β) := by
  intro a b _ hb
  cases hb

/-- A read: `R` holds of the elements if it holds of every two elements at the same place. -/
theorem Rel.rd {R : α → β → Prop} {a : List α} {b : List β} {i : Nat} (h : ∀ x y, a[i]? = some x → b[i]? = some y → R x y) : Rel R (rd a i) (rd b i) := by
  intro x y hx hy
  exact ⟨rfl, h x y (rd_eq_ok_iff.1 hx) (rd_eq_ok_iff.1 hy)⟩

theorem Same.rd {a : List α} {b : List β} {i : Nat} : Same (rd a i) (rd b i) := Rel.rd fun _ _ _ _ => trivial

theorem Same.wr {a : List α} {b : List β} {i : Nat} {x : α} {y : β} : Same (wr a i x) (wr b i y) := fun _ _ _ _ => ⟨rfl, trivial⟩

/-- A condition that comes out the same way in both runs. -/
theorem Rel.cond {R : α → β → Prop} {c d : Prop} [Decidable c] [Decidable d] {t e : T α} {t' e' : T β} (hc : c ↔ d)
    (ht : c → Rel R t t') (he : ¬ c → Rel R e e') : Rel R (cond c t e) (cond d t' e') := by
  intro a b ha hb
  unfold Ct.cond at *
  by_cases h : c
  · have h' : d := hc.1 h
    simp only [if_pos h, if_pos h'] at ha hb ⊢
    obtain ⟨h1, h2⟩ := ht h a b ha hb
    exact ⟨by rw [h1]; simp [h, h'], h2⟩
  · have h' : ¬ d := fun k => h (hc.2 k)
    simp only [if_neg h, if_neg h'] at ha hb ⊢
    obtain ⟨h1, h2⟩ := he h a b ha hb
    exact ⟨by rw [h1]; simp [h, h'], h2⟩

/-- Two loops with the same number of passes and a relation that every pass keeps. -/
theorem Rel.loop {R : Nat → σ → τ → Prop} {f : Nat → σ → T σ} {g : Nat → τ → T τ} (i n : Nat) {s : σ} {t : τ} (h0 : R i s t)
    (h : ∀ k s t, i ≤ k → k < i + n → R k s t → Rel (R (k + 1)) (f k s) (g k t)) : Rel (R (i + n)) (loop f i n s) (loop g i n t) := by
  induction n generalizing i s t with
  | zero =>
    intro a b ha hb
    cases ha
    cases hb
    exact ⟨rfl, h0⟩
  | succ n ih =>
    have := Rel.bind (h i s t (Nat.le_refl _) (by omega) h0)
      (fun a b hab => ih (i + 1) hab (fun k s t hk hk' => h k s t (by omega) (by omega)))
    intro a b ha hb
    obtain ⟨h1, h2⟩ := this a b ha hb
    refine ⟨?_, by rwa [show i + 1 + n = i + (n + 1) by omega] at h2⟩
    show _ :: _ = _ :: _
    rw [h1]

theorem Same.loop {f : Nat → σ → T σ} {g : Nat → τ → T τ} (i n : Nat) {s : σ} {t : τ} (h : ∀ k s t, Same (f k s) (g k t)) : Same (loop f i n s) (loop g i n t) :=
  (Rel.loop (R := fun _ _ _ => True) i n trivial fun k s t _ _ _ => h k s t).same

theorem Same.copy {dst dst' : List α} {src src' : List α} {d s n : Nat} : Same (copy dst d src s n) (copy dst' d src' s n) :=
  Same.loop 0 n fun _ _ _ => Same.rd.bind fun _ _ _ => Same.wr

/-- If both computations end normally with results related by `Q`, their traces are the same: what `Q` says may be seen. -/
def SameIf (Q : α → β → Prop) (x : T α) (y : T β) : Prop := ∀ a b, x.res = .ok a → y.res = .ok b → Q a b → x.tr = y.tr

theorem SameIf.of {Q : α → β → Prop} {x : T α} {y : T β} (h : Same x y) : SameIf Q x y := fun a b ha hb _ => (h a b ha hb).1

theorem bind_ok {x : T α} {f : α → T β} {b : β} (h : (x >>= f).res = .ok b) : ∃ a, x.res = .ok a ∧ (f a).res = .ok b := by
  rw [bind_res (y := x.res) (g := fun a => (f a).res) rfl fun _ => rfl] at h
  exact bind_eq_ok.1 h

theorem bind_tr {x : T α} {f : α → T β} {a : α} (h : x.res = .ok a) : (x >>= f).tr = x.tr ++ (f a).tr := by
  show (T.bind x f).tr = _
  unfold T.bind
  rw [h]

theorem SameIf.bind {Q : γ → δ → Prop} {x : T α} {y : T β} {f : α → T γ} {g : β → T δ} (h : Same x y) (hf : ∀ a b, SameIf Q (f a) (g b)) : SameIf Q (x >>= f) (y >>= g) := by
  intro c d hc hd hq
  obtain ⟨a, hx, hc⟩ := bind_ok hc
  obtain ⟨b, hy, hd⟩ := bind_ok hd
  rw [bind_tr hx, bind_tr hy, (h a b hx hy).1, hf a b c d hc hd hq]

theorem cond_run_pos {c : Prop} [Decidable c] {t e : T α} (h : c) : (cond c t e).res = t.res := cond_res_pos h rfl
theorem cond_run_neg {c : Prop} [Decidable c] {t e : T α} (h : ¬ c) : (cond c t e).res = e.res := cond_res_neg h rfl

theorem SameIf.cond {Q : α → β → Prop} {c d : Prop} [Decidable c] [Decidable d] {t e : T α} {t' e' : T β} (hc : c ↔ d)
    (ht : c → SameIf Q t t') (he : ¬ c → SameIf Q e e') : SameIf Q (cond c t e) (cond d t' e') := by
  intro a b ha hb hq
  by_cases h : c
  · have h' : d := hc.1 h
    rw [cond_run_pos h] at ha
    rw [cond_run_pos h'] at hb
    have := ht h a b ha hb hq
    simp [Ct.cond, h, h', this]
  · have h' : ¬ d := fun k => h (hc.2 k)
    rw [cond_run_neg h] at ha
    rw [cond_run_neg h'] at hb
    have := he h a b ha hb hq
    simp [Ct.cond, h, h', this]

/-! ### Tactics for code in which nothing depends on the data -/

/-- Erases the trace step by step; the arguments are the lemmas about the functions called. -/
syntax "er" "[" term,* "]" : tactic
macro_rules
  | `(tactic| er [$ls,*]) => do
    let alts ← ls.getElems.mapM fun l => `(tactic| exact $l)
    `(tactic| with_reducible repeat' (first | exact pure_res _ | exact pure_res' _ | exact ub_res | exact ub_bind_res _ | exact rd_res _ _ | exact wr_res _ _ _ | exact copy_res _ _ _ _ _ | (first $[| $alts:tactic]*) | refine bind_res ?_ (fun _ => ?_) | refine loop_res (fun _ _ => ?_) _ _ _ | refine cond_res ?_ ?_ | refine cond_res_pos (by assumption) ?_ | refine cond_res_neg (by assumption) ?_ | split | dsimp only))

/-- Compares two runs step by step; the arguments are the lemmas about the functions called. -/
syntax "ct" "[" term,* "]" : tactic
macro_rules
  | `(tactic| ct [$ls,*]) => do
    let alts ← ls.getElems.mapM fun l => `(tactic| exact $l)
    `(tactic| with_reducible repeat' (first | exact Rel.pure trivial | exact Rel.ub | exact Rel.ub' | exact Same.rd | exact Same.wr | exact Same.copy | (first $[| $alts:tactic]*) | refine Rel.bind (R := fun _ _ => True) ?_ (fun _ _ _ => ?_) | refine Same.loop _ _ (fun _ _ _ => ?_) | refine Rel.cond Iff.rfl (fun _ => ?_) (fun _ => ?_) | split | dsimp only))

end Verif.Ct
