import Verif.Conc.Lemmas

/-!
Threads that do not write where others read or write do what they would do alone.
-/

namespace Verif.Conc
open Verif

variable {α ι : Type}

/-- The call has ended (no line of its own). -/
def Prog.done : Prog α → Prop
  | .ret _ => True
  | .fail _ => True
  | _ => False

section
variable [DecidableEq ι]

theorem run_append (c : Conf ι α) (s t : List ι) : c.run (s ++ t) = (c.run s).run t := by
  induction s generalizing c with
  | nil => rfl
  | cons i s ih => exact ih _

theorem next_thr_self (c : Conf ι α) (i : ι) : ((c.next i).thr i).prog = (step (c.thr i).prog (c.world i)).1 := by
  simp [Conf.next]

theorem next_thr_ne (c : Conf ι α) {i j : ι} (h : j ≠ i) : (c.next i).thr j = c.thr j := by
  simp [Conf.next, Function.update_of_ne h]

theorem next_world_self (c : Conf ι α) (i : ι) : (c.next i).world i = (step (c.thr i).prog (c.world i)).2 := by
  have e : ∀ r : Prog α × World, (⟨fun b => if b < c.base then (if b < c.base then r.2.mem b else c.mem b) else r.2.mem b, r.2.sp, r.2.rng⟩ : World) = r.2 := by
    rintro ⟨x, m, sp, rng⟩
    have : (fun b => if b < c.base then (if b < c.base then m b else c.mem b) else m b) = m := by
      funext b
      split <;> rfl
    simp only [this]
  rw [← e]
  simp only [Conf.world, Conf.next, Function.update_self]

theorem step_log_le (x : Prog α) (W : World) : W.rng.log.length ≤ (step x W).2.rng.log.length := by
  obtain ⟨m, sp, rng⟩ := W
  rcases step_rng x m sp rng with h | ⟨n, k, -, h⟩
  · rw [h]; exact Nat.le_refl _
  · rw [h]; simp

/-! ### The invariant -/

variable (W : World) (p : ι → Prog α) (R S : ι → Addr → Prop)

/-- What is known about thread `i` (no line of its own). -/
structure InvAt (c : Conf ι α) (i : ι) : Prop where
  within : Within W.sp (R i) (S i) (c.thr i).prog
  sp : W.sp ≤ (c.thr i).sp
  alone : ∀ Q : Rng, Q.log = [] → (∀ j (h : j < (c.thr i).got.length) n, Q.draw j n = W.rng.draw ((c.thr i).got[j]) n) →
    ∃ l V, l.length = (c.thr i).got.length ∧ Agree W.sp (fun a => R i a ∨ S i a) (c.world i).mem V ∧
      exec (p i) ⟨W.mem, W.sp, Q⟩ = exec (c.thr i).prog ⟨V, (c.thr i).sp, { Q with log := l }⟩
  acc : ∀ w a, (w, a) ∈ (c.thr i).acc → a.1 < W.sp ∧ if w then S i a else R i a
  got : ∀ g ∈ (c.thr i).got, W.rng.log.length ≤ g ∧ g < c.rng.log.length
  asc : (c.thr i).got.Pairwise (· < ·)

/-- What is known about all threads together (no line of its own). -/
structure Inv (c : Conf ι α) : Prop where
  base : c.base = W.sp
  draw : c.rng.draw = W.rng.draw
  at_ : ∀ i, InvAt W p R S c i
  mem : ∀ a : Addr, a.1 < W.sp → (∀ i, ¬ S i a) → byteAt c.mem a = byteAt W.mem a
  apart : ∀ i j, i ≠ j → ∀ g ∈ (c.thr i).got, g ∉ (c.thr j).got
  all : ∀ g, W.rng.log.length ≤ g → g < c.rng.log.length → ∃ i, g ∈ (c.thr i).got
  len : W.rng.log.length ≤ c.rng.log.length

variable {W p R S}

omit [DecidableEq ι] in
theorem Inv.start (hW : W.WF) (hin : ∀ i, Within W.sp (R i) (S i) (p i)) : Inv W p R S (Conc.start W p) where
  base := rfl
  draw := rfl
  at_ i :=
    { within := hin i
      sp := Nat.le_refl _
      alone := fun Q hQ _ => ⟨[], W.mem, rfl, by
        constructor
        · intro a ha _
          show (if a.1 < W.sp then W.mem a.1 else none).bind _ = _
          rw [if_pos ha]; rfl
        · intro b hb
          show (if b < W.sp then W.mem b else none) = _
          rw [if_neg (by omega), hW b hb], by
        obtain ⟨d, h, l⟩ := Q
        subst hQ; rfl⟩
      acc := fun _ _ h => by cases h
      got := fun _ h => by cases h
      asc := List.Pairwise.nil }
  mem _ _ _ := rfl
  apart _ _ _ _ h := by cases h
  all g h1 h2 := by
    have : (Conc.start W p).rng = W.rng := rfl
    rw [this] at h2; omega
  len := Nat.le_refl _

/-- The new draw numbers of a step. -/
theorem next_got (c : Conf ι α) (i : ι) :
    (((c.next i).thr i).got = (c.thr i).got ∧ (c.next i).rng = c.rng ∧ ∀ n k, (c.thr i).prog ≠ .draw n k) ∨
    (∃ n k, (c.thr i).prog = .draw n k ∧ ((c.next i).thr i).got = (c.thr i).got ++ [c.rng.log.length] ∧
      (c.next i).rng = { c.rng with log := c.rng.log ++ [(n, c.rng.draw c.rng.log.length n)] }) := by
  by_cases hx : ∃ n k, (c.thr i).prog = .draw n k
  · right
    obtain ⟨n, k, hx⟩ := hx
    have hr : (step (c.thr i).prog (c.world i)).2.rng = { c.rng with log := c.rng.log ++ [(n, c.rng.draw c.rng.log.length n)] } := by rw [hx]; rfl
    refine ⟨n, k, hx, ?_, ?_⟩
    · simp only [Conf.next, Function.update_self, hr]
      simp
    · simp only [Conf.next, hr]
  · left
    have hr : (step (c.thr i).prog (c.world i)).2.rng = c.rng := by
      rcases step_rng (c.thr i).prog (c.world i).mem (c.world i).sp (c.world i).rng with h | ⟨n, k, h, -⟩
      · exact h
      · exact absurd ⟨n, k, h⟩ hx
    refine ⟨?_, ?_, fun n k h => hx ⟨n, k, h⟩⟩
    · simp only [Conf.next, Function.update_self, hr]
      simp
    · simp only [Conf.next, hr]

omit [DecidableEq ι] in
theorem world_byte {c : Conf ι α} {i : ι} {a : Addr} (h : a.1 < c.base) : byteAt (c.world i).mem a = byteAt c.mem a := by
  show (if a.1 < c.base then c.mem a.1 else _).bind _ = _
  rw [if_pos h]; rfl

theorem InvAt.alone_next {c : Conf ι α} (H : Inv W p R S c) (i : ι) :
    ∀ Q : Rng, Q.log = [] → (∀ j (h : j < ((c.next i).thr i).got.length) n, Q.draw j n = W.rng.draw (((c.next i).thr i).got[j]) n) →
    ∃ l V, l.length = ((c.next i).thr i).got.length ∧ Agree W.sp (fun a => R i a ∨ S i a) ((c.next i).world i).mem V ∧
      exec (p i) ⟨W.mem, W.sp, Q⟩ = exec ((c.next i).thr i).prog ⟨V, ((c.next i).thr i).sp, { Q with log := l }⟩ := by
  intro Q hQ hd
  have A := H.at_ i
  have hsp' : ((c.next i).thr i).sp = (step (c.thr i).prog (c.world i)).2.sp := by simp [Conf.next]
  rw [next_thr_self, next_world_self, hsp']
  rcases next_got c i with ⟨hg, -, hx⟩ | ⟨n, k, hx, hg, -⟩
  · rw [hg] at hd ⊢
    obtain ⟨l, V, hl, hV, he⟩ := A.alone Q hQ (by simpa only [hg] using hd)
    obtain ⟨e1, e2, -, e4⟩ := step_agree (rng := c.rng) A.within A.sp hV
    obtain ⟨f1, f2, f3⟩ := step_no_draw hx V (c.thr i).sp c.rng { Q with log := l }
    refine ⟨l, (step (c.thr i).prog ⟨V, (c.thr i).sp, c.rng⟩).2.mem, hl, e4, ?_⟩
    rw [he, exec_step_eq]
    have hr : (step (c.thr i).prog ⟨V, (c.thr i).sp, { Q with log := l }⟩).2.rng = { Q with log := l } := by
      rcases step_rng (c.thr i).prog V (c.thr i).sp { Q with log := l } with h | ⟨n, k, h, -⟩
      · exact h
      · exact absurd h (hx n k)
    have hw : (step (c.thr i).prog (c.world i)) = step (c.thr i).prog ⟨(c.world i).mem, (c.thr i).sp, c.rng⟩ := rfl
    rw [hw, e1, e2, f1, f2, f3]
    generalize step (c.thr i).prog ⟨V, (c.thr i).sp, { Q with log := l }⟩ = r at hr ⊢
    obtain ⟨x, m, sp, rng⟩ := r
    simp only at hr ⊢
    rw [hr]
  · have hlen : (c.thr i).got.length < ((c.next i).thr i).got.length := by rw [hg]; simp
    obtain ⟨l, V, hl, hV, he⟩ := A.alone Q hQ (fun j h n => by
      rw [hd j (by omega) n]
      simp only [hg, List.getElem_append_left h])
    have hq : Q.draw l.length n = c.rng.draw c.rng.log.length n := by
      rw [hl, hd _ hlen n, H.draw]
      simp only [hg, List.getElem_concat_length]
    refine ⟨l ++ [(n, Q.draw l.length n)], V, by rw [hg]; simp [hl], ?_, ?_⟩
    · rw [hx]; exact hV
    · rw [he, hx]
      show exec (k (Q.draw l.length n)) _ = exec (k (c.rng.draw c.rng.log.length n)) _
      rw [hq]; rfl

theorem Inv.next (hdis : ∀ i j, i ≠ j → ∀ a : Addr, a.1 < W.sp → S i a → ¬ R j a ∧ ¬ S j a) {c : Conf ι α} (H : Inv W p R S c) (i : ι) :
    Inv W p R S (c.next i) := by
  have A := H.at_ i
  have hws : W.sp ≤ (c.world i).sp := A.sp
  obtain ⟨w1, w2, w3⟩ := step_within A.within hws
  have hmem : ∀ a : Addr, a.1 < W.sp → ¬ S i a → byteAt (c.next i).mem a = byteAt c.mem a := by
    intro a ha hS
    have := w3 a ha hS
    rw [world_byte (by rw [H.base]; exact ha)] at this
    rw [← this]
    show Option.bind (if a.1 < c.base then _ else _) _ = _
    rw [if_pos (by rw [H.base]; exact ha)]; rfl
  have hrle : c.rng.log.length ≤ (c.next i).rng.log.length := step_log_le (c.thr i).prog (c.world i)
  have hdraw : (c.next i).rng.draw = c.rng.draw := by
    rcases next_got c i with ⟨-, h, -⟩ | ⟨n, k, -, -, h⟩ <;> rw [h]
  refine ⟨H.base, hdraw.trans H.draw, fun j => ?_, fun a ha hS => (hmem a ha (hS i)).trans (H.mem a ha hS), ?_, ?_, Nat.le_trans H.len hrle⟩
  · by_cases hj : j = i
    · subst hj
      refine ⟨by rw [next_thr_self]; exact w1, ?_, InvAt.alone_next H j, ?_, ?_, ?_⟩
      · have : ((c.next j).thr j).sp = (step (c.thr j).prog (c.world j)).2.sp := by simp [Conf.next]
        rw [this]; exact w2
      · intro w a h
        have e : ((c.next j).thr j).acc = (c.thr j).acc ++ (access (c.thr j).prog).toList.filter fun a => a.2.1 < c.base := by simp [Conf.next]
        rw [e, List.mem_append] at h
        rcases h with h | h
        · exact A.acc w a h
        · rw [List.mem_filter] at h
          obtain ⟨h1, h2⟩ := h
          have h2' : a.1 < W.sp := by rw [← H.base]; simpa using h2
          clear h2
          refine ⟨h2', ?_⟩
          have hwi := A.within
          revert hwi h1
          cases (c.thr j).prog with
          | load q o k =>
            intro h1 hwi
            simp only [access, Option.toList_some, List.mem_singleton, Prod.mk.injEq] at h1
            obtain ⟨rfl, rfl⟩ := h1
            exact hwi.1 h2'
          | store q o v k =>
            intro h1 hwi
            simp only [access, Option.toList_some, List.mem_singleton, Prod.mk.injEq] at h1
            obtain ⟨rfl, rfl⟩ := h1
            exact hwi.1 h2'
          | _ => intro h1; simp [access] at h1
      · intro g hg
        rcases next_got c j with ⟨h, -, -⟩ | ⟨n, k, -, h, h'⟩
        · rw [h] at hg
          have := A.got g hg
          omega
        · rw [h, List.mem_append, List.mem_singleton] at hg
          have hl := H.len
          rcases hg with hg | rfl
          · have := A.got g hg; omega
          · refine ⟨hl, ?_⟩; rw [h']; simp
      · rcases next_got c j with ⟨h, -, -⟩ | ⟨n, k, -, h, h'⟩
        · rw [h]; exact A.asc
        · rw [h, List.pairwise_append]
          exact ⟨A.asc, List.pairwise_singleton _ _, fun a ha b hb => by rw [List.mem_singleton] at hb; subst hb; exact (A.got a ha).2⟩
    · have B := H.at_ j
      have ht := next_thr_ne c hj
      refine ⟨by rw [ht]; exact B.within, by rw [ht]; exact B.sp, ?_, by rw [ht]; exact B.acc, ?_, by rw [ht]; exact B.asc⟩
      · intro Q hQ hd
        simp only [ht] at hd ⊢
        obtain ⟨l, V, hl, hV, he⟩ := B.alone Q hQ hd
        refine ⟨l, V, hl, ⟨fun a ha hRS => ?_, fun b hb => ?_⟩, he⟩
        · rw [world_byte (show a.1 < (c.next i).base by show a.1 < c.base; rw [H.base]; exact ha), hmem a ha (fun hS => by
            have := hdis i j (Ne.symm hj) a ha hS; tauto), ← hV.1 a ha hRS, world_byte (by rw [H.base]; exact ha)]
        · rw [← hV.2 b hb]
          show (if b < c.base then _ else ((c.next i).thr j).stack b) = (if b < c.base then _ else (c.thr j).stack b)
          rw [H.base, if_neg (by omega), if_neg (by omega), ht]
      · intro g hg
        rw [ht] at hg
        have := B.got g hg
        omega
  · intro j k hjk g hg hg'
    have new : ∀ j, g ∈ ((c.next i).thr j).got → g ∈ (c.thr j).got ∨ (j = i ∧ g = c.rng.log.length) := by
      intro j hg
      by_cases hj : j = i
      · subst hj
        rcases next_got c j with ⟨h, -, -⟩ | ⟨n, k, -, h, -⟩
        · rw [h] at hg; exact Or.inl hg
        · rw [h, List.mem_append, List.mem_singleton] at hg
          exact hg.imp id fun h => ⟨rfl, h⟩
      · rw [next_thr_ne c hj] at hg; exact Or.inl hg
    rcases new j hg with h1 | ⟨h1, h1'⟩ <;> rcases new k hg' with h2 | ⟨h2, h2'⟩
    · exact H.apart j k hjk g h1 h2
    · have := ((H.at_ j).got g h1).2; omega
    · have := ((H.at_ k).got g h2).2; omega
    · exact hjk (h1.trans h2.symm)
  · intro g h1 h2
    have old : ∀ j, g ∈ (c.thr j).got → g ∈ ((c.next i).thr j).got := by
      intro j hg
      by_cases hj : j = i
      · subst hj
        rcases next_got c j with ⟨h, -, -⟩ | ⟨n, k, -, h, -⟩
        · rw [h]; exact hg
        · rw [h]; exact List.mem_append_left _ hg
      · rw [next_thr_ne c hj]; exact hg
    by_cases hg : g < c.rng.log.length
    · obtain ⟨j, hj⟩ := H.all g h1 hg
      exact ⟨j, old j hj⟩
    · rcases next_got c i with ⟨-, h, -⟩ | ⟨n, k, -, h, h'⟩
      · rw [h] at h2; omega
      · rw [h'] at h2
        simp only [List.length_append, List.length_singleton] at h2
        refine ⟨i, ?_⟩
        rw [h, List.mem_append, List.mem_singleton]
        right; omega

theorem Inv.run (hdis : ∀ i j, i ≠ j → ∀ a : Addr, a.1 < W.sp → S i a → ¬ R j a ∧ ¬ S j a) {c : Conf ι α} (H : Inv W p R S c) (s : List ι) :
    Inv W p R S (c.run s) := by
  induction s generalizing c with
  | nil => exact H
  | cons i s ih => exact ih (H.next hdis i)

/-! ### Every call ends -/

theorem step_done {x : Prog α} (h : x.done) (W : World) : (step x W).1 = x := by
  cases x <;> first | rfl | exact h.elim

theorem next_done {c : Conf ι α} {i : ι} (h : (c.thr i).prog.done) (j : ι) : ((c.next j).thr i).prog = (c.thr i).prog := by
  by_cases hj : i = j
  · subst hj; rw [next_thr_self, step_done h]
  · rw [next_thr_ne c hj]

theorem run_done {c : Conf ι α} {i : ι} (h : (c.thr i).prog.done) (s : List ι) : ((c.run s).thr i).prog = (c.thr i).prog := by
  induction s generalizing c with
  | nil => rfl
  | cons j s ih =>
    show (((c.next j).run s).thr i).prog = _
    rw [ih (by rw [next_done h]; exact h), next_done h]

theorem ends (c : Conf ι α) (σ : Nat → ι) (i : ι) (hσ : ∀ N, ∃ n, N ≤ n ∧ σ n = i) :
    ∃ n, ((c.run ((List.range n).map σ)).thr i).prog.done := by
  have succ : ∀ n, c.run ((List.range (n + 1)).map σ) = (c.run ((List.range n).map σ)).next (σ n) := by
    intro n
    rw [List.range_succ, List.map_append, run_append]; rfl
  have wait : ∀ N, ∃ n, N ≤ n ∧ σ n = i ∧ ((c.run ((List.range n).map σ)).thr i).prog = ((c.run ((List.range N).map σ)).thr i).prog := by
    intro N
    obtain ⟨n, hn, hi⟩ := hσ N
    obtain ⟨d, rfl⟩ := Nat.exists_eq_add_of_le hn
    clear hn
    induction d generalizing N with
    | zero => exact ⟨N, Nat.le_refl _, hi, rfl⟩
    | succ d ih =>
      by_cases h0 : σ N = i
      · exact ⟨N, Nat.le_refl _, h0, rfl⟩
      · obtain ⟨n, h1, h2, h3⟩ := ih (N + 1) (by rw [← hi]; congr 1; omega)
        refine ⟨n, by omega, h2, ?_⟩
        rw [h3, succ, next_thr_ne _ (Ne.symm h0)]
  have key : ∀ x : Prog α, ∀ N, ((c.run ((List.range N).map σ)).thr i).prog = x → ∃ n, ((c.run ((List.range n).map σ)).thr i).prog.done := by
    intro x
    induction x with
    | ret a => intro N h; exact ⟨N, by rw [h]; trivial⟩
    | fail e => intro N h; exact ⟨N, by rw [h]; trivial⟩
    | load q o k ih =>
      intro N h
      obtain ⟨n, h1, h2, h3⟩ := wait N
      rw [h] at h3
      have e : ((c.run ((List.range (n + 1)).map σ)).thr i).prog = (step (.load q o k) ((c.run ((List.range n).map σ)).world i)).1 := by
        rw [succ, h2, next_thr_self, h3]
      rw [step_load] at e
      split at e
      · exact ih _ _ e
      · exact ⟨n + 1, by rw [e]; trivial⟩
    | store q o v k ih =>
      intro N h
      obtain ⟨n, h1, h2, h3⟩ := wait N
      rw [h] at h3
      have e : ((c.run ((List.range (n + 1)).map σ)).thr i).prog = (step (.store q o v k) ((c.run ((List.range n).map σ)).world i)).1 := by
        rw [succ, h2, next_thr_self, h3]
      rw [step_store] at e
      split at e
      · exact ih _ e
      · exact ⟨n + 1, by rw [e]; trivial⟩
    | draw q k ih =>
      intro N h
      obtain ⟨n, h1, h2, h3⟩ := wait N
      rw [h] at h3
      exact ih _ (n + 1) (by rw [succ, h2, next_thr_self, h3]; rfl)
    | push q k ih =>
      intro N h
      obtain ⟨n, h1, h2, h3⟩ := wait N
      rw [h] at h3
      exact ih _ (n + 1) (by rw [succ, h2, next_thr_self, h3]; rfl)
    | pop q k ih =>
      intro N h
      obtain ⟨n, h1, h2, h3⟩ := wait N
      rw [h] at h3
      exact ih (n + 1) (by rw [succ, h2, next_thr_self, h3]; rfl)
  exact key _ 0 rfl

end

end Verif.Conc
