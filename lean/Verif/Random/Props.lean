import Verif.Random.Spec

/-!
The properties C30 and C65: randombytes fills the buffer exactly once, in order, or reports an error.
-/

namespace Verif.Random
open Verif

variable {k : Kernel}

theorem Delivers.length (hk : KernelOk k) {mx i n i' : Nat} {b : Bytes} (h : Delivers k mx i n b i') : b.length = n := by
  induction h with
  | done i => rfl
  | again _ _ _ ih => exact ih
  | @piece i n d b i' hn hd _ ih =>
    have := hk _ _ _ hd
    rw [List.length_append, ih]
    omega

theorem Breaks.length (hk : KernelOk k) {mx i n i' : Nat} {b : Bytes} (h : Breaks k mx i n b i') : b.length < n := by
  induction h with
  | fail hn _ => exact hn
  | again _ _ _ ih => exact ih
  | @piece i n d b i' hn hd _ ih =>
    have := hk _ _ _ hd
    rw [List.length_append]
    omega

theorem splice_append {buf d b : Bytes} {o : Nat} (h : o + d.length + b.length ≤ buf.length) : splice (splice buf o d) (o + d.length) b = splice buf o (d ++ b) := by
  unfold splice
  have hl : (buf.take o ++ d).length = o + d.length := by rw [List.length_append, List.length_take]; omega
  rw [List.take_left' hl, List.drop_append, hl, List.drop_of_length_le (by omega), List.nil_append, List.drop_drop, List.length_append]
  simp only [List.append_assoc]
  congr 4
  omega

theorem copy_all {buf d : Bytes} {o : Nat} (h : o + d.length ≤ buf.length) : copy buf o d 0 d.length = .ok (splice buf o d) := by
  rw [copy_ok (by omega) h]
  congr 2
  unfold slice
  rw [List.drop_zero, List.take_length]

theorem chunk_min (n mx : Nat) : (if n ≤ mx then n else mx) = min n mx := by
  by_cases h : n ≤ mx
  · rw [if_pos h, Nat.min_eq_left h]
  · rw [if_neg h, Nat.min_eq_right (by omega)]

/-! ### The getrandom loop -/

/-- What `retry` does before the call that ends it. -/
theorem retry_out {c fuel i i' : Nat} {r : Option Bytes} (h : retry k c fuel i = .ok (r, i')) :
    ∃ j, i ≤ j ∧ i' = j + 1 ∧ (∀ m, i ≤ m → m < j → k m c = .again) ∧ ((∃ b, r = some b ∧ k j c = .data b) ∨ (r = none ∧ k j c = .fail)) := by
  induction fuel generalizing i with
  | zero => simp [retry] at h
  | succ fuel ih =>
    unfold retry at h
    cases hk : k i c with
    | data b =>
      rw [hk] at h
      simp only [Except.ok.injEq, Prod.mk.injEq] at h
      exact ⟨i, Nat.le_refl _, h.2.symm, fun m h1 h2 => by omega, Or.inl ⟨b, h.1.symm, hk⟩⟩
    | again =>
      rw [hk] at h
      obtain ⟨j, h1, h2, h3, h4⟩ := ih h
      refine ⟨j, by omega, h2, fun m hm1 hm2 => ?_, h4⟩
      by_cases hm : m = i
      · rw [hm]; exact hk
      · exact h3 m (by omega) hm2
    | fail =>
      rw [hk] at h
      simp only [Except.ok.injEq, Prod.mk.injEq] at h
      exact ⟨i, Nat.le_refl _, h.2.symm, fun m h1 h2 => by omega, Or.inr ⟨h.1.symm, hk⟩⟩

theorem Delivers.agains {mx i j n i' : Nat} {b : Bytes} (hn : 0 < n) (hij : i ≤ j) (ha : ∀ m, i ≤ m → m < j → k m (min n mx) = .again) (h : Delivers k mx j n b i') :
    Delivers k mx i n b i' := by
  obtain ⟨t, rfl⟩ := Nat.exists_eq_add_of_le hij
  clear hij
  induction t with
  | zero => exact h
  | succ t ih => exact ih (fun m h1 h2 => ha m h1 (by omega)) (.again hn (ha (i + t) (by omega) (by omega)) h)

theorem Breaks.agains {mx i j n i' : Nat} {b : Bytes} (hn : 0 < n) (hij : i ≤ j) (ha : ∀ m, i ≤ m → m < j → k m (min n mx) = .again) (h : Breaks k mx j n b i') :
    Breaks k mx i n b i' := by
  obtain ⟨t, rfl⟩ := Nat.exists_eq_add_of_le hij
  clear hij
  induction t with
  | zero => exact h
  | succ t ih => exact ih (fun m h1 h2 => ha m h1 (by omega)) (.again hn (ha (i + t) (by omega) (by omega)) h)

theorem getrandomLoop_out (hk : KernelOk k) {fuel o n i i' : Nat} {buf buf' : Bytes} {r : Int} (hb : o + n ≤ buf.length)
    (h : getrandomLoop k fuel o n i buf = .ok (r, buf', i')) :
    (r = 0 ∧ ∃ b, Delivers k 33554431 i n b i' ∧ buf' = splice buf o b) ∨ (r = -1 ∧ ∃ b, Breaks k 33554431 i n b i' ∧ buf' = splice buf o b) := by
  induction fuel generalizing o n i buf with
  | zero => simp [getrandomLoop] at h
  | succ fuel ih =>
    unfold getrandomLoop at h
    by_cases hn : 0 < n
    · rw [if_pos hn] at h
      simp only [chunk_min] at h
      obtain ⟨⟨q, j'⟩, e1, e2⟩ := bind_eq_ok.1 h
      obtain ⟨j, h1, rfl, h3, h4⟩ := retry_out e1
      rcases h4 with ⟨d, rfl, hd⟩ | ⟨rfl, hf⟩
      · simp only [] at e2
        have hdl : d.length ≤ n := by have := hk _ _ _ hd; omega
        rw [copy_all (by omega), ok_bind] at e2
        have hs : (splice buf o d).length = buf.length := length_splice (by omega)
        rcases ih (by omega) e2 with ⟨hr, b, hb', e⟩ | ⟨hr, b, hb', e⟩
        · refine Or.inl ⟨hr, d ++ b, Delivers.agains hn h1 h3 (.piece hn hd hb'), ?_⟩
          rw [e, splice_append (by rw [hb'.length hk]; omega)]
        · refine Or.inr ⟨hr, d ++ b, Breaks.agains hn h1 h3 (.piece hn hd hb'), ?_⟩
          rw [e, splice_append (by have := hb'.length hk; omega)]
      · simp only [Except.ok.injEq, Prod.mk.injEq] at e2
        refine Or.inr ⟨e2.1.symm, [], ?_, ?_⟩
        · rw [← e2.2.2]
          exact Breaks.agains hn h1 h3 (.fail hn hf)
        · rw [← e2.2.1, splice_nil]
    · rw [if_neg hn] at h
      simp only [Except.ok.injEq, Prod.mk.injEq] at h
      obtain rfl : n = 0 := by omega
      refine Or.inl ⟨h.1.symm, [], ?_, ?_⟩
      · rw [← h.2.2]; exact .done i
      · rw [← h.2.1, splice_nil]

theorem getrandom_not_ub (hk : KernelOk k) {fuel o n i : Nat} {buf : Bytes} (hb : o + n ≤ buf.length) : getrandomLoop k fuel o n i buf ≠ .error .ub := by
  induction fuel generalizing o n i buf with
  | zero => simp [getrandomLoop]
  | succ fuel ih =>
    unfold getrandomLoop
    by_cases hn : 0 < n
    · rw [if_pos hn]
      simp only [chunk_min]
      cases e : retry k (min n 33554431) fuel i with
      | error f =>
        have : ∀ fuel i, retry k (min n 33554431) fuel i ≠ .error .ub := by
          intro fuel
          induction fuel with
          | zero => intro i; simp [retry]
          | succ fuel ih =>
            intro i
            unfold retry
            cases k i (min n 33554431) with
            | data b => simp
            | again => exact ih (i + 1)
            | fail => simp
        rw [error_bind]
        intro h
        exact this fuel i (by rw [e]; exact congrArg _ (Except.error.inj h))
      | ok p =>
        obtain ⟨q, j'⟩ := p
        rw [ok_bind]
        obtain ⟨j, h1, rfl, h3, h4⟩ := retry_out e
        rcases h4 with ⟨d, rfl, hd⟩ | ⟨rfl, hf⟩
        · simp only []
          have hdl : d.length ≤ n := by have := hk _ _ _ hd; omega
          rw [copy_all (by omega), ok_bind]
          exact ih (by rw [length_splice (by omega)]; omega)
        · simp
    · rw [if_neg hn]
      simp

theorem retry_progress {N c : Nat} (hc : 0 < c) (hN : Lively k N) (i fuel : Nat) (hf : N - i < fuel) : ∃ r, retry k c fuel i = .ok r := by
  induction fuel generalizing i with
  | zero => omega
  | succ fuel ih =>
    unfold retry
    cases h : k i c with
    | data b => exact ⟨_, rfl⟩
    | fail => exact ⟨_, rfl⟩
    | again =>
      by_cases hi : N ≤ i
      · rcases hN i c hi hc with h' | ⟨d, _, h'⟩ <;> rw [h] at h' <;> exact absurd h' (by simp)
      · exact ih (i + 1) (by omega)

theorem getrandom_progress (hk : KernelOk k) {N : Nat} (hN : Lively k N) (fuel o n i : Nat) (buf : Bytes) (hb : o + n ≤ buf.length)
    (hf : n + (N - i) + 1 < fuel) : ∃ r, getrandomLoop k fuel o n i buf = .ok r := by
  induction fuel generalizing o n i buf with
  | zero => omega
  | succ fuel ih =>
    unfold getrandomLoop
    by_cases hn : 0 < n
    · rw [if_pos hn]
      simp only [chunk_min]
      obtain ⟨⟨q, j'⟩, e⟩ := retry_progress (k := k) (c := min n 33554431) (by omega) hN i fuel (by omega)
      rw [e, ok_bind]
      obtain ⟨j, h1, rfl, h3, h4⟩ := retry_out e
      rcases h4 with ⟨d, rfl, hd⟩ | ⟨rfl, hf⟩
      · simp only []
        have hdl : d.length ≤ n := by have := hk _ _ _ hd; omega
        rw [copy_all (by omega), ok_bind]
        have hs : (splice buf o d).length = buf.length := length_splice (by omega)
        by_cases hd0 : d = []
        · have hj : j < N := by
            by_contra hj
            rcases hN j (min n 33554431) (by omega) (by omega) with h' | ⟨d', hd', h'⟩
            · rw [hd] at h'; simp at h'
            · rw [hd] at h'; simp only [Sys.data.injEq] at h'; exact hd' (h' ▸ hd0)
          exact ih _ _ _ _ (by rw [hs]; omega) (by omega)
        · have : 0 < d.length := List.length_pos_iff.2 hd0
          exact ih _ _ _ _ (by rw [hs]; omega) (by omega)
      · exact ⟨_, rfl⟩
    · rw [if_neg hn]
      exact ⟨_, rfl⟩

/-- C30: for every kernel that does not overrun the buffer, `randombytes` has no undefined behaviour, and when it returns, either it returns 0 and the buffer holds the bytes that
the kernel delivered, all of them, once and in order, or it returns -1 because a call failed for good, and nothing behind the bytes delivered until then has changed. -/
theorem randombytes_fills (hk : KernelOk k) {fuel n : Nat} {buf : Bytes} (hb : n ≤ buf.length) :
    randombytesGetrandom k fuel n buf ≠ .error .ub ∧
    ∀ r buf' calls, randombytesGetrandom k fuel n buf = .ok (r, buf', calls) →
      (r = 0 ∧ ∃ b, Delivers k 33554431 0 n b calls ∧ b.length = n ∧ buf' = b ++ buf.drop n) ∨
      (r = -1 ∧ ∃ b, Breaks k 33554431 0 n b calls ∧ b.length < n ∧ buf' = b ++ buf.drop b.length) := by
  refine ⟨getrandom_not_ub hk (by omega), fun r buf' calls h => ?_⟩
  rcases getrandomLoop_out hk (by omega) h with ⟨hr, b, hd, e⟩ | ⟨hr, b, hd, e⟩
  · refine Or.inl ⟨hr, b, hd, hd.length hk, ?_⟩
    rw [e]
    unfold splice
    rw [List.take_zero, List.nil_append, hd.length hk, Nat.zero_add]
  · refine Or.inr ⟨hr, b, hd, hd.length hk, ?_⟩
    rw [e]
    unfold splice
    rw [List.take_zero, List.nil_append, Nat.zero_add]

/-- A kernel with a short read, an interruption and the rest. -/
def exampleKernel : Kernel := fun i c => if i = 0 then .data (List.replicate (c / 2) 1) else if i = 1 then .again else .data (List.replicate c 2)

theorem exampleKernel_ok : KernelOk exampleKernel := by
  intro i c b h
  unfold exampleKernel at h
  split at h
  · cases h; rw [List.length_replicate]; omega
  · split at h
    · cases h
    · cases h; exact Nat.le_of_eq List.length_replicate

example : KernelOk exampleKernel ∧ randombytesGetrandom exampleKernel 9 5 [9, 9, 9, 9, 9, 9] = .ok (0, [1, 1, 2, 2, 2, 9], 3) := ⟨exampleKernel_ok, by rfl⟩

/-- C30: `randombytes` ends on every schedule in which from some call on each call delivers something or fails; every interruption before that is survived. -/
theorem randombytes_ends (hk : KernelOk k) {N : Nat} (hN : Lively k N) {n : Nat} {buf : Bytes} (hb : n ≤ buf.length) :
    ∃ r, randombytesGetrandom k (n + N + 2) n buf = .ok r :=
  getrandom_progress hk hN _ 0 n 0 buf (by omega) (by omega)

example : Lively exampleKernel 2 := by
  intro i c hi hc
  refine Or.inr ⟨List.replicate c 2, ?_, ?_⟩
  · intro h
    have := congrArg List.length h
    rw [List.length_replicate] at this
    simp at this
    omega
  · unfold exampleKernel
    rw [if_neg (by omega), if_neg (by omega)]

/-- C30: the two outcomes exclude each other and are determined by the kernel alone, so an error other than an interruption always gives a nonzero result. -/
theorem delivers_or_breaks {mx i n i1 i2 : Nat} {b1 b2 : Bytes} (h1 : Delivers k mx i n b1 i1) (h2 : Breaks k mx i n b2 i2) : False := by
  induction h1 generalizing b2 with
  | done i => cases h2 <;> omega
  | again hn hk _ ih =>
    cases h2 with
    | fail _ h => rw [hk] at h; cases h
    | again _ _ h => exact ih h
    | piece _ h _ => rw [hk] at h; cases h
  | piece hn hk _ ih =>
    cases h2 with
    | fail _ h => rw [hk] at h; cases h
    | again _ h _ => rw [hk] at h; cases h
    | piece _ h h' =>
      rw [hk] at h
      cases h
      exact ih h'

example : Delivers exampleKernel 33554431 0 5 ([1, 1] ++ ([2, 2, 2] ++ [])) 3 :=
  .piece (by omega) (by rfl) (.again (by decide) (by rfl) (.piece (by decide) (by rfl) (.done 3)))

/-! ### The /dev/urandom loop -/

theorem readLoop_out (hk : KernelOk k) {fuel o n i i' : Nat} {buf buf' : Bytes} {r : Int} (hb : o + n ≤ buf.length)
    (h : readLoop k fuel o n i buf = .ok (r, buf', i')) :
    (r = 0 ∧ ∃ b, Delivers k (2 ^ 63 - 1) i n b i' ∧ buf' = splice buf o b) ∨ (r = -1 ∧ ∃ b, Breaks k (2 ^ 63 - 1) i n b i' ∧ buf' = splice buf o b) := by
  induction fuel generalizing o n i buf with
  | zero => simp [readLoop] at h
  | succ fuel ih =>
    unfold readLoop at h
    by_cases hn : 0 < n
    · rw [if_pos hn] at h
      simp only [chunk_min] at h
      cases hd : k i (min n (2 ^ 63 - 1)) with
      | again =>
        rw [hd] at h
        rcases ih hb h with ⟨hr, b, hb', e⟩ | ⟨hr, b, hb', e⟩
        · exact Or.inl ⟨hr, b, .again hn hd hb', e⟩
        · exact Or.inr ⟨hr, b, .again hn hd hb', e⟩
      | fail =>
        rw [hd] at h
        simp only [Except.ok.injEq, Prod.mk.injEq] at h
        refine Or.inr ⟨h.1.symm, [], ?_, ?_⟩
        · rw [← h.2.2]; exact .fail hn hd
        · rw [← h.2.1, splice_nil]
      | data d =>
        rw [hd] at h
        simp only [] at h
        have hdl : d.length ≤ n := by have := hk _ _ _ hd; omega
        rw [copy_all (by omega), ok_bind] at h
        have hs : (splice buf o d).length = buf.length := length_splice (by omega)
        rcases ih (by omega) h with ⟨hr, b, hb', e⟩ | ⟨hr, b, hb', e⟩
        · refine Or.inl ⟨hr, d ++ b, .piece hn hd hb', ?_⟩
          rw [e, splice_append (by rw [hb'.length hk]; omega)]
        · refine Or.inr ⟨hr, d ++ b, .piece hn hd hb', ?_⟩
          rw [e, splice_append (by have := hb'.length hk; omega)]
    · rw [if_neg hn] at h
      simp only [Except.ok.injEq, Prod.mk.injEq] at h
      obtain rfl : n = 0 := by omega
      refine Or.inl ⟨h.1.symm, [], ?_, ?_⟩
      · rw [← h.2.2]; exact .done i
      · rw [← h.2.1, splice_nil]

theorem readLoop_not_ub (hk : KernelOk k) {fuel o n i : Nat} {buf : Bytes} (hb : o + n ≤ buf.length) : readLoop k fuel o n i buf ≠ .error .ub := by
  induction fuel generalizing o n i buf with
  | zero => simp [readLoop]
  | succ fuel ih =>
    unfold readLoop
    by_cases hn : 0 < n
    · rw [if_pos hn]
      simp only [chunk_min]
      cases hd : k i (min n (2 ^ 63 - 1)) with
      | again => exact ih hb
      | fail => simp
      | data d =>
        simp only []
        have hdl : d.length ≤ n := by have := hk _ _ _ hd; omega
        rw [copy_all (by omega), ok_bind]
        exact ih (by rw [length_splice (by omega)]; omega)
    · rw [if_neg hn]
      simp

theorem openRetry_not_ub {op : Nat → Sys} (fuel i : Nat) : openRetry op fuel i ≠ .error .ub := by
  induction fuel generalizing i with
  | zero => simp [openRetry]
  | succ fuel ih =>
    unfold openRetry
    cases op i with
    | data b => simp
    | again => exact ih (i + 1)
    | fail => simp

theorem openRetry_false {op : Nat → Sys} (fuel i : Nat) (h : openRetry op fuel i = .ok false) : ∃ j, op j = .fail := by
  induction fuel generalizing i with
  | zero => simp [openRetry] at h
  | succ fuel ih =>
    unfold openRetry at h
    cases e : op i with
    | data b => rw [e] at h; simp at h
    | again => rw [e] at h; exact ih (i + 1) h
    | fail => exact ⟨i, e⟩

/-- C65: the same for the variant that reads /dev/urandom, whatever `open` and the wait for entropy do. -/
theorem urandom_fills (hk : KernelOk k) {op : Nat → Sys} {wait : Int} {fuel n : Nat} {buf : Bytes} (hb : n ≤ buf.length) :
    randombytesUrandom op wait k fuel n buf ≠ .error .ub ∧
    ∀ r buf' calls, randombytesUrandom op wait k fuel n buf = .ok (r, buf', calls) →
      (r = 0 ∧ wait ≠ -1 ∧ ∃ b, Delivers k (2 ^ 63 - 1) 0 n b calls ∧ b.length = n ∧ buf' = b ++ buf.drop n) ∨
      (r = -1 ∧ ((∃ i, op i = .fail) ∨ wait = -1) ∧ buf' = buf) ∨
      (r = -1 ∧ ∃ b, Breaks k (2 ^ 63 - 1) 0 n b calls ∧ b.length < n ∧ buf' = b ++ buf.drop b.length) := by
  constructor
  · unfold randombytesUrandom
    cases e : openRetry op fuel 0 with
    | error f =>
      rw [error_bind]
      intro h
      exact openRetry_not_ub fuel 0 (by rw [e]; exact congrArg _ (Except.error.inj h))
    | ok a =>
      rw [ok_bind]
      cases a with
      | false => simp
      | true =>
        rw [if_pos rfl]
        by_cases hw : wait = -1
        · rw [if_pos hw]; simp
        · rw [if_neg hw]; exact readLoop_not_ub hk (by omega)
  intro r buf' calls h
  unfold randombytesUrandom at h
  obtain ⟨a, ha, h⟩ := bind_eq_ok.1 h
  cases a with
  | false =>
    simp only [Bool.false_eq_true, if_false, Except.ok.injEq, Prod.mk.injEq] at h
    exact Or.inr (Or.inl ⟨h.1.symm, Or.inl (openRetry_false _ _ ha), h.2.1.symm⟩)
  | true =>
    rw [if_pos rfl] at h
    by_cases hw : wait = -1
    · rw [if_pos hw] at h
      simp only [Except.ok.injEq, Prod.mk.injEq] at h
      exact Or.inr (Or.inl ⟨h.1.symm, Or.inr hw, h.2.1.symm⟩)
    · rw [if_neg hw] at h
      rcases readLoop_out hk (by omega) h with ⟨hr, b, hd, e⟩ | ⟨hr, b, hd, e⟩
      · refine Or.inl ⟨hr, hw, b, hd, hd.length hk, ?_⟩
        rw [e]
        unfold splice
        rw [List.take_zero, List.nil_append, hd.length hk, Nat.zero_add]
      · have := hd.length hk
        refine Or.inr (Or.inr ⟨hr, b, hd, this, ?_⟩)
        rw [e]
        unfold splice
        rw [List.take_zero, List.nil_append, Nat.zero_add]

example : randombytesUrandom (fun i => if i = 0 then .again else .data []) 0 exampleKernel 9 5 [9, 9, 9, 9, 9, 9] = .ok (0, [1, 1, 2, 2, 2, 9], 3) := by rfl

/-- C65: end of file is not an error for this variant: if the device returns no bytes, the loop never ends. -/
theorem urandom_eof_diverges {op : Nat → Sys} {n : Nat} (hn : 0 < n) (hk : ∀ i c, k i c = .data []) (fuel : Nat) (buf : Bytes) {wait : Int} (hw : wait ≠ -1)
    (ho : op 0 = .data []) : randombytesUrandom op wait k fuel n buf = .error .diverge := by
  have key : ∀ fuel i o buf, readLoop k fuel o n i buf = .error .diverge := by
    intro fuel
    induction fuel with
    | zero => intro i o buf; rfl
    | succ fuel ih =>
      intro i o buf
      unfold readLoop
      rw [if_pos hn]
      simp only [hk]
      exact ih (i + 1) o buf
  unfold randombytesUrandom
  cases fuel with
  | zero => rfl
  | succ fuel =>
    unfold openRetry
    rw [ho]
    simp only []
    rw [ok_bind, if_pos rfl, if_neg hw]
    exact key _ _ _ _

example : (0 : Nat) < 32 ∧ (0 : Int) ≠ -1 := by decide

end Verif.Random
