import Verif.Hybrid.Spec

/-!
Symbolic execution of the hybrid layer: each API call in terms of what the component algorithms return.
Helper lemmas only; the property theorems are in `Verif/Hybrid/Props.lean`.
-/

namespace Verif.Hybrid
open Verif

variable {P : Prims}

@[simp] theorem length_zeros (n : Nat) : (zeros n).length = n := by simp [zeros]

theorem splice_zeros {x : Bytes} {n : Nat} (h : x.length = n) : splice (zeros n) 0 x = x :=
  splice_all (by simp [h])

/-- What full signing computes: an error code or the signature bytes. -/
def fullSig (P : Prims) (mb skb : Bytes) : RandM (Except Int Bytes) := do
  let (r1, s1, l1) ← liftCR (P.edSign (zeros 128) 0 mb (slice skb 0 64))
  let (r2, s2, l2) ← liftCR (P.dilSign (zeros 2420) 0 mb (slice skb 64 2560))
  let (r3, s3, l3) ← P.spxSign (zeros 49856) 0 mb (slice skb 3936 128)
  if r1 ≠ 0 then pure (.error (-2)) else
  if r2 ≠ 0 then pure (.error (-3)) else
  if r3 ≠ 0 then pure (.error (-4)) else
  if l1 ≠ 64 + mb.length then pure (.error (-5)) else
  if l2 ≠ 2420 then pure (.error (-6)) else
  if l3 ≠ 49856 then pure (.error (-6)) else
  pure (.ok ([2, BitVec.ofNat 8 mb.length] ++ s1.take (64 + mb.length) ++ s2 ++ s3))

theorem copyIn_zeros {W : World} {p : Ptr} {N o n : Nat} {x : Bytes}
    (h : W.view p N = some x) (hn : o + n ≤ N) :
    copyIn (zeros n) 0 p o n W = .ok (slice x o n, W) := by
  have hv := view_sub h hn
  rw [copyIn_ok hv (by simp), splice_zeros]
  exact length_slice (by rw [length_of_view h]; exact hn)

theorem slice_full {b : Bytes} {n : Nat} (h : b.length = n) : slice b 0 n = b := by
  subst h; simp

theorem write_view_isSome {W : World} {p q : Ptr} {x : Bytes} {k : Nat} (h : (W.view q k).isSome) :
    ((W.write p x).view q k).isSome := by rw [view_write_isSome]; exact h

/-- Adjacent writes into one buffer. -/
theorem write_append' {W : World} {p : Ptr} {x y : Bytes} {n k : Nat} (h : (W.view p n).isSome)
    (hk : k = x.length) (hn : x.length + y.length ≤ n) :
    (W.write p x).write (p.add k) y = W.write p (x ++ y) := by
  subst hk
  obtain ⟨z, hz⟩ := Option.isSome_iff_exists.1 h
  have := view_sub hz (o := 0) (k := x.length + y.length) (by omega)
  exact write_append (by simpa [Ptr.add] using this)

theorem store_append {W : World} {p : Ptr} {N o : Nat} {x : Bytes} {v : Byte} (h : (W.view p N).isSome)
    (ho : x.length = o) (hN : o < N) :
    store p o v (W.write p x) = .ok ((), W.write p (x ++ [v])) := by
  rw [store_ok (write_view_isSome h) hN, write_append' h ho.symm (by simp; omega)]

theorem copyOut_append {W : World} {p : Ptr} {N o s n : Nat} {x src : Bytes} (h : (W.view p N).isSome)
    (ho : x.length = o) (hN : o + n ≤ N) (hs : s + n ≤ src.length) :
    copyOut p o src s n (W.write p x) = .ok ((), W.write p (x ++ slice src s n)) := by
  rw [copyOut_ok (write_view_isSome (view_isSome_sub h hN)) hs,
    write_append' h ho.symm (by rw [length_slice hs]; omega)]

theorem copyMem_append {W : World} {p q : Ptr} {N o s n : Nat} {x y : Bytes} (h : (W.view p N).isSome)
    (ho : x.length = o) (hN : o + n ≤ N) (hq : W.view (q.add s) n = some y)
    (hd : Disj p N (q.add s) n) :
    copyMem p o q s n (W.write p x) = .ok ((), W.write p (x ++ y)) := by
  have hy := length_of_view hq
  rw [copyMem_ok (x := y) (write_view_isSome (view_isSome_sub h hN)) _ _,
    write_append' h ho.symm (by omega)]
  · rw [view_write_disj, hq]
    rcases hd with hd | hd | hd
    · exact Or.inl hd
    · exact Or.inr (Or.inl (by omega))
    · exact Or.inr (Or.inr hd)
  · rcases hd with hd | hd | hd
    · exact Or.inl hd
    · exact Or.inr (Or.inl (by simp only [Ptr.add] at hd ⊢; omega))
    · exact Or.inr (Or.inr (by simp only [Ptr.add] at hd ⊢; omega))

theorem signFull_run {W : World} (hP : P.Sized) {sm smlen m sk : Ptr} {mlen : Nat} {mb skb : Bytes}
    (hm : W.view m mlen = some mb) (hsk : W.view sk 4064 = some skb)
    (hsm : (W.view sm (52342 + mlen)).isSome) (hl : (W.view smlen 8).isSome)
    (h1 : 1 ≤ mlen) (h2 : mlen ≤ 64) :
    signFull P (some sm) (some smlen) (some m) mlen (some sk) W =
      (fullSig P mb skb W.rng >>= fun p => match p.1 with
        | .error c => .ok (c, { W with rng := p.2 })
        | .ok sig => .ok (0, (({ W with rng := p.2 } : World).write sm sig).write smlen (le64 (52342 + mlen)))) := by
  have hmb := length_of_view hm
  simp only [signFull, fullSig]
  rw [if_neg (by simp [MAX_MSG_LEN]; omega)]
  simp only [M_bind_apply, RandM_bind_apply]
  simp only [ED_SK, DIL_SK, DIL_PK, SPX_SK, ED_SIG, DIL_SIG, SPX_SIG, LEN_BYTES]
  rw [copyIn_zeros hsk (by omega)]; simp only [ok_bind]
  rw [copyIn_zeros hsk (by omega)]; simp only [ok_bind]
  rw [copyIn_zeros hsk (by omega)]; simp only [ok_bind]
  rw [readMem_ok hm]; simp only [ok_bind]
  cases he : P.edSign (zeros 128) 0 mb (slice skb 0 64) with
  | error e => rfl
  | ok t1 =>
    obtain ⟨r1, s1, l1⟩ := t1
    simp only [liftC_ok, liftCR_ok, ok_bind]
    cases hd : P.dilSign (zeros 2420) 0 mb (slice skb 64 2560) with
    | error e => rfl
    | ok t2 =>
      obtain ⟨r2, s2, l2⟩ := t2
      simp only [liftC_ok, liftCR_ok, ok_bind, liftR]
      cases hs : P.spxSign (zeros 49856) 0 mb (slice skb 3936 128) W.rng with
      | error e => rfl
      | ok t3 =>
        obtain ⟨⟨r3, s3, l3⟩, R'⟩ := t3
        simp only [ok_bind]
        by_cases c1 : r1 = 0
        swap
        · simp [c1]
        by_cases c2 : r2 = 0
        swap
        · simp [c1, c2]
        by_cases c3 : r3 = 0
        swap
        · simp [c1, c2, c3]
        by_cases c4 : l1 = 64 + mlen
        swap
        · simp [c1, c2, c3, c4, hmb]
        by_cases c5 : l2 = 2420
        swap
        · simp [c1, c2, c3, c4, c5, hmb]
        by_cases c6 : l3 = 49856
        swap
        · simp [c1, c2, c3, c4, c5, c6, hmb]
        subst c1 c2 c3 c4 c5 c6
        have e1 := hP.edSign _ _ _ _ _ _ _ he
        have e2 := hP.dilSign _ _ _ _ _ _ _ hd
        have e3 := hP.spxSign _ _ _ _ _ _ _ _ _ hs
        simp only [length_zeros] at e1 e2 e3
        have e4 : (slice s1 0 (64 + mlen)).length = 64 + mlen := length_slice (by omega)
        simp only [ne_eq, not_true_eq_false, if_false, hmb, M_bind_apply, RandM_pure_apply, ok_bind]
        generalize hW1 : ({ W with rng := R' } : World) = W1
        have hsm1 : (W1.view sm (52342 + mlen)).isSome := by subst hW1; exact hsm
        have hl1 : (W1.view smlen 8).isSome := by subst hW1; exact hl
        rw [← write_nil W1 sm]
        rw [store_append hsm1 (by rfl) (by omega)]; simp only [ok_bind]
        rw [store_append hsm1 (by rfl) (by omega)]; simp only [ok_bind]
        rw [copyOut_append hsm1 (by rfl) (by omega) (by omega)]; simp only [ok_bind]
        rw [copyOut_append hsm1 (by simp [e4]; omega) (by omega) (by omega)]; simp only [ok_bind]
        rw [copyOut_append hsm1 (by simp [e4, length_slice, e2]; omega) (by omega) (by omega)]; simp only [ok_bind]
        rw [storeU64_ok (write_view_isSome hl1), slice_full e2, slice_full e3]
        simp only [ok_bind, write_nil, slice, List.drop_zero]
        rw [show 2 + 64 + 2420 + 49856 + mlen = 52342 + mlen by omega]
        rfl

/-- What full open computes: an error code or the message. -/
def fullOpen (P : Prims) (sb pkb : Bytes) : C (Except Int Bytes) :=
  if sb.length < 52343 ∨ sb.length > 52406 then .ok (.error (-1)) else
  if (sb.getD 0 0).toNat ≠ 2 then .ok (.error (-2)) else
  let n := (sb.getD 1 0).toNat
  if n ≤ 0 ∨ n > 64 then .ok (.error (-3)) else
  if sb.length ≠ 52342 + n then .ok (.error (-4)) else do
  let (r1, m1, l1) ← P.edOpen (zeros 128) 0 (splice (zeros 128) 0 (slice sb 2 (64 + n))) (64 + n) (slice pkb 0 32)
  if r1 ≠ 0 then .ok (.error (-5)) else
  if toInt32 l1 ≠ (n : Int) then .ok (.error (-6)) else do
  let r2 ← P.dilVerify (slice sb (66 + n) 2420) (m1.take n) (slice pkb 32 1312)
  if r2 ≠ 0 then .ok (.error (-7)) else do
  let r3 ← P.spxVerify (slice sb (2486 + n) 49856) (m1.take n) (slice pkb 1344 64)
  if r3 ≠ 0 then .ok (.error (-8)) else
  .ok (.ok (m1.take n))

theorem load_getD {W : World} {p : Ptr} {n i : Nat} {x : Bytes} (h : W.view p n = some x) (hi : i < n) :
    load p i W = .ok (x.getD i 0, W) := by
  rw [load_ok h hi]
  simp [length_of_view h, hi]

theorem prefixOf_ok {b : Bytes} {n : Nat} (h : n ≤ b.length) : prefixOf b n = .ok (b.take n) := by
  simp [prefixOf, h]

theorem openFull_run {W : World} (hP : P.Sized) {sm mlen m pk : Ptr} {smlen : Nat} {sb pkb : Bytes}
    (hsm : W.view sm smlen = some sb) (hpk : W.view pk 1408 = some pkb)
    (hm : (W.view m (smlen - 52342)).isSome) (hl : (W.view mlen 8).isSome) :
    openFull P (some m) (some mlen) (some sm) smlen (some pk) W =
      (fullOpen P sb pkb >>= fun x => match x with
        | .error c => .ok (c, W)
        | .ok msg => .ok (0, (W.write m msg).write mlen (le64 msg.length))) := by
  have hsb := length_of_view hsm
  simp only [openFull, fullOpen, hsb]
  simp only [ED_PK, DIL_PK, SPX_PK, ED_SIG, DIL_SIG, SPX_SIG, LEN_BYTES, MAX_MSG_LEN, MIN_MSG_LEN, FULL_ID]
  by_cases c1 : smlen < 52343 ∨ smlen > 52406
  · rw [if_pos (by omega), if_pos c1]; rfl
  rw [if_neg (by omega), if_neg c1]
  simp only [M_bind_apply]
  rw [load_getD hsm (by omega)]; simp only [ok_bind]
  by_cases c2 : (sb.getD 0 0).toNat = 2
  swap
  · rw [if_pos c2, if_pos c2]; rfl
  rw [if_neg (not_not.2 c2), if_neg (not_not.2 c2)]
  simp only [M_bind_apply]
  rw [load_getD hsm (by omega)]; simp only [ok_bind]
  generalize (sb.getD 1 0).toNat = n
  by_cases c3 : n ≤ 0 ∨ n > 64
  · rw [if_pos c3, if_pos c3]; rfl
  rw [if_neg c3, if_neg c3]
  by_cases c4 : smlen = 52342 + n
  swap
  · rw [if_pos (by omega), if_pos c4]; rfl
  rw [if_neg (by omega), if_neg (not_not.2 c4)]
  simp only [M_bind_apply]
  rw [copyIn_ok (view_sub hsm (by omega)) (by simp; omega)]; simp only [ok_bind]
  rw [copyIn_zeros hpk (by omega)]; simp only [ok_bind]
  cases he : P.edOpen (zeros 128) 0 (splice (zeros 128) 0 (slice sb 2 (64 + n))) (64 + n) (slice pkb 0 32) with
  | error e => rfl
  | ok t =>
    obtain ⟨r1, m1, l1⟩ := t
    have e1 := hP.edOpen _ _ _ _ _ _ _ _ he
    simp only [length_zeros] at e1
    simp only [liftC_ok, ok_bind]
    by_cases c5 : r1 = 0
    swap
    · rw [if_pos c5, if_pos c5]; rfl
    rw [if_neg (not_not.2 c5), if_neg (not_not.2 c5)]
    by_cases c6 : toInt32 l1 = n
    swap
    · rw [if_pos c6, if_pos c6]; rfl
    rw [if_neg (not_not.2 c6), if_neg (not_not.2 c6)]
    simp only [M_bind_apply]
    rw [copyIn_zeros hsm (by omega)]; simp only [ok_bind]
    rw [copyIn_zeros hpk (by omega)]; simp only [ok_bind]
    rw [prefixOf_ok (by omega)]; simp only [liftC_ok, ok_bind]
    rw [show 2 + 64 + n = 66 + n by omega, show 66 + n + 2420 = 2486 + n by omega]
    cases hd : P.dilVerify (slice sb (66 + n) 2420) (m1.take n) (slice pkb 32 1312) with
    | error e => rfl
    | ok r2 =>
      simp only [liftC_ok, ok_bind]
      by_cases c7 : r2 = 0
      swap
      · rw [if_pos c7, if_pos c7]; rfl
      rw [if_neg (not_not.2 c7), if_neg (not_not.2 c7)]
      simp only [M_bind_apply]
      rw [copyIn_zeros hsm (by omega)]; simp only [ok_bind]
      rw [copyIn_zeros hpk (by omega)]; simp only [ok_bind]
      cases hs : P.spxVerify (slice sb (2486 + n) 49856) (m1.take n) (slice pkb 1344 64) with
      | error e => simp
      | ok r3 =>
        simp only [liftC_ok, ok_bind]
        by_cases c8 : r3 = 0
        swap
        · rw [if_pos c8, if_pos c8]; rfl
        rw [if_neg (not_not.2 c8), if_neg (not_not.2 c8)]
        simp only [M_bind_apply]
        have hm' : (W.view (m.add 0) n).isSome := view_isSome_sub hm (by omega)
        rw [copyOut_ok hm' (by omega)]; simp only [ok_bind]
        rw [storeU64_ok (write_view_isSome hl)]
        have hmn : (m1.take n).length = n := by simp; omega
        simp only [ok_bind, M_pure_apply, slice, List.drop_zero, Ptr.add, Nat.add_zero, hmn]

/-! ### Local blocks -/

/-- The world inside `withLocal`. -/
def push (W : World) (init : Bytes) : World :=
  { W with mem := Function.update W.mem W.sp (some init), sp := W.sp + 1 }

theorem withLocal_eq {α : Type} (init : Bytes) (f : Ptr → M α) (W : World) :
    withLocal init f W = (f ⟨W.sp, 0⟩ (push W init) >>= fun p =>
      .ok (p.1, { p.2 with mem := Function.update p.2.mem W.sp none, sp := W.sp })) := by
  unfold withLocal
  show (match f ⟨W.sp, 0⟩ (push W init) with | .error e => _ | .ok (a, W2) => _) = _
  cases f ⟨W.sp, 0⟩ (push W init) with
  | error e => rfl
  | ok p => rfl

theorem push_WF {W : World} (h : W.WF) (init : Bytes) : (push W init).WF := by
  intro b hb
  simp only [push] at hb ⊢
  rw [Function.update_of_ne (by omega)]
  exact h b (by omega)

theorem push_view {W : World} (h : W.WF) (init : Bytes) {q : Ptr} {n : Nat} {x : Bytes}
    (hv : W.view q n = some x) : (push W init).view q n = some x := by
  rw [← hv]
  have : q.blk ≠ W.sp := by
    intro e
    obtain ⟨b, hb, _⟩ := view_eq_some.1 hv
    rw [h q.blk (by omega)] at hb
    cases hb
  unfold World.view push
  simp only
  rw [Function.update_of_ne this]

theorem push_view_new (W : World) (init : Bytes) {n : Nat} (hn : n ≤ init.length) :
    (push W init).view ⟨W.sp, 0⟩ n = some (slice init 0 n) := by
  refine view_eq_some.2 ⟨init, ?_, ?_, rfl⟩
  · simp [push]
  · simp; exact hn

theorem write_mem_other {W : World} {p : Ptr} {x : Bytes} {b : Nat} (h : b ≠ p.blk) :
    (W.write p x).mem b = W.mem b := by
  unfold World.write
  split
  · rfl
  · split
    · simp only; rw [Function.update_of_ne h]
    · rfl

/-- Releasing two local blocks after writes into them only restores the world. -/
theorem pop2 {W W2 : World} (h : W.WF) (hr : W2.rng = W.rng)
    (hm : ∀ b, b ≠ W.sp → b ≠ W.sp + 1 → W2.mem b = W.mem b) :
    ({ mem := Function.update (Function.update W2.mem (W.sp + 1) none) W.sp none, sp := W.sp, rng := W2.rng } : World) = W := by
  obtain ⟨mem, sp, rng⟩ := W
  simp only [World.mk.injEq, true_and] at hr hm ⊢
  refine ⟨?_, hr⟩
  funext b
  by_cases h1 : b = sp
  · subst h1; simp; exact (h b (Nat.le_refl _)).symm
  · rw [Function.update_of_ne h1]
    by_cases h2 : b = sp + 1
    · subst h2; simp; exact (h (sp + 1) (Nat.le_succ _)).symm
    · rw [Function.update_of_ne h2]; exact hm b h1 h2

theorem write_two_views {W : World} (h : W.WF) {n : Nat} (msg : Bytes) (v : Nat) (hmsg : msg.length ≤ n) :
    let W2 := push (push W (zeros n)) (zeros 8)
    let W3 := (W2.write ⟨W.sp, 0⟩ msg).write ⟨W.sp + 1, 0⟩ (le64 v)
    W3.view ⟨W.sp, 0⟩ msg.length = some msg ∧ W3.view ⟨W.sp + 1, 0⟩ 8 = some (le64 v) ∧
    (∀ q k x, W.view q k = some x → W3.view q k = some x) ∧ W3.rng = W.rng ∧
    (∀ b, b ≠ W.sp → b ≠ W.sp + 1 → W3.mem b = W.mem b) := by
  intro W2 W3
  have hW1 := push_WF h (zeros n)
  have v1 : W2.view ⟨W.sp, 0⟩ msg.length = some (slice (zeros n) 0 msg.length) :=
    push_view hW1 _ (push_view_new W _ (by simpa using hmsg))
  have v2 : W2.view ⟨W.sp + 1, 0⟩ 8 = some (slice (zeros 8) 0 8) := push_view_new (push W (zeros n)) _ (by simp)
  refine ⟨?_, ?_, ?_, ?_, ?_⟩
  · show World.view ((W2.write _ _).write _ _) _ _ = _
    rw [view_write_disj (Or.inl (by simp)), view_write_same v1 rfl]
  · have v2' : (W2.write ⟨W.sp, 0⟩ msg).view ⟨W.sp + 1, 0⟩ 8 = some (slice (zeros 8) 0 8) := by
      rw [view_write_disj (Or.inl (by simp)), v2]
    exact view_write_same v2' (by simp)
  · intro q k x hq
    have hne : q.blk < W.sp := by
      by_contra hc
      obtain ⟨b, hb, _⟩ := view_eq_some.1 hq
      rw [h q.blk (by omega)] at hb
      cases hb
    show World.view ((W2.write _ _).write _ _) _ _ = _
    rw [view_write_disj (Or.inl (by simp; omega)), view_write_disj (Or.inl (by simp; omega))]
    exact push_view hW1 _ (push_view h _ hq)
  · show ((W2.write _ _).write _ _).rng = _
    rw [write_rng, write_rng]; rfl
  · intro b h1 h2
    show ((W2.write _ _).write _ _).mem b = _
    rw [write_mem_other (by simpa using h2), write_mem_other (by simpa using h1)]
    show Function.update (push W (zeros n)).mem (W.sp + 1) _ b = _
    rw [Function.update_of_ne h2]
    show Function.update W.mem W.sp _ b = _
    rw [Function.update_of_ne h1]

/-- What verify returns, given what open returns. -/
def verifyCode (mb : Bytes) : Except Int Bytes → Int
  | .error _ => -2
  | .ok msg => if msg.length ≠ mb.length then -3 else if msg = mb then 0 else -4

theorem fullOpen_bounds (hP : P.Sized) {sb pkb msg : Bytes} (h : fullOpen P sb pkb = .ok (.ok msg)) :
    msg.length = sb.length - 52342 ∧ 1 ≤ msg.length ∧ msg.length ≤ 64 ∧ sb.length = 52342 + msg.length := by
  unfold fullOpen at h
  simp only at h
  split at h
  · simp at h
  split at h
  · simp at h
  split at h
  · simp at h
  split at h
  · simp at h
  rename_i c1 c2 c3 c4
  obtain ⟨⟨r1, m1, l1⟩, he, h⟩ := bind_eq_ok.1 h
  have e1 := hP.edOpen _ _ _ _ _ _ _ _ he
  simp only [length_zeros] at e1
  simp only at h
  split at h
  · simp at h
  split at h
  · simp at h
  obtain ⟨r2, _, h⟩ := bind_eq_ok.1 h
  split at h
  · simp at h
  obtain ⟨r3, _, h⟩ := bind_eq_ok.1 h
  split at h
  · simp at h
  simp only [Except.ok.injEq] at h
  subst h
  simp only [List.length_take]
  omega

theorem fullOpen_nonneg {sb pkb : Bytes} {c : Int} (h : fullOpen P sb pkb = .ok (.error c)) : c ≠ 0 := by
  unfold fullOpen at h
  split at h
  · simp at h; omega
  split at h
  · simp at h; omega
  simp only at h
  split at h
  · simp at h; omega
  split at h
  · simp at h; omega
  obtain ⟨⟨r1, m1, l1⟩, he, h⟩ := bind_eq_ok.1 h
  simp only at h
  split at h
  · simp at h; omega
  split at h
  · simp at h; omega
  obtain ⟨r2, _, h⟩ := bind_eq_ok.1 h
  split at h
  · simp at h; omega
  obtain ⟨r3, _, h⟩ := bind_eq_ok.1 h
  split at h
  · simp at h; omega
  simp at h

/-- The common body of the two verify functions. -/
theorem verify_shape {W : World} (hW : W.WF) {N mlen : Nat} {m : Ptr} {mb : Bytes} (op : Ptr → Ptr → M Int)
    (x : C (Except Int Bytes)) (hm : W.view m mlen = some mb)
    (hop : op ⟨W.sp, 0⟩ ⟨W.sp + 1, 0⟩ (push (push W (zeros N)) (zeros 8)) = (x >>= fun x => match x with
      | .error c => .ok (c, push (push W (zeros N)) (zeros 8))
      | .ok msg => .ok (0, ((push (push W (zeros N)) (zeros 8)).write ⟨W.sp, 0⟩ msg).write ⟨W.sp + 1, 0⟩ (le64 msg.length))))
    (hne : ∀ c, x = .ok (.error c) → c ≠ 0) (hlen : ∀ msg, x = .ok (.ok msg) → msg.length ≤ N ∧ msg.length ≤ 64) :
    withLocal (zeros N) (fun buf => withLocal (zeros 8) fun lenp => do
      let r ← op buf lenp
      if r ≠ 0 then pure (-2) else do
      let l ← loadU64 lenp
      if l ≠ mlen then pure (-3) else
      cmpMem buf m 0 l) W = (x >>= fun x => .ok (verifyCode mb x, W)) := by
  have hmb := length_of_view hm
  rw [withLocal_eq, withLocal_eq]
  have hW1 := push_WF hW (zeros N)
  have hsp : (push W (zeros N)).sp = W.sp + 1 := rfl
  simp only [M_bind_apply, hsp]
  rw [hop]
  cases x with
  | error e => rfl
  | ok x =>
    cases x with
    | error c =>
      simp only [ok_bind, verifyCode]
      rw [if_pos (hne c rfl)]
      simp only [M_pure_apply, ok_bind]
      congr 2
      exact pop2 (W2 := push (push W (zeros N)) (zeros 8)) hW rfl (by
        intro b h1 h2
        show Function.update (push W (zeros N)).mem (W.sp + 1) _ b = _
        rw [Function.update_of_ne h2]
        show Function.update W.mem W.sp _ b = _
        rw [Function.update_of_ne h1])
    | ok msg =>
      obtain ⟨hb1, hb2⟩ := hlen msg rfl
      obtain ⟨w1, w2, w3, w4, w5⟩ := write_two_views hW (n := N) msg msg.length hb1
      simp only [ok_bind, verifyCode]
      rw [if_neg (by decide)]
      simp only [M_bind_apply]
      rw [loadU64_ok w2]
      simp only [ok_bind]
      rw [ofLe_le64 _ (by omega)]
      by_cases hl : msg.length = mlen
      · rw [if_neg (not_not.2 hl), if_neg (by omega), cmpMem_ok w1 (w3 _ _ _ hm) (by omega) (by omega)]
        simp only [ok_bind]
        rw [slice_full rfl, slice_full (by omega)]
        congr 2
        exact pop2 hW w4 w5
      · rw [if_pos hl, if_pos (by omega)]
        simp only [M_pure_apply, ok_bind]
        congr 2
        exact pop2 hW w4 w5

theorem verifyFull_run {W : World} (hW : W.WF) (hP : P.Sized) {sm m pk : Ptr} {smlen mlen : Nat} {sb pkb mb : Bytes}
    (hsm : W.view sm smlen = some sb) (hpk : W.view pk 1408 = some pkb) (hm : W.view m mlen = some mb)
    (h1 : 1 ≤ mlen) (h2 : mlen ≤ 64) :
    verifyFull P (some m) mlen (some sm) smlen (some pk) W =
      (fullOpen P sb pkb >>= fun x => .ok (verifyCode mb x, W)) := by
  have hsb := length_of_view hsm
  have hW1 := push_WF hW (zeros 224)
  simp only [verifyFull]
  rw [if_neg (by simp only [MAX_MSG_LEN]; omega)]
  refine verify_shape hW (fun buf lenp => openFull P (some buf) (some lenp) (some sm) smlen (some pk)) _ hm ?_
    (fun c => fullOpen_nonneg) (fun msg h => ?_)
  · by_cases hr : smlen < 52343 ∨ smlen > 52406
    · have e1 : fullOpen P sb pkb = .ok (.error (-1)) := by
        unfold fullOpen; rw [if_pos (by omega)]
      rw [e1]
      simp only [openFull]
      rw [if_pos (by simp only [LEN_BYTES, ED_SIG, MIN_MSG_LEN, MAX_MSG_LEN, DIL_SIG, SPX_SIG]; omega)]
      rfl
    · refine openFull_run hP (push_view hW1 _ (push_view hW _ hsm)) (push_view hW1 _ (push_view hW _ hpk)) ?_ ?_
      · rw [push_view hW1 _ (push_view_new W (zeros 224) (n := smlen - 52342) (by simp; omega))]
        rfl
      · exact Option.isSome_iff_exists.2 ⟨_, push_view_new (push W (zeros 224)) (zeros 8) (by simp)⟩
  · have := fullOpen_bounds hP h
    omega

/-! ### Compact mode -/

/-- What compact signing computes: an error code or the signature bytes. -/
def compactSig (P : Prims) (mb skb : Bytes) : RandM (Except Int Bytes) := do
  match ← randombytes 40 with
  | none => pure (.error (-1))
  | some nonce => do
  let h := P.sha3_512 (nonce ++ mb ++ slice skb 4000 64)
  let (r1, s1, l1) ← liftCR (P.edSign (zeros 128) 0 h (slice skb 0 64))
  let (r2, s2, l2) ← liftCR (P.dilSign (zeros 2420) 0 h (slice skb 64 2560))
  if r1 ≠ 0 then pure (.error (-2)) else
  if r2 ≠ 0 then pure (.error (-3)) else
  if l1 ≠ 128 then pure (.error (-4)) else
  if l2 ≠ 2420 then pure (.error (-5)) else
  pure (.ok ([1, BitVec.ofNat 8 mb.length] ++ s1.take 64 ++ s2 ++ nonce ++ mb))

theorem splice_append {b x y : Bytes} {k : Nat} (hk : x.length = k) (h : x.length + y.length ≤ b.length) :
    splice (splice b 0 x) k y = splice b 0 (x ++ y) := by
  subst hk
  apply List.ext_getElem?
  intro i
  rw [getElem?_splice _ _ _ _ (by rw [length_splice (by omega)]; omega),
    getElem?_splice _ _ _ _ (by omega), getElem?_splice _ _ _ _ (by simp; omega)]
  simp only [List.length_append]
  by_cases hA : i < x.length
  · rw [if_neg (by omega), if_pos (by omega), if_pos (by omega), List.getElem?_append_left (by omega)]
  · by_cases hB : i < x.length + y.length
    · rw [if_pos (by omega), if_pos (by omega), List.getElem?_append_right (by omega)]; rfl
    · rw [if_neg (by omega), if_neg (by omega), if_neg (by omega)]

theorem take_splice {b x : Bytes} {n : Nat} (h : x.length = n) : (splice b 0 x).take n = x := by
  subst h
  unfold splice
  simp

/-- The end of compact signing: the message is copied from the caller's buffer after the rest has been written. -/
def signTail (sm smlen m : Ptr) (mlen : Nat) : M Int := do
  copyMem sm 2526 m 0 mlen
  storeU64 smlen (2526 + mlen)
  pure 0

theorem signCompact_gen {W : World} (hP : P.Sized) {sm smlen m sk : Ptr} {mlen : Nat} {mb skb : Bytes}
    (hm : W.view m mlen = some mb) (hsk : W.view sk 4064 = some skb)
    (hsm : (W.view sm (2526 + mlen)).isSome)
    (h1 : 1 ≤ mlen) (h2 : mlen ≤ 64) :
    signCompact P (some sm) (some smlen) (some m) mlen (some sk) W =
      (compactSig P mb skb W.rng >>= fun p => match p.1 with
        | .error c => .ok (c, { W with rng := p.2 })
        | .ok sig => signTail sm smlen m mlen (({ W with rng := p.2 } : World).write sm (sig.take 2526))) := by
  have hmb := length_of_view hm
  have hskb := length_of_view hsk
  simp only [signCompact, compactSig]
  rw [if_neg (by simp only [MAX_MSG_LEN]; omega)]
  simp only [M_bind_apply, RandM_bind_apply]
  simp only [ED_SK, DIL_SK, DIL_PK, SPX_SK, ED_SIG, DIL_SIG, SPX_PK, LEN_BYTES, NONCE_BYTES, HASH_LENGTH, COMPACT_ID]
  rw [copyIn_zeros hsk (by omega)]; simp only [ok_bind]
  rw [copyIn_zeros hsk (by omega)]; simp only [ok_bind]
  simp only [liftR, randombytes, ok_bind]
  generalize hR : ({ W.rng with log := W.rng.log ++ [(40, W.rng.draw W.rng.log.length 40)] } : Rng) = R'
  cases hn : W.rng.draw W.rng.log.length 40 with
  | none => rfl
  | some nonce =>
    have hnl := W.rng.len_draw _ _ _ hn
    simp only
    generalize hW1 : ({ W with rng := R' } : World) = W1
    have hm1 : W1.view m mlen = some mb := by subst hW1; exact hm
    have hsk1 : W1.view sk 4064 = some skb := by subst hW1; exact hsk
    have hsm1 : (W1.view sm (2526 + mlen)).isSome := by subst hW1; exact hsm
    have hspl : (slice skb 4000 64).length = 64 := length_slice (by omega)
    simp only [M_bind_apply, RandM_bind_apply]
    rw [copy_ok (by omega) (by simp)]; simp only [liftC_ok, ok_bind]
    rw [copyIn_ok (x := mb) (by simpa [Ptr.add] using hm1) (by rw [length_splice (by simp [slice]; omega)]; simp; omega)]
    simp only [ok_bind]
    rw [slice_full hnl, splice_append hnl (by simp; omega)]
    rw [copyIn_ok (view_sub hsk1 (by omega)) (by rw [length_splice (by simp; omega)]; simp; omega)]
    simp only [ok_bind, Nat.reduceAdd, Nat.reduceDiv]
    rw [splice_append (by simp; omega) (by simp; omega)]
    rw [prefixOf_ok (by rw [length_splice (by simp; omega)]; simp; omega), take_splice (by simp; omega)]
    simp only [liftC_ok, ok_bind]
    cases he : P.edSign (zeros 128) 0 (P.sha3_512 (nonce ++ mb ++ slice skb 4000 64)) (slice skb 0 64) with
    | error e => rfl
    | ok t1 =>
      obtain ⟨r1, s1, l1⟩ := t1
      simp only [liftC_ok, liftCR_ok, ok_bind]
      cases hd2 : P.dilSign (zeros 2420) 0 (P.sha3_512 (nonce ++ mb ++ slice skb 4000 64)) (slice skb 64 2560) with
      | error e => rfl
      | ok t2 =>
        obtain ⟨r2, s2, l2⟩ := t2
        simp only [liftC_ok, liftCR_ok, ok_bind]
        by_cases c1 : r1 = 0
        swap
        · simp [c1, hW1]
        by_cases c2 : r2 = 0
        swap
        · simp [c1, c2, hW1]
        by_cases c3 : l1 = 128
        swap
        · simp [c1, c2, c3, hW1]
        by_cases c4 : l2 = 2420
        swap
        · simp [c1, c2, c3, c4, hW1]
        subst c1 c2 c3 c4
        have e1 := hP.edSign _ _ _ _ _ _ _ he
        have e2 := hP.dilSign _ _ _ _ _ _ _ hd2
        simp only [length_zeros] at e1 e2
        have e4 : (slice s1 0 64).length = 64 := length_slice (by omega)
        have e5 : (slice s2 0 2420).length = 2420 := length_slice (by omega)
        have e6 : (slice nonce 0 40).length = 40 := length_slice (by omega)
        simp only [ne_eq, not_true_eq_false, if_false, M_bind_apply, RandM_pure_apply, ok_bind, hW1]
        rw [← write_nil W1 sm]
        rw [store_append hsm1 (by rfl) (by omega)]; simp only [ok_bind]
        rw [store_append hsm1 (by rfl) (by omega)]; simp only [ok_bind]
        rw [copyOut_append hsm1 (by rfl) (by omega) (by omega)]; simp only [ok_bind]
        rw [copyOut_append hsm1 (by simp [e4]) (by omega) (by omega)]; simp only [ok_bind]
        rw [copyOut_append hsm1 (by simp [e4, e5]) (by omega) (by omega)]; simp only [ok_bind]
        rw [slice_full e2, slice_full hnl]
        rw [List.take_append_of_le_length (by simp [hnl, e2, e1]),
          List.take_of_length_le (by simp [hnl, e2, e1])]
        simp only [signTail, M_bind_apply, slice, List.drop_zero, write_nil]
        rw [hmb]
        rfl

/-- Length of what compact signing produces. -/
theorem compactSig_form (hP : P.Sized) {mb skb sig : Bytes} {R R' : Rng}
    (h : compactSig P mb skb R = .ok (.ok sig, R')) : ∃ pre, pre.length = 2526 ∧ sig = pre ++ mb := by
  unfold compactSig at h
  simp only [RandM_bind_apply, randombytes, ok_bind] at h
  cases hn : R.draw R.log.length 40 with
  | none => rw [hn] at h; simp at h
  | some nonce =>
    rw [hn] at h
    have hnl := R.len_draw _ _ _ hn
    simp only [RandM_bind_apply] at h
    cases he : P.edSign (zeros 128) 0 (P.sha3_512 (nonce ++ mb ++ slice skb 4000 64)) (slice skb 0 64) with
    | error e => rw [he] at h; simp [liftCR] at h
    | ok t1 =>
      cases hd2 : P.dilSign (zeros 2420) 0 (P.sha3_512 (nonce ++ mb ++ slice skb 4000 64)) (slice skb 64 2560) with
      | error e => rw [he, hd2] at h; simp [liftCR] at h
      | ok t2 =>
        obtain ⟨r1, s1, l1⟩ := t1
        obtain ⟨r2, s2, l2⟩ := t2
        rw [he, hd2] at h
        simp only [liftCR_ok, ok_bind] at h
        have e1 := hP.edSign _ _ _ _ _ _ _ he
        have e2 := hP.dilSign _ _ _ _ _ _ _ hd2
        simp only [length_zeros] at e1 e2
        split at h
        · simp at h
        split at h
        · simp at h
        split at h
        · simp at h
        split at h
        · simp at h
        simp only [RandM_pure_apply, Except.ok.injEq, Prod.mk.injEq] at h
        exact ⟨[1, BitVec.ofNat 8 mb.length] ++ s1.take 64 ++ s2 ++ nonce, by simp [e1, e2, hnl], by rw [← h.1]⟩

theorem signTail_ok {W : World} {sm smlen m : Ptr} {mlen : Nat} {mb pre : Bytes} (hpre : pre.length = 2526)
    (hm : W.view m mlen = some mb)
    (hsm : (W.view sm (2526 + mlen)).isSome) (hl : (W.view smlen 8).isSome)
    (hd : Disj sm (2526 + mlen) m mlen) :
    signTail sm smlen m mlen (W.write sm pre) =
      .ok (0, (W.write sm (pre ++ mb)).write smlen (le64 (2526 + mlen))) := by
  simp only [signTail, M_bind_apply]
  rw [copyMem_append (y := mb) hsm hpre (by omega) (by simpa [Ptr.add] using hm)
          (by simpa [Ptr.add] using hd)]
  simp only [ok_bind]
  rw [storeU64_ok (write_view_isSome hl)]
  rfl

theorem signCompact_run {W : World} (hP : P.Sized) {sm smlen m sk : Ptr} {mlen : Nat} {mb skb : Bytes}
    (hm : W.view m mlen = some mb) (hsk : W.view sk 4064 = some skb)
    (hsm : (W.view sm (2526 + mlen)).isSome) (hl : (W.view smlen 8).isSome)
    (hd : Disj sm (2526 + mlen) m mlen)
    (h1 : 1 ≤ mlen) (h2 : mlen ≤ 64) :
    signCompact P (some sm) (some smlen) (some m) mlen (some sk) W =
      (compactSig P mb skb W.rng >>= fun p => match p.1 with
        | .error c => .ok (c, { W with rng := p.2 })
        | .ok sig => .ok (0, (({ W with rng := p.2 } : World).write sm sig).write smlen (le64 (2526 + mlen)))) := by
  rw [signCompact_gen hP hm hsk hsm h1 h2]
  cases hs : compactSig P mb skb W.rng with
  | error e => rfl
  | ok t =>
    obtain ⟨x, R'⟩ := t
    cases x with
    | error c => rfl
    | ok sig =>
      obtain ⟨pre, hp, rfl⟩ := compactSig_form hP hs
      simp only [ok_bind]
      rw [List.take_append_of_le_length (by omega), List.take_of_length_le (by omega)]
      exact signTail_ok hp hm hsm hl hd

/-- Copying between caller buffers, whatever their placement. -/
theorem copyMem_total {W : World} {p q : Ptr} {o s n : Nat}
    (hp : (W.view (p.add o) n).isSome) (hq : (W.view (q.add s) n).isSome) :
    ∃ y, y.length = n ∧ copyMem p o q s n W = .ok ((), W.write (p.add o) y) := by
  obtain ⟨u, W', e, y, hy, hW⟩ := loopM_ok
    (fun k (_ : Unit) W' => ∃ y : Bytes, y.length = k ∧ W' = W.write (p.add o) y)
    (fun i _ => do let v ← load q (s + i); store p (o + i) v) 0 n () W
    ⟨[], rfl, (write_nil _ _).symm⟩
    (by
      rintro k _ W' _ hk ⟨y, hy, rfl⟩
      obtain ⟨x, hx⟩ := Option.isSome_iff_exists.1 (write_view_isSome (p := p.add o) (x := y) hq)
      have hld := load_getD hx (i := k) (by omega)
      have hld' : load q (s + k) (W.write (p.add o) y) = .ok (x.getD k 0, W.write (p.add o) y) := by
        rw [← hld]; unfold load; simp only [Ptr.add, Nat.add_assoc]
      refine ⟨(), _, ?_, y ++ [x.getD k 0], by simp [hy], rfl⟩
      rw [M_bind_apply, hld']
      simp only [ok_bind]
      have := store_append (v := x.getD k 0) hp hy (by omega)
      rw [← this]
      unfold store; simp only [Ptr.add, Nat.add_assoc])
  refine ⟨y, by omega, ?_⟩
  unfold copyMem
  rw [e, hW]

theorem signTail_total {W : World} {sm smlen m : Ptr} {mlen : Nat} {pre : Bytes} (hpre : pre.length = 2526)
    (hm : (W.view m mlen).isSome) (hsm : (W.view sm (2526 + mlen)).isSome) (hl : (W.view smlen 8).isSome) :
    ∃ y, y.length = mlen ∧ signTail sm smlen m mlen (W.write sm pre) =
      .ok (0, (W.write sm (pre ++ y)).write smlen (le64 (2526 + mlen))) := by
  obtain ⟨y, hy, e⟩ := copyMem_total (W := W.write sm pre) (p := sm) (q := m) (o := 2526) (s := 0) (n := mlen)
    (write_view_isSome (view_isSome_sub hsm (by omega))) (write_view_isSome (by simpa [Ptr.add] using hm))
  refine ⟨y, hy, ?_⟩
  simp only [signTail, M_bind_apply]
  rw [e]
  simp only [ok_bind]
  rw [write_append' hsm hpre.symm (by omega), storeU64_ok (write_view_isSome hl)]
  rfl

/-- What compact open computes: an error code or the message. -/
def compactOpen (P : Prims) (sb pkb : Bytes) : C (Except Int Bytes) :=
  if sb.length < 2527 ∨ sb.length > 2590 then .ok (.error (-1)) else
  if (sb.getD 0 0).toNat ≠ 1 then .ok (.error (-2)) else
  let n := (sb.getD 1 0).toNat
  if n ≤ 0 ∨ n > 64 then .ok (.error (-3)) else
  if sb.length ≠ 2526 + n then .ok (.error (-4)) else do
  let h := P.sha3_512 (slice sb 2486 40 ++ slice sb 2526 n ++ slice pkb 1344 64)
  let (r1, m1, l1) ← P.edOpen (zeros 128) 0 (slice sb 2 64 ++ h) 128 (slice pkb 0 32)
  if r1 ≠ 0 then .ok (.error (-5)) else
  if l1 ≠ 64 then .ok (.error (-6)) else
  if m1.take 64 ≠ h then .ok (.error (-7)) else do
  let r2 ← P.dilVerify (slice sb 66 2420) h (slice pkb 32 1312)
  if r2 ≠ 0 then .ok (.error (-8)) else
  .ok (.ok (slice sb 2526 n))

/-- The end of compact open: the message is copied out of the signature buffer. -/
def openTail (m mlen sm : Ptr) (n : Nat) : M Int := do
  copyMem m 0 sm 2526 n
  storeU64 mlen n
  pure 0

theorem openCompact_gen {W : World} (hP : P.Sized) {sm mlen m pk : Ptr} {smlen : Nat} {sb pkb : Bytes}
    (hsm : W.view sm smlen = some sb) (hpk : W.view pk 1408 = some pkb) :
    openCompact P (some m) (some mlen) (some sm) smlen (some pk) W =
      (compactOpen P sb pkb >>= fun x => match x with
        | .error c => .ok (c, W)
        | .ok msg => openTail m mlen sm msg.length W) := by
  have hsb := length_of_view hsm
  have hpkb := length_of_view hpk
  simp only [openCompact, compactOpen, hsb]
  simp only [ED_PK, DIL_PK, SPX_PK, ED_SIG, DIL_SIG, LEN_BYTES, MAX_MSG_LEN, MIN_MSG_LEN, COMPACT_ID, NONCE_BYTES, HASH_LENGTH]
  by_cases c1 : smlen < 2527 ∨ smlen > 2590
  · rw [if_pos (by omega), if_pos c1]; rfl
  rw [if_neg (by omega), if_neg c1]
  simp only [M_bind_apply]
  rw [load_getD hsm (by omega)]; simp only [ok_bind]
  by_cases c2 : (sb.getD 0 0).toNat = 1
  swap
  · rw [if_pos c2, if_pos c2]; rfl
  rw [if_neg (not_not.2 c2), if_neg (not_not.2 c2)]
  simp only [M_bind_apply]
  rw [load_getD hsm (by omega)]; simp only [ok_bind]
  generalize (sb.getD 1 0).toNat = n
  by_cases c3 : n ≤ 0 ∨ n > 64
  · rw [if_pos c3, if_pos c3]; rfl
  rw [if_neg c3, if_neg c3]
  by_cases c4 : smlen = 2526 + n
  swap
  · rw [if_pos (by omega), if_pos c4]; rfl
  rw [if_neg (by omega), if_neg (not_not.2 c4)]
  have n1 : (slice sb 2486 40).length = 40 := length_slice (by omega)
  have n2 : (slice sb 2526 n).length = n := length_slice (by omega)
  have n3 : (slice pkb 1344 64).length = 64 := length_slice (by omega)
  have n4 : (slice sb 2 64).length = 64 := length_slice (by omega)
  simp only [M_bind_apply, Nat.reduceAdd]
  rw [copyIn_ok (view_sub hsm (by omega)) (by simp)]; simp only [ok_bind]
  rw [copyIn_ok (view_sub hsm (by omega)) (by rw [length_splice (by simp; omega)]; simp; omega)]; simp only [ok_bind]
  rw [splice_append (by omega) (by simp; omega)]
  rw [copyIn_ok (view_sub hpk (by omega)) (by rw [length_splice (by simp; omega)]; simp; omega)]; simp only [ok_bind]
  rw [splice_append (by simp; omega) (by simp; omega)]
  rw [prefixOf_ok (by rw [length_splice (by simp; omega)]; simp; omega), take_splice (by simp; omega)]
  simp only [liftC_ok, ok_bind]
  have hh := hP.sha3_512 (slice sb 2486 40 ++ slice sb 2526 n ++ slice pkb 1344 64)
  generalize P.sha3_512 (slice sb 2486 40 ++ slice sb 2526 n ++ slice pkb 1344 64) = h at hh
  rw [copyIn_ok (view_sub hsm (by omega)) (by simp)]; simp only [ok_bind]
  rw [copy_ok (by omega) (by rw [length_splice (by simp; omega)]; simp)]; simp only [liftC_ok, ok_bind]
  rw [slice_full hh, splice_append n4 (by simp; omega), splice_zeros (by simp; omega)]
  rw [copyIn_zeros hpk (by omega)]; simp only [ok_bind]
  cases he : P.edOpen (zeros 128) 0 (slice sb 2 64 ++ h) 128 (slice pkb 0 32) with
  | error e => rfl
  | ok t =>
    obtain ⟨r1, m1, l1⟩ := t
    have e1 := hP.edOpen _ _ _ _ _ _ _ _ he
    simp only [length_zeros] at e1
    simp only [liftC_ok, ok_bind]
    by_cases c5 : r1 = 0
    swap
    · rw [if_pos c5, if_pos c5]; rfl
    rw [if_neg (not_not.2 c5), if_neg (not_not.2 c5)]
    by_cases c6 : l1 = 64
    swap
    · rw [if_pos c6, if_pos c6]; rfl
    rw [if_neg (not_not.2 c6), if_neg (not_not.2 c6)]
    simp only [M_bind_apply]
    rw [prefixOf_ok (by omega)]; simp only [liftC_ok, ok_bind]
    rw [prefixOf_ok (by omega)]; simp only [liftC_ok, ok_bind]
    rw [List.take_of_length_le (l := h) (by omega)]
    by_cases c7 : m1.take 64 = h
    swap
    · rw [if_pos c7, if_pos c7]; rfl
    rw [if_neg (not_not.2 c7), if_neg (not_not.2 c7)]
    simp only [M_bind_apply]
    rw [copyIn_zeros hsm (by omega)]; simp only [ok_bind]
    rw [copyIn_zeros hpk (by omega)]; simp only [ok_bind]
    cases hdv : P.dilVerify (slice sb 66 2420) h (slice pkb 32 1312) with
    | error e => simp
    | ok r2 =>
      simp only [liftC_ok, ok_bind]
      by_cases c8 : r2 = 0
      swap
      · rw [if_pos c8, if_pos c8]; rfl
      rw [if_neg (not_not.2 c8), if_neg (not_not.2 c8)]
      simp only [ok_bind, openTail, n2]

theorem compactOpen_bounds {sb pkb msg : Bytes} (h : compactOpen P sb pkb = .ok (.ok msg)) :
    msg.length = sb.length - 2526 ∧ 1 ≤ msg.length ∧ msg.length ≤ 64 ∧ sb.length = 2526 + msg.length := by
  unfold compactOpen at h
  simp only at h
  split at h
  · simp at h
  split at h
  · simp at h
  split at h
  · simp at h
  split at h
  · simp at h
  rename_i c1 c2 c3 c4
  obtain ⟨⟨r1, m1, l1⟩, he, h⟩ := bind_eq_ok.1 h
  simp only at h
  split at h
  · simp at h
  split at h
  · simp at h
  split at h
  · simp at h
  obtain ⟨r2, _, h⟩ := bind_eq_ok.1 h
  split at h
  · simp at h
  simp only [Except.ok.injEq] at h
  subst h
  rw [length_slice (by omega)]
  omega

theorem compactOpen_nonneg {sb pkb : Bytes} {c : Int} (h : compactOpen P sb pkb = .ok (.error c)) : c ≠ 0 := by
  unfold compactOpen at h
  split at h
  · simp at h; omega
  split at h
  · simp at h; omega
  simp only at h
  split at h
  · simp at h; omega
  split at h
  · simp at h; omega
  obtain ⟨⟨r1, m1, l1⟩, he, h⟩ := bind_eq_ok.1 h
  simp only at h
  split at h
  · simp at h; omega
  split at h
  · simp at h; omega
  split at h
  · simp at h; omega
  obtain ⟨r2, _, h⟩ := bind_eq_ok.1 h
  split at h
  · simp at h; omega
  simp at h

theorem compactOpen_msg {sb pkb msg : Bytes} (h : compactOpen P sb pkb = .ok (.ok msg)) :
    msg = slice sb 2526 msg.length := by
  have hb := compactOpen_bounds h
  unfold compactOpen at h
  simp only at h
  split at h
  · simp at h
  split at h
  · simp at h
  split at h
  · simp at h
  split at h
  · simp at h
  obtain ⟨⟨r1, m1, l1⟩, -, h⟩ := bind_eq_ok.1 h
  simp only at h
  split at h
  · simp at h
  split at h
  · simp at h
  split at h
  · simp at h
  obtain ⟨r2, -, h⟩ := bind_eq_ok.1 h
  split at h
  · simp at h
  simp only [Except.ok.injEq] at h
  rename_i c4 _ _ _ _ _ _
  have : (sb.getD 1 0).toNat = msg.length := by omega
  rw [← this]; exact h.symm

theorem openTail_total {W : World} {m mlen sm : Ptr} {n : Nat} 
    (hm : (W.view m n).isSome) (hsm : (W.view (sm.add 2526) n).isSome) (hl : (W.view mlen 8).isSome) :
    ∃ y, y.length = n ∧ openTail m mlen sm n W = .ok (0, (W.write m y).write mlen (le64 n)) := by
  obtain ⟨y, hy, e⟩ := copyMem_total (W := W) (p := m) (q := sm) (o := 0) (s := 2526) (n := n)
    (by simpa [Ptr.add] using hm) hsm
  refine ⟨y, hy, ?_⟩
  simp only [openTail, M_bind_apply]
  rw [e]
  simp only [ok_bind]
  rw [storeU64_ok (write_view_isSome hl)]
  simp [Ptr.add]

theorem openCompact_run {W : World} (hP : P.Sized) {sm mlen m pk : Ptr} {smlen : Nat} {sb pkb : Bytes}
    (hsm : W.view sm smlen = some sb) (hpk : W.view pk 1408 = some pkb)
    (hm : (W.view m (smlen - 2526)).isSome) (hl : (W.view mlen 8).isSome)
    (hd : Disj m (smlen - 2526) sm smlen) :
    openCompact P (some m) (some mlen) (some sm) smlen (some pk) W =
      (compactOpen P sb pkb >>= fun x => match x with
        | .error c => .ok (c, W)
        | .ok msg => .ok (0, (W.write m msg).write mlen (le64 msg.length))) := by
  have hsb := length_of_view hsm
  rw [openCompact_gen hP hsm hpk]
  cases hs : compactOpen P sb pkb with
  | error e => rfl
  | ok x =>
    cases x with
    | error c => rfl
    | ok msg =>
      have hb := compactOpen_bounds hs
      have hmsg := compactOpen_msg hs
      simp only [ok_bind, openTail, M_bind_apply]
      rw [copyMem_ok (x := msg) (view_isSome_sub hm (by omega)) (by rw [view_sub hsm (by omega), ← hmsg]) (by
        rcases hd with hd | hd | hd
        · exact Or.inl hd
        · exact Or.inr (Or.inl (by simp only [Ptr.add]; omega))
        · exact Or.inr (Or.inr (by simp only [Ptr.add]; omega)))]
      simp only [ok_bind]
      rw [storeU64_ok (write_view_isSome hl)]
      simp only [ok_bind, M_pure_apply, Ptr.add, Nat.add_zero]

theorem verifyCompact_run {W : World} (hW : W.WF) (hP : P.Sized) {sm m pk : Ptr} {smlen mlen : Nat} {sb pkb mb : Bytes}
    (hsm : W.view sm smlen = some sb) (hpk : W.view pk 1408 = some pkb) (hm : W.view m mlen = some mb)
    (h1 : 1 ≤ mlen) (h2 : mlen ≤ 64) :
    verifyCompact P (some m) mlen (some sm) smlen (some pk) W =
      (compactOpen P sb pkb >>= fun x => .ok (verifyCode mb x, W)) := by
  have hsb := length_of_view hsm
  have hW1 := push_WF hW (zeros 64)
  simp only [verifyCompact]
  rw [if_neg (by simp only [MAX_MSG_LEN]; omega)]
  refine verify_shape hW (fun buf lenp => openCompact P (some buf) (some lenp) (some sm) smlen (some pk)) _ hm ?_
    (fun c => compactOpen_nonneg) (fun msg h => ?_)
  · by_cases hr : smlen < 2527 ∨ smlen > 2590
    · have e1 : compactOpen P sb pkb = .ok (.error (-1)) := by
        unfold compactOpen; rw [if_pos (by omega)]
      rw [e1]
      simp only [openCompact]
      rw [if_pos (by simp only [LEN_BYTES, ED_SIG, MIN_MSG_LEN, MAX_MSG_LEN, DIL_SIG, NONCE_BYTES]; omega)]
      rfl
    · refine openCompact_run hP (push_view hW1 _ (push_view hW _ hsm)) (push_view hW1 _ (push_view hW _ hpk)) ?_ ?_ ?_
      · rw [push_view hW1 _ (push_view_new W (zeros 64) (n := smlen - 2526) (by simp; omega))]
        rfl
      · exact Option.isSome_iff_exists.2 ⟨_, push_view_new (push W (zeros 64)) (zeros 8) (by simp)⟩
      · left
        intro e
        obtain ⟨b, hb, _⟩ := view_eq_some.1 hsm
        rw [← e, hW W.sp (Nat.le_refl _)] at hb
        cases hb
  · have := compactOpen_bounds h
    omega

/-! ### Key generation -/

/-- What seeded key generation computes: code, the bytes it stores at `pk`, the bytes it stores at `sk`. -/
def keyBytes (P : Prims) (seedb : Bytes) : C (Int × Bytes × Bytes) := do
  let (r1, pk1, sk1) ← P.edKeypairSeed (zeros 32) (zeros 64) (slice seedb 0 32)
  if r1 ≠ 0 then .ok (-2, [], []) else do
  let (r2, pk2, sk2) ← P.dilKeypairSeed (zeros 1312) (zeros 2560) (slice seedb 32 32)
  if r2 ≠ 0 then .ok (-3, pk1, sk1) else do
  let (r3, pk3, sk3) ← P.spxKeypairSeed (zeros 64) (zeros 128) (slice seedb 64 96)
  if r3 ≠ 0 then .ok (-4, pk1 ++ pk2, sk1 ++ sk2 ++ pk2) else
  .ok (0, pk1 ++ pk2 ++ pk3, sk1 ++ sk2 ++ pk2 ++ sk3)

theorem write_comm {W : World} {p q : Ptr} {x y : Bytes} (hd : Disj p x.length q y.length) :
    (W.write p x).write q y = (W.write q y).write p x := by
  by_cases hb : p.blk = q.blk
  · cases hm : W.mem p.blk with
    | none =>
      have h1 : W.write p x = W := by unfold World.write; simp [hm]
      have h2 : W.write q y = W := by unfold World.write; simp [← hb, hm]
      rw [h1, h2, h1]
    | some b =>
      have hmq : W.mem q.blk = some b := by rw [← hb]; exact hm
      by_cases hx : p.off + x.length ≤ b.length
      · by_cases hy : q.off + y.length ≤ b.length
        · rw [write_eq hm hx, write_eq hmq hy,
            write_eq (p := q) (b := splice b p.off x) (by simp [hb]) (by rw [length_splice hx]; exact hy),
            write_eq (p := p) (b := splice b q.off y) (by simp [hb]) (by rw [length_splice hy]; exact hx)]
          simp only [hb, Function.update_idem]
          congr 3
          apply List.ext_getElem?
          intro i
          rw [getElem?_splice _ _ _ _ (by rw [length_splice hx]; exact hy), getElem?_splice _ _ _ _ hx,
            getElem?_splice _ _ _ _ (by rw [length_splice hy]; exact hx), getElem?_splice _ _ _ _ hy]
          rcases hd with hd | hd | hd
          · exact absurd hb hd
          · split
            · rw [if_neg (by omega)]
            · rfl
          · split
            · rw [if_neg (by omega)]
            · rfl
        · have h2 : ∀ V : World, V.mem q.blk = some b ∨ V.mem q.blk = some (splice b p.off x) → V.write q y = V := by
            intro V hV
            unfold World.write
            rcases hV with hV | hV
            · simp [hV, hy]
            · simp [hV, length_splice hx, hy]
          rw [h2 W (Or.inl hmq), h2 _ (Or.inr (by rw [write_eq hm hx]; simp [hb]))]
      · have h1 : ∀ V : World, (∃ c, V.mem p.blk = some c ∧ c.length = b.length) → V.write p x = V := by
          rintro V ⟨c, hV, hc⟩
          unfold World.write
          simp [hV, hc, hx]
        rw [h1 W ⟨b, hm, rfl⟩]
        by_cases hy : q.off + y.length ≤ b.length
        · rw [h1 _ ⟨splice b q.off y, by rw [write_eq hmq hy]; simp [hb], length_splice hy⟩]
        · have : W.write q y = W := by unfold World.write; simp [hmq, hy]
          rw [this, h1 W ⟨b, hm, rfl⟩]
  · have e1 : ∀ V : World, (V.write q y).mem p.blk = V.mem p.blk := fun V => write_mem_other hb
    have e2 : ∀ V : World, (V.write p x).mem q.blk = V.mem q.blk := fun V => write_mem_other (Ne.symm hb)
    cases hm : W.mem p.blk with
    | none =>
      have h1 : W.write p x = W := by unfold World.write; simp [hm]
      have h3 : (W.write q y).write p x = W.write q y := by
        generalize hV : W.write q y = V
        have h4 : V.mem p.blk = none := by rw [← hV, e1, hm]
        unfold World.write; simp [h4]
      rw [h1, h3]
    | some b =>
      by_cases hx : p.off + x.length ≤ b.length
      · cases hmq : W.mem q.blk with
        | none =>
          have h1 : W.write q y = W := by unfold World.write; simp [hmq]
          have h3 : (W.write p x).write q y = W.write p x := by
            generalize hV : W.write p x = V
            have h4 : V.mem q.blk = none := by rw [← hV, e2, hmq]
            unfold World.write; simp [h4]
          rw [h1, h3]
        | some c =>
          by_cases hy : q.off + y.length ≤ c.length
          · rw [write_eq (p := q) (b := c) (by rw [e2, hmq]) hy, write_eq (p := p) (b := b) (W := W.write q y) (by rw [e1, hm]) hx,
              write_eq hm hx, write_eq hmq hy]
            simp only
            congr 1
            rw [Function.update_comm hb]
          · have h1 : ∀ V : World, V.mem q.blk = some c → V.write q y = V := by
              intro V hV; unfold World.write; simp [hV, hy]
            rw [h1 W hmq, h1 _ (by rw [e2, hmq])]
      · have h1 : ∀ V : World, V.mem p.blk = some b → V.write p x = V := by
          intro V hV; unfold World.write; simp [hV, hx]
        rw [h1 W hm, h1 _ (by rw [e1, hm])]

theorem Disj.mono {p q : Ptr} {n k n' k' : Nat} (h : Disj p n q k) (hn : n' ≤ n) (hk : k' ≤ k) : Disj p n' q k' := by
  rcases h with h | h | h
  · exact Or.inl h
  · exact Or.inr (Or.inl (by omega))
  · exact Or.inr (Or.inr (by omega))

/-- Appending to the first of two disjoint buffers. -/
theorem copyOut_first {W : World} {p q : Ptr} {N K o s n : Nat} {x y src : Bytes} (h : (W.view p N).isSome)
    (hd : Disj p N q K) (hy : y.length ≤ K)
    (ho : x.length = o) (hN : o + n ≤ N) (hs : s + n ≤ src.length) :
    copyOut p o src s n ((W.write p x).write q y) = .ok ((), (W.write p (x ++ slice src s n)).write q y) := by
  rw [write_comm (Disj.mono hd (by omega) hy), copyOut_append (write_view_isSome h) ho hN hs,
    write_comm (Disj.mono (p := p) (q := q) hd (by simp [length_slice hs]; omega) hy)]

theorem store_first {W : World} {p q : Ptr} {N K o : Nat} {x y : Bytes} {v : Byte} (h : (W.view p N).isSome)
    (hd : Disj p N q K) (hy : y.length ≤ K) (ho : x.length = o) (hN : o < N) :
    store p o v ((W.write p x).write q y) = .ok ((), (W.write p (x ++ [v])).write q y) := by
  rw [write_comm (Disj.mono hd (by omega) hy), store_append (write_view_isSome h) ho hN,
    write_comm (Disj.mono (p := p) (q := q) hd (by simp; omega) hy)]

theorem keypairSeed_run {W : World} (hP : P.Sized) {pk sk seed : Ptr} {seedb : Bytes}
    (hs : W.view seed 160 = some seedb) (hpk : (W.view pk 1408).isSome) (hsk : (W.view sk 4064).isSome)
    (hd : Disj pk 1408 sk 4064) :
    keypairSeed P (some pk) (some sk) (some seed) W =
      (keyBytes P seedb >>= fun r => .ok (r.1, (W.write pk r.2.1).write sk r.2.2)) := by
  have hsb := length_of_view hs
  simp only [keypairSeed, keyBytes]
  simp only [ED_SEED, DIL_SEED, SPX_SEED, ED_PK, ED_SK, DIL_SK, DIL_PK, SPX_SK, SPX_PK]
  simp only [M_bind_apply]
  rw [copyIn_zeros hs (by omega)]; simp only [ok_bind]
  rw [copyIn_zeros hs (by omega)]; simp only [ok_bind]
  rw [copyIn_zeros hs (by omega)]; simp only [ok_bind]
  cases he : P.edKeypairSeed (zeros 32) (zeros 64) (slice seedb 0 32) with
  | error e => rfl
  | ok t1 =>
    obtain ⟨r1, pk1, sk1⟩ := t1
    obtain ⟨l1, l1'⟩ := hP.edKeypairSeed _ _ _ _ _ _ he
    simp only [length_zeros] at l1 l1'
    simp only [liftC_ok, ok_bind]
    by_cases c1 : r1 = 0
    swap
    · rw [if_pos c1, if_pos c1]; simp [write_nil]
    rw [if_neg (not_not.2 c1), if_neg (not_not.2 c1)]
    simp only [M_bind_apply]
    rw [← write_nil W pk, copyOut_append hpk (by rfl) (by omega) (by omega)]; simp only [ok_bind]
    rw [slice_full l1, List.nil_append, write_nil]
    rw [← write_nil (W.write pk pk1) sk,
      copyOut_append (write_view_isSome hsk) (by rfl) (by omega) (by omega)]; simp only [ok_bind]
    rw [slice_full l1', List.nil_append]
    cases hdk : P.dilKeypairSeed (zeros 1312) (zeros 2560) (slice seedb 32 32) with
    | error e => rfl
    | ok t2 =>
      obtain ⟨r2, pk2, sk2⟩ := t2
      obtain ⟨l2, l2'⟩ := hP.dilKeypairSeed _ _ _ _ _ _ hdk
      simp only [length_zeros] at l2 l2'
      simp only [liftC_ok, ok_bind]
      by_cases c2 : r2 = 0
      swap
      · rw [if_pos c2, if_pos c2]; rfl
      rw [if_neg (not_not.2 c2), if_neg (not_not.2 c2)]
      simp only [M_bind_apply]
      rw [copyOut_append (write_view_isSome hsk) (by omega) (by omega) (by omega)]; simp only [ok_bind]
      rw [slice_full l2']
      obtain ⟨u, W2, e2, hW2⟩ := loopM_ok
        (fun k _ W' => W' = (W.write pk (pk1 ++ slice pk2 0 k)).write sk (sk1 ++ sk2 ++ slice pk2 0 k))
        (fun i (_ : Unit) => do
          let v ← liftC (rd pk2 i)
          store pk (32 + i) v
          let v ← liftC (rd pk2 i)
          store sk (64 + 2560 + i) v) 0 1312 () ((W.write pk pk1).write sk (sk1 ++ sk2)) (by simp [slice])
        (by
          rintro k _ W' _ hk rfl
          have hl : (slice pk2 0 k).length = k := length_slice (by omega)
          refine ⟨(), _, ?_, rfl⟩
          simp only [M_bind_apply]
          rw [rd_ok (by omega)]; simp only [liftC_ok, ok_bind]
          rw [store_first hpk hd (by simp; omega) (by simp; omega) (by omega)]; simp only [ok_bind]
          rw [store_append (write_view_isSome hsk) (by simp; omega) (by omega)]
          have hsn := slice_snoc (b := pk2) (o := 0) (n := k) (by omega)
          simp only [Nat.zero_add] at hsn
          rw [hsn]
          simp only [List.append_assoc])
      simp only [Nat.zero_add] at hW2
      rw [e2]; simp only [ok_bind]
      rw [hW2, slice_full l2]
      cases hsx : P.spxKeypairSeed (zeros 64) (zeros 128) (slice seedb 64 96) with
      | error e => rfl
      | ok t3 =>
        obtain ⟨r3, pk3, sk3⟩ := t3
        obtain ⟨l3, l3'⟩ := hP.spxKeypairSeed _ _ _ _ _ _ hsx
        simp only [length_zeros] at l3 l3'
        simp only [liftC_ok, ok_bind]
        by_cases c3 : r3 = 0
        swap
        · rw [if_pos c3, if_pos c3]; rfl
        rw [if_neg (not_not.2 c3), if_neg (not_not.2 c3)]
        simp only [M_bind_apply]
        rw [copyOut_append (write_view_isSome hsk) (by simp; omega) (by omega) (by omega)]; simp only [ok_bind]
        rw [copyOut_first hpk hd (by simp [slice]; omega) (by simp; omega) (by omega) (by omega)]; simp only [ok_bind]
        rw [slice_full l3, slice_full l3']
        rfl

theorem keyBytes_length (hP : P.Sized) {seedb pkb skb : Bytes} {c : Int} (h : keyBytes P seedb = .ok (c, pkb, skb)) :
    pkb.length ≤ 1408 ∧ skb.length ≤ 4064 ∧ (c = 0 → pkb.length = 1408 ∧ skb.length = 4064) := by
  unfold keyBytes at h
  obtain ⟨⟨r1, pk1, sk1⟩, he, h⟩ := bind_eq_ok.1 h
  obtain ⟨l1, l1'⟩ := hP.edKeypairSeed _ _ _ _ _ _ he
  simp only [length_zeros] at l1 l1' h
  split at h
  · simp at h; obtain ⟨rfl, rfl, rfl⟩ := h; simp
  obtain ⟨⟨r2, pk2, sk2⟩, he, h⟩ := bind_eq_ok.1 h
  obtain ⟨l2, l2'⟩ := hP.dilKeypairSeed _ _ _ _ _ _ he
  simp only [length_zeros] at l2 l2' h
  split at h
  · simp at h; obtain ⟨rfl, rfl, rfl⟩ := h; simp; omega
  obtain ⟨⟨r3, pk3, sk3⟩, he, h⟩ := bind_eq_ok.1 h
  obtain ⟨l3, l3'⟩ := hP.spxKeypairSeed _ _ _ _ _ _ he
  simp only [length_zeros] at l3 l3' h
  split at h
  · simp at h; obtain ⟨rfl, rfl, rfl⟩ := h; simp; omega
  · simp at h; obtain ⟨rfl, rfl, rfl⟩ := h; simp; omega

theorem push_view_isSome {W : World} (h : W.WF) (init : Bytes) {q : Ptr} {n : Nat}
    (hv : (W.view q n).isSome) : ((push W init).view q n).isSome := by
  obtain ⟨x, hx⟩ := Option.isSome_iff_exists.1 hv
  rw [push_view h init hx]; rfl

theorem view_blk_lt {W : World} (h : W.WF) {q : Ptr} {n : Nat} (hv : (W.view q n).isSome) : q.blk < W.sp := by
  obtain ⟨x, hx⟩ := Option.isSome_iff_exists.1 hv
  obtain ⟨b, hb, _⟩ := view_eq_some.1 hx
  by_contra hc
  rw [h q.blk (by omega)] at hb
  cases hb

/-- A write below the local block commutes with its release. -/
theorem write_push {W : World} {p : Ptr} (x init : Bytes) (hp : p.blk < W.sp) :
    (push W init).write p x = push (W.write p x) init := by
  have hne : p.blk ≠ W.sp := by omega
  cases hm : W.mem p.blk with
  | none =>
    have h1 : W.write p x = W := by unfold World.write; simp [hm]
    have h2 : (push W init).mem p.blk = none := by simp [push, Function.update_of_ne hne, hm]
    rw [h1]; unfold World.write; simp [h2]
  | some b =>
    have h2 : (push W init).mem p.blk = some b := by simp [push, Function.update_of_ne hne, hm]
    by_cases hx : p.off + x.length ≤ b.length
    · rw [write_eq h2 hx, write_eq hm hx]
      simp only [push]
      rw [Function.update_comm hne]
    · have h1 : W.write p x = W := by unfold World.write; simp [hm, hx]
      rw [h1]; unfold World.write; simp [h2, hx]

theorem pop_push {W : World} (h : W.WF) (init : Bytes) :
    ({ push W init with mem := Function.update (push W init).mem W.sp none, sp := W.sp } : World) = W := by
  obtain ⟨mem, sp, rng⟩ := W
  simp only [push, Function.update_idem]
  congr 1
  rw [← h sp (Nat.le_refl _)]
  exact Function.update_eq_self _ _

theorem write_WF {W : World} (h : W.WF) (p : Ptr) (x : Bytes) : (W.write p x).WF := by
  intro b hb
  rw [write_sp] at hb
  by_cases hp : b = p.blk
  · subst hp
    have := h p.blk hb
    unfold World.write
    simp [this]
  · rw [write_mem_other hp]; exact h b hb

theorem keypair_run {W : World} (hW : W.WF) (hP : P.Sized) {pk sk : Ptr}
    (hpk : (W.view pk 1408).isSome) (hsk : (W.view sk 4064).isSome) (hd : Disj pk 1408 sk 4064) :
    keypair P (some pk) (some sk) W =
      (randombytes 160 W.rng >>= fun p => match p.1 with
        | none => .ok (-1, { W with rng := p.2 })
        | some seedb => keyBytes P seedb >>= fun r =>
            .ok (r.1, (({ W with rng := p.2 } : World).write pk r.2.1).write sk r.2.2)) := by
  simp only [keypair, M_bind_apply, liftR]
  cases hr : randombytes 160 W.rng with
  | error e => rfl
  | ok t =>
    obtain ⟨o, R'⟩ := t
    simp only [ok_bind]
    cases o with
    | none => rfl
    | some seedb =>
      have hsl : seedb.length = 160 := by
        simp only [randombytes, Except.ok.injEq, Prod.mk.injEq] at hr
        exact W.rng.len_draw _ _ _ hr.1
      simp only
      generalize hW1 : ({ W with rng := R' } : World) = W1
      have hWF1 : W1.WF := by subst hW1; exact hW
      have hpk1 : (W1.view pk 1408).isSome := by subst hW1; exact hpk
      have hsk1 : (W1.view sk 4064).isSome := by subst hW1; exact hsk
      rw [withLocal_eq, keypairSeed_run hP (seedb := seedb)
        (by rw [push_view_new W1 seedb (by omega), slice_full hsl])
        (push_view_isSome hWF1 _ hpk1) (push_view_isSome hWF1 _ hsk1) hd]
      cases keyBytes P seedb with
      | error e => rfl
      | ok r =>
        simp only [ok_bind]
        rw [write_push _ _ (view_blk_lt hWF1 hpk1), write_push _ _ (by rw [write_sp]; exact view_blk_lt hWF1 hsk1)]
        congr 2
        have := pop_push (write_WF (write_WF hWF1 pk r.2.1) sk r.2.2) seedb
        simp only [write_sp] at this
        exact this

/-! ### Seed expander and standalone Dilithium verification -/

/-- The 64 bytes that the expander feeds to its XOF. -/
def effectiveSeed (seedb : Bytes) : Bytes :=
  (List.range 64).map fun i => if i % 2 = 0 then seedb.getD i 0 else 0

theorem expanderCopy_run {W : World} {seed : Ptr} {seedb : Bytes} (hs : W.view seed 96 = some seedb) :
    expanderCopy (zeros 64) seed W = .ok (effectiveSeed seedb, W) := by
  have hsb := length_of_view hs
  obtain ⟨b, W', e, h1, h2, h3⟩ := loopM_ok
    (fun k (b : Bytes) W' => W' = W ∧ b.length = 64 ∧
      ∀ i, i < 64 → b[i]? = some (if i % 2 = 0 ∧ i < 2 * k then seedb.getD i 0 else 0))
    (fun k b => do let v ← load seed (2 * k); liftC (wr b (2 * k) v)) 0 32 (zeros 64) W
    (by
      refine ⟨rfl, by simp, ?_⟩
      intro i hi
      rw [zeros, List.getElem?_replicate, if_pos hi]; simp)
    (by
      rintro k b W' _ hk ⟨rfl, hl, hb⟩
      refine ⟨b.set (2 * k) (seedb.getD (2 * k) 0), W', ?_, rfl, by simp [hl], ?_⟩
      · rw [M_bind_apply, load_getD hs (by omega)]
        simp only [ok_bind]
        rw [wr_ok (by omega), liftC_ok]
      · intro i hi
        rw [List.getElem?_set]
        by_cases h : 2 * k = i
        · subst h
          rw [if_pos rfl, if_pos (by omega), if_pos (by omega)]
        · rw [if_neg h, hb i hi]
          congr 1
          by_cases h' : i % 2 = 0 ∧ i < 2 * k
          · rw [if_pos h', if_pos (by omega)]
          · rw [if_neg h', if_neg (by omega)])
  unfold expanderCopy
  rw [e, h1]
  congr 2
  apply List.ext_getElem?
  intro i
  by_cases hi : i < 64
  · rw [h3 i hi]
    simp only [effectiveSeed, List.getElem?_map, List.getElem?_range hi, Option.map_some]
    congr 1
    by_cases h : i % 2 = 0
    · rw [if_pos ⟨h, by omega⟩, if_pos h]
    · rw [if_neg (by tauto), if_neg h]
  · rw [List.getElem?_eq_none (by omega), List.getElem?_eq_none (by simp [effectiveSeed]; omega)]

/-- What the seed expander computes. -/
def expandBytes (P : Prims) (seedb : Bytes) : C (Except Int Bytes) := do
  let (r, tmp) ← P.seedexpander (effectiveSeed seedb) 128
  if r ≠ 0 then .ok (.error r) else
  .ok (.ok (slice tmp 0 32 ++ slice seedb 64 32 ++ slice tmp 32 96))

theorem seedExpander_run {W : World} (hP : P.Sized) {seed ex : Ptr} {seedb : Bytes}
    (hs : W.view seed 96 = some seedb) (hx : (W.view ex 160).isSome) (hd : Disj ex 160 seed 96) :
    seedExpander P (some seed) (some ex) W =
      (expandBytes P seedb >>= fun x => match x with
        | .error c => .ok (c, W)
        | .ok b => .ok (0, W.write ex b)) := by
  have hsb := length_of_view hs
  simp only [seedExpander, expandBytes]
  simp only [M_bind_apply]
  rw [expanderCopy_run hs]; simp only [ok_bind]
  cases he : P.seedexpander (effectiveSeed seedb) 128 with
  | error e => rfl
  | ok t =>
    obtain ⟨r, tmp⟩ := t
    have hl := hP.seedexpander _ _ _ _ he
    simp only [liftC_ok, ok_bind]
    by_cases c : r = 0
    swap
    · rw [if_pos c, if_pos c]; rfl
    rw [if_neg (not_not.2 c), if_neg (not_not.2 c)]
    simp only [M_bind_apply]
    rw [← write_nil W ex, copyOut_append hx (by rfl) (by omega) (by omega)]; simp only [ok_bind]
    rw [copyMem_append hx (by simp [slice]; omega) (by omega) (view_sub hs (by omega))
      (by
        rcases hd with hd | hd | hd
        · exact Or.inl hd
        · exact Or.inr (Or.inl (by simp only [Ptr.add]; omega))
        · exact Or.inr (Or.inr (by simp only [Ptr.add]; omega)))]
    simp only [ok_bind]
    rw [copyOut_append hx (by simp [slice]; omega) (by omega) (by omega)]
    rw [write_nil]
    rfl

theorem verifyDilithium_run {W : World} {sm m pk : Ptr} {mlen : Nat} {sb pkb mb : Bytes}
    (hsm : W.view sm 2420 = some sb) (hpk : W.view pk 1312 = some pkb) (hm : W.view m mlen = some mb)
    (h1 : 1 ≤ mlen) (h2 : mlen ≤ 64) :
    verifyDilithium P (some m) mlen (some sm) 2420 (some pk) W =
      (P.dilVerify sb mb pkb >>= fun r => .ok (if r ≠ 0 then -2 else 0, W)) := by
  simp only [verifyDilithium]
  rw [if_neg (by simp only [MAX_MSG_LEN]; omega), if_neg (by simp)]
  simp only [M_bind_apply]
  rw [readMem_ok hsm]; simp only [ok_bind]
  rw [readMem_ok hm]; simp only [ok_bind]
  rw [readMem_ok hpk]; simp only [ok_bind]
  cases P.dilVerify sb mb pkb with
  | error e => rfl
  | ok r =>
    simp only [liftC_ok, ok_bind]
    split <;> rfl

end Verif.Hybrid
