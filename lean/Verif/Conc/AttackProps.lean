import Verif.Conc.Attack
import Verif.Conc.Props
import Verif.Conc.RaceProps

/-!
Property C125: compact open and verify read the message twice, and another thread can change it in between.
-/

namespace Verif.Conc
open Verif
open Verif.Hybrid (zeros Prims compactOpen compactOpen_iff compactOpen_bounds push push_view push_WF push_view_new write_two_views slice_full pop2)
open Verif.Real (real real_sized real_edShape CompactMeets compactValid_complete)
open Verif.Dilithium (S128 S256 isShake128_S128 isShake256_S256)

/-- The second thread: it writes the bytes `x` over the message part of the signature buffer (no line of its own). -/
def replaceMessage (sm : Ptr) (x : Bytes) : Prog Int := do
  copyOut sm 2526 x 0 x.length
  pure 0

/-- Two threads: number `false` makes the call, number `true` is the other one (no line of its own). -/
def duo (W : World) (call other : Prog Int) : Conf Bool Int := start W fun i => if i then other else call

section
variable {ι α : Type} [DecidableEq ι]

theorem leads_run {c : Conf ι α} {i : ι} {y : Prog α} {V : World} (h : Leads ((c.thr i).prog, c.world i) (y, V)) :
    ∃ n, ((c.run (List.replicate n i)).thr i).prog = y ∧ (c.run (List.replicate n i)).world i = V ∧ ∀ j, j ≠ i → (c.run (List.replicate n i)).thr j = c.thr j := by
  obtain ⟨n, h⟩ := h
  induction n generalizing c with
  | zero => cases h; exact ⟨0, rfl, rfl, fun _ _ => rfl⟩
  | succ n ih =>
    obtain ⟨k, h1, h2, h3⟩ := ih (c := c.next i) (by
      rw [next_thr_self, next_world_self]
      exact h)
    exact ⟨k + 1, h1, h2, fun j hj => (h3 j hj).trans (next_thr_ne c hj)⟩
end

theorem world_after {c c' : Conf Bool Int} {q : Ptr} {x : Bytes} (hb : c'.base = c.base) (ht : c'.thr false = c.thr false) (hw : c'.world true = (c.world true).write q x) (hq : q.blk < c.base) :
    c'.world false = (c.world false).write q x := by
  have hmem : ∀ b, b < c.base → (c'.world false).mem b = ((c.world true).write q x).mem b := by
    intro b h
    rw [← hw]
    show (if b < c'.base then _ else _) = (if b < c'.base then _ else _)
    rw [if_pos (by omega), if_pos (by omega)]
  have hstk : ∀ b, ¬ b < c.base → (c'.world false).mem b = (c.world false).mem b := by
    intro b h
    show (if b < c'.base then _ else _) = (if b < c.base then _ else _)
    rw [if_neg (by omega), if_neg h, ht]
  have same : ∀ b, b < c.base → (c.world true).mem b = (c.world false).mem b := by
    intro b h
    show (if b < c.base then _ else _) = (if b < c.base then _ else _)
    rw [if_pos h, if_pos h]
  have hr : (c'.world false).rng = (c.world false).rng := by
    have : (c'.world true).rng = ((c.world true).write q x).rng := by rw [hw]
    rw [write_rng] at this
    exact this
  have hm : (c'.world false).mem = ((c.world false).write q x).mem := by
    funext b
    by_cases h : b < c.base
    · rw [hmem b h]
      unfold World.write
      rw [same _ hq]
      cases (c.world false).mem q.blk with
      | none => exact same b h
      | some d =>
        dsimp only
        split
        · by_cases e : b = q.blk
          · subst e; simp only [Function.update_self]
          · simp only [Function.update_of_ne e]; exact same b h
        · exact same b h
    · rw [hstk b h, Hybrid.write_mem_other (by omega)]
  have hsp : (c'.world false).sp = ((c.world false).write q x).sp := by
    rw [write_sp]
    show (c'.thr false).sp = (c.thr false).sp
    rw [ht]
  have e : ∀ V V' : World, V.mem = V'.mem → V.sp = V'.sp → V.rng = V'.rng → V = V' := by
    rintro ⟨a, b, c⟩ ⟨a', b', c'⟩ h1 h2 h3
    simp only at h1 h2 h3
    subst h1 h2 h3; rfl
  exact e _ _ hm hsp (by rw [write_rng]; exact hr)

theorem start_world {ι α : Type} {W : World} (hW : W.WF) (p : ι → Prog α) (i : ι) : (start W p).world i = W := by
  have : (fun b => if b < W.sp then W.mem b else none) = W.mem := by
    funext b
    split
    · rfl
    · rw [hW b (by omega)]
  show (⟨fun b => if b < W.sp then W.mem b else none, W.sp, W.rng⟩ : World) = W
  rw [this]

/-- The call, the other thread, the call again. -/
theorem duo_run {W : World} (hW : W.WF) {call other x : Prog Int} {V V' : World} {q : Ptr} {y : Bytes} {r r' : Int} (hq : q.blk < W.sp) (h1 : Leads (call, W) (x, V))
    (h2 : ∀ U : World, (∀ b, b < W.sp → U.mem b = V.mem b) → exec other U = .ok (r', U.write q y)) (h3 : exec x (V.write q y) = .ok (r, V')) :
    ∃ s, (((duo W call other).run s).thr false).prog = .ret r ∧ ∀ b, b < W.sp → ((duo W call other).run s).mem b = V'.mem b := by
  obtain ⟨n1, a1, a2, a3⟩ := leads_run (c := duo W call other) (i := false) (y := x) (V := V) (by
    unfold duo
    rw [start_world hW]; exact h1)
  generalize hc1 : (duo W call other).run (List.replicate n1 false) = c1 at a1 a2 a3
  have b1 : c1.base = W.sp := by rw [← hc1, run_base]; rfl
  have hm1 : ∀ b, b < W.sp → (c1.world true).mem b = V.mem b := by
    intro b hb
    rw [← a2]
    show (if b < c1.base then _ else _) = (if b < c1.base then _ else _)
    rw [if_pos (by omega), if_pos (by omega)]
  obtain ⟨n2, d1, d2, d3⟩ := leads_run (c := c1) (i := true) (leads_exec (x := (c1.thr true).prog) (by
    rw [a3 true (by decide)]
    exact h2 _ hm1))
  generalize hc2 : c1.run (List.replicate n2 true) = c2 at d1 d2 d3
  have b2 : c2.base = c1.base := by rw [← hc2, run_base]
  have w2 := world_after b2 (d3 false (by decide)) d2 (by rw [b1]; exact hq)
  rw [a2] at w2
  obtain ⟨n3, e1, e2, e3⟩ := leads_run (c := c2) (i := false) (leads_exec (x := (c2.thr false).prog) (by
    rw [d3 false (by decide), a1, w2]
    exact h3))
  refine ⟨List.replicate n1 false ++ (List.replicate n2 true ++ List.replicate n3 false), ?_, fun b hb => ?_⟩
  · rw [run_append, run_append, hc1, hc2]; exact e1
  · rw [run_append, run_append, hc1, hc2, ← e2]
    have b3 : (c2.run (List.replicate n3 false)).base = W.sp := by rw [run_base, b2, b1]
    show _ = (if b < (c2.run (List.replicate n3 false)).base then _ else _)
    rw [if_pos (by omega)]

theorem blk_lt {W : World} (hW : W.WF) {p : Ptr} {n : Nat} (h : (W.view p n).isSome) : p.blk < W.sp := by
  by_contra hc
  obtain ⟨x, hx⟩ := Option.isSome_iff_exists.1 h
  obtain ⟨b, hb, -⟩ := view_eq_some.1 hx
  rw [hW _ (by omega)] at hb; cases hb

theorem view_congr {V W : World} {p : Ptr} {n : Nat} (h : V.mem p.blk = W.mem p.blk) : V.view p n = W.view p n := by
  unfold World.view; rw [h]

theorem exec_replace {U : World} {sm : Ptr} {x : Bytes} (h : (U.view (sm.add 2526) x.length).isSome) : exec (replaceMessage sm x) U = .ok (0, U.write (sm.add 2526) x) := by
  unfold replaceMessage
  rw [exec_bind, exec_copyOut, M_bind_apply, copyOut_ok h (by omega)]
  simp only [ok_bind]
  rw [slice_full rfl]
  rfl

theorem exec_compactTail {V : World} {m mlen sm : Ptr} {x : Bytes} (hm : (V.view m x.length).isSome) (hl : (V.view mlen 8).isSome) (hs : V.view (sm.add 2526) x.length = some x)
    (hd : Disj m x.length (sm.add 2526) x.length) : exec (compactTail m mlen sm x.length) V = .ok (0, (V.write m x).write mlen (le64 x.length)) := by
  unfold compactTail
  rw [exec_bind, exec_copyMem, M_bind_apply, copyMem_ok (by simpa [Ptr.add] using hm) hs (by simpa [Ptr.add] using hd)]
  simp only [ok_bind]
  rw [exec_bind, exec_storeU64, M_bind_apply, storeU64_ok (by rw [view_write_isSome]; exact hl)]
  rfl

/-- C125: compact open delivers whatever message another thread puts into the buffer in time.  For every compact signature that passes the checks and every other message of the same length there is a schedule of
the call and of a thread that only overwrites the message part of the buffer such that the call returns 0 with the other message (hybrid-dilithium-sphincs/hybrid.c:600-603, 656-664). -/
theorem compact_open_swapped {W : World} (hW : W.WF) {m mlen sm pk : Ptr} {smlen : Nat} {sb pkb msg x : Bytes} (hsm : W.view sm smlen = some sb) (hpk : W.view pk 1408 = some pkb) (hm : (W.view m msg.length).isSome)
    (hl : (W.view mlen 8).isSome) (hd : Disj m msg.length sm smlen) (hml : Disj m msg.length mlen 8) (hok : CompactMeets S128 S256 pkb msg sb) (hx : x.length = msg.length) :
    ∃ F, ∀ fuel, F ≤ fuel → ∃ s, ∃ c, c = (duo W (Conc.openCompact (real fuel) (some m) (some mlen) (some sm) smlen (some pk)) (replaceMessage sm x)).run s ∧
      (c.thr false).prog = .ret 0 ∧ c.common.view m msg.length = some x ∧ c.common.view mlen 8 = some (le64 msg.length) := by
  obtain ⟨F, hF⟩ := compactValid_complete isShake128_S128 isShake256_S256 (length_of_view hpk) hok
  refine ⟨F, fun fuel hf => ?_⟩
  have ho := (compactOpen_iff (P := real fuel) real_sized real_edShape).2 (hF fuel hf)
  have hb := compactOpen_bounds (P := real fuel) ho
  have hsb := length_of_view hsm
  have hmid : (W.view (sm.add 2526) x.length).isSome := view_isSome_sub (n := smlen) (by rw [hsm]; rfl) (by omega)
  have hsp := blk_lt hW hmid
  obtain ⟨old, hold⟩ := Option.isSome_iff_exists.1 hmid
  have hs : (W.write (sm.add 2526) x).view (sm.add 2526) x.length = some x := view_write_same hold rfl
  have ht := exec_compactTail (V := W.write (sm.add 2526) x) (m := m) (mlen := mlen) (sm := sm) (x := x) (by rw [view_write_isSome, hx]; exact hm) (by rw [view_write_isSome]; exact hl) hs (by
    rcases hd with hd | hd | hd
    · exact Or.inl hd
    · exact Or.inr (Or.inl (by simp only [Ptr.add]; omega))
    · exact Or.inr (Or.inr (by simp only [Ptr.add]; omega)))
  rw [hx] at ht
  obtain ⟨s, h1, h2⟩ := duo_run hW (other := replaceMessage sm x) (q := sm.add 2526) (y := x) (r' := 0) hsp (leads_openCompact (real fuel) (m := m) (mlen := mlen) real_sized hsm hpk ho) (fun U hU => exec_replace (by
    rw [view_congr (hU _ hsp)]; exact hmid)) ht
  have vm : ((W.write (sm.add 2526) x).view m msg.length).isSome := by rw [view_write_isSome]; exact hm
  have vl : (((W.write (sm.add 2526) x).write m x).view mlen 8).isSome := by rw [view_write_isSome, view_write_isSome]; exact hl
  obtain ⟨om, hom⟩ := Option.isSome_iff_exists.1 vm
  obtain ⟨ol, hol⟩ := Option.isSome_iff_exists.1 vl
  refine ⟨s, _, rfl, h1, ?_, ?_⟩
  · rw [view_congr (h2 m.blk (blk_lt hW hm)), view_write_disj (by
      rcases hml with h | h | h
      · exact Or.inl (Ne.symm h)
      · exact Or.inr (Or.inr (by simpa using h))
      · exact Or.inr (Or.inl (by simpa using h))), view_write_same hom hx]
  · rw [view_congr (h2 mlen.blk (blk_lt hW hl)), view_write_same hol (by simp)]

theorem push_write {W : World} {init x : Bytes} {q : Ptr} (hq : q.blk < W.sp) : (push W init).write q x = push (W.write q x) init := by
  unfold World.write push
  dsimp only
  rw [Function.update_of_ne (by omega)]
  cases W.mem q.blk with
  | none => rfl
  | some b =>
    dsimp only
    split
    · dsimp only
      rw [Function.update_comm (by omega)]
    · rfl

/-- C125: compact verify accepts a message that was not signed if another thread puts it into the buffer in time.  For every compact signature that passes the checks and every other message of the same length in the
caller's memory there is a schedule of the call and of a thread that only overwrites the message part of the buffer such that the call returns 0 (hybrid-dilithium-sphincs/hybrid.c:669-696). -/
theorem compact_verify_swapped {W : World} (hW : W.WF) {m sm pk : Ptr} {smlen : Nat} {sb pkb msg x : Bytes} (hsm : W.view sm smlen = some sb) (hpk : W.view pk 1408 = some pkb) (hm : W.view m msg.length = some x)
    (hd : Disj m msg.length sm smlen) (hok : CompactMeets S128 S256 pkb msg sb) :
    ∃ F, ∀ fuel, F ≤ fuel → ∃ s, ∃ c, c = (duo W (Conc.verifyCompact (real fuel) (some m) msg.length (some sm) smlen (some pk)) (replaceMessage sm x)).run s ∧
      (c.thr false).prog = .ret 0 ∧ c.common.view m msg.length = some x := by
  obtain ⟨F, hF⟩ := compactValid_complete isShake128_S128 isShake256_S256 (length_of_view hpk) hok
  refine ⟨F, fun fuel hf => ?_⟩
  have ho := (compactOpen_iff (P := real fuel) real_sized real_edShape).2 (hF fuel hf)
  have hb := compactOpen_bounds (P := real fuel) ho
  have hsb := length_of_view hsm
  have hx := length_of_view hm
  have hmid : (W.view (sm.add 2526) x.length).isSome := view_isSome_sub (n := smlen) (by rw [hsm]; rfl) (by omega)
  have hsp := blk_lt hW hmid
  have hmsp := blk_lt hW (p := m) (n := msg.length) (by rw [hm]; rfl)
  obtain ⟨old, hold⟩ := Option.isSome_iff_exists.1 hmid
  have hW1 := push_WF hW (zeros 64)
  have hW2 := push_WF hW1 (zeros 8)
  -- the call up to the last loop of open
  have lead := leads_openCompact (real fuel) (m := ⟨W.sp, 0⟩) (mlen := ⟨W.sp + 1, 0⟩) real_sized (W := push (push W (zeros 64)) (zeros 8)) (push_view hW1 _ (push_view hW _ hsm)) (push_view hW1 _ (push_view hW _ hpk)) ho
  let K : Int → Prog Int := fun r => if r ≠ 0 then pure (-2) else do
    let l ← loadU64 ⟨W.sp + 1, 0⟩
    if l ≠ msg.length then pure (-3) else cmpMem ⟨W.sp, 0⟩ m 0 l
  let p1 : Int → Prog Int := fun a => .pop ⟨W.sp + 1, 0⟩ (.ret a)
  let p0 : Int → Prog Int := fun a => .pop ⟨W.sp, 0⟩ (.ret a)
  have whole : Leads (Conc.verifyCompact (real fuel) (some m) msg.length (some sm) smlen (some pk), W)
      (((compactTail ⟨W.sp, 0⟩ ⟨W.sp + 1, 0⟩ sm msg.length >>= K) >>= p1) >>= p0, push (push W (zeros 64)) (zeros 8)) := by
    have e : Conc.verifyCompact (real fuel) (some m) msg.length (some sm) smlen (some pk) =
        (withLocal (zeros 64) fun buf => withLocal (zeros 8) fun lenp => do
          let r ← Conc.openCompact (real fuel) (some buf) (some lenp) (some sm) smlen (some pk)
          if r ≠ 0 then pure (-2) else do
          let l ← loadU64 lenp
          if l ≠ msg.length then pure (-3) else
          cmpMem buf m 0 l) := by
      simp only [Conc.verifyCompact]
      rw [if_neg (by show ¬ (msg.length ≤ 0 ∨ msg.length > 64); omega)]
    rw [e]
    have h3 := ((lead.bind (f := K)).bind (f := p1)).bind (f := p0)
    refine Leads.head (Leads.head ?_)
    exact h3
  -- the rest in the changed memory
  let W' := W.write (sm.add 2526) x
  have hW' : W'.WF := by
    intro b hb
    have hb' : W.sp ≤ b := by rw [show W'.sp = W.sp from write_sp ..] at hb; exact hb
    show (W.write (sm.add 2526) x).mem b = none
    rw [Hybrid.write_mem_other (by omega), hW b hb']
  have hsp' : W'.sp = W.sp := write_sp ..
  have changed : (push (push W (zeros 64)) (zeros 8)).write (sm.add 2526) x = push (push W' (zeros 64)) (zeros 8) := by
    rw [push_write (by show _ < W.sp + 1; omega), push_write hsp]
  obtain ⟨w1, w2, w3, w4, w5⟩ := write_two_views hW' (n := 64) x x.length (by omega)
  rw [hsp'] at w1 w2 w3 w4 w5
  have hs : (push (push W' (zeros 64)) (zeros 8)).view (sm.add 2526) x.length = some x :=
    push_view (push_WF hW' _) _ (push_view hW' _ (view_write_same hold rfl))
  have ht := exec_compactTail (V := push (push W' (zeros 64)) (zeros 8)) (m := ⟨W.sp, 0⟩) (mlen := ⟨W.sp + 1, 0⟩) (sm := sm) (x := x)
    (by
      have := push_view_new W' (zeros 64) (n := x.length) (by simp; omega)
      rw [hsp'] at this
      rw [push_view (push_WF hW' _) _ this]; rfl)
    (by
      have := push_view_new (push W' (zeros 64)) (zeros 8) (n := 8) (by simp)
      rw [show (push W' (zeros 64)).sp = W.sp + 1 by show W'.sp + 1 = _; rw [hsp']] at this
      rw [this]; rfl) hs (Or.inl (by show W.sp ≠ _; omega))
  have hmW' : W'.view m msg.length = some x := by
    show (W.write (sm.add 2526) x).view m msg.length = _
    rw [view_write_disj (by
      rcases hd with hd | hd | hd
      · exact Or.inl (Ne.symm hd)
      · exact Or.inr (Or.inr (by simp only [Ptr.add]; omega))
      · exact Or.inr (Or.inl (by simp only [Ptr.add]; omega))), hm]
  rw [hx] at ht
  have rest : exec (((compactTail ⟨W.sp, 0⟩ ⟨W.sp + 1, 0⟩ sm msg.length >>= K) >>= p1) >>= p0) ((push (push W (zeros 64)) (zeros 8)).write (sm.add 2526) x) = .ok (0, W') := by
    rw [changed]
    rw [exec_bind, M_bind_apply, exec_bind, M_bind_apply, exec_bind, M_bind_apply, ht]
    simp only [ok_bind]
    rw [hx] at w1 w2 w3 w4 w5
    have hK : exec (K 0) (((push (push W' (zeros 64)) (zeros 8)).write ⟨W.sp, 0⟩ x).write ⟨W.sp + 1, 0⟩ (le64 msg.length)) =
        .ok (0, ((push (push W' (zeros 64)) (zeros 8)).write ⟨W.sp, 0⟩ x).write ⟨W.sp + 1, 0⟩ (le64 msg.length)) := by
      show exec (if (0 : Int) ≠ 0 then _ else _) _ = _
      rw [if_neg (by decide), exec_bind, exec_loadU64, M_bind_apply, loadU64_ok w2]
      simp only [ok_bind]
      rw [ofLe_le64 _ (by omega), if_neg (by omega), exec_cmpMem, cmpMem_ok w1 (w3 _ _ _ hmW') (by omega) (by omega), if_pos rfl]
    rw [hK]
    simp only [ok_bind]
    show Except.ok (_, _) = _
    congr 2
    have := pop2 hW' (W2 := ((push (push W' (zeros 64)) (zeros 8)).write ⟨W.sp, 0⟩ x).write ⟨W.sp + 1, 0⟩ (le64 msg.length)) w4 (by rw [hsp']; exact w5)
    rw [hsp'] at this
    exact this
  obtain ⟨s, h1, h2⟩ := duo_run hW (other := replaceMessage sm x) (q := sm.add 2526) (y := x) (r' := 0) hsp whole (fun U hU => exec_replace (by
    rw [view_congr (hU _ hsp)]
    rw [push_view hW1 _ (push_view hW _ hold)]; rfl)) rest
  exact ⟨s, _, rfl, h1, by rw [view_congr (h2 m.blk hmsp)]; exact hmW'⟩

end Verif.Conc
