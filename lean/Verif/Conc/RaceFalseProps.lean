import Verif.Conc.RaceFalse

/-!
Property C125: with other threads writing to the buffers, what holds of full mode does not hold of compact mode.
-/

namespace Verif.Conc
open Verif
open Verif.Hybrid (compactWire zeros)
open Verif.Real (optRng)
open Verif.Real (real CompactMeets weakPk zeroPk zeroSig neutralSig weak_meets weak_other length_zeroSig view_block)
open Verif.Dilithium (S128 S256 isShake128_S128 isShake256_S256)
open Verif.Witness (RunC.hash nonceC)

/-- What was at a place that no thread writes is what was there at the start. -/
theorem shown_initial {ι : Type} [DecidableEq ι] {W : World} {p : ι → Prog Int} {R S : ι → Addr → Prop} (hin : ∀ i, Within W.sp (R i) (S i) (p i)) {s : List ι} {B : Nat} {x b : Bytes} (hB : B < W.sp)
    (hb : W.mem B = some b) (h : Shown (start W p) s ⟨B, 0⟩ x) {k : Nat} (hk : k < x.length) (hS : ∀ i, ¬ S i (B, k)) : x[k]? = b[k]? := by
  obtain ⟨t, -, h2⟩ := h k _ (List.getElem?_eq_getElem hk)
  obtain ⟨-, o2, o3⟩ := byte_origin hin t
  rw [List.getElem?_eq_getElem hk]
  rcases o3 _ _ hB h2 with h | ⟨i, h⟩
  · unfold byteAt at h
    simp only [hb, Nat.zero_add, Option.bind_some] at h
    exact h.symm
  · have := o2 _ _ _ h
    simp only [Nat.zero_add] at this
    exact absurd this (hS i)

theorem w_replace {base : Nat} {R S : Addr → Prop} {x : Bytes} (h : ∀ k, 2526 ≤ k → k < 2526 + x.length → S (1, k)) : Within base R S (replaceMessage ⟨1, 0⟩ x) := by
  unfold replaceMessage copyOut
  refine Within.bind (w_loopM fun k _ _ h2 => (w_liftC _).bind fun _ => ⟨fun _ => ?_, trivial⟩) fun _ => trivial
  exact h _ (by simp only; omega) (by simp only; omega)

/-- Memory with a message buffer, a signature, a public key and a length (no line of its own). -/
def fourBlocks (mb sb pkb : Bytes) : World :=
  { mem := fun b => if b = 0 then some mb else if b = 1 then some sb else if b = 2 then some pkb else if b = 3 then some (zeros 8) else none, sp := 4, rng := optRng (List.replicate 32 0) List.length_replicate }

theorem fourBlocks_WF (mb sb pkb : Bytes) : (fourBlocks mb sb pkb).WF := by
  intro b hb
  have hb : 4 ≤ b := hb
  show (if b = 0 then some mb else if b = 1 then some sb else if b = 2 then some pkb else if b = 3 then some (zeros 8) else none) = none
  rw [if_neg (by omega), if_neg (by omega), if_neg (by omega), if_neg (by omega)]

theorem length_weakPk {rho : Bytes} (hr : rho.length = 32) : (weakPk rho (List.replicate 64 0)).length = 1408 := by
  rw [weakPk, zeroPk, List.length_append, List.length_append, List.length_append, hr, List.length_replicate, List.length_replicate]; rfl

theorem single_of {l : Bytes} {v : Byte} (h : l.length = 1) (hv : l[0]? = some v) : l = [v] := by
  match l, h, hv with
  | [w], _, hv => simp at hv; rw [hv]

/-- Two buffers that agree up to the message hold the same signatures. -/
theorem wire_of_prefix {ed dil nonce ed' dil' nonce' : Bytes} {x y : Byte} (h1 : ed.length = 64) (h2 : dil.length = 2420) (h3 : nonce.length = 40) (h1' : ed'.length = 64) (h2' : dil'.length = 2420) (h3' : nonce'.length = 40)
    (h : ∀ k, k < 2526 → (compactWire ed dil nonce [x])[k]? = (compactWire ed' dil' nonce' [y])[k]?) : ed = ed' ∧ dil = dil' ∧ nonce = nonce' := by
  have e : ∀ (a b c : Bytes) (z : Byte), a.length = 64 → b.length = 2420 → c.length = 40 → (compactWire a b c [z]).take 2526 = 1 :: 1 :: (a ++ b ++ c) := by
    intro a b c z ha hb hc
    show List.take 2526 (1 :: 1 :: (a ++ b ++ c ++ [z])) = _
    rw [List.take_succ_cons, List.take_succ_cons, List.take_left' (by simp only [List.length_append]; omega)]
  have t : (compactWire ed dil nonce [x]).take 2526 = (compactWire ed' dil' nonce' [y]).take 2526 := by
    refine List.ext_getElem? fun k => ?_
    rw [List.getElem?_take, List.getElem?_take]
    split
    · exact h k (by omega)
    · rfl
  rw [e _ _ _ _ h1 h2 h3, e _ _ _ _ h1' h2' h3', List.cons.injEq, List.cons.injEq] at t
  obtain ⟨i, i3⟩ := List.append_inj t.2.2 (by simp only [List.length_append]; omega)
  obtain ⟨i1, i2⟩ := List.append_inj i (by omega)
  exact ⟨i1, i2, i3⟩

theorem length_wire {ed dil nonce msg : Bytes} (h1 : ed.length = 64) (h2 : dil.length = 2420) (h3 : nonce.length = 40) : (compactWire ed dil nonce msg).length = 2526 + msg.length := by
  simp only [compactWire, List.length_cons, List.length_append]; omega

/-- No buffer that the call can have seen is a signature of [3]. -/
theorem no_signature {rho : Bytes} (hr : rho.length = 32) (er : ofLe rho = Witness.Run7.rho) {mb x : Bytes} {p : Bool → Prog Int} {R S : Bool → Addr → Prop} {s : List Bool} {sb pkb : Bytes}
    {W : World} (hW : W = fourBlocks mb (compactWire neutralSig (zeroSig (zeroPk rho) RunC.hash) nonceC x) (weakPk rho (List.replicate 64 0))) (hin : ∀ i, Within W.sp (R i) (S i) (p i)) (hx : x = [2])
    (h1 : ∀ i k, k < 2526 → ¬ S i (1, k)) (h2 : ∀ i k, ¬ S i (2, k)) (l2 : pkb.length = 1408) (s1 : Shown (start W p) s ⟨1, 0⟩ sb) (s2 : Shown (start W p) s ⟨2, 0⟩ pkb) :
    ¬ CompactMeets S128 S256 pkb [3] sb := by
  intro hm
  have ep : pkb = weakPk rho (List.replicate 64 0) := by
    refine List.ext_getElem? fun k => ?_
    by_cases hk : k < pkb.length
    · exact shown_initial hin (B := 2) (by rw [hW]; show 2 < 4; omega) (by rw [hW]; rfl) s2 hk fun i => h2 i k
    · rw [List.getElem?_eq_none (by omega), List.getElem?_eq_none (by rw [length_weakPk hr]; omega)]
  subst ep hx
  obtain ⟨-, -, ed, dil, nonce, h, l1, l2, l3, e, -⟩ := id hm
  have pre : ∀ k, k < 2526 → (compactWire ed dil nonce [3])[k]? = (compactWire neutralSig (zeroSig (zeroPk rho) RunC.hash) nonceC [2])[k]? := by
    intro k hk
    rw [← e]
    exact shown_initial hin (B := 1) (by rw [hW]; show 1 < 4; omega) (by rw [hW]; rfl) s1 (by rw [e, length_wire l1 l2 l3]; omega) fun i => h1 i k hk
  obtain ⟨rfl, rfl, rfl⟩ := wire_of_prefix l1 l2 l3 rfl (length_zeroSig _ _) (by decide) pre
  subst e
  exact weak_other hr er hm

/-- C125: the claim of `full_open_under_writers` is false of compact open.  In the run of `compact_open_swapped` with a signature of [2] under some public key the call returns 0 and delivers [3], while no buffer
whose bytes were in memory during the run is a signature of [3] under a public key whose bytes were there (hybrid-dilithium-sphincs/hybrid.c:600-603, 656-664). -/
theorem compact_open_under_writers_false :
    ¬ ∀ (fuel : Nat) (W : World) (p : Bool → Prog Int) (i : Bool) (m mlen sm pk : Ptr) (smlen : Nat), m.blk < W.sp → mlen.blk < W.sp → sm.blk < W.sp → pk.blk < W.sp →
      p i = Conc.openCompact (real fuel) (some m) (some mlen) (some sm) smlen (some pk) → ∀ (s : List Bool) (c : Conf Bool Int), c = start W p → ((c.run s).thr i).prog = .ret 0 →
        ∃ sb pkb msg, sb.length = smlen ∧ pkb.length = 1408 ∧ Shown c s sm sb ∧ Shown c s pk pkb ∧ CompactMeets S128 S256 pkb msg sb ∧ ∀ a v, Stored c i s a v ↔ Output m mlen msg a v := by
  intro claim
  obtain ⟨rho, hr, er, hok⟩ := weak_meets
  have hlen : (compactWire neutralSig (zeroSig (zeroPk rho) RunC.hash) nonceC [2]).length = 2527 := length_wire rfl (length_zeroSig _ _) (by decide)
  have hWF := fourBlocks_WF [0] (compactWire neutralSig (zeroSig (zeroPk rho) RunC.hash) nonceC [2]) (weakPk rho (List.replicate 64 0))
  have b0 : (fourBlocks [0] (compactWire neutralSig (zeroSig (zeroPk rho) RunC.hash) nonceC [2]) (weakPk rho (List.replicate 64 0))).mem 0 = some [0] := rfl
  have b1 : (fourBlocks [0] (compactWire neutralSig (zeroSig (zeroPk rho) RunC.hash) nonceC [2]) (weakPk rho (List.replicate 64 0))).mem 1 = some (compactWire neutralSig (zeroSig (zeroPk rho) RunC.hash) nonceC [2]) := rfl
  have b2 : (fourBlocks [0] (compactWire neutralSig (zeroSig (zeroPk rho) RunC.hash) nonceC [2]) (weakPk rho (List.replicate 64 0))).mem 2 = some (weakPk rho (List.replicate 64 0)) := rfl
  have b3 : (fourBlocks [0] (compactWire neutralSig (zeroSig (zeroPk rho) RunC.hash) nonceC [2]) (weakPk rho (List.replicate 64 0))).mem 3 = some (zeros 8) := rfl
  have bsp : (fourBlocks [0] (compactWire neutralSig (zeroSig (zeroPk rho) RunC.hash) nonceC [2]) (weakPk rho (List.replicate 64 0))).sp = 4 := rfl
  generalize hW : fourBlocks [0] (compactWire neutralSig (zeroSig (zeroPk rho) RunC.hash) nonceC [2]) (weakPk rho (List.replicate 64 0)) = W at hWF b0 b1 b2 b3 bsp
  obtain ⟨F, hF⟩ := compact_open_swapped hWF (m := ⟨0, 0⟩) (mlen := ⟨3, 0⟩) (sm := ⟨1, 0⟩) (pk := ⟨2, 0⟩) (view_block b1 hlen) (view_block b2 (length_weakPk hr)) (by have := view_block (n := 1) b0 rfl; show (W.view ⟨0, 0⟩ 1).isSome = true; rw [this]; rfl)
    (by rw [view_block b3 (n := 8) (by simp)]; rfl) (Or.inl (by decide)) (Or.inl (by decide)) hok (x := [3]) rfl
  obtain ⟨s, c, hc, h0, hv, -⟩ := hF F (Nat.le_refl _)
  unfold duo at hc
  generalize hp : (fun i : Bool => if i = true then replaceMessage ⟨1, 0⟩ [3] else Conc.openCompact (real F) (some ⟨0, 0⟩) (some ⟨3, 0⟩) (some ⟨1, 0⟩) 2527 (some ⟨2, 0⟩)) = p at hc
  have hpf : p false = Conc.openCompact (real F) (some ⟨0, 0⟩) (some ⟨3, 0⟩) (some ⟨1, 0⟩) 2527 (some ⟨2, 0⟩) := by rw [← hp]; rfl
  have hpt : p true = replaceMessage ⟨1, 0⟩ [3] := by rw [← hp]; rfl
  let S : Bool → Addr → Prop := fun i a => if i then a.1 = 1 ∧ 2526 ≤ a.2 else a.1 = 0 ∨ a.1 = 3
  have hin : ∀ i, Within W.sp (fun _ => True) (S i) (p i) := by
    intro i
    cases i with
    | true => rw [hpt]; exact w_replace fun k hk _ => ⟨rfl, hk⟩
    | false =>
      rw [hpf]
      exact w_openCompact _ (fun _ _ _ _ _ => trivial) (fun _ _ _ _ _ => trivial) (fun q hq _ _ _ => by cases hq; exact Or.inl rfl) (fun q hq _ _ _ => by cases hq; exact Or.inr rfl)
  obtain ⟨sb, pkb, msg, l1, l2, s1, s2, hm, hs⟩ := claim F W p false ⟨0, 0⟩ ⟨3, 0⟩ ⟨1, 0⟩ ⟨2, 0⟩ 2527 (by rw [bsp]; decide) (by rw [bsp]; decide) (by rw [bsp]; decide) (by rw [bsp]; decide) hpf s _ rfl (by rw [← hc]; exact h0)
  have lm : msg.length = 1 := by
    obtain ⟨-, -, ed, dil, nonce, h, g1, g2, g3, e, -⟩ := hm
    rw [e, length_wire g1 g2 g3] at l1
    omega
  -- the byte that came out
  have last : byteAt ((start W p).run s).mem (0, 0) = some 3 := by
    obtain ⟨b, e1, e2, e3⟩ := view_eq_some.1 hv
    have e1 : c.mem 0 = some b := e1
    rw [hc] at e1
    unfold byteAt
    rw [e1]
    have e4 := congrArg (·[0]?) e3
    simp only [slice, List.drop_zero, List.getElem?_take, List.length_singleton] at e4
    exact e4.symm
  obtain ⟨-, o2, o3⟩ := byte_origin hin s
  have st : Stored (start W p) false s (0, 0) 3 := by
    rcases o3 _ _ (by rw [bsp]; decide) last with h | ⟨i, h⟩
    · unfold byteAt at h
      rw [b0] at h
      exact absurd h (by decide)
    · cases i with
      | false => exact h
      | true => exact absurd (o2 _ _ _ h).1 (by decide)
  have hmsg : msg = [3] := by
    rcases (hs _ _).1 st with ⟨k, h1, h2⟩ | ⟨k, -, h2⟩
    · simp only [Prod.mk.injEq, true_and] at h2
      obtain rfl : k = 0 := by omega
      exact single_of lm h1
    · simp at h2
  subst hmsg
  refine no_signature hr er hW.symm hin rfl (fun i k hk => ?_) (fun i k => ?_) l2 s1 s2 hm
  · cases i with
    | true => exact fun h => by have := h.2; simp only at this; omega
    | false => rintro (h | h) <;> exact absurd h (by simp)
  · cases i with
    | true => exact fun h => absurd h.1 (by simp)
    | false => rintro (h | h) <;> exact absurd h (by simp)

/-- C125: the claim of `full_verify_under_writers` is false of compact verify.  In the run of `compact_verify_swapped` with a signature of [2] under some public key the call accepts the message [3], while no buffer
whose bytes were in memory during the run is a signature of a message that was at `m` under a public key whose bytes were there (hybrid-dilithium-sphincs/hybrid.c:669-696). -/
theorem compact_verify_under_writers_false :
    ¬ ∀ (fuel : Nat) (W : World) (p : Bool → Prog Int) (i : Bool) (m sm pk : Ptr) (mlen smlen : Nat), m.blk < W.sp → sm.blk < W.sp → pk.blk < W.sp →
      p i = Conc.verifyCompact (real fuel) (some m) mlen (some sm) smlen (some pk) → ∀ (s : List Bool) (c : Conf Bool Int), c = start W p → ((c.run s).thr i).prog = .ret 0 →
        ∃ sb pkb msg, sb.length = smlen ∧ pkb.length = 1408 ∧ msg.length = mlen ∧ Shown c s sm sb ∧ Shown c s pk pkb ∧ CompactMeets S128 S256 pkb msg sb ∧ Shown c s m msg := by
  intro claim
  obtain ⟨rho, hr, er, hok⟩ := weak_meets
  have hlen : (compactWire neutralSig (zeroSig (zeroPk rho) RunC.hash) nonceC [2]).length = 2527 := length_wire rfl (length_zeroSig _ _) (by decide)
  have hWF := fourBlocks_WF [3] (compactWire neutralSig (zeroSig (zeroPk rho) RunC.hash) nonceC [2]) (weakPk rho (List.replicate 64 0))
  have b0 : (fourBlocks [3] (compactWire neutralSig (zeroSig (zeroPk rho) RunC.hash) nonceC [2]) (weakPk rho (List.replicate 64 0))).mem 0 = some [3] := rfl
  have b1 : (fourBlocks [3] (compactWire neutralSig (zeroSig (zeroPk rho) RunC.hash) nonceC [2]) (weakPk rho (List.replicate 64 0))).mem 1 = some (compactWire neutralSig (zeroSig (zeroPk rho) RunC.hash) nonceC [2]) := rfl
  have b2 : (fourBlocks [3] (compactWire neutralSig (zeroSig (zeroPk rho) RunC.hash) nonceC [2]) (weakPk rho (List.replicate 64 0))).mem 2 = some (weakPk rho (List.replicate 64 0)) := rfl
  have bsp : (fourBlocks [3] (compactWire neutralSig (zeroSig (zeroPk rho) RunC.hash) nonceC [2]) (weakPk rho (List.replicate 64 0))).sp = 4 := rfl
  generalize hW : fourBlocks [3] (compactWire neutralSig (zeroSig (zeroPk rho) RunC.hash) nonceC [2]) (weakPk rho (List.replicate 64 0)) = W at hWF b0 b1 b2 bsp
  obtain ⟨F, hF⟩ := compact_verify_swapped hWF (m := ⟨0, 0⟩) (sm := ⟨1, 0⟩) (pk := ⟨2, 0⟩) (x := [3]) (view_block b1 hlen) (view_block b2 (length_weakPk hr)) (by show W.view ⟨0, 0⟩ 1 = _; exact view_block b0 rfl)
    (Or.inl (by decide)) hok
  obtain ⟨s, c, hc, h0, -⟩ := hF F (Nat.le_refl _)
  unfold duo at hc
  generalize hp : (fun i : Bool => if i = true then replaceMessage ⟨1, 0⟩ [3] else Conc.verifyCompact (real F) (some ⟨0, 0⟩) 1 (some ⟨1, 0⟩) 2527 (some ⟨2, 0⟩)) = p at hc
  have hpf : p false = Conc.verifyCompact (real F) (some ⟨0, 0⟩) 1 (some ⟨1, 0⟩) 2527 (some ⟨2, 0⟩) := by rw [← hp]; rfl
  have hpt : p true = replaceMessage ⟨1, 0⟩ [3] := by rw [← hp]; rfl
  let S : Bool → Addr → Prop := fun i a => i = true ∧ a.1 = 1 ∧ 2526 ≤ a.2
  have hin : ∀ i, Within W.sp (fun _ => True) (S i) (p i) := by
    intro i
    cases i with
    | true => rw [hpt]; exact w_replace fun k hk _ => ⟨rfl, rfl, hk⟩
    | false =>
      rw [hpf]
      exact w_verifyCompact _ (fun _ _ _ _ _ => trivial) (fun _ _ _ _ _ => trivial) (fun _ _ _ _ _ => trivial)
  obtain ⟨sb, pkb, msg, l1, l2, lm, s1, s2, hm, s0⟩ := claim F W p false ⟨0, 0⟩ ⟨1, 0⟩ ⟨2, 0⟩ 1 2527 (by rw [bsp]; decide) (by rw [bsp]; decide) (by rw [bsp]; decide) hpf s _ rfl (by rw [← hc]; exact h0)
  have hmsg : msg = [3] := by
    have h := shown_initial hin (B := 0) (by rw [bsp]; decide) b0 s0 (k := 0) (by omega) fun i h => absurd h.2.1 (by decide)
    exact single_of lm h
  subst hmsg
  exact no_signature hr er hW.symm hin rfl (fun i k hk h => by have := h.2.2; simp only at this; omega) (fun i k h => absurd h.2.1 (by simp)) l2 s1 s2 hm

/-! ### Concrete cases -/

theorem runs_to_end {W : World} (hW : W.WF) {call other : Prog Int} {V : World} {r : Int} (h : exec call W = .ok (r, V)) : ∃ s, (((duo W call other).run s).thr false).prog = .ret r := by
  obtain ⟨n, h1, -⟩ := leads_run (c := duo W call other) (i := false) (by
    unfold duo
    rw [start_world hW]
    exact leads_exec h)
  exact ⟨_, h1⟩

/-- The hypotheses of `full_open_under_writers` and of `full_verify_under_writers` can be met, with calls that return 0 beside a thread that writes to the signature buffer. -/
example : ∃ (fuel : Nat) (W : World) (s s' : List Bool), W.WF ∧ W.sp = 4 ∧
    (((duo W (Conc.openFull (real fuel) (some ⟨0, 0⟩) (some ⟨3, 0⟩) (some ⟨1, 0⟩) 52343 (some ⟨2, 0⟩)) (replaceMessage ⟨1, 0⟩ [3])).run s).thr false).prog = .ret 0 ∧
    (((duo W (Conc.verifyFull (real fuel) (some ⟨0, 0⟩) 1 (some ⟨1, 0⟩) 52343 (some ⟨2, 0⟩)) (replaceMessage ⟨1, 0⟩ [3])).run s').thr false).prog = .ret 0 := by
  obtain ⟨fuel, pkb, skb, sig, -, -, hm, V, m, sm, pk, -, -, v1, v2, -⟩ := Witness.complete_run
  have l1 := length_of_view v1
  have l2 := length_of_view v2
  have hWF := fourBlocks_WF [2] sig pkb
  have b1 : (fourBlocks [2] sig pkb).view ⟨1, 0⟩ 52343 = some sig := view_block rfl l1
  have b2 : (fourBlocks [2] sig pkb).view ⟨2, 0⟩ 1408 = some pkb := view_block rfl l2
  have b0 : (fourBlocks [2] sig pkb).view ⟨0, 0⟩ 1 = some [2] := view_block rfl rfl
  have b3 : (fourBlocks [2] sig pkb).view ⟨3, 0⟩ 8 = some (zeros 8) := view_block rfl (by simp)
  have bsp : (fourBlocks [2] sig pkb).sp = 4 := rfl
  generalize fourBlocks [2] sig pkb = W at *
  obtain ⟨F, hF⟩ := (Real.real_full_open isShake128_S128 isShake256_S256 (m := ⟨0, 0⟩) (mlen := ⟨3, 0⟩) b1 b2 (by rw [b0]; rfl) (by rw [b3]; rfl)).2 _ hm
  obtain ⟨G, hG⟩ := (Real.real_full_verify isShake128_S128 isShake256_S256 hWF b1 b2 b0).2 hm
  obtain ⟨s, hs⟩ := runs_to_end hWF (other := replaceMessage ⟨1, 0⟩ [3]) ((congrFun (exec_openFull ..) W).trans (hF (max F G) (Nat.le_max_left ..)))
  obtain ⟨s', hs'⟩ := runs_to_end hWF (other := replaceMessage ⟨1, 0⟩ [3]) ((congrFun (exec_verifyFull ..) W).trans (hG (max F G) (Nat.le_max_right ..)))
  exact ⟨max F G, W, s, s', hWF, bsp, hs, hs'⟩

/-- The hypotheses of `compact_open_swapped`, `compact_verify_swapped`, `compact_open_under_writers_partial` and `compact_verify_under_writers_partial` can be met. -/
example : ∃ (sb pkb : Bytes) (W : World), W.WF ∧ W.sp = 4 ∧ W.view ⟨1, 0⟩ 2527 = some sb ∧ W.view ⟨2, 0⟩ 1408 = some pkb ∧ W.view ⟨0, 0⟩ 1 = some [3] ∧ (W.view ⟨3, 0⟩ 8).isSome ∧
    CompactMeets S128 S256 pkb [2] sb := by
  obtain ⟨rho, hr, er, hok⟩ := weak_meets
  have hlen : (compactWire neutralSig (zeroSig (zeroPk rho) RunC.hash) nonceC [2]).length = 2527 := length_wire rfl (length_zeroSig _ _) (by decide)
  have hp := length_weakPk hr
  generalize compactWire neutralSig (zeroSig (zeroPk rho) RunC.hash) nonceC [2] = sb at *
  generalize weakPk rho (List.replicate 64 0) = pkb at *
  have b3 : (fourBlocks [3] sb pkb).view ⟨3, 0⟩ 8 = some (zeros 8) := view_block rfl (by simp)
  exact ⟨sb, pkb, fourBlocks [3] sb pkb, fourBlocks_WF _ _ _, rfl, view_block rfl hlen, view_block rfl hp, view_block rfl rfl, by rw [b3]; rfl, hok⟩

end Verif.Conc
