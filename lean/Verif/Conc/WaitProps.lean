import Verif.Conc.Wait
import Verif.Conc.VerifyRaceProps
import Verif.Conc.VerifyAcceptProps

/-!
C131: other threads cannot keep a call from ending.
-/

namespace Verif.Conc
open Verif
open Verif.Hybrid (zeros)
open Verif.Real (zeroPk zeroSig length_zeroSig zeroSig_valid weak_rho weak_ball view_block)
open Verif.Witness (RunC.hash)

/-- The steps of a call; those of `crypto_verify_dilithium` with Dilithium verification in single reads (hybrid-dilithium-sphincs/hybrid.c:140-711). -/
def Call.steps (P : Hybrid.Prims) (body : Bytes → Nat → Bytes → Bytes → Bytes → Option Bytes → C (Int × Bytes × Nat)) (fuel : Nat) : Call → Prog Int
  | .verifyDilithium m mlen sm smlen pk => verifyDilithiumSteps fuel m mlen sm smlen pk
  | call => call.prog P body

/-- The largest number of steps of the ten functions (hybrid-dilithium-sphincs/hybrid.c:140-711). -/
def Call.most : Call → Nat
  | .seedExpander .. => 224
  | .keypairSeed .. => 5632
  | .keypair .. => 5635
  | .signFull .. => 55423
  | .openFull .. => 53886
  | .verifyFull .. => 54026
  | .signCompact .. => 5415
  | .openCompact .. => 4134
  | .verifyCompact .. => 4274
  | .verifyDilithium .. => 10728

/-- C131: however many other threads there are, whatever they write and whatever the schedule: a call that has had as many turns as the table says has ended, with a result or a fault.  The bounds of its loops that are read from shared memory
(hybrid-dilithium-sphincs/hybrid.c:360, 580, dilithium2/packing.c:237-249) cannot make it longer. -/
theorem calls_end {ι : Type} [DecidableEq ι] (P : Hybrid.Prims) (body : Bytes → Nat → Bytes → Bytes → Bytes → Option Bytes → C (Int × Bytes × Nat)) (fuel : Nat) (W : World) (p : ι → Prog Int) (i : ι) (call : Call)
    (hp : p i = call.steps P body fuel) (s : List ι) (hs : call.most ≤ s.count i) :
    (∃ r, (((start W p).run s).thr i).prog = .ret r) ∨ ∃ e, (((start W p).run s).thr i).prog = .fail e := by
  have key : Takes (call.steps P body fuel) call.most := by
    cases call with
    | seedExpander a b => exact takes_seedExpander P a b
    | keypairSeed a b c => exact takes_keypairSeed P a b c
    | keypair a b => exact takes_keypair P a b
    | signFull a b c d e => exact takes_signFull P body a b c d e
    | openFull a b c d e => exact takes_openFull P a b c d e
    | verifyFull a b c d e => exact takes_verifyFull P a b c d e
    | signCompact a b c d e => exact takes_signCompact P a b c d e
    | openCompact a b c d e => exact takes_openCompact P a b c d e
    | verifyCompact a b c d e => exact takes_verifyCompact P a b c d e
    | verifyDilithium a b c d e =>
      show Takes (verifyDilithiumSteps fuel a b c d e) 10728
      by_cases hb : b ≤ 64
      · exact (takes_verifyDilithium fuel a b c d e).mono (by omega)
      · unfold verifyDilithiumSteps
        split
        · rw [if_pos (Or.inr (by omega))]; trivial
        · trivial
  have := takes_run (c := start W p) (i := i) (n := call.most) (by show Takes (p i) _; rw [hp]; exact key) s
  rw [Nat.sub_eq_zero_of_le hs] at this
  exact takes_zero this

/-- C131: Dilithium-only verification with 171 more bytes allocated behind the signature.  Whatever the other threads write there: after 10728 turns it has returned, unless a sampler (dilithium2/poly.c:347-371, 480-515) has run out of fuel. -/
theorem verify_dilithium_ends {ι : Type} [DecidableEq ι] (fuel : Nat) (W : World) (p : ι → Prog Int) (i : ι) (m sm pk : Ptr) (mlen smlen : Nat) (h1 : m.blk < W.sp) (h2 : sm.blk < W.sp) (h3 : pk.blk < W.sp)
    (hp : p i = verifyDilithiumSteps fuel (some m) mlen (some sm) smlen (some pk)) (s : List ι) (he : ∀ t, t <+: s → ∀ a, Buffers sm 2591 m mlen pk a → (byteAt ((start W p).run t).mem a).isSome) (hs : 10728 ≤ s.count i) :
    (∃ r, (((start W p).run s).thr i).prog = .ret r) ∨ (((start W p).run s).thr i).prog = .fail .diverge := by
  rcases calls_end (Real.real fuel) (fun _ _ _ _ _ _ => .error .ub) fuel W p i (.verifyDilithium (some m) mlen (some sm) smlen (some pk)) hp s hs with h | ⟨e, h⟩
  · exact Or.inl h
  · right
    have := verify_dilithium_slack_no_ub fuel W p i m sm pk mlen smlen h1 h2 h3 hp s he
    cases e with
    | ub => exact absurd h this
    | diverge => exact h

/-- A program that runs to its end on the bytes it is given does not fail. -/
theorem reads_exec_end {α : Type} {F F' : Fault → Prop} {A : Addr → Prop} {V : Addr → Byte → Prop} {Q : α → Prop} {x : Prog α} {W W' : World} {r : α} (h : ReadsIn F A V Q x) (he : exec x W = .ok (r, W'))
    (hd : ∀ a v w, A a → byteAt W.mem a = some w → V a v → v = w) : ReadsIn F' A V (fun a => a = r) x := by
  induction x with
  | ret a => cases he; rfl
  | fail e => cases he
  | load p i k ih =>
    refine ⟨h.1, fun v hv => ?_⟩
    have he : (Verif.load p i >>= fun v => exec (k v)) W = .ok (r, W') := he
    rw [M_bind_apply, load_byteAt] at he
    cases hw : byteAt W.mem (p.blk, p.off + i) with
    | none => rw [hw] at he; cases he
    | some w =>
      rw [hw] at he
      obtain rfl := hd _ _ _ h.1 hw hv
      exact ih v (h.2 v hv) he
  | store p i v k ih => exact h.elim
  | draw n k ih => exact h.elim
  | push init k ih => exact h.elim
  | pop p k ih => exact h.elim

/-- C131: if nobody changes the signature, the message and the public key during the call, then after 10728 turns Dilithium-only verification has returned what it returns alone, whatever other threads do elsewhere, also to the bytes behind the
signature (hybrid-dilithium-sphincs/hybrid.c:698-711). -/
theorem verify_dilithium_undisturbed {ι : Type} [DecidableEq ι] (fuel : Nat) {W W' : World} (hW : W.WF) (p : ι → Prog Int) (i : ι) {m sm pk : Ptr} {mlen : Nat} {r : Int} (hv : (W.view sm 2420).isSome) (hm : (W.view m mlen).isSome) (hk : (W.view pk 1312).isSome)
    (hp : p i = verifyDilithiumSteps fuel (some m) mlen (some sm) 2420 (some pk)) (s : List ι)
    (he : ∀ t, t <+: s → ∀ a, Buffers sm 2420 m mlen pk a → byteAt ((start W p).run t).mem a = byteAt W.mem a) (hs : 10728 ≤ s.count i)
    (hr : Hybrid.verifyDilithium (Real.real fuel) (some m) mlen (some sm) 2420 (some pk) W = .ok (r, W')) : (((start W p).run s).thr i).prog = .ret r := by
  obtain ⟨x, hv⟩ := Option.isSome_iff_exists.1 hv
  obtain ⟨msg, hm⟩ := Option.isSome_iff_exists.1 hm
  obtain ⟨pkb, hk⟩ := Option.isSome_iff_exists.1 hk
  rw [← exec_verifyDilithiumSteps hv hm hk] at hr
  have at_ : ∀ {q : Ptr} {n : Nat} {y : Bytes}, W.view q n = some y → ∀ {a : Addr}, a.1 = q.blk → q.off ≤ a.2 → a.2 < q.off + n → (byteAt W.mem a).isSome := fun {q n y} h {a} h1 h2 h3 => by
    obtain ⟨b, o⟩ := a
    simp only at h1 h2 h3
    subst h1
    have := byteAt_view h (k := o - q.off) (by omega)
    rw [Nat.add_sub_cancel' h2] at this
    rw [this, List.getElem?_eq_getElem (by rw [length_of_view h]; omega)]; rfl
  have ex : ∀ a, Buffers sm 2420 m mlen pk a → (byteAt W.mem a).isSome := by
    rintro a (⟨h1, h2, h3⟩ | ⟨h1, h2, h3⟩ | ⟨h1, h2, h3⟩)
    · exact at_ hv h1 h2 h3
    · exact at_ hm h1 h2 h3
    · exact at_ hk h1 h2 h3
  have lt : ∀ a, Buffers sm 2420 m mlen pk a → a.1 < W.sp := by
    intro a ha
    by_contra hn
    have := ex a ha
    unfold byteAt at this
    rw [hW a.1 (by omega)] at this
    cases this
  have rd : ReadsIn (fun _ => True) (Buffers sm 2420 m mlen pk) (fun a v => byteAt W.mem a = some v) (fun _ => True) (verifyDilithiumSteps fuel (some m) mlen (some sm) 2420 (some pk)) :=
    reads_verify trivial (N := 2420) (B := 80) (by omega) (fun o ho => Or.inl ⟨rfl, by simp only; omega, by simp only; omega⟩) (by omega) (fun j hj v w hv hl hw => by
      have e := hv.symm.trans hw
      injection e with e
      rw [← e]; exact hl) (fun o ho => Or.inr (Or.inl ⟨rfl, by simp only; omega, by simp only; omega⟩)) (fun o ho => Or.inr (Or.inr ⟨rfl, by simp only; omega, by simp only; omega⟩))
  have rd := reads_exec_end (F' := fun _ => False) rd hr fun a v w _ h1 h2 => by
    rw [h1] at h2
    injection h2 with h2
    exact h2.symm
  rw [← hp] at rd
  have rd := readsIn_run rd lt s (Or.inr fun t ht a ha => by rw [he t ht a ha]; exact ex a ha) fun t ht a v ha h => by rw [← he t ht a ha]; exact h
  rcases calls_end (Real.real fuel) (fun _ _ _ _ _ _ => .error .ub) fuel W p i (.verifyDilithium (some m) mlen (some sm) 2420 (some pk)) hp s hs with ⟨r', h⟩ | ⟨e, h⟩
  · rw [h] at rd ⊢
    exact congrArg _ rd
  · rw [h] at rd
    exact rd.elim

/-- C131: any number of threads that verify the same signature of the same message with the same key, in the same memory: each of them has, after 10728 turns, returned what a single call returns
(hybrid-dilithium-sphincs/hybrid.c:698-711). -/
theorem verify_dilithium_shared {ι : Type} [DecidableEq ι] (fuel : Nat) {W W' : World} (hW : W.WF) {m sm pk : Ptr} {mlen : Nat} {r : Int} (hv : (W.view sm 2420).isSome) (hm : (W.view m mlen).isSome) (hk : (W.view pk 1312).isSome)
    (hr : Hybrid.verifyDilithium (Real.real fuel) (some m) mlen (some sm) 2420 (some pk) W = .ok (r, W')) (s : List ι) (i : ι) (hs : 10728 ≤ s.count i) :
    (((start W fun _ : ι => verifyDilithiumSteps fuel (some m) mlen (some sm) 2420 (some pk)).run s).thr i).prog = .ret r := by
  refine verify_dilithium_undisturbed fuel hW _ i hv hm hk rfl s (fun t _ a ha => ?_) hs hr
  refine byte_kept (R := fun _ _ => True) (S := fun _ _ => False) (fun _ => ?_) t ?_ fun _ h => h
  · exact verify_only_reads.within
  · have b1 := blk_lt hW hv
    have b3 := blk_lt hW hk
    rcases ha with h | h | h
    · rw [h.1]; exact b1
    · rw [h.1]; exact blk_lt hW hm
    · rw [h.1]; exact b3

/-- A case of the two theorems: a valid signature, verified by as many threads as there are numbers. -/
example : ∃ (W W' : World) (fuel : Nat), W.WF ∧ (W.view ⟨0, 0⟩ 2420).isSome ∧ (W.view ⟨2, 0⟩ 64).isSome ∧ (W.view ⟨1, 0⟩ 1312).isSome ∧
    Hybrid.verifyDilithium (Real.real fuel) (some ⟨2, 0⟩) 64 (some ⟨0, 0⟩) 2420 (some ⟨1, 0⟩) W = .ok (0, W') ∧
    ∀ (s : List Nat) (i : Nat), 10728 ≤ s.count i → (((start W fun _ : Nat => verifyDilithiumSteps fuel (some ⟨2, 0⟩) 64 (some ⟨0, 0⟩) 2420 (some ⟨1, 0⟩)).run s).thr i).prog = .ret 0 := by
  obtain ⟨rho, A, hr, er, hA⟩ := weak_rho
  obtain ⟨c, hc⟩ := weak_ball hr er
  have hv := zeroSig_valid hr hA hc
  have lp : (zeroPk rho).length = 1312 := by rw [zeroPk, List.length_append, hr, List.length_replicate]
  have ls := length_zeroSig (zeroPk rho) RunC.hash
  obtain ⟨F, hF⟩ := Dilithium.verify_complete ls lp hv
  have hF := hF F (Nat.le_refl F)
  generalize zeroSig (zeroPk rho) RunC.hash = sb at ls hF
  have v0 : (threeBlocks sb (zeroPk rho) RunC.hash).view ⟨0, 0⟩ 2420 = some sb := view_block rfl ls
  have v1 : (threeBlocks sb (zeroPk rho) RunC.hash).view ⟨1, 0⟩ 1312 = some (zeroPk rho) := view_block rfl lp
  have v2 : (threeBlocks sb (zeroPk rho) RunC.hash).view ⟨2, 0⟩ 64 = some RunC.hash := view_block rfl (by decide +kernel)
  have he : exec (verifyDilithiumSteps F (some ⟨2, 0⟩) 64 (some ⟨0, 0⟩) 2420 (some ⟨1, 0⟩)) (threeBlocks sb (zeroPk rho) RunC.hash) = .ok (0, threeBlocks sb (zeroPk rho) RunC.hash) := by
    simp only [verifyDilithiumSteps]
    rw [if_neg (by decide), exec_bind_ok (a := 0) (W' := threeBlocks sb (zeroPk rho) RunC.hash) (by rw [exec_dilVerify v0 v2 v1, hF]; rfl)]
    rfl
  rw [exec_verifyDilithiumSteps v0 v2 v1] at he
  have hWF := threeBlocks_WF sb (zeroPk rho) RunC.hash
  generalize threeBlocks sb (zeroPk rho) RunC.hash = W at *
  have i0 : (W.view ⟨0, 0⟩ 2420).isSome := by rw [v0]; rfl
  have i1 : (W.view ⟨1, 0⟩ 1312).isSome := by rw [v1]; rfl
  have i2 : (W.view ⟨2, 0⟩ 64).isSome := by rw [v2]; rfl
  exact ⟨W, W, F, hWF, i0, i2, i1, he, fun s i hs => verify_dilithium_shared F hWF i0 i2 i1 he s i hs⟩

/-- A case: Dilithium-only verification and a thread that changes the first count of the signature between its reads, 10728 times in turn. -/
example (fuel : Nat) (s : List Bool) (hs : s = (List.replicate 10728 [false, true]).flatten) : (∃ r, (((duo upWorld (verifyDilithiumSteps fuel (some ⟨2, 0⟩) 1 (some ⟨0, 0⟩) 2420 (some ⟨1, 0⟩)) (overwrite ⟨0, 2416⟩ [100])).run s).thr false).prog = .ret r) ∨
    ∃ e, (((duo upWorld (verifyDilithiumSteps fuel (some ⟨2, 0⟩) 1 (some ⟨0, 0⟩) 2420 (some ⟨1, 0⟩)) (overwrite ⟨0, 2416⟩ [100])).run s).thr false).prog = .fail e := by
  have hc : 10728 ≤ s.count false := by
    rw [hs, List.count_flatten, List.map_replicate, List.sum_replicate]
    show 10728 ≤ 10728 • List.count false [false, true]
    rw [show List.count false [false, true] = 1 by decide, smul_eq_mul]
  exact calls_end (Real.real fuel) (fun _ _ _ _ _ _ => .error .ub) fuel upWorld _ false (.verifyDilithium (some ⟨2, 0⟩) 1 (some ⟨0, 0⟩) 2420 (some ⟨1, 0⟩)) rfl s hc

/-- A case of `verify_dilithium_ends`: the thread of the attack of C128, with room behind the signature, in any order with 10728 turns of the call. -/
example (fuel : Nat) (s : List Bool) (hs : 10728 ≤ s.count false) :
    (∃ r, (((duo slackWorld (verifyDilithiumSteps fuel (some ⟨2, 0⟩) 1 (some ⟨0, 0⟩) 2420 (some ⟨1, 0⟩)) (overwrite ⟨0, 2416⟩ [100])).run s).thr false).prog = .ret r) ∨
      (((duo slackWorld (verifyDilithiumSteps fuel (some ⟨2, 0⟩) 1 (some ⟨0, 0⟩) 2420 (some ⟨1, 0⟩)) (overwrite ⟨0, 2416⟩ [100])).run s).thr false).prog = .fail .diverge := by
  have hin : ∀ i : Bool, Within slackWorld.sp (fun _ => True) (fun a => a.1 = 0)
      (if i then overwrite ⟨0, 2416⟩ [100] else verifyDilithiumSteps fuel (some ⟨2, 0⟩) 1 (some ⟨0, 0⟩) 2420 (some ⟨1, 0⟩)) := fun i => by
    cases i with
    | true => exact ⟨fun _ => rfl, trivial⟩
    | false =>
      rw [if_neg (by decide)]
      exact (reads_verify (F := fun _ => True) (A := fun _ => True) trivial (N := 2591) (B := 255) (by omega) (fun _ _ => trivial) (by omega) (fun _ _ v w _ _ _ => by have := w.isLt; omega) (fun _ _ => trivial) (fun _ _ => trivial)).within
  refine verify_dilithium_ends fuel slackWorld _ false ⟨2, 0⟩ ⟨0, 0⟩ ⟨1, 0⟩ 1 2420 (by decide) (by decide) (by decide) rfl s (fun t _ a ha => exists_kept hin t ?_ ?_) hs
  · rcases ha with h | h | h <;> rw [h.1] <;> decide
  · obtain ⟨b, o⟩ := a
    rcases ha with ⟨h, -, h'⟩ | ⟨h, -, h'⟩ | ⟨h, -, h'⟩ <;> (simp only at h h'; subst h)
    · show ((upSig ++ zeros 171)[o]?).isSome
      rw [List.getElem?_eq_getElem (by rw [List.length_append, length_upSig, zeros, List.length_replicate]; omega)]; rfl
    · show (([7] : Bytes)[o]?).isSome
      rw [List.getElem?_eq_getElem (by simp; omega)]; rfl
    · show ((List.replicate 1312 (0 : Byte))[o]?).isSome
      rw [List.getElem?_eq_getElem (by rw [List.length_replicate]; omega)]; rfl

end Verif.Conc
