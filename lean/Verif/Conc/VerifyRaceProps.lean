import Verif.Conc.VerifyRace

/-!
Property C128: `crypto_verify_dilithium` reads behind the end of the signature buffer if another thread changes one byte of the signature in time.
-/

namespace Verif.Conc
open Verif
open Verif.Hybrid (zeros)
open Verif.Real (optRng)

/-- `a` is one of the first `n` bytes at `sm`, one of the `mlen` bytes of the message or one of the 1312 bytes of the public key (the pointer arguments of hybrid-dilithium-sphincs/hybrid.c:698-700). -/
def Buffers (sm : Ptr) (n : Nat) (m : Ptr) (mlen : Nat) (pk : Ptr) (a : Addr) : Prop :=
  (a.1 = sm.blk ∧ sm.off ≤ a.2 ∧ a.2 < sm.off + n) ∨ (a.1 = m.blk ∧ m.off ≤ a.2 ∧ a.2 < m.off + mlen) ∨ (a.1 = pk.blk ∧ pk.off ≤ a.2 ∧ a.2 < pk.off + 1312)

/-- C128: the steps of the call, without interruption, are the call of Hybrid/Model.lean (hybrid-dilithium-sphincs/hybrid.c:698-711). -/
theorem verify_dilithium_steps_alone {fuel : Nat} {W : World} {sm m pk : Ptr} {mlen : Nat} {x msg pkb : Bytes} (hv : W.view sm 2420 = some x) (hm : W.view m mlen = some msg) (hp : W.view pk 1312 = some pkb) :
    exec (verifyDilithiumSteps fuel (some m) mlen (some sm) 2420 (some pk)) W = Hybrid.verifyDilithium (Real.real fuel) (some m) mlen (some sm) 2420 (some pk) W :=
  exec_verifyDilithiumSteps hv hm hp

/-- C128: whatever the other threads do, every access of the call is a read, and it lies in the message, in the public key or in the first 2591 bytes from the signature on: at most 171 bytes behind the 2420 bytes of the signature
(hybrid-dilithium-sphincs/hybrid.c:698-711, dilithium2/packing.c:241-247). -/
theorem verify_dilithium_reads_bounded {ι : Type} [DecidableEq ι] (fuel : Nat) (W : World) (p : ι → Prog Int) (i : ι) (m sm pk : Ptr) (mlen smlen : Nat) (h1 : m.blk < W.sp) (h2 : sm.blk < W.sp) (h3 : pk.blk < W.sp)
    (hp : p i = verifyDilithiumSteps fuel (some m) mlen (some sm) smlen (some pk)) (s : List ι) (w : Bool) (a : Addr) (ha : access (((start W p).run s).thr i).prog = some (w, a)) :
    w = false ∧ Buffers sm 2591 m mlen pk a := by
  refine (readsIn_run (F := fun _ => True) (V := fun _ _ => True) (Q := fun _ => True) (A := Buffers sm 2591 m mlen pk) ?_ ?_ s (Or.inl trivial) fun _ _ _ _ _ _ => trivial).access ha
  · rw [hp]
    exact reads_verify trivial (N := 2591) (B := 255) (by omega) (fun o ho => Or.inl ⟨rfl, by simp only; omega, by simp only; omega⟩) (by omega) (fun _ _ v w _ _ _ => by have := w.isLt; omega)
      (fun o ho => Or.inr (Or.inl ⟨rfl, by simp only; omega, by simp only; omega⟩)) (fun o ho => Or.inr (Or.inr ⟨rfl, by simp only; omega, by simp only; omega⟩))
  · rintro a (h | h | h) <;> rw [h.1] <;> assumption

/-- C128, the part that holds: as long as the last four bytes of the signature (the numbers of hints, dilithium2/packing.c:237-249) keep their values, the call reads only inside its three buffers, whatever the other threads write elsewhere.
Missing: the same without the condition, which is false (`verify_dilithium_reads_within_false`). -/
theorem verify_dilithium_reads_within_partial {ι : Type} [DecidableEq ι] (fuel : Nat) (W : World) (p : ι → Prog Int) (i : ι) (m sm pk : Ptr) (mlen smlen : Nat) (h1 : m.blk < W.sp) (h2 : sm.blk < W.sp) (h3 : pk.blk < W.sp)
    (hp : p i = verifyDilithiumSteps fuel (some m) mlen (some sm) smlen (some pk)) (s : List ι)
    (hs : ∀ t, t <+: s → ∀ k, k < 4 → byteAt ((start W p).run t).mem (sm.blk, sm.off + 2416 + k) = byteAt W.mem (sm.blk, sm.off + 2416 + k))
    (w : Bool) (a : Addr) (ha : access (((start W p).run s).thr i).prog = some (w, a)) : w = false ∧ Buffers sm 2420 m mlen pk a := by
  refine (readsIn_run (F := fun _ => True) (V := fun a v => ∀ k, k < 4 → a = (sm.blk, sm.off + (2416 + k)) → byteAt W.mem a = some v) (Q := fun _ => True) (A := Buffers sm 2420 m mlen pk) ?_ ?_ s (Or.inl trivial) ?_).access ha
  · rw [hp]
    refine reads_verify trivial (N := 2420) (B := 80) (by omega) (fun o ho => Or.inl ⟨rfl, by simp only; omega, by simp only; omega⟩) (by omega) (fun j hj v w hv hl hw => ?_)
      (fun o ho => Or.inr (Or.inl ⟨rfl, by simp only; omega, by simp only; omega⟩)) (fun o ho => Or.inr (Or.inr ⟨rfl, by simp only; omega, by simp only; omega⟩))
    have e := (hv j hj rfl).symm.trans (hw j hj rfl)
    injection e with e
    rw [← e]; exact hl
  · rintro a (h | h | h) <;> rw [h.1] <;> assumption
  · intro t ht a v _ hv k hk ea
    subst ea
    have := hs t ht k hk
    rw [Nat.add_assoc] at this
    rw [← this]; exact hv

/-- C128: reading behind the signature is the only thing that can go wrong.  Whatever the other threads write, if 171 more bytes behind the signature are allocated, the call has no undefined behaviour: all arithmetic on bytes that were
read at different times is defined (hybrid-dilithium-sphincs/hybrid.c:698-711, dilithium2/sign.c:257-328). -/
theorem verify_dilithium_slack_no_ub {ι : Type} [DecidableEq ι] (fuel : Nat) (W : World) (p : ι → Prog Int) (i : ι) (m sm pk : Ptr) (mlen smlen : Nat) (h1 : m.blk < W.sp) (h2 : sm.blk < W.sp) (h3 : pk.blk < W.sp)
    (hp : p i = verifyDilithiumSteps fuel (some m) mlen (some sm) smlen (some pk)) (s : List ι) (he : ∀ t, t <+: s → ∀ a, Buffers sm 2591 m mlen pk a → (byteAt ((start W p).run t).mem a).isSome) :
    (((start W p).run s).thr i).prog ≠ .fail .ub := by
  have := readsIn_run (F := fun e => e = .diverge) (V := fun _ _ => True) (Q := fun _ => True) (A := Buffers sm 2591 m mlen pk) (W := W) (p := p) (i := i) ?_ ?_ s (Or.inr he) fun _ _ _ _ _ _ => trivial
  · intro e
    rw [e] at this
    cases this
  · rw [hp]
    exact reads_verify rfl (N := 2591) (B := 255) (by omega) (fun o ho => Or.inl ⟨rfl, by simp only; omega, by simp only; omega⟩) (by omega) (fun _ _ v w _ _ _ => by have := w.isLt; omega)
      (fun o ho => Or.inr (Or.inl ⟨rfl, by simp only; omega, by simp only; omega⟩)) (fun o ho => Or.inr (Or.inr ⟨rfl, by simp only; omega, by simp only; omega⟩))
  · rintro a (h | h | h) <;> rw [h.1] <;> assumption

/-- C128, the part that holds: as long as the last four bytes of the signature keep their values and the three buffers stay allocated, the call has no undefined behaviour, whatever the other threads write elsewhere, the rest of the
three buffers included (hybrid-dilithium-sphincs/hybrid.c:698-711, dilithium2/sign.c:257-328).  Missing: the same without the condition on the four bytes, which is false (`verify_dilithium_overread`). -/
theorem verify_dilithium_no_ub_partial {ι : Type} [DecidableEq ι] (fuel : Nat) (W : World) (p : ι → Prog Int) (i : ι) (m sm pk : Ptr) (mlen smlen : Nat) (h1 : m.blk < W.sp) (h2 : sm.blk < W.sp) (h3 : pk.blk < W.sp)
    (hp : p i = verifyDilithiumSteps fuel (some m) mlen (some sm) smlen (some pk)) (s : List ι)
    (hs : ∀ t, t <+: s → ∀ k, k < 4 → byteAt ((start W p).run t).mem (sm.blk, sm.off + 2416 + k) = byteAt W.mem (sm.blk, sm.off + 2416 + k))
    (he : ∀ t, t <+: s → ∀ a, Buffers sm 2420 m mlen pk a → (byteAt ((start W p).run t).mem a).isSome) : (((start W p).run s).thr i).prog ≠ .fail .ub := by
  have := readsIn_run (F := fun e => e = .diverge) (V := fun a v => ∀ k, k < 4 → a = (sm.blk, sm.off + (2416 + k)) → byteAt W.mem a = some v) (Q := fun _ => True) (A := Buffers sm 2420 m mlen pk)
    (W := W) (p := p) (i := i) ?_ ?_ s (Or.inr he) ?_
  · intro e
    rw [e] at this
    cases this
  · rw [hp]
    refine reads_verify rfl (N := 2420) (B := 80) (by omega) (fun o ho => Or.inl ⟨rfl, by simp only; omega, by simp only; omega⟩) (by omega) (fun j hj v w hv hl hw => ?_)
      (fun o ho => Or.inr (Or.inl ⟨rfl, by simp only; omega, by simp only; omega⟩)) (fun o ho => Or.inr (Or.inr ⟨rfl, by simp only; omega, by simp only; omega⟩))
    have e := (hv j hj rfl).symm.trans (hw j hj rfl)
    injection e with e
    rw [← e]; exact hl
  · rintro a (h | h | h) <;> rw [h.1] <;> assumption
  · intro t ht a v _ hv k hk ea
    subst ea
    have := hs t ht k hk
    rw [Nat.add_assoc] at this
    rw [← this]; exact hv

/-- C128: the defect.  Let the signature be the last 2420 bytes of its block, let its first number of hints be at most 80, and let `v` be a byte above 84 such that the 84 bytes of the hints increase when `v` replaces that number.
Then there is a schedule of the call and of a thread that only stores `v` there such that the next step of the call reads the first byte behind the block, and that is undefined
(hybrid-dilithium-sphincs/hybrid.c:705, dilithium2/packing.c:237, 241, 243). -/
theorem verify_dilithium_overread (fuel : Nat) {W : World} (hW : W.WF) {m sm pk : Ptr} {mlen : Nat} {b x pkb : Bytes} {v : Byte} (hb : W.mem sm.blk = some b) (hl : b.length = sm.off + 2420)
    (hv : W.view sm 2420 = some x) (hp : W.view pk 1312 = some pkb) (h1 : 1 ≤ mlen) (h2 : mlen ≤ 64) (he : (x.getD 2416 0).toNat ≤ 80) (h84 : 84 < v.toNat)
    (hup : ∀ j, j < 83 → ((x.set 2416 v).getD (2336 + j) 0).toNat < ((x.set 2416 v).getD (2336 + (j + 1)) 0).toNat) :
    ∃ s, ∃ c, c = (duo W (verifyDilithiumSteps fuel (some m) mlen (some sm) 2420 (some pk)) (overwrite (sm.add 2416) [v])).run s ∧
      access (c.thr false).prog = some (false, (sm.blk, sm.off + 2420)) ∧ ((c.next false).thr false).prog = .fail .ub := by
  have hlx := length_of_view hv
  have hsp : sm.blk < W.sp := blk_lt hW (by rw [hv]; rfl)
  obtain ⟨F, hF⟩ := before_verify (fuel := fuel) (m := m) hv hp h1 h2 he
  have hv' := view_set (v := v) hv (o := 2416) (by omega)
  obtain ⟨K, hK⟩ := leads_over hv' (by rw [List.getD_eq_getElem?_getD, List.getElem?_set_self (by omega)]; exact h84) hup 84 256 0 (List.replicate 256 0) rfl (by omega) List.length_replicate
  obtain ⟨s, c1, c2⟩ := duo_leads hW (q := sm.add 2416) (y := [v]) hsp hF (fun U hU => exec_overwrite (by
    rw [view_congr (p := sm.add 2416) (hU _ hsp)]
    exact view_isSome_sub (n := 2420) (by rw [hv]; rfl) (by show 2416 + 1 ≤ 2420; omega))) hK.bind
  refine ⟨s, _, rfl, ?_, ?_⟩
  · rw [c1]; rfl
  · rw [next_thr_self, c1, c2]
    show (step (.load sm 2420 fun u => (K u).bind F) _).1 = _
    rw [step_load]
    have : byteAt (W.write (sm.add 2416) [v]).mem (sm.blk, sm.off + 2420) = none := by
      rw [write_eq (p := sm.add 2416) (b := b) hb (by simp [Ptr.add]; omega)]
      unfold byteAt
      simp only [Ptr.add, Function.update_self, Option.bind_some]
      exact List.getElem?_eq_none (by rw [length_splice (by simp; omega)]; omega)
    rw [this]

/-- C128, the part that holds: whatever the other threads do, the other functions read and write caller memory only in the ranges of `Call.reads` and `Call.writes`: they copy keys and signatures to local arrays first, and no address depends on
bytes of caller memory (hybrid-dilithium-sphincs/hybrid.c:140-696).  `verifyDilithium` is left out because `Call.prog` reads the signature as a whole. -/
theorem other_calls_access_within {ι : Type} [DecidableEq ι] (P : Hybrid.Prims) (body : Bytes → Nat → Bytes → Bytes → Bytes → Option Bytes → C (Int × Bytes × Nat)) (W : World) (p : ι → Prog Int) (i : ι) (call : Call)
    (_ : ∀ m mlen sm smlen pk, call ≠ .verifyDilithium m mlen sm smlen pk) (hp : p i = call.prog P body) (s : List ι) (w : Bool) (a : Addr) (ha : access (((start W p).run s).thr i).prog = some (w, a)) (hb : a.1 < W.sp) :
    Covers (if w then call.writes else call.reads) a := by
  have h := within_run (i := i) (W := W) (p := p) (by rw [hp]; exact w_call P call (body := body)) s
  have h := h.1
  cases hx : (((start W p).run s).thr i).prog with
  | load q o k =>
    rw [hx] at h ha
    simp only [access, Option.some.injEq, Prod.mk.injEq] at ha
    obtain ⟨rfl, rfl⟩ := ha
    exact h.1 hb
  | store q o v k =>
    rw [hx] at h ha
    simp only [access, Option.some.injEq, Prod.mk.injEq] at ha
    obtain ⟨rfl, rfl⟩ := ha
    exact h.1 hb
  | ret _ => rw [hx] at ha; simp [access] at ha
  | fail _ => rw [hx] at ha; simp [access] at ha
  | draw _ _ => rw [hx] at ha; simp [access] at ha
  | push _ _ => rw [hx] at ha; simp [access] at ha
  | pop _ _ => rw [hx] at ha; simp [access] at ha

/-- A signature of zeros whose hints are at the positions 0, 1, ..., 79 and whose numbers of hints are 0, 101, 102, 103 (no line of its own). -/
def upSig : Bytes := List.replicate 2336 0 ++ ((List.range 80).map fun k => BitVec.ofNat 8 k) ++ [0, 101, 102, 103]

/-- Memory with that signature, a public key of zeros and a message of one byte (no line of its own). -/
def upWorld : World :=
  { mem := fun b => if b = 0 then some upSig else if b = 1 then some (zeros 1312) else if b = 2 then some [7] else none, sp := 3, rng := optRng (List.replicate 32 0) List.length_replicate }

theorem length_upSig : upSig.length = 2420 := by decide +kernel

theorem upWorld_WF : upWorld.WF := by
  intro b hb
  have hb : 3 ≤ b := hb
  show (if b = 0 then some upSig else if b = 1 then some (zeros 1312) else if b = 2 then some [7] else none) = none
  rw [if_neg (by omega), if_neg (by omega), if_neg (by omega)]

theorem up_sm : upWorld.view ⟨0, 0⟩ 2420 = some upSig := Real.view_block rfl length_upSig
theorem up_pk : upWorld.view ⟨1, 0⟩ 1312 = some (zeros 1312) := Real.view_block rfl (by simp)
theorem up_m : upWorld.view ⟨2, 0⟩ 1 = some [7] := Real.view_block rfl rfl

theorem up_increases : ∀ j, j < 83 → ((upSig.set 2416 100).getD (2336 + j) 0).toNat < ((upSig.set 2416 100).getD (2336 + (j + 1)) 0).toNat := by decide +kernel

/-- The case of `verify_dilithium_overread` with `upSig` and the byte 100. -/
theorem upSig_overread (fuel : Nat) : ∃ s, ∃ c, c = (duo upWorld (verifyDilithiumSteps fuel (some ⟨2, 0⟩) 1 (some ⟨0, 0⟩) 2420 (some ⟨1, 0⟩)) (overwrite ⟨0, 2416⟩ [100])).run s ∧
      access (c.thr false).prog = some (false, (0, 2420)) ∧ ((c.next false).thr false).prog = .fail .ub := by
  obtain ⟨s, c, h1, h2, h3⟩ := verify_dilithium_overread fuel upWorld_WF (m := ⟨2, 0⟩) (b := upSig) (v := 100) rfl (by rw [length_upSig]) up_sm up_pk (Nat.le_refl 1) (by omega) (by decide +kernel) (by decide) up_increases
  exact ⟨s, c, h1, h2, h3⟩

/-- C128: with other threads writing to the buffers, the call does not read only inside its three buffers, even if these exist and the other threads write only inside the signature buffer
(hybrid-dilithium-sphincs/hybrid.c:698-711, dilithium2/packing.c:237-249). -/
theorem verify_dilithium_reads_within_false :
    ¬ ∀ (fuel : Nat) (W : World) (other : Prog Int) (m sm pk : Ptr) (mlen : Nat), W.WF → (W.view m mlen).isSome → (W.view sm 2420).isSome → (W.view pk 1312).isSome →
      Within W.sp (fun _ => False) (fun a => a.1 = sm.blk ∧ sm.off ≤ a.2 ∧ a.2 < sm.off + 2420) other →
      ∀ (s : List Bool) (w : Bool) (a : Addr), access (((duo W (verifyDilithiumSteps fuel (some m) mlen (some sm) 2420 (some pk)) other).run s).thr false).prog = some (w, a) → Buffers sm 2420 m mlen pk a := by
  intro claim
  obtain ⟨s, c, rfl, h2, -⟩ := upSig_overread 0
  have := claim 0 upWorld (overwrite ⟨0, 2416⟩ [100]) ⟨2, 0⟩ ⟨0, 0⟩ ⟨1, 0⟩ 1 upWorld_WF (by rw [up_m]; rfl) (by rw [up_sm]; rfl) (by rw [up_pk]; rfl) ⟨fun _ => ⟨rfl, by decide, by decide⟩, trivial⟩ s false (0, 2420) h2
  rcases this with ⟨-, -, h⟩ | ⟨h, -⟩ | ⟨h, -⟩
  · exact absurd h (by decide)
  · exact absurd h (by decide)
  · exact absurd h (by decide)

/-- Without the other thread the same call rejects the signature, with no undefined step. -/
example (fuel : Nat) : exec (verifyDilithiumSteps fuel (some ⟨2, 0⟩) 1 (some ⟨0, 0⟩) 2420 (some ⟨1, 0⟩)) upWorld = .ok (-2, upWorld) := by
  have hu : Dilithium.unpackSig upSig = .ok none := by
    have hh : Dilithium.unpackHints upSig 2336 0 4 0 = .ok none := by
      have r0 : rd upSig (2336 + 80 + 0) = .ok 0 := by decide +kernel
      have r1 : rd upSig (2336 + 80 + (0 + 1)) = .ok 101 := by decide +kernel
      rw [Dilithium.unpackHints.eq_2, r0, ok_bind, if_neg (by decide), show (0 : Byte).toNat - 0 = 0 from rfl, Dilithium.unpackHintPoly.eq_1, ok_bind]
      simp only
      rw [Dilithium.unpackHints.eq_2, r1, ok_bind, if_pos (by decide)]
      rfl
    unfold Dilithium.unpackSig
    rw [Dilithium.copy_from (by rw [length_upSig]; omega), ok_bind, Dilithium.vecUnpack_ok (g := fun i => Dilithium.Spec.unpackAt 18 131072 (slice upSig (32 + i * 576) 576)) (fun i hi => Dilithium.polyzUnpack_ok (by rw [length_upSig]; omega)),
      ok_bind, hh]
    rfl
  have hd : exec (dilVerifySteps fuel ⟨0, 0⟩ 2420 ⟨2, 0⟩ 1 ⟨1, 0⟩) upWorld = .ok (-1, upWorld) := by
    rw [exec_dilVerify up_sm up_m up_pk]
    unfold Dilithium.verify
    rw [if_neg (by decide), Dilithium.unpackPk_ok (by simp), ok_bind]
    simp only
    rw [hu]
    rfl
  simp only [verifyDilithiumSteps]
  rw [if_neg (by decide), exec_bind_ok hd]
  rfl

/-- A case of the hypotheses of the two theorems on reads: the call and a thread that overwrites the message, in any order. -/
example (fuel : Nat) (s : List Bool) (w : Bool) (a : Addr)
    (ha : access (((duo upWorld (verifyDilithiumSteps fuel (some ⟨2, 0⟩) 1 (some ⟨0, 0⟩) 2420 (some ⟨1, 0⟩)) (overwrite ⟨2, 0⟩ [8])).run s).thr false).prog = some (w, a)) :
    w = false ∧ Buffers ⟨0, 0⟩ 2420 ⟨2, 0⟩ 1 ⟨1, 0⟩ a := by
  refine verify_dilithium_reads_within_partial fuel upWorld _ false ⟨2, 0⟩ ⟨0, 0⟩ ⟨1, 0⟩ 1 2420 (by decide) (by decide) (by decide) rfl s (fun t _ k _ => ?_) w a ha
  refine byte_kept (R := fun _ _ => True) (S := fun _ a => a.1 = 2) (fun i => ?_) t (by show 0 < 3; omega) (fun i h => absurd h (by simp))
  cases i with
  | true => exact ⟨fun _ => rfl, trivial⟩
  | false =>
    rw [if_neg (by decide)]
    exact (reads_verify (F := fun _ => True) (A := fun _ => True) trivial (N := 2591) (B := 255) (by omega) (fun _ _ => trivial) (by omega) (fun _ _ v w _ _ _ => by have := w.isLt; omega) (fun _ _ => trivial) (fun _ _ => trivial)).within

/-- The same for undefined behaviour: the call and the thread that overwrites the message (the three buffers stay allocated because neither of them frees memory). -/
example (fuel : Nat) (s : List Bool) :
    (((duo upWorld (verifyDilithiumSteps fuel (some ⟨2, 0⟩) 1 (some ⟨0, 0⟩) 2420 (some ⟨1, 0⟩)) (overwrite ⟨2, 0⟩ [8])).run s).thr false).prog ≠ .fail .ub := by
  have hin : ∀ i : Bool, Within upWorld.sp (fun _ => True) (fun a => a.1 = 2)
      (if i then overwrite ⟨2, 0⟩ [8] else verifyDilithiumSteps fuel (some ⟨2, 0⟩) 1 (some ⟨0, 0⟩) 2420 (some ⟨1, 0⟩)) := fun i => by
    cases i with
    | true => exact ⟨fun _ => rfl, trivial⟩
    | false =>
      rw [if_neg (by decide)]
      exact (reads_verify (F := fun _ => True) (A := fun _ => True) trivial (N := 2591) (B := 255) (by omega) (fun _ _ => trivial) (by omega) (fun _ _ v w _ _ _ => by have := w.isLt; omega) (fun _ _ => trivial) (fun _ _ => trivial)).within
  refine verify_dilithium_no_ub_partial fuel upWorld _ false ⟨2, 0⟩ ⟨0, 0⟩ ⟨1, 0⟩ 1 2420 (by decide) (by decide) (by decide) rfl s
    (fun t _ k _ => byte_kept (S := fun _ a => a.1 = 2) hin t (by show 0 < 3; omega) (fun i h => absurd h (by simp))) (fun t _ a ha => exists_kept hin t ?_ ?_)
  · rcases ha with h | h | h <;> rw [h.1] <;> decide
  · obtain ⟨b, o⟩ := a
    rcases ha with ⟨h, -, h'⟩ | ⟨h, -, h'⟩ | ⟨h, -, h'⟩ <;> (simp only at h h'; subst h)
    · show (upSig[o]?).isSome
      rw [List.getElem?_eq_getElem (by rw [length_upSig]; omega)]; rfl
    · show (([7] : Bytes)[o]?).isSome
      rw [List.getElem?_eq_getElem (by simp; omega)]; rfl
    · show ((List.replicate 1312 (0 : Byte))[o]?).isSome
      rw [List.getElem?_eq_getElem (by rw [List.length_replicate]; omega)]; rfl

/-- `upWorld` with 171 more bytes behind the signature (no line of its own). -/
def slackWorld : World :=
  { upWorld with mem := fun b => if b = 0 then some (upSig ++ zeros 171) else upWorld.mem b }

/-- A case of `verify_dilithium_slack_no_ub`: the thread of the attack, which stores 100 over the first count, in any order with the call. -/
example (fuel : Nat) (s : List Bool) :
    (((duo slackWorld (verifyDilithiumSteps fuel (some ⟨2, 0⟩) 1 (some ⟨0, 0⟩) 2420 (some ⟨1, 0⟩)) (overwrite ⟨0, 2416⟩ [100])).run s).thr false).prog ≠ .fail .ub := by
  have hin : ∀ i : Bool, Within slackWorld.sp (fun _ => True) (fun a => a.1 = 0)
      (if i then overwrite ⟨0, 2416⟩ [100] else verifyDilithiumSteps fuel (some ⟨2, 0⟩) 1 (some ⟨0, 0⟩) 2420 (some ⟨1, 0⟩)) := fun i => by
    cases i with
    | true => exact ⟨fun _ => rfl, trivial⟩
    | false =>
      rw [if_neg (by decide)]
      exact (reads_verify (F := fun _ => True) (A := fun _ => True) trivial (N := 2591) (B := 255) (by omega) (fun _ _ => trivial) (by omega) (fun _ _ v w _ _ _ => by have := w.isLt; omega) (fun _ _ => trivial) (fun _ _ => trivial)).within
  refine verify_dilithium_slack_no_ub fuel slackWorld _ false ⟨2, 0⟩ ⟨0, 0⟩ ⟨1, 0⟩ 1 2420 (by decide) (by decide) (by decide) rfl s (fun t _ a ha => exists_kept hin t ?_ ?_)
  · rcases ha with h | h | h <;> rw [h.1] <;> decide
  · obtain ⟨b, o⟩ := a
    rcases ha with ⟨h, -, h'⟩ | ⟨h, -, h'⟩ | ⟨h, -, h'⟩ <;> (simp only at h h'; subst h)
    · show ((upSig ++ zeros 171)[o]?).isSome
      rw [List.getElem?_eq_getElem (by rw [List.length_append, length_upSig, zeros, List.length_replicate]; omega)]; rfl
    · show (([7] : Bytes)[o]?).isSome
      rw [List.getElem?_eq_getElem (by simp; omega)]; rfl
    · show ((List.replicate 1312 (0 : Byte))[o]?).isSome
      rw [List.getElem?_eq_getElem (by rw [List.length_replicate]; omega)]; rfl

/-- The hypotheses of `other_calls_access_within` are met by compact verification of the message at block 2 while another thread overwrites the signature at block 0. -/
example (P : Hybrid.Prims) (body : Bytes → Nat → Bytes → Bytes → Bytes → Option Bytes → C (Int × Bytes × Nat)) (s : List Bool) (w : Bool) (a : Addr)
    (ha : access (((duo upWorld ((Call.verifyCompact (some ⟨2, 0⟩) 1 (some ⟨0, 0⟩) 2527 (some ⟨1, 0⟩)).prog P body) (overwrite ⟨0, 0⟩ (List.replicate 2527 255))).run s).thr false).prog = some (w, a)) (hb : a.1 < 3) :
    Covers (if w then [] else [(⟨2, 0⟩, 1), (⟨0, 0⟩, 2527), (⟨1, 0⟩, 1408)]) a :=
  other_calls_access_within P body upWorld _ false (.verifyCompact (some ⟨2, 0⟩) 1 (some ⟨0, 0⟩) 2527 (some ⟨1, 0⟩)) (by simp) rfl s w a ha hb

end Verif.Conc
