import Verif.Conc.VerifyAccept
import Verif.Conc.VerifyRaceProps
import Verif.Conc.RaceFalse

/-!
C129: what `crypto_verify_dilithium` accepts while other threads write to its buffers.
-/

namespace Verif.Conc
open Verif
open Verif.Dilithium (S128 S256)
open Verif.Dilithium.Spec (Valid)
open Verif.Real (zeroPk zeroSig length_zeroSig zeroSig_valid zeroChallenge zeroVec weak_rho weak_ball view_block optRng)
open Verif.Witness (RunC.hash)

/-- C129, the part that holds.  The full claim: if the call returns 0, there are a signature, a message and a public key, each byte of which was at its place at some moment of the run, such that the signature is one of the message under the
key.  Proved here: as long as the bytes of the signature and of the key keep their values, whatever the other threads do to the message and to the rest of memory, the call returns 0 only if the signature is one, under the key, of a message
of 1 to 64 bytes each of which was at its place at some moment (hybrid-dilithium-sphincs/hybrid.c:698-711, dilithium2/sign.c:257-328).  Missing: the same while the signature changes, which is false
(`verify_dilithium_under_writers_false`). -/
theorem verify_dilithium_under_writers_partial {ι : Type} [DecidableEq ι] (fuel : Nat) {W : World} {p : ι → Prog Int} {i : ι} {m sm pk : Ptr} {mlen smlen : Nat} {x pkb : Bytes} (hm : m.blk < W.sp) (hsm : sm.blk < W.sp) (hpk : pk.blk < W.sp)
    (hx : W.view sm 2420 = some x) (hk : W.view pk 1312 = some pkb) (hp : p i = verifyDilithiumSteps fuel (some m) mlen (some sm) smlen (some pk)) (s : List ι) (c : Conf ι Int) (hc : c = start W p)
    (h1 : ∀ t, t <+: s → ∀ o, o < 2420 → byteAt (c.run t).mem (sm.blk, sm.off + o) = byteAt W.mem (sm.blk, sm.off + o))
    (h2 : ∀ t, t <+: s → ∀ o, o < 1312 → byteAt (c.run t).mem (pk.blk, pk.off + o) = byteAt W.mem (pk.blk, pk.off + o)) (h : ((c.run s).thr i).prog = .ret 0) :
    smlen = 2420 ∧ 1 ≤ mlen ∧ mlen ≤ 64 ∧ ∃ msg : Bytes, msg.length = mlen ∧ Shown c s m msg ∧ Valid S128 S256 pkb msg x := by
  subst hc
  have := readsIn_run (F := fun _ => True) (A := Buffers sm 2420 m mlen pk) (W := W) (p := p) (i := i)
    (V := fun a v => Held (start W p) s a v ∧ (∀ o, o < 2420 → a = (sm.blk, sm.off + o) → byteAt W.mem a = some v) ∧ ∀ o, o < 1312 → a = (pk.blk, pk.off + o) → byteAt W.mem a = some v)
    (by
      rw [hp]
      exact reads_accept (fun _ => trivial) hx hk (fun o ho => Or.inl ⟨rfl, by simp only; omega, by simp only; omega⟩) (fun o ho => Or.inr (Or.inl ⟨rfl, by simp only; omega, by simp only; omega⟩))
        (fun o ho => Or.inr (Or.inr ⟨rfl, by simp only; omega, by simp only; omega⟩)) (fun o v ho hv => hv.2.1 o ho rfl) (fun o v ho hv => hv.2.2 o ho rfl))
    (by rintro a (h | h | h) <;> rw [h.1] <;> assumption) s (Or.inl trivial) (fun t ht a v _ hv => ⟨⟨t, ht, hv⟩, fun o ho e => by rw [e, ← h1 t ht o ho, ← e]; exact hv, fun o ho e => by rw [e, ← h2 t ht o ho, ← e]; exact hv⟩)
  rw [h] at this
  obtain ⟨msg, a1, a2, a3, a4, a5, a6⟩ := this rfl
  exact ⟨a3, a1, a2, msg, a4, fun k v hv => (a5 k v hv).1, a6⟩

/-- C129: the defect.  Let `x` be a signature of the message under the key and let the buffer hold `x` with any bytes in the hint positions that `x` does not use.  Then there is a schedule of the call and of a thread that only stores one
byte of at least 80 over the last number of hints such that the call returns 0: the new number is read after the one that was checked, and the loop over the unused positions does nothing
(dilithium2/packing.c:237, 249, 253; hybrid-dilithium-sphincs/hybrid.c:705). -/
theorem verify_dilithium_accepts_malformed {W : World} (hW : W.WF) {m sm pk : Ptr} {mlen : Nat} {x y msg pkb : Bytes} {v : Byte} (hs : SameUsed x y) (hx : Valid S128 S256 pkb msg x) (hv : W.view sm 2420 = some y)
    (hm : W.view m mlen = some msg) (hp : W.view pk 1312 = some pkb) (h1 : 1 ≤ mlen) (h2 : mlen ≤ 64) (dm : Disj (sm.add 2419) 1 m mlen) (dp : Disj (sm.add 2419) 1 pk 1312) (h80 : 80 ≤ v.toNat) :
    ∃ F, ∀ fuel, F ≤ fuel → ∃ s, (((duo W (verifyDilithiumSteps fuel (some m) mlen (some sm) 2420 (some pk)) (overwrite (sm.add 2419) [v])).run s).thr false).prog = .ret 0 := by
  have hsp : sm.blk < W.sp := blk_lt hW (by rw [hv]; rfl)
  obtain ⟨F, hF⟩ := Dilithium.verify_complete hs.1 (length_of_view hp) hx
  refine ⟨F, fun fuel hf => ?_⟩
  obtain ⟨z, l1, l2⟩ := sw_verify (W := W) (W' := W.write (sm.add 2419) [v]) hs hv (view_set hv (by omega)) (by rw [List.getD_eq_getElem?_getD, List.getElem?_set_self (by rw [hs.2.1]; omega)]; exact h80) hp
    (by rw [view_write_disj dp]; exact hp) (by rw [view_write_disj dm]; exact hm) h1 h2 (hF fuel hf)
  obtain ⟨s, c1, -⟩ := duo_leads hW (q := sm.add 2419) (y := [v]) hsp l1 (fun U hU => exec_overwrite (by
    rw [view_congr (p := sm.add 2419) (hU _ hsp)]
    exact view_isSome_sub (n := 2420) (by rw [hv]; rfl) (by show 2419 + 1 ≤ 2420; omega))) (leads_exec l2)
  exact ⟨s, c1⟩

/-- C129: a buffer with a byte other than zero in a hint position that its last number says is not used, or with a last number above 80, is not a signature of anything (dilithium2/packing.c:237, 253-257). -/
theorem malformed_not_valid {y : Bytes} (hl : y.length = 2420) (h : 80 < (y.getD 2419 0).toNat ∨ ∃ j, (y.getD 2419 0).toNat ≤ j ∧ j < 80 ∧ y.getD (2336 + j) 0 ≠ 0) (pkb msg : Bytes) : ¬ Valid S128 S256 pkb msg y := by
  intro hv
  obtain ⟨h1, h2⟩ := valid_shape hl hv
  rcases h with h | ⟨j, h3, h4, h5⟩
  · omega
  · exact h5 (h2 j h3 h4)

theorem verify_only_reads {fuel : Nat} {m sm pk : Ptr} {mlen : Nat} : ReadsIn (fun _ => True) (fun _ => True) (fun _ _ => True) (fun _ => True) (verifyDilithiumSteps fuel (some m) mlen (some sm) 2420 (some pk)) :=
  reads_verify trivial (N := 2591) (B := 255) (by omega) (fun _ _ => trivial) (by omega) (fun _ _ _ w _ _ _ => by have := w.isLt; omega) (fun _ _ => trivial) (fun _ _ => trivial)

/-- C129: let the signature buffer have a byte other than zero in a hint position from its last number on, and let the other thread only store a byte above 80 over that number.  Then at no moment, and not even if bytes of different
moments are put together, is what is in the buffer a signature of anything (dilithium2/packing.c:237, 252-257). -/
theorem malformed_stays_invalid {W : World} (fuel : Nat) {m sm pk : Ptr} {mlen j : Nat} {y : Bytes} {v : Byte} (hsm : sm.blk < W.sp) (hv : W.view sm 2420 = some y) (hj : (y.getD 2419 0).toNat ≤ j) (hj80 : j < 80)
    (hg : y.getD (2336 + j) 0 ≠ 0) (h80 : 80 < v.toNat) (s : List Bool) {sig : Bytes} (ls : sig.length = 2420)
    (hs : Shown (duo W (verifyDilithiumSteps fuel (some m) mlen (some sm) 2420 (some pk)) (overwrite (sm.add 2419) [v])) s sm sig) (pkb msg : Bytes) : ¬ Valid S128 S256 pkb msg sig := by
  have ly := length_of_view hv
  have hin : ∀ i : Bool, Within W.sp (fun _ => True) (fun a => i = true ∧ a = (sm.blk, sm.off + 2419)) (if i then overwrite (sm.add 2419) [v] else verifyDilithiumSteps fuel (some m) mlen (some sm) 2420 (some pk)) := by
    intro i
    cases i with
    | true => exact ⟨fun _ => ⟨rfl, rfl⟩, trivial⟩
    | false => rw [if_neg (by decide)]; exact verify_only_reads.within
  obtain ⟨v0, g0⟩ : ∃ v, sig[2336 + j]? = some v := ⟨_, List.getElem?_eq_getElem (by omega)⟩
  obtain ⟨v1, g1⟩ : ∃ v, sig[2419]? = some v := ⟨_, List.getElem?_eq_getElem (by omega)⟩
  have q0 : sig.getD (2336 + j) 0 = v0 := by rw [List.getD_eq_getElem?_getD, g0]; rfl
  have q1 : sig.getD 2419 0 = v1 := by rw [List.getD_eq_getElem?_getD, g1]; rfl
  have hv0 : y.getD (2336 + j) 0 = v0 := by
    obtain ⟨t, -, ht⟩ := hs _ _ g0
    have := byte_kept hin t (a := (sm.blk, sm.off + (2336 + j))) hsm (by rintro i ⟨-, e⟩; injection e with _ e; omega)
    have ht : byteAt ((start W fun i : Bool => if i then overwrite (sm.add 2419) [v] else verifyDilithiumSteps fuel (some m) mlen (some sm) 2420 (some pk)).run t).mem (sm.blk, sm.off + (2336 + j)) = some v0 := ht
    rw [this, byteAt_view hv (by omega)] at ht
    rw [List.getD_eq_getElem?_getD, ht]; rfl
  refine malformed_not_valid ls ?_ pkb msg
  rw [q1]
  obtain ⟨t, -, ht⟩ := hs _ _ g1
  obtain ⟨-, k2, k3⟩ := byte_origin hin t
  rcases k3 (sm.blk, sm.off + 2419) v1 hsm ht with h | ⟨i, h⟩
  · rw [byteAt_view hv (by omega)] at h
    have e : y.getD 2419 0 = v1 := by rw [List.getD_eq_getElem?_getD, h]; rfl
    exact Or.inr ⟨j, by rw [← e]; exact hj, hj80, by rw [q0, ← hv0]; exact hg⟩
  · obtain ⟨rfl, -⟩ := k2 _ _ _ h
    obtain ⟨k4, -⟩ := safe_run (G := fun _ _ u => u = v) (Q := fun _ _ _ _ _ => True) (W := W) (p := fun i : Bool => if i then overwrite (sm.add 2419) [v] else verifyDilithiumSteps fuel (some m) mlen (some sm) 2420 (some pk)) (i := true)
      ⟨fun _ => ⟨rfl, trivial⟩, fun hb => absurd hb (by show ¬ W.sp ≤ sm.blk; omega)⟩ t
    obtain ⟨-, -, h⟩ := k4 _ _ h
    rw [h]; exact Or.inl h80

/-! ### A concrete case -/

/-- Memory with a signature, a public key and a message (no line of its own). -/
def threeBlocks (sb pkb mb : Bytes) : World :=
  { mem := fun b => if b = 0 then some sb else if b = 1 then some pkb else if b = 2 then some mb else none, sp := 3, rng := optRng (List.replicate 32 0) List.length_replicate }

theorem threeBlocks_WF (sb pkb mb : Bytes) : (threeBlocks sb pkb mb).WF := by
  intro b hb
  have hb : 3 ≤ b := hb
  show (if b = 0 then some sb else if b = 1 then some pkb else if b = 2 then some mb else none) = none
  rw [if_neg (by omega), if_neg (by omega), if_neg (by omega)]

theorem zeroSig_hints (pk x : Bytes) (k : Nat) (hk : k < 84) : (zeroSig pk x).getD (2336 + k) 0 = 0 := by
  have l : (zeroChallenge pk x).length = 32 := Keccak.length_stream ..
  have h1 : (zeroVec.flatMap (Dilithium.Spec.packAt 18 131072)).length = 2304 := by decide +kernel
  have h2 : ∀ k, k < 84 → (Dilithium.Spec.packHint zeroVec).getD k 0 = 0 := by decide +kernel
  rw [zeroSig, Dilithium.Spec.encodeSig, List.getD_eq_getElem?_getD, List.getElem?_append_right (by rw [List.length_append, l, h1]; omega), List.length_append, l, h1, ← List.getD_eq_getElem?_getD,
    show 2336 + k - (32 + 2304) = k by omega, h2 k hk]

theorem sameUsed_zeroSig (pk x : Bytes) : SameUsed (zeroSig pk x) ((zeroSig pk x).set 2336 1) := by
  have l := length_zeroSig pk x
  refine ⟨l, by rw [List.length_set, l], fun i hi h => ?_⟩
  have e : (zeroSig pk x).getD 2419 0 = 0 := zeroSig_hints pk x 83 (by omega)
  rw [e] at h
  rw [List.getD_eq_getElem?_getD, List.getElem?_set_ne (by rintro rfl; exact h ⟨by decide, by omega⟩), ← List.getD_eq_getElem?_getD]

/-- A signature that the attack gets accepted: that of a message under the key with t1 = 0, with a 1 in the first unused hint position. -/
theorem accepted_example : ∃ (sb pkb : Bytes) (fuel : Nat) (s : List Bool), sb.length = 2420 ∧ pkb.length = 1312 ∧ sb.getD 2336 0 = 1 ∧ sb.getD 2419 0 = 0 ∧
    (((duo (threeBlocks sb pkb RunC.hash) (verifyDilithiumSteps fuel (some ⟨2, 0⟩) 64 (some ⟨0, 0⟩) 2420 (some ⟨1, 0⟩)) (overwrite ⟨0, 2419⟩ [255])).run s).thr false).prog = .ret 0 := by
  obtain ⟨rho, A, hr, er, hA⟩ := weak_rho
  obtain ⟨c, hc⟩ := weak_ball hr er
  have hv := zeroSig_valid hr hA hc
  have lp : (zeroPk rho).length = 1312 := by rw [zeroPk, List.length_append, hr, List.length_replicate]
  have hs := sameUsed_zeroSig (zeroPk rho) RunC.hash
  have e0 : ((zeroSig (zeroPk rho) RunC.hash).set 2336 1).getD 2336 0 = 1 := by
    rw [List.getD_eq_getElem?_getD, List.getElem?_set_self (by rw [length_zeroSig]; omega)]; rfl
  have e1 : ((zeroSig (zeroPk rho) RunC.hash).set 2336 1).getD 2419 0 = 0 := by
    rw [List.getD_eq_getElem?_getD, List.getElem?_set_ne (by omega), ← List.getD_eq_getElem?_getD]; exact zeroSig_hints _ _ 83 (by omega)
  generalize (zeroSig (zeroPk rho) RunC.hash).set 2336 1 = sb at hs e0 e1
  obtain ⟨F, hF⟩ := verify_dilithium_accepts_malformed (threeBlocks_WF sb (zeroPk rho) RunC.hash) (m := ⟨2, 0⟩) (sm := ⟨0, 0⟩) (pk := ⟨1, 0⟩) (mlen := 64) (v := 255) hs hv (view_block rfl hs.2.1) (view_block rfl (by decide +kernel))
    (view_block rfl lp) (by omega) (by omega) (Or.inl (by decide)) (Or.inl (by decide)) (by decide)
  obtain ⟨s, h⟩ := hF F (Nat.le_refl F)
  exact ⟨sb, _, F, s, hs.2.1, lp, e0, e1, h⟩

/-- C129: the full claim is false, even if the other threads write only inside the signature buffer (hybrid-dilithium-sphincs/hybrid.c:698-711, dilithium2/packing.c:237-257). -/
theorem verify_dilithium_under_writers_false :
    ¬ ∀ (fuel : Nat) (W : World) (other : Prog Int) (m sm pk : Ptr) (mlen : Nat), W.WF → (W.view m mlen).isSome → (W.view sm 2420).isSome → (W.view pk 1312).isSome →
      Within W.sp (fun _ => False) (fun a => a.1 = sm.blk ∧ sm.off ≤ a.2 ∧ a.2 < sm.off + 2420) other →
      ∀ (s : List Bool) (c : Conf Bool Int), c = duo W (verifyDilithiumSteps fuel (some m) mlen (some sm) 2420 (some pk)) other → ((c.run s).thr false).prog = .ret 0 →
      ∃ sig msg pkb : Bytes, sig.length = 2420 ∧ msg.length = mlen ∧ pkb.length = 1312 ∧ Shown c s sm sig ∧ Shown c s m msg ∧ Shown c s pk pkb ∧ Valid S128 S256 pkb msg sig := by
  intro claim
  obtain ⟨sb, pkb, fuel, s, l1, l2, e1, e2, h⟩ := accepted_example
  obtain ⟨sig, msg, pkb', ls, -, -, hs, -, -, hv⟩ := claim fuel (threeBlocks sb pkb RunC.hash) (overwrite ⟨0, 2419⟩ [255]) ⟨2, 0⟩ ⟨0, 0⟩ ⟨1, 0⟩ 64 (threeBlocks_WF sb pkb RunC.hash) (by rw [view_block rfl (by decide +kernel)]; rfl) (by rw [view_block rfl l1]; rfl)
    (by rw [view_block rfl l2]; rfl) ⟨fun _ => ⟨rfl, by decide, by decide⟩, trivial⟩ s _ rfl h
  exact malformed_stays_invalid fuel (j := 0) (y := sb) (v := 255) (by show 0 < 3; omega) (view_block rfl l1) (by rw [e2]; decide) (by decide) (by rw [e1]; decide) (by decide) s ls hs _ _ hv

/-- The hypotheses of the part that holds can be met: a valid signature, a key and a message that nobody changes, and a thread that writes elsewhere. -/
example : ∃ (W : World) (x pkb : Bytes) (fuel : Nat) (s : List Bool) (c : Conf Bool Int), c = duo W (verifyDilithiumSteps fuel (some ⟨2, 0⟩) 64 (some ⟨0, 0⟩) 2420 (some ⟨1, 0⟩)) (overwrite ⟨2, 0⟩ [9]) ∧
    W.view ⟨0, 0⟩ 2420 = some x ∧ W.view ⟨1, 0⟩ 1312 = some pkb ∧ (∀ t, t <+: s → ∀ o, o < 2420 → byteAt (c.run t).mem (0, 0 + o) = byteAt W.mem (0, 0 + o)) ∧
    (∀ t, t <+: s → ∀ o, o < 1312 → byteAt (c.run t).mem (1, 0 + o) = byteAt W.mem (1, 0 + o)) ∧ ((c.run s).thr false).prog = .ret 0 := by
  obtain ⟨rho, A, hr, er, hA⟩ := weak_rho
  obtain ⟨c, hc⟩ := weak_ball hr er
  have hv := zeroSig_valid hr hA hc
  have lp : (zeroPk rho).length = 1312 := by rw [zeroPk, List.length_append, hr, List.length_replicate]
  have ls := length_zeroSig (zeroPk rho) RunC.hash
  obtain ⟨F, hF⟩ := Dilithium.verify_complete ls lp hv
  have hF := hF F (Nat.le_refl F)
  generalize zeroSig (zeroPk rho) RunC.hash = sb at ls hF
  have v0 : (threeBlocks sb (zeroPk rho) RunC.hash).view ⟨0, 0⟩ 2420 = some sb := view_block rfl ls
  have v1 : (threeBlocks sb (zeroPk rho) RunC.hash).view ⟨1, 0⟩ 1312 = some (zeroPk rho) := view_block rfl lp
  have v2 : (threeBlocks sb (zeroPk rho) RunC.hash).view ⟨2, 0⟩ 64 = some RunC.hash := view_block rfl (by decide +kernel)
  have he : exec (verifyDilithiumSteps F (some ⟨2, 0⟩) 64 (some ⟨0, 0⟩) 2420 (some ⟨1, 0⟩)) (threeBlocks sb (zeroPk rho) RunC.hash) = .ok (0, threeBlocks sb (zeroPk rho) RunC.hash) := by
    simp only [verifyDilithiumSteps]
    rw [if_neg (by decide), exec_bind_ok (a := 0) (W' := threeBlocks sb (zeroPk rho) RunC.hash) (by rw [exec_dilVerify v0 v2 v1, hF]; rfl)]
    rfl
  have hWF := threeBlocks_WF sb (zeroPk rho) RunC.hash
  have hsp : (threeBlocks sb (zeroPk rho) RunC.hash).sp = 3 := rfl
  generalize threeBlocks sb (zeroPk rho) RunC.hash = W at *
  have hin : ∀ i : Bool, Within W.sp (fun _ => True) (fun a => i = true ∧ a.1 = 2) (if i then overwrite ⟨2, 0⟩ [9] else verifyDilithiumSteps F (some ⟨2, 0⟩) 64 (some ⟨0, 0⟩) 2420 (some ⟨1, 0⟩)) := by
    intro i
    cases i with
    | true => exact ⟨fun _ => ⟨rfl, rfl⟩, trivial⟩
    | false => rw [if_neg (by decide)]; exact verify_only_reads.within
  obtain ⟨n, a1, -, -⟩ := leads_run (c := duo W (verifyDilithiumSteps F (some ⟨2, 0⟩) 64 (some ⟨0, 0⟩) 2420 (some ⟨1, 0⟩)) (overwrite ⟨2, 0⟩ [9])) (i := false) (y := .ret 0) (V := W) (by
    unfold duo
    rw [start_world hWF]; exact leads_exec he)
  exact ⟨W, sb, zeroPk rho, F, _, _, rfl, v0, v1, fun t _ o _ => byte_kept hin t (by show 0 < W.sp; omega) (by simp), fun t _ o _ => byte_kept hin t (by show 1 < W.sp; omega) (by simp), a1⟩

end Verif.Conc
