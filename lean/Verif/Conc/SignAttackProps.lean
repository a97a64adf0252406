import Verif.Sphincs.ForgeProps
import Verif.Conc.SignAttack
import Verif.Conc.RaceSignProps

/-!
Property C126: the signing calls read the message more than once, and another thread can change it in between.
-/

namespace Verif.Conc
open Verif
open Verif.Hybrid (zeros skDil skSpx compactWire fullWire signTail_ok length_zeros slice_full slice_append_left write_comm)
open Verif.Real (real real_sized CompactSigned)
open Verif.Dilithium (S128 S256 isShake128_S128 isShake256_S256)

theorem dil_signs {sk m sig : Bytes} {k : Nat} (hk : sk.length = 2560) (h : Dilithium.Spec.Signs S128 S256 sk m k sig) : ∃ F, ∀ fuel, F ≤ fuel → (real fuel).dilSign (zeros 2420) 0 m sk = .ok (0, sig, 2420) := by
  obtain ⟨F, hF⟩ := (Dilithium.dil_sign_spec (m := m) (n := 0) isShake128_S128 isShake256_S256 hk (sig := zeros 2420) List.length_replicate).2.2 _ _ h
  refine ⟨F, fun fuel hf => ?_⟩
  rw [Real.dilSign_eq, Real.when_pos ⟨List.length_replicate, hk⟩]
  exact hF fuel hf

theorem skDil_slice {skb : Bytes} : slice skb 64 2560 = skDil skb := rfl

set_option maxRecDepth 100000 in
/-- C126: compact signing puts a message into the signature that it has not signed, if another thread changes the message in time.  For every message, every other message of the same length and every secret key there is a
schedule of the call and of a thread that only overwrites the message, such that the call returns 0 and leaves the signatures of the hash of the first message together with the second message
(hybrid-dilithium-sphincs/hybrid.c:507-511, 557-559). -/
theorem compact_sign_other {W : World} (hW : W.WF) {sm smlen m sk : Ptr} {msg x skb nonce sig : Bytes} (hm : W.view m msg.length = some msg) (hsk : W.view sk 4064 = some skb)
    (hsm : (W.view sm (2526 + msg.length)).isSome) (hl : (W.view smlen 8).isSome) (hd : Disj sm (2526 + msg.length) m msg.length) (hdl : Disj smlen 8 sm (2526 + msg.length)) (h1 : 1 ≤ msg.length) (h2 : msg.length ≤ 64)
    (hn : W.rng.draw W.rng.log.length 40 = some nonce) (hok : CompactSigned S128 S256 skb msg nonce sig) (hx : x.length = msg.length) :
    ∃ F, ∀ fuel, F ≤ fuel → ∃ s, ∃ c, c = (duo W (Conc.signCompact (real fuel) (some sm) (some smlen) (some m) msg.length (some sk)) (overwrite m x)).run s ∧
      (c.thr false).prog = .ret 0 ∧ c.common.view sm (2526 + msg.length) = some (sig.take 2526 ++ x) ∧ c.common.view smlen 8 = some (le64 (2526 + msg.length)) := by
  have hskb := length_of_view hsk
  have hnl := W.rng.len_draw _ _ _ hn
  obtain ⟨h, k, dil, hh, hs, rfl⟩ := hok
  have lsk : (skDil skb).length = 2560 := by unfold skDil; rw [List.length_take, List.length_drop]; omega
  have ld := Real.dilSigned_length isShake128_S128 isShake256_S256 lsk hs
  obtain ⟨F, hF⟩ := dil_signs lsk hs
  refine ⟨F, fun fuel hf => ?_⟩
  have le := Ed25519.length_specSign (skb.take 32) ((skb.drop 32).take 32) h
  have ehash : (real fuel).sha3_512 (nonce ++ msg ++ slice skb 4000 64) = h := ((Real.compactHash_real (fuel := fuel) _ _ _ _).1 hh).symm
  have lh : h.length = 64 := by rw [← ehash]; exact real_sized.sha3_512 _
  have t1 : (slice skb 0 64).take 32 = skb.take 32 := by rw [slice, List.drop_zero, List.take_take]; rfl
  have t2 : (slice skb 0 64).drop 32 = (skb.drop 32).take 32 := by rw [slice, List.drop_zero, List.drop_take]
  have he := Real.edSign_run (fuel := fuel) (m := h) (sk := slice skb 0 64) (by rw [length_slice (by omega)]) (by omega)
  rw [t1, t2, lh] at he
  generalize hed : Ed25519.Spec.sign (skb.take 32) ((skb.drop 32).take 32) h = ed at he le
  have hse : slice (ed ++ h ++ (zeros 128).drop (64 + 64)) 0 64 = ed := by
    rw [List.append_assoc, slice_append_left (by omega)]; exact slice_full le
  have lead := leads_signCompact (real fuel) (smlen := smlen) real_sized hm hsk hsm h1 h2 hn (by rw [ehash]; exact he) (by rw [ehash]; exact hF fuel hf)
  rw [hse] at lead
  have wl : (compactWire ed dil nonce msg).take 2526 = [1, BitVec.ofNat 8 msg.length] ++ ed ++ dil ++ nonce := by
    have e : compactWire ed dil nonce msg = ([1, BitVec.ofNat 8 msg.length] ++ ed ++ dil ++ nonce) ++ msg := rfl
    rw [e]
    refine List.take_left' ?_
    rw [List.length_append, List.length_append, List.length_append, le, ld, hnl]; rfl
  have lw : ((compactWire ed dil nonce msg).take 2526).length = 2526 := by
    rw [wl, List.length_append, List.length_append, List.length_append, le, ld, hnl]; rfl
  rw [← wl] at lead
  generalize (compactWire ed dil nonce msg).take 2526 = pre at *
  have hmp := blk_lt hW (p := m) (n := msg.length) (by rw [hm]; rfl)
  generalize hW1 : ({ W with rng := Sphincs.drawn W.rng 40 } : World) = W1 at lead
  have hm1 : W1.view m msg.length = some msg := by subst hW1; exact hm
  have hsm1 : (W1.view sm (2526 + msg.length)).isSome := by subst hW1; exact hsm
  have hl1 : (W1.view smlen 8).isSome := by subst hW1; exact hl
  have comm : (W1.write sm pre).write m x = (W1.write m x).write sm pre := by
    refine write_comm ?_
    rcases hd with hd | hd | hd
    · exact Or.inl hd
    · exact Or.inr (Or.inl (by rw [lw]; omega))
    · exact Or.inr (Or.inr (by omega))
  have rest : exec (signTailP sm smlen m msg.length) ((W1.write sm pre).write m x) = .ok (0, ((W1.write m x).write sm (pre ++ x)).write smlen (le64 (2526 + msg.length))) := by
    rw [exec_signTail, comm]
    exact signTail_ok lw (view_write_same hm1 hx) (by rw [view_write_isSome]; exact hsm1) (by rw [view_write_isSome]; exact hl1) hd
  obtain ⟨s, r1, r2⟩ := duo_run hW (other := overwrite m x) (q := m) (y := x) (r' := 0) hmp lead (fun U hU => exec_overwrite (by
    rw [view_congr (hU _ hmp), view_write_isSome, hx, hm1]; rfl)) rest
  have vs : ((W1.write m x).view sm (2526 + msg.length)).isSome := by rw [view_write_isSome]; exact hsm1
  have vl : (((W1.write m x).write sm (pre ++ x)).view smlen 8).isSome := by rw [view_write_isSome, view_write_isSome]; exact hl1
  obtain ⟨os, hos⟩ := Option.isSome_iff_exists.1 vs
  obtain ⟨ol, hol⟩ := Option.isSome_iff_exists.1 vl
  refine ⟨s, _, rfl, r1, ?_, ?_⟩
  · rw [view_congr (r2 sm.blk (blk_lt hW hsm)), view_write_disj (by
      simpa using hdl), view_write_same hos (by rw [List.length_append, lw, hx])]
  · rw [view_congr (r2 smlen.blk (blk_lt hW hl)), view_write_same hol (by simp)]

set_option maxRecDepth 100000 in
/-- C126: full signing signs two different messages, if another thread changes the message in time.  For every message, every other message of the same length and every secret key there is a schedule of the call and of a
thread that only overwrites the message, such that the call returns 0 and leaves an Ed25519 signature of the first message together with that message, and Dilithium and SPHINCS+ signatures of the second one
(hybrid-dilithium-sphincs/hybrid.c:294-296). -/
theorem full_sign_other {W : World} (hW : W.WF) {sm smlen m sk : Ptr} {msg x skb opt dil : Bytes} {k : Nat} (hm : W.view m msg.length = some msg) (hsk : W.view sk 4064 = some skb)
    (hsm : (W.view sm (52342 + msg.length)).isSome) (hl : (W.view smlen 8).isSome) (hdl : Disj smlen 8 sm (52342 + msg.length)) (h1 : 1 ≤ msg.length) (h2 : msg.length ≤ 64)
    (hn : W.rng.draw W.rng.log.length 32 = some opt) (hs : Dilithium.Spec.Signs S128 S256 (skDil skb) x k dil) (hx : x.length = msg.length) :
    ∃ F, ∀ fuel, F ≤ fuel → ∃ s, ∃ c, c = (duo W (Conc.signFull (real fuel) spxBody (some sm) (some smlen) (some m) msg.length (some sk)) (overwrite m x)).run s ∧
      (c.thr false).prog = .ret 0 ∧ c.common.view sm (52342 + msg.length) = some (fullWire (Ed25519.Spec.sign (skb.take 32) ((skb.drop 32).take 32) msg) msg dil (spxOf skb opt x x)) ∧
      c.common.view smlen 8 = some (le64 (52342 + msg.length)) := by
  have hskb := length_of_view hsk
  have lsk : (skDil skb).length = 2560 := by unfold skDil; rw [List.length_take, List.length_drop]; omega
  have ld := Real.dilSigned_length isShake128_S128 isShake256_S256 lsk hs
  obtain ⟨F, hF⟩ := dil_signs lsk hs
  refine ⟨F, fun fuel hf => ?_⟩
  have le := Ed25519.length_specSign (skb.take 32) ((skb.drop 32).take 32) msg
  have t1 : (slice skb 0 64).take 32 = skb.take 32 := by rw [slice, List.drop_zero, List.take_take]; rfl
  have t2 : (slice skb 0 64).drop 32 = (skb.drop 32).take 32 := by rw [slice, List.drop_zero, List.drop_take]
  have he := Real.edSign_run (fuel := fuel) (m := msg) (sk := slice skb 0 64) (by rw [length_slice (by omega)]) (by omega)
  rw [t1, t2] at he
  generalize hed : Ed25519.Spec.sign (skb.take 32) ((skb.drop 32).take 32) msg = ed at he le
  have hse : slice (ed ++ msg ++ (zeros 128).drop (64 + msg.length)) 0 (64 + msg.length) = ed ++ msg := by
    rw [slice_append_left (by simp only [List.length_append]; omega)]; exact slice_full (by simp only [List.length_append]; omega)
  have lead := leads_signFull (real fuel) (body := spxBody) (sm := sm) (smlen := smlen) hm hsk h1 h2 he
  have hs1 : 64 + msg.length ≤ (ed ++ msg ++ (zeros 128).drop (64 + msg.length)).length := by simp only [List.length_append]; omega
  generalize ed ++ msg ++ (zeros 128).drop (64 + msg.length) = s1 at lead hse hs1
  have hmp := blk_lt hW (p := m) (n := msg.length) (by rw [hm]; rfl)
  have hspx : (real fuel).spxSign (zeros 49856) 0 x (slice skb 3936 128) (W.write m x).rng = .ok ((0, spxOf skb opt x x, 49856), Sphincs.drawn W.rng 32) := by
    rw [write_rng, Real.spxSign_run isShake256_S256 (by rw [length_slice (by omega)]), hn]
    simp only [Sphincs.sign_eq_signWith]; rfl
  have ls : (spxOf skb opt x x).length = 49856 := length_twice _ _ _ _
  generalize spxOf skb opt x x = spx at hspx ls
  have rest := exec_signFullTail (real fuel) real_sized (oneDraw_real fuel) (W := W.write m x) (sm := sm) (smlen := smlen) (view_write_same hm hx) hs1 (hF fuel hf) hspx
    (by rw [view_write_isSome]; exact hsm) (by rw [view_write_isSome]; exact hl)
  rw [hse] at rest
  have ew : [2, BitVec.ofNat 8 msg.length] ++ (ed ++ msg) ++ dil ++ spx = fullWire ed msg dil spx := by simp [fullWire]
  rw [ew] at rest
  have lw : (fullWire ed msg dil spx).length = 52342 + msg.length := by
    rw [(Hybrid.wire_full_slices le ld ls (by omega)).1]
  generalize fullWire ed msg dil spx = wire at *
  generalize hW1 : ({ W.write m x with rng := Sphincs.drawn W.rng 32 } : World) = W1 at rest
  have hsm1 : (W1.view sm (52342 + msg.length)).isSome := by subst hW1; show ((W.write m x).view _ _).isSome; rw [view_write_isSome]; exact hsm
  have hl1 : (W1.view smlen 8).isSome := by subst hW1; show ((W.write m x).view _ _).isSome; rw [view_write_isSome]; exact hl
  obtain ⟨s, r1, r2⟩ := duo_run hW (other := overwrite m x) (q := m) (y := x) (r' := 0) hmp lead (fun U hU => exec_overwrite (by
    rw [view_congr (hU _ hmp), hx, hm]; rfl)) rest
  have vl : ((W1.write sm wire).view smlen 8).isSome := by rw [view_write_isSome]; exact hl1
  obtain ⟨os, hos⟩ := Option.isSome_iff_exists.1 hsm1
  obtain ⟨ol, hol⟩ := Option.isSome_iff_exists.1 vl
  refine ⟨s, _, rfl, r1, ?_, ?_⟩
  · rw [view_congr (r2 sm.blk (blk_lt hW hsm)), view_write_disj (by
      simpa using hdl), view_write_same hos lw]
  · rw [view_congr (r2 smlen.blk (blk_lt hW hl)), view_write_same hol (by simp)]

end Verif.Conc
