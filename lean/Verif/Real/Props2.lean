import Verif.Real.Props

/-!
End-to-end properties, second part: signing (C68).
-/

namespace Verif.Real
open Verif Verif.Hybrid Verif.Hybrid.Toy Dilithium

variable {fuel : Nat} {H128 H256 : Bytes → Nat → Bytes}

/-! ### C68: signing end to end -/

theorem edSign_run {m sk : Bytes} (hk : sk.length = 64) (hm : m.length ≤ 64) :
    (real fuel).edSign (zeros 128) 0 m sk = .ok (0, Ed25519.Spec.sign (sk.take 32) (sk.drop 32) m ++ m ++ (zeros 128).drop (64 + m.length), 64 + m.length) := by
  have hz : (zeros 128).length = 128 := by simp
  have e : (real fuel).edSign (zeros 128) 0 m sk = when _ (Ed25519.sign (zeros 128) 0 m sk) := rfl
  rw [e, when_pos ⟨hk, by omega, by omega⟩, Ed25519.sign_ok hk (by omega) (by omega)]

theorem spxSign_run (h2 : IsShake256 H256) {m sk : Bytes} {R : Rng} (hk : sk.length = 128) :
    (real fuel).spxSign (zeros 49856) 0 m sk R = .ok (match R.draw R.log.length 32 with
      | none => (-1, zeros 49856, 0)
      | some opt => (0, Sphincs.Spec.sign H256 ⟨slice sk 64 32, sk.take 32⟩ (slice sk 32 32) (sk.drop 64) opt m, 49856), Sphincs.drawn R 32) := by
  have hz : (zeros 49856).length = 49856 := List.length_replicate
  rw [spxSign_eq, when_pos ⟨hz, hk⟩, Sphincs.spx_sign_spec Sphincs.length_shake256F _ m sk 0 R (by omega) hk, shake256F_eq h2]
  cases R.draw R.log.length 32 with
  | none => rfl
  | some opt =>
    simp only []
    rw [List.drop_of_length_le (Nat.le_of_eq hz), List.append_nil]

theorem slice_take_drop {b : Bytes} (h : 64 ≤ b.length) : (slice b 0 64).take 32 = b.take 32 ∧ (slice b 0 64).drop 32 = (b.drop 32).take 32 := by
  rw [take_slice_zero]
  constructor
  · rw [List.take_take]; rfl
  · rw [List.drop_take]

/-- C68, full mode: signing fails only when the random source fails, with code -4 and no effect on memory; otherwise it writes the signature of the specifications, and it ends
whenever that exists. -/
theorem real_full_sign (h1 : IsShake128 H128) (h2 : IsShake256 H256) {W : World} {sm smlen m sk : Ptr} {mlen : Nat} {mb skb : Bytes}
    (hm : W.view m mlen = some mb) (hsk : W.view sk 4064 = some skb) (hsm : (W.view sm (52342 + mlen)).isSome) (hl : (W.view smlen 8).isSome)
    (hlo : 1 ≤ mlen) (hhi : mlen ≤ 64) :
    (∀ fuel r W', signFull (real fuel) (some sm) (some smlen) (some m) mlen (some sk) W = .ok (r, W') →
      (r = -4 ∧ W.rng.draw W.rng.log.length 32 = none ∧ W' = { W with rng := Sphincs.drawn W.rng 32 }) ∨
      (r = 0 ∧ ∃ opt sig, W.rng.draw W.rng.log.length 32 = some opt ∧ FullSigned H128 H256 skb mb opt sig ∧
        W' = (({ W with rng := Sphincs.drawn W.rng 32 } : World).write sm sig).write smlen (le64 (52342 + mlen)))) ∧
    (∀ opt sig, W.rng.draw W.rng.log.length 32 = some opt → FullSigned H128 H256 skb mb opt sig → ∃ F, ∀ fuel, F ≤ fuel →
      signFull (real fuel) (some sm) (some smlen) (some m) mlen (some sk) W =
        .ok (0, (({ W with rng := Sphincs.drawn W.rng 32 } : World).write sm sig).write smlen (le64 (52342 + mlen)))) := by
  have hmb := length_of_view hm
  have hkb := length_of_view hsk
  have l1 : (slice skb 0 64).length = 64 := length_slice (by omega)
  have l2 : (slice skb 64 2560).length = 2560 := length_slice (by omega)
  have l3 : (slice skb 3936 128).length = 128 := length_slice (by omega)
  have hz : (zeros 2420).length = 2420 := List.length_replicate
  have hspec := dil_sign_spec (m := mb) (n := 0) h1 h2 l2 hz
  obtain ⟨t1, t2⟩ := slice_take_drop (b := skb) (by omega)
  have hsl := Ed25519.length_specSign (skb.take 32) ((skb.drop 32).take 32) mb
  have eEd : ∀ fuel, (real fuel).edSign (zeros 128) 0 mb (slice skb 0 64) = _ := fun fuel => edSign_run l1 (by omega)
  rw [t1, t2] at eEd
  have hrun : ∀ fuel, signFull (real fuel) (some sm) (some smlen) (some m) mlen (some sk) W = _ := fun fuel => signFull_run real_sized hm hsk hsm hl hlo hhi
  obtain ⟨ed, hed⟩ : ∃ ed, ed = Ed25519.Spec.sign (skb.take 32) ((skb.drop 32).take 32) mb := ⟨_, rfl⟩
  rw [← hed] at eEd hsl
  have etake : ((ed ++ mb ++ (zeros 128).drop (64 + mb.length)).take (64 + mb.length)) = ed ++ mb := List.take_left' (by rw [List.length_append, hsl])
  constructor
  · intro fuel r W' h
    rw [hrun] at h
    obtain ⟨⟨x, R'⟩, e, h⟩ := bind_eq_ok.1 h
    simp only [fullSig, RandM_bind_apply] at e
    rw [eEd, liftCR_ok, ok_bind, dilSign_eq, when_pos ⟨hz, l2⟩] at e
    cases hdl : Dilithium.signature fuel (zeros 2420) 0 mb (slice skb 64 2560) with
    | error f => rw [hdl] at e; cases e
    | ok y =>
      obtain ⟨r2, s2, n2⟩ := y
      obtain ⟨rfl, rfl, hl2, k, hk⟩ := hspec.2.1 fuel _ _ _ hdl
      rw [hdl, liftCR_ok, ok_bind, spxSign_run h2 l3, ok_bind] at e
      cases hd : W.rng.draw W.rng.log.length 32 with
      | none =>
        rw [hd] at e
        simp only [] at e
        rw [if_neg (by simp), if_neg (by simp), if_pos (by simp)] at e
        cases e
        have h := Except.ok.inj h
        rw [Prod.mk.injEq] at h
        exact Or.inl ⟨h.1.symm, rfl, h.2.symm⟩
      | some opt =>
        rw [hd] at e
        simp only [] at e
        rw [if_neg (by simp), if_neg (by simp), if_neg (by simp), if_neg (by simp), if_neg (by simp), if_neg (by simp), etake] at e
        have e := Except.ok.inj e
        rw [Prod.mk.injEq] at e
        obtain ⟨rfl, rfl⟩ := e
        have h := Except.ok.inj h
        rw [Prod.mk.injEq] at h
        refine Or.inr ⟨h.1.symm, opt, _, rfl, ⟨k, s2, hk, rfl⟩, ?_⟩
        rw [← h.2, ← hed]
        simp only [fullWire, List.cons_append, List.nil_append, List.append_assoc, skSpx, ← slice_eq]
  · rintro opt sig hd ⟨k, dil, hk, rfl⟩
    obtain ⟨F, hF⟩ := hspec.2.2 k dil hk
    refine ⟨F, fun fuel hf => ?_⟩
    rw [hrun]
    simp only [fullSig, RandM_bind_apply]
    rw [eEd, liftCR_ok, ok_bind, dilSign_eq, when_pos ⟨hz, l2⟩, hF fuel hf, liftCR_ok, ok_bind, spxSign_run h2 l3, ok_bind, hd]
    simp only []
    rw [if_neg (by simp), if_neg (by simp), if_neg (by simp), if_neg (by simp), if_neg (by simp), if_neg (by simp), etake, ← hed]
    simp only [fullWire, List.cons_append, List.nil_append, List.append_assoc, skSpx, ← slice_eq]
    rfl

example : demo.view ⟨2, 0⟩ 20 = some (List.replicate 20 5) ∧ (demo.view ⟨3, 0⟩ 4064).isSome ∧ (demo.view ⟨0, 0⟩ (52342 + 20)).isSome ∧ (demo.view ⟨1, 0⟩ 8).isSome :=
  ⟨demo_m 20 (by omega), some_isSome demo_sk, some_isSome (demo_sm _ (by omega)), some_isSome demo_len⟩

/-- C68, compact mode: signing fails only when the nonce cannot be drawn, with code -1. -/
theorem real_compact_sign (h1 : IsShake128 H128) (h2 : IsShake256 H256) {W : World} {sm smlen m sk : Ptr} {mlen : Nat} {mb skb : Bytes}
    (hm : W.view m mlen = some mb) (hsk : W.view sk 4064 = some skb) (hsm : (W.view sm (2526 + mlen)).isSome) (hl : (W.view smlen 8).isSome)
    (hd : Disj sm (2526 + mlen) m mlen) (hlo : 1 ≤ mlen) (hhi : mlen ≤ 64) :
    (∀ fuel r W', signCompact (real fuel) (some sm) (some smlen) (some m) mlen (some sk) W = .ok (r, W') →
      (r = -1 ∧ W.rng.draw W.rng.log.length 40 = none ∧ W' = { W with rng := Sphincs.drawn W.rng 40 }) ∨
      (r = 0 ∧ ∃ nonce sig, W.rng.draw W.rng.log.length 40 = some nonce ∧ CompactSigned H128 H256 skb mb nonce sig ∧
        W' = (({ W with rng := Sphincs.drawn W.rng 40 } : World).write sm sig).write smlen (le64 (2526 + mlen)))) ∧
    (∀ nonce sig, W.rng.draw W.rng.log.length 40 = some nonce → CompactSigned H128 H256 skb mb nonce sig → ∃ F, ∀ fuel, F ≤ fuel →
      signCompact (real fuel) (some sm) (some smlen) (some m) mlen (some sk) W =
        .ok (0, (({ W with rng := Sphincs.drawn W.rng 40 } : World).write sm sig).write smlen (le64 (2526 + mlen)))) := by
  have hmb := length_of_view hm
  have hkb := length_of_view hsk
  have l1 : (slice skb 0 64).length = 64 := length_slice (by omega)
  have l2 : (slice skb 64 2560).length = 2560 := length_slice (by omega)
  have hz : (zeros 2420).length = 2420 := List.length_replicate
  obtain ⟨t1, t2⟩ := slice_take_drop (b := skb) (by omega)
  have hrun : ∀ fuel, signCompact (real fuel) (some sm) (some smlen) (some m) mlen (some sk) W = _ := fun fuel => signCompact_run real_sized hm hsk hsm hl hd hlo hhi
  constructor
  · intro fuel r W' h
    rw [hrun] at h
    obtain ⟨⟨x, R'⟩, e, h⟩ := bind_eq_ok.1 h
    simp only [compactSig, RandM_bind_apply, randombytes, ok_bind] at e
    cases hdr : W.rng.draw W.rng.log.length 40 with
    | none =>
      rw [hdr] at e
      simp only [] at e
      cases e
      have h := Except.ok.inj h
      rw [Prod.mk.injEq] at h
      refine Or.inl ⟨h.1.symm, rfl, ?_⟩
      rw [← h.2]
      simp only [Sphincs.drawn, hdr]
    | some nonce =>
      rw [hdr] at e
      simp only [RandM_bind_apply] at e
      obtain ⟨hh, hhe⟩ : ∃ hh, hh = (real fuel).sha3_512 (nonce ++ mb ++ slice skb 4000 64) := ⟨_, rfl⟩
      have hhl : hh.length = 64 := by rw [hhe]; exact (sha3_real _).1
      rw [← hhe] at e
      have hspec := dil_sign_spec (m := hh) (n := 0) h1 h2 l2 hz
      have eEd := edSign_run (fuel := fuel) (m := hh) l1 (by omega)
      rw [t1, t2] at eEd
      have hsl := Ed25519.length_specSign (skb.take 32) ((skb.drop 32).take 32) hh
      rw [eEd, liftCR_ok, ok_bind, dilSign_eq, when_pos ⟨hz, l2⟩] at e
      cases hdl : Dilithium.signature fuel (zeros 2420) 0 hh (slice skb 64 2560) with
      | error f => rw [hdl] at e; cases e
      | ok y =>
        obtain ⟨r2, s2, n2⟩ := y
        obtain ⟨rfl, rfl, hl2, k, hk⟩ := hspec.2.1 fuel _ _ _ hdl
        rw [hdl, liftCR_ok, ok_bind] at e
        simp only [] at e
        rw [if_neg (by simp), if_neg (by simp), if_neg (by rw [hhl]; simp), if_neg (by simp), List.append_assoc (Ed25519.Spec.sign _ _ _), List.take_left' hsl] at e
        have e := Except.ok.inj e
        rw [Prod.mk.injEq] at e
        obtain ⟨rfl, rfl⟩ := e
        have h := Except.ok.inj h
        rw [Prod.mk.injEq] at h
        refine Or.inr ⟨h.1.symm, nonce, _, rfl, ⟨hh, k, s2, ?_, hk, rfl⟩, ?_⟩
        · rw [compactHash_real (fuel := fuel), hhe]
          unfold compactHash skSpxPk
          rw [← slice_eq]
        · rw [← h.2]
          simp only [compactWire, List.cons_append, List.nil_append, List.append_assoc, Sphincs.drawn, hdr]
  · rintro nonce sig hdr ⟨hh, k, dil, hc, hk, rfl⟩
    have hspec := dil_sign_spec (m := hh) (n := 0) h1 h2 l2 hz
    obtain ⟨F, hF⟩ := hspec.2.2 k dil hk
    refine ⟨F, fun fuel hf => ?_⟩
    rw [compactHash_real (fuel := fuel)] at hc
    have hhl : hh.length = 64 := by rw [hc]; exact (sha3_real _).1
    have hhe : (real fuel).sha3_512 (nonce ++ mb ++ slice skb 4000 64) = hh := by
      rw [hc]
      unfold compactHash skSpxPk
      rw [← slice_eq]
    have eEd := edSign_run (fuel := fuel) (m := hh) l1 (by omega)
    rw [t1, t2] at eEd
    have hsl := Ed25519.length_specSign (skb.take 32) ((skb.drop 32).take 32) hh
    rw [hrun]
    simp only [compactSig, RandM_bind_apply, randombytes, ok_bind]
    rw [hdr]
    simp only [RandM_bind_apply]
    rw [hhe, eEd, liftCR_ok, ok_bind, dilSign_eq, when_pos ⟨hz, l2⟩, hF fuel hf, liftCR_ok, ok_bind]
    simp only []
    rw [if_neg (by simp), if_neg (by simp), if_neg (by rw [hhl]; simp), if_neg (by simp), List.append_assoc (Ed25519.Spec.sign _ _ _), List.take_left' hsl]
    simp only [compactWire, List.cons_append, List.nil_append, List.append_assoc, Sphincs.drawn, hdr]
    rfl

example : Disj ⟨0, 0⟩ (2526 + 20) ⟨2, 0⟩ 20 ∧ (demo.view ⟨0, 0⟩ (2526 + 20)).isSome := ⟨Or.inl (by decide), some_isSome (demo_sm _ (by omega))⟩

end Verif.Real
