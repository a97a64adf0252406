import Verif.Real.Contracts
import Verif.Real.Spec
import Verif.Hybrid.Props2

/-!
End-to-end properties: the hybrid API with the component code (C01 to C04, C13, C18, C21, C66 to C69).
`fuel` bounds the rejection loops of Dilithium; every statement is for every fuel.
-/

namespace Verif.Real
open Verif Verif.Hybrid Verif.Hybrid.Toy Dilithium

variable {fuel : Nat} {H128 H256 : Bytes → Nat → Bytes}

theorem shake256F_eq (h2 : IsShake256 H256) : Sphincs.shake256F = H256 :=
  funext fun m => funext fun n => Keccak.bits_injective ((Sphincs.shake256F_spec m n).2.2.trans (h2 m n).symm)

/-! ### Acceptance of the components in terms of their specifications -/

theorem dilAccepts_sound (h1 : IsShake128 H128) (h2 : IsShake256 H256) {pk sig m : Bytes} (hp : pk.length = 1312) (hs : sig.length = 2420)
    (h : DilAccepts (real fuel) pk sig m) : Dilithium.Spec.Valid H128 H256 pk m sig := by
  unfold DilAccepts at h
  rw [dilVerify_eq, when_pos hp, hs] at h
  rcases (dil_verify_spec h1 h2 hp hs).2.1 fuel 0 h with ⟨-, h⟩ | ⟨h, -⟩
  · exact h
  · omega

theorem dilAccepts_complete (h1 : IsShake128 H128) (h2 : IsShake256 H256) {pk sig m : Bytes} (hp : pk.length = 1312) (hs : sig.length = 2420)
    (h : Dilithium.Spec.Valid H128 H256 pk m sig) : ∃ F, ∀ fuel, F ≤ fuel → DilAccepts (real fuel) pk sig m := by
  obtain ⟨F, hF⟩ := (dil_verify_spec h1 h2 hp hs).2.2 h
  refine ⟨F, fun fuel hf => ?_⟩
  unfold DilAccepts
  rw [dilVerify_eq, when_pos hp, hs]
  exact hF fuel hf

theorem spxAccepts_iff (h2 : IsShake256 H256) {pk sig m : Bytes} (hp : pk.length = 64) (hs : sig.length = 49856) :
    SpxAccepts (real fuel) pk sig m ↔ Sphincs.Spec.Valid H256 pk sig m := by
  have e : (real fuel).spxVerify sig m pk = when (pk.length = 64) (Sphincs.verify Sphincs.shake256F sig sig.length m pk) := rfl
  unfold SpxAccepts
  rw [e, when_pos hp, ← shake256F_eq h2]
  have ht : sig.take 49856 = sig := List.take_of_length_le (by omega)
  rcases Sphincs.spx_verify_spec Sphincs.length_shake256F sig m pk sig.length (Nat.le_refl _) hp with ⟨e, -, hv⟩ | ⟨e, hv⟩
  · rw [ht] at hv
    exact ⟨fun _ => hv, fun _ => e⟩
  · rw [ht] at hv
    constructor
    · intro h
      rw [e] at h
      cases h
    · intro h
      exact absurd ⟨hs, h⟩ hv

theorem length_pkEd {pk : Bytes} (h : pk.length = 1408) : (pkEd pk).length = 32 := by unfold pkEd; rw [List.length_take]; omega
theorem length_pkDil {pk : Bytes} (h : pk.length = 1408) : (pkDil pk).length = 1312 := by unfold pkDil; rw [List.length_take, List.length_drop]; omega
theorem length_pkSpx {pk : Bytes} (h : pk.length = 1408) : (pkSpx pk).length = 64 := by unfold pkSpx; rw [List.length_take, List.length_drop]; omega

theorem fullValid_sound (h1 : IsShake128 H128) (h2 : IsShake256 H256) {pk msg sm : Bytes} (hp : pk.length = 1408) (h : FullValid (real fuel) pk msg sm) :
    FullMeets H128 H256 pk msg sm := by
  obtain ⟨a, b, ed, dil, spx, l1, l2, l3, e, v1, v2, v3⟩ := h
  exact ⟨a, b, ed, dil, spx, l1, l2, l3, e, (edAccepts_real (length_pkEd hp) l1 b).1 v1, dilAccepts_sound h1 h2 (length_pkDil hp) l2 v2,
    (spxAccepts_iff h2 (length_pkSpx hp) l3).1 v3⟩

theorem fullValid_complete (h1 : IsShake128 H128) (h2 : IsShake256 H256) {pk msg sm : Bytes} (hp : pk.length = 1408) (h : FullMeets H128 H256 pk msg sm) :
    ∃ F, ∀ fuel, F ≤ fuel → FullValid (real fuel) pk msg sm := by
  obtain ⟨a, b, ed, dil, spx, l1, l2, l3, e, v1, v2, v3⟩ := h
  obtain ⟨F, hF⟩ := dilAccepts_complete h1 h2 (length_pkDil hp) l2 v2
  exact ⟨F, fun fuel hf => ⟨a, b, ed, dil, spx, l1, l2, l3, e, (edAccepts_real (length_pkEd hp) l1 b).2 v1, hF fuel hf, (spxAccepts_iff h2 (length_pkSpx hp) l3).2 v3⟩⟩

theorem compactHash_real (nonce msg k h : Bytes) : IsCompactHash nonce msg k h ↔ h = compactHash (real fuel) nonce msg k := by
  unfold IsCompactHash compactHash
  rw [← (sha3_real (fuel := fuel) (nonce ++ msg ++ k)).2]
  exact ⟨fun h => Keccak.bits_injective h, fun h => congrArg _ h⟩

theorem compactValid_sound (h1 : IsShake128 H128) (h2 : IsShake256 H256) {pk msg sm : Bytes} (hp : pk.length = 1408) (h : CompactValid (real fuel) pk msg sm) :
    CompactMeets H128 H256 pk msg sm := by
  obtain ⟨a, b, ed, dil, nonce, l1, l2, l3, e, v1, v2⟩ := h
  have hl : (compactHash (real fuel) nonce msg (pkSpx pk)).length = 64 := (sha3_real _).1
  exact ⟨a, b, ed, dil, nonce, _, l1, l2, l3, e, (compactHash_real (fuel := fuel) _ _ _ _).2 rfl, (edAccepts_real (length_pkEd hp) l1 (by omega)).1 v1,
    dilAccepts_sound h1 h2 (length_pkDil hp) l2 v2⟩

theorem compactValid_complete (h1 : IsShake128 H128) (h2 : IsShake256 H256) {pk msg sm : Bytes} (hp : pk.length = 1408) (h : CompactMeets H128 H256 pk msg sm) :
    ∃ F, ∀ fuel, F ≤ fuel → CompactValid (real fuel) pk msg sm := by
  obtain ⟨a, b, ed, dil, nonce, h, l1, l2, l3, e, hh, v1, v2⟩ := h
  obtain ⟨F, hF⟩ := dilAccepts_complete h1 h2 (length_pkDil hp) l2 v2
  refine ⟨F, fun fuel hf => ⟨a, b, ed, dil, nonce, l1, l2, l3, e, ?_⟩⟩
  have := (compactHash_real (fuel := fuel) _ _ _ _).1 hh
  subst this
  have hl : (compactHash (real fuel) nonce msg (pkSpx pk)).length = 64 := (sha3_real _).1
  exact ⟨(edAccepts_real (length_pkEd hp) l1 (by omega)).2 v1, hF fuel hf⟩

/-! ### C66: verification end to end -/

/-- C66, full mode: whatever the memory holds, the call accepts exactly the buffers that are full-mode signatures of the message by the specifications of the three schemes.
The fuel plays no part: an accepted buffer is one for every fuel, and a valid buffer is accepted with every large enough fuel. -/
theorem real_full_verify (h1 : IsShake128 H128) (h2 : IsShake256 H256) {W : World} (hW : W.WF) {sm m pk : Ptr} {smlen mlen : Nat}
    {sb pkb mb : Bytes} (hsm : W.view sm smlen = some sb) (hpk : W.view pk 1408 = some pkb) (hm : W.view m mlen = some mb) :
    (∀ fuel W', verifyFull (real fuel) (some m) mlen (some sm) smlen (some pk) W = .ok (0, W') → W' = W ∧ FullMeets H128 H256 pkb mb sb) ∧
    (FullMeets H128 H256 pkb mb sb → ∃ F, ∀ fuel, F ≤ fuel → verifyFull (real fuel) (some m) mlen (some sm) smlen (some pk) W = .ok (0, W)) := by
  have hp := length_of_view hpk
  constructor
  · intro fuel W' h
    obtain ⟨a, b⟩ := (full_verify_iff real_sized real_edShape hW hsm hpk hm).1 h
    exact ⟨a, fullValid_sound h1 h2 hp b⟩
  · intro h
    obtain ⟨F, hF⟩ := fullValid_complete h1 h2 hp h
    exact ⟨F, fun fuel hf => (full_verify_iff real_sized real_edShape hW hsm hpk hm).2 ⟨rfl, hF fuel hf⟩⟩

/-- C66, compact mode. -/
theorem real_compact_verify (h1 : IsShake128 H128) (h2 : IsShake256 H256) {W : World} (hW : W.WF) {sm m pk : Ptr} {smlen mlen : Nat}
    {sb pkb mb : Bytes} (hsm : W.view sm smlen = some sb) (hpk : W.view pk 1408 = some pkb) (hm : W.view m mlen = some mb) :
    (∀ fuel W', verifyCompact (real fuel) (some m) mlen (some sm) smlen (some pk) W = .ok (0, W') → W' = W ∧ CompactMeets H128 H256 pkb mb sb) ∧
    (CompactMeets H128 H256 pkb mb sb → ∃ F, ∀ fuel, F ≤ fuel → verifyCompact (real fuel) (some m) mlen (some sm) smlen (some pk) W = .ok (0, W)) := by
  have hp := length_of_view hpk
  constructor
  · intro fuel W' h
    obtain ⟨a, b⟩ := (compact_verify_iff real_sized real_edShape hW hsm hpk hm).1 h
    exact ⟨a, compactValid_sound h1 h2 hp b⟩
  · intro h
    obtain ⟨F, hF⟩ := compactValid_complete h1 h2 hp h
    exact ⟨F, fun fuel hf => (compact_verify_iff real_sized real_edShape hW hsm hpk hm).2 ⟨rfl, hF fuel hf⟩⟩

/-- C66, opening in full mode: it delivers the embedded message. -/
theorem real_full_open (h1 : IsShake128 H128) (h2 : IsShake256 H256) {W : World} {sm m mlen pk : Ptr} {smlen : Nat}
    {sb pkb : Bytes} (hsm : W.view sm smlen = some sb) (hpk : W.view pk 1408 = some pkb)
    (hm : (W.view m (smlen - 52342)).isSome) (hl : (W.view mlen 8).isSome) :
    (∀ fuel W', openFull (real fuel) (some m) (some mlen) (some sm) smlen (some pk) W = .ok (0, W') →
      ∃ msg, FullMeets H128 H256 pkb msg sb ∧ W' = (W.write m msg).write mlen (le64 msg.length)) ∧
    (∀ msg, FullMeets H128 H256 pkb msg sb → ∃ F, ∀ fuel, F ≤ fuel →
      openFull (real fuel) (some m) (some mlen) (some sm) smlen (some pk) W = .ok (0, (W.write m msg).write mlen (le64 msg.length))) := by
  have hp := length_of_view hpk
  constructor
  · intro fuel W' h
    obtain ⟨msg, a, b⟩ := (full_open_iff real_sized real_edShape hsm hpk hm hl).1 h
    exact ⟨msg, fullValid_sound h1 h2 hp a, b⟩
  · intro msg h
    obtain ⟨F, hF⟩ := fullValid_complete h1 h2 hp h
    exact ⟨F, fun fuel hf => (full_open_iff real_sized real_edShape hsm hpk hm hl).2 ⟨msg, hF fuel hf, rfl⟩⟩

/-- C66, opening in compact mode. -/
theorem real_compact_open (h1 : IsShake128 H128) (h2 : IsShake256 H256) {W : World} {sm m mlen pk : Ptr} {smlen : Nat}
    {sb pkb : Bytes} (hsm : W.view sm smlen = some sb) (hpk : W.view pk 1408 = some pkb)
    (hm : (W.view m (smlen - 2526)).isSome) (hl : (W.view mlen 8).isSome) (hd : Disj m (smlen - 2526) sm smlen) :
    (∀ fuel W', openCompact (real fuel) (some m) (some mlen) (some sm) smlen (some pk) W = .ok (0, W') →
      ∃ msg, CompactMeets H128 H256 pkb msg sb ∧ W' = (W.write m msg).write mlen (le64 msg.length)) ∧
    (∀ msg, CompactMeets H128 H256 pkb msg sb → ∃ F, ∀ fuel, F ≤ fuel →
      openCompact (real fuel) (some m) (some mlen) (some sm) smlen (some pk) W = .ok (0, (W.write m msg).write mlen (le64 msg.length))) := by
  have hp := length_of_view hpk
  constructor
  · intro fuel W' h
    obtain ⟨msg, a, b⟩ := (compact_open_iff real_sized real_edShape hsm hpk hm hl hd).1 h
    exact ⟨msg, compactValid_sound h1 h2 hp a, b⟩
  · intro msg h
    obtain ⟨F, hF⟩ := compactValid_complete h1 h2 hp h
    exact ⟨F, fun fuel hf => (compact_open_iff real_sized real_edShape hsm hpk hm hl hd).2 ⟨msg, hF fuel hf, rfl⟩⟩

/-- A memory that holds the arrays. -/
example : demo.WF ∧ (demo.view ⟨0, 0⟩ 52362).isSome ∧ (demo.view ⟨4, 0⟩ 1408).isSome ∧ (demo.view ⟨2, 0⟩ 20).isSome ∧ (∃ H, IsShake128 H) ∧ ∃ H, IsShake256 H :=
  ⟨demo_WF, some_isSome (demo_sm _ (by omega)), some_isSome demo_pk, some_isSome (demo_m 20 (by omega)), ⟨_, isShake128_S128⟩, _, isShake256_S256⟩

/-! ### C67: key generation end to end -/

theorem take_slice_zero {b : Bytes} {n : Nat} : slice b 0 n = b.take n := by rw [slice, List.drop_zero]

/-- The bytes of a key pair. -/
theorem keyBytes_real (h1 : IsShake128 H128) (h2 : IsShake256 H256) {seedb : Bytes} (hl : seedb.length = 160) :
    (∀ fuel c pkb skb, keyBytes (real fuel) seedb = .ok (c, pkb, skb) → c = 0 ∧ KeysOf H128 H256 seedb pkb skb) ∧
    (∀ pkb skb, KeysOf H128 H256 seedb pkb skb → ∃ F, ∀ fuel, F ≤ fuel → keyBytes (real fuel) seedb = .ok (0, pkb, skb)) := by
  have l1 : (slice seedb 0 32).length = 32 := length_slice (by omega)
  have l2 : (slice seedb 32 32).length = 32 := length_slice (by omega)
  have l3 : (slice seedb 64 96).length = 96 := length_slice (by omega)
  have eEd : ∀ fuel, (real fuel).edKeypairSeed (zeros 32) (zeros 64) (slice seedb 0 32) =
      .ok (0, Ed25519.Spec.publicKey (seedb.take 32), seedb.take 32 ++ Ed25519.Spec.publicKey (seedb.take 32)) := by
    intro fuel
    have : (real fuel).edKeypairSeed (zeros 32) (zeros 64) (slice seedb 0 32) = when _ (Ed25519.keypairSeed (zeros 32) (zeros 64) (slice seedb 0 32)) := rfl
    rw [this, when_pos ⟨by simp, by simp, l1⟩, Ed25519.keypairSeed_ok (by simp) (by simp) l1, take_slice_zero]
  have eSp : ∀ fuel, (real fuel).spxKeypairSeed (zeros 64) (zeros 128) (slice seedb 64 96) =
      .ok (0, Sphincs.Spec.publicKey H256 ⟨seedb.drop 128, (seedb.drop 64).take 32⟩,
        seedb.drop 64 ++ (Sphincs.Spec.publicKey H256 ⟨seedb.drop 128, (seedb.drop 64).take 32⟩).drop 32) := by
    intro fuel
    have : (real fuel).spxKeypairSeed (zeros 64) (zeros 128) (slice seedb 64 96) =
      when _ (Sphincs.seedKeypair Sphincs.shake256F (zeros 64) (zeros 128) (slice seedb 64 96)) := rfl
    have e : slice seedb 64 96 = seedb.drop 64 := by rw [slice, List.take_of_length_le (by rw [List.length_drop]; omega)]
    rw [this, when_pos ⟨by simp, by simp, l3⟩, Sphincs.spx_keygen_spec Sphincs.length_shake256F _ _ _ (by simp) (by simp) l3, shake256F_eq h2, e, List.drop_drop]
  have hz : (zeros 1312).length = 1312 := by simp
  have hz' : (zeros 2560).length = 2560 := by simp
  have hspec := dil_keygen_spec h1 h2 hz hz' l2
  constructor
  · intro fuel c pkb skb e
    unfold keyBytes at e
    rw [eEd, ok_bind] at e
    simp only [] at e
    rw [if_neg (by simp), dilKeypair_eq, when_pos ⟨hz, hz', l2⟩] at e
    obtain ⟨⟨c2, pk2, sk2⟩, e2, e⟩ := bind_eq_ok.1 e
    obtain ⟨rfl, hg, -, -⟩ := hspec.2.1 fuel _ _ _ e2
    simp only [] at e
    rw [if_neg (by simp), eSp, ok_bind] at e
    simp only [] at e
    rw [if_neg (by simp)] at e
    have e := Except.ok.inj e
    rw [Prod.mk.injEq, Prod.mk.injEq] at e
    obtain ⟨rfl, rfl, rfl⟩ := e
    exact ⟨rfl, pk2, sk2, hg, rfl, rfl⟩
  · rintro pkb skb ⟨pk2, sk2, hg, rfl, rfl⟩
    obtain ⟨F, hF⟩ := hspec.2.2 pk2 sk2 hg
    refine ⟨F, fun fuel hf => ?_⟩
    unfold keyBytes
    rw [eEd, ok_bind]
    simp only []
    rw [if_neg (by simp), dilKeypair_eq, when_pos ⟨hz, hz', l2⟩, hF fuel hf, ok_bind]
    simp only []
    rw [if_neg (by simp), eSp, ok_bind]
    simp only []
    rw [if_neg (by simp)]

/-- C67: seeded key generation always returns 0 when it ends, with the keys of the specifications; and it ends when they exist. -/
theorem real_keypair (h1 : IsShake128 H128) (h2 : IsShake256 H256) {W : World} {pk sk seed : Ptr} {seedb : Bytes}
    (hs : W.view seed 160 = some seedb) (hpk : (W.view pk 1408).isSome) (hsk : (W.view sk 4064).isSome) (hd : Disj pk 1408 sk 4064) :
    (∀ fuel r W', keypairSeed (real fuel) (some pk) (some sk) (some seed) W = .ok (r, W') →
      r = 0 ∧ ∃ pkb skb, KeysOf H128 H256 seedb pkb skb ∧ W' = (W.write pk pkb).write sk skb) ∧
    (∀ pkb skb, KeysOf H128 H256 seedb pkb skb → ∃ F, ∀ fuel, F ≤ fuel →
      keypairSeed (real fuel) (some pk) (some sk) (some seed) W = .ok (0, (W.write pk pkb).write sk skb)) := by
  have hk := keyBytes_real h1 h2 (length_of_view hs)
  have hrun : ∀ fuel, keypairSeed (real fuel) (some pk) (some sk) (some seed) W = _ := fun fuel => keypairSeed_run real_sized hs hpk hsk hd
  constructor
  · intro fuel r W' h
    rw [hrun] at h
    obtain ⟨⟨c, pkb, skb⟩, e, h⟩ := bind_eq_ok.1 h
    obtain ⟨rfl, hg⟩ := hk.1 _ _ _ _ e
    have h := Except.ok.inj h
    rw [Prod.mk.injEq] at h
    exact ⟨h.1.symm, _, _, hg, h.2.symm⟩
  · intro pkb skb hg
    obtain ⟨F, hF⟩ := hk.2 pkb skb hg
    refine ⟨F, fun fuel hf => ?_⟩
    rw [hrun, hF fuel hf, ok_bind]

/-- C67, without a seed: key generation makes one draw of 160 bytes; if it fails the result is -1 and memory is unchanged, otherwise the keys are those of the drawn seed. -/
theorem real_keypair_unseeded (h1 : IsShake128 H128) (h2 : IsShake256 H256) {W : World} (hW : W.WF) {pk sk : Ptr}
    (hpk : (W.view pk 1408).isSome) (hsk : (W.view sk 4064).isSome) (hd : Disj pk 1408 sk 4064) :
    (∀ fuel r W', keypair (real fuel) (some pk) (some sk) W = .ok (r, W') →
      (r = -1 ∧ W.rng.draw W.rng.log.length 160 = none ∧ W' = { W with rng := Sphincs.drawn W.rng 160 }) ∨
      (r = 0 ∧ ∃ seedb pkb skb, W.rng.draw W.rng.log.length 160 = some seedb ∧ KeysOf H128 H256 seedb pkb skb ∧
        W' = (({ W with rng := Sphincs.drawn W.rng 160 } : World).write pk pkb).write sk skb)) ∧
    (∀ seedb pkb skb, W.rng.draw W.rng.log.length 160 = some seedb → KeysOf H128 H256 seedb pkb skb → ∃ F, ∀ fuel, F ≤ fuel →
      keypair (real fuel) (some pk) (some sk) W = .ok (0, (({ W with rng := Sphincs.drawn W.rng 160 } : World).write pk pkb).write sk skb)) := by
  have hrun : ∀ fuel, keypair (real fuel) (some pk) (some sk) W = (match W.rng.draw W.rng.log.length 160 with
      | none => .ok (-1, { W with rng := Sphincs.drawn W.rng 160 })
      | some seedb => keyBytes (real fuel) seedb >>= fun r =>
          .ok (r.1, (({ W with rng := Sphincs.drawn W.rng 160 } : World).write pk r.2.1).write sk r.2.2)) :=
    fun fuel => keypair_run hW real_sized hpk hsk hd
  constructor
  · intro fuel r W' h
    rw [hrun] at h
    cases hr : W.rng.draw W.rng.log.length 160 with
    | none =>
      rw [hr] at h
      have h := Except.ok.inj h
      rw [Prod.mk.injEq] at h
      exact Or.inl ⟨h.1.symm, rfl, h.2.symm⟩
    | some seedb =>
      rw [hr] at h
      obtain ⟨⟨c, pkb, skb⟩, e, h⟩ := bind_eq_ok.1 h
      obtain ⟨rfl, hg⟩ := (keyBytes_real h1 h2 (W.rng.len_draw _ _ _ hr)).1 _ _ _ _ e
      have h := Except.ok.inj h
      rw [Prod.mk.injEq] at h
      exact Or.inr ⟨h.1.symm, seedb, _, _, rfl, hg, h.2.symm⟩
  · intro seedb pkb skb hr hg
    obtain ⟨F, hF⟩ := (keyBytes_real h1 h2 (W.rng.len_draw _ _ _ hr)).2 pkb skb hg
    refine ⟨F, fun fuel hf => ?_⟩
    rw [hrun, hr]
    simp only []
    rw [hF fuel hf, ok_bind]

example : (demo.view ⟨5, 0⟩ 160).isSome ∧ (demo.view ⟨4, 0⟩ 1408).isSome ∧ (demo.view ⟨3, 0⟩ 4064).isSome ∧ Disj ⟨4, 0⟩ 1408 ⟨3, 0⟩ 4064 :=
  ⟨some_isSome (demo_seed 160 (by omega)), some_isSome demo_pk, some_isSome demo_sk, Or.inl (by decide)⟩
example : demo.WF ∧ demo.rng.draw demo.rng.log.length 160 = some (List.replicate 160 0) := ⟨demo_WF, rfl⟩

end Verif.Real
