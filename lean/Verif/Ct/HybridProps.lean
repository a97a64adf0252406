import Verif.Ct.HybridTraces
import Verif.Witness.HybridC

/-!
C102: what control flow and memory addresses of the functions of hybrid-dilithium-sphincs/hybrid.c that handle secrets show.  Each theorem says that the sequence of accesses and branches is
a function of the things named in it.  `t` is the same for all keys, messages, random bytes and states of the memory.
-/

namespace Verif.Ct.Hybrid
open Verif Verif.Hybrid Verif.Real
open Verif.Dilithium (IsShake128 IsShake256 S128 S256 isShake128_S128 isShake256_S256 dil_deterministic)
open Verif.Dilithium.Spec (KeyGen)
open Verif.Ct.Dilithium.Spec (Rejected shown)

variable {H128 H256 : Bytes → Nat → Bytes}

private theorem isSome_of {α : Type} {o : Option α} {x : α} (h : o = some x) : o.isSome := by rw [h]; rfl

/-- C102, seed expansion: nothing is shown. -/
theorem ct_hybrid_expander : ∃ t : List Ev, ∀ (fuel : Nat) (W : World) (seed ex : Ptr) (seedb : Bytes),
    W.view seed 96 = some seedb → (W.view ex 160).isSome → Disj ex 160 seed 96 →
    ∃ W', Verif.Hybrid.seedExpander (real fuel) (some seed) (some ex) W = .ok (0, W') ∧ seedExpander (some seed) (some ex) W = ⟨.ok (0, W'), t⟩ := by
  obtain ⟨t, ht⟩ := expander_tr
  refine ⟨t, fun fuel W seed ex seedb hs hx hd => ?_⟩
  obtain ⟨_, _, -, -, -, e⟩ := real_expander (fuel := fuel) hs hx hd
  have e' := (seedExpander_res fuel (some seed) (some ex) W).trans e
  exact ⟨_, e, T_ext e' (ht _ _ _ _ _ _ hs e')⟩

example : ∃ W : World, W.view ⟨0, 0⟩ 96 = some (List.replicate 96 7) ∧ (W.view ⟨1, 0⟩ 160).isSome ∧ Disj ⟨1, 0⟩ 160 ⟨0, 0⟩ 96 :=
  ⟨{ Toy.demo with mem := fun b => if b = 0 then some (List.replicate 96 7) else some (List.replicate 160 0) },
   view_block rfl List.length_replicate, by rw [view_block (x := List.replicate 160 0) rfl List.length_replicate]; rfl, Or.inl (by decide)⟩

/-- C102, key generation: shown are the public seed of Dilithium (bytes 32 to 63 of the public key) and which half bytes of the Dilithium secret stream the sampler accepts; nothing else of the
seed, and nothing at all of the Ed25519 and SPHINCS+ parts. -/
theorem ct_hybrid_keypair (h1 : IsShake128 H128) (h2 : IsShake256 H256) : ∃ (t : Bytes → (Nat → Nat → Bool) → List Ev) (u : Bytes → (Nat → Nat → Bool) → List Ev) (f : List Ev),
    (∀ (fuel : Nat) (W W' : World) (pk sk seed : Ptr) (seedb : Bytes) (r : Int), W.view seed 160 = some seedb → (W.view pk 1408).isSome → (W.view sk 4064).isSome → Disj pk 1408 sk 4064 →
      Verif.Hybrid.keypairSeed (real fuel) (some pk) (some sk) (some seed) W = .ok (r, W') →
      r = 0 ∧ ∃ pkb skb, KeysOf H128 H256 seedb pkb skb ∧ W' = (W.write pk pkb).write sk skb ∧
        keypairSeed fuel (some pk) (some sk) (some seed) W = ⟨.ok (0, W'), t (slice pkb 32 32) (fun n i => decide (n < 8) && shown (slice (H256 (slice seedb 32 32) 128) 32 64) n i)⟩) ∧
    (∀ (fuel : Nat) (W W' : World) (pk sk : Ptr) (r : Int), W.WF → (W.view pk 1408).isSome → (W.view sk 4064).isSome → Disj pk 1408 sk 4064 →
      Verif.Hybrid.keypair (real fuel) (some pk) (some sk) W = .ok (r, W') →
      (W.rng.draw W.rng.log.length 160 = none ∧ r = -1 ∧ keypair fuel (some pk) (some sk) W = ⟨.ok (-1, W'), f⟩) ∨
      ∃ seedb, W.rng.draw W.rng.log.length 160 = some seedb ∧ r = 0 ∧ ∃ pkb skb, KeysOf H128 H256 seedb pkb skb ∧
        W' = (({ W with rng := Verif.Sphincs.drawn W.rng 160 } : World).write pk pkb).write sk skb ∧
        keypair fuel (some pk) (some sk) W = ⟨.ok (0, W'), u (slice pkb 32 32) (fun n i => decide (n < 8) && shown (slice (H256 (slice seedb 32 32) 128) 32 64) n i)⟩) := by
  obtain rfl := h1.eq
  obtain rfl := h2.eq
  obtain ⟨t, ht⟩ := keypairSeed_tr
  have hrho : ∀ {seedb pkb skb pk2 sk2 : Bytes}, seedb.length = 160 → KeysOf S128 S256 seedb pkb skb → KeyGen S128 S256 (slice seedb 32 32) pk2 sk2 → pk2.take 32 = slice pkb 32 32 := by
    intro seedb pkb skb pk2 sk2 hl hk hg
    have hp := (keysOf_parts isShake128_S128 isShake256_S256 hl hk).2.2.2.2.2.1
    obtain ⟨rfl, -⟩ := (dil_deterministic isShake128_S128 isShake256_S256).1 _ _ _ _ _ (length_slice (by omega)) hg hp
    rw [pkDil, List.take_take]
    rfl
  refine ⟨t, fun a p => [.branch false] ++ ([] ++ ([.branch false] ++ t a p)), [.branch false] ++ ([] ++ ([.branch true] ++ [])), ?_, ?_⟩
  · intro fuel W W' pk sk seed seedb r hs hpk hsk hd h
    obtain ⟨rfl, pkb, skb, hk, hW⟩ := (real_keypair h1 h2 hs hpk hsk hd).1 _ _ _ h
    have e := (keypairSeed_res fuel (some pk) (some sk) (some seed) W).trans h
    obtain ⟨pk2, sk2, hg, htr⟩ := ht _ _ _ _ _ _ _ _ hs e
    refine ⟨rfl, pkb, skb, hk, hW, T_ext e ?_⟩
    rw [htr, hrho (length_of_view hs) hk hg]
  · intro fuel W W' pk sk r hW hpk hsk hd h
    have e := (keypair_res fuel (some pk) (some sk) W).trans h
    rw [keypair_run hW real_sized hpk hsk hd] at h
    unfold randombytes at h
    rw [ok_bind] at h
    have eK : keypair fuel (some pk) (some sk) W = ⟨_, _⟩ := bind_run (note_run [.branch false] W)
    rw [bind_run (random_run 160 W)] at eK
    dsimp only at h
    cases hdr : W.rng.draw W.rng.log.length 160 with
    | none =>
      rw [hdr] at eK h
      dsimp only at eK h
      rw [bind_run (note_run _ _)] at eK
      dsimp only at eK
      simp only [Except.ok.injEq, Prod.mk.injEq] at h
      obtain ⟨rfl, -⟩ := h
      exact Or.inl ⟨rfl, rfl, T_ext e (congrArg T.tr eK)⟩
    | some seedb =>
      rw [hdr] at eK h
      dsimp only at eK h
      rw [bind_run (note_run _ _)] at eK
      dsimp only at eK
      have hl : seedb.length = 160 := W.rng.len_draw _ _ _ hdr
      obtain ⟨⟨c, pkb, skb⟩, e1, e2⟩ := bind_eq_ok.1 h
      obtain ⟨rfl, hk⟩ := (keyBytes_real h1 h2 hl).1 _ _ _ _ e1
      simp only [Except.ok.injEq, Prod.mk.injEq] at e2
      obtain ⟨rfl, hW'⟩ := e2
      refine Or.inr ⟨seedb, rfl, rfl, pkb, skb, hk, ?_, T_ext e ?_⟩
      · rw [← hW']
        unfold Verif.Sphincs.drawn
        simp only [hdr]
      · have e3 := (congrArg T.res eK).symm.trans e
        dsimp only at e3
        obtain ⟨⟨r1, W1⟩, e4, e5⟩ := withLocal_tr e3
        obtain ⟨pk2, sk2, hg, htr⟩ := ht _ _ _ _ _ _ seedb _ (by rw [push_view_new _ seedb (by omega), slice_full hl]) e4
        rw [eK]
        dsimp only
        rw [e5, htr, hrho hl hk hg]

example : ∃ (fuel : Nat) (W W' : World) (pk sk seed : Ptr) (seedb : Bytes), W.view seed 160 = some seedb ∧ (W.view pk 1408).isSome ∧ (W.view sk 4064).isSome ∧ Disj pk 1408 sk 4064 ∧
    Verif.Hybrid.keypairSeed (real fuel) (some pk) (some sk) (some seed) W = .ok (0, W') := by
  obtain ⟨pk, skb, -, hk, -⟩ := Witness.keys_and_signature
  have v0 : (holding [zeros 1408, zeros 4064, Witness.seed160]).view ⟨0, 0⟩ 1408 = some (zeros 1408) := holding_view rfl List.length_replicate
  have v1 : (holding [zeros 1408, zeros 4064, Witness.seed160]).view ⟨1, 0⟩ 4064 = some (zeros 4064) := holding_view rfl List.length_replicate
  have v2 : (holding [zeros 1408, zeros 4064, Witness.seed160]).view ⟨2, 0⟩ 160 = some Witness.seed160 := holding_view rfl Witness.length_seed160
  obtain ⟨F, hF⟩ := (real_keypair isShake128_S128 isShake256_S256 v2 (isSome_of v0) (isSome_of v1) (Or.inl (by decide))).2 _ _ hk
  exact ⟨F, _, _, _, _, _, _, v2, isSome_of v0, isSome_of v1, Or.inl (by decide), hF F (Nat.le_refl _)⟩

/-- C102, signing in full mode, for a secret key whose Dilithium part was generated: shown are the public key, the message, the signature and, from Dilithium, the challenges of the attempts that
it rejected and where it rejected them (`Rejected`, see C95).  A call that fails because there are no random bytes (-4) shows that Dilithium signature, though it does not give it out. -/
theorem ct_hybrid_sign_full (h1 : IsShake128 H128) (h2 : IsShake256 H256) :
    ∃ (t : Bytes → Bytes → Bytes → List (Bytes × List Nat) → List Ev) (u : Bytes → Nat → Bytes → List (Bytes × List Nat) → List Ev),
    ∀ (fuel : Nat) (W W' : World) (sm smlen m sk : Ptr) (mlen : Nat) (seed pk skb msg : Bytes) (r : Int),
      KeyGen H128 H256 seed (pkDil pk) (skDil skb) → skSpxPk skb = pkSpx pk →
      W.view m mlen = some msg → W.view sk 4064 = some skb → (W.view sm (52342 + mlen)).isSome → (W.view smlen 8).isSome → Disj smlen 8 sm (52342 + mlen) → 1 ≤ mlen → mlen ≤ 64 →
      Verif.Hybrid.signFull (real fuel) (some sm) (some smlen) (some m) mlen (some sk) W = .ok (r, W') →
      (r = 0 ∧ ∃ sig ls, W'.view sm (52342 + mlen) = some sig ∧ Rejected (skDil skb) msg (slice sig (66 + mlen) 2420) ls ∧
        signFull fuel (some sm) (some smlen) (some m) mlen (some sk) W = ⟨.ok (0, W'), t pk msg sig ls⟩) ∨
      (r = -4 ∧ ∃ dil ls, Rejected (skDil skb) msg dil ls ∧ signFull fuel (some sm) (some smlen) (some m) mlen (some sk) W = ⟨.ok (-4, W'), u (pkDil pk) mlen dil ls⟩) := by
  obtain rfl := h1.eq
  obtain rfl := h2.eq
  obtain ⟨t, u, ht⟩ := signFull_tr
  refine ⟨fun pk msg sig ls => t (pkDil pk ++ pkSpx pk) msg (slice sig (66 + msg.length) 2420) (slice sig (2486 + msg.length) 49856) ls, u,
    fun fuel W W' sm smlen m sk mlen seed pk skb msg r hk hp hm hsk hsm hl hd hlo hhi h => ?_⟩
  have e := (signFull_res fuel (some sm) (some smlen) (some m) mlen (some sk) W).trans h
  have hmb := length_of_view hm
  have hkb := length_of_view hsk
  have ep : (skSpx skb).drop 64 = pkSpx pk := by
    rw [← hp, skSpx, skSpxPk, List.drop_take, List.drop_drop]
  obtain ⟨dil, k, ls, hs, hR, hn, ho⟩ := ht _ _ _ _ _ _ _ _ _ _ _ _ _ hk hm hsk hlo hhi e
  rcases (real_full_sign h1 h2 hm hsk hsm hl hlo hhi).1 _ _ _ h with ⟨rfl, hdr, -⟩ | ⟨rfl, opt, sig, hdr, ⟨k', dil', hs', rfl⟩, rfl⟩
  · exact Or.inr ⟨rfl, dil, ls, hR, T_ext e (hn hdr)⟩
  · obtain ⟨spx, hx, htr⟩ := ho opt hdr
    have l2 := (Verif.Dilithium.keygen_parts hk).2.1
    obtain rfl := (dil_deterministic isShake128_S128 isShake256_S256).2 _ _ _ _ _ _ l2 hs hs'
    rw [← hx]
    have lS : spx.length = 49856 := by
      rw [hx, ← shake256F_eq isShake256_S256]
      exact Verif.Sphincs.length_sign Verif.Sphincs.length_shake256F _ _ _ _ _
    have ld := dilSigned_length isShake128_S128 isShake256_S256 l2 hs
    obtain ⟨w1, -, -, -, w2, w3, -⟩ := wire_full_slices (Ed25519.length_specSign (skb.take 32) ((skb.drop 32).take 32) msg) ld lS (show msg.length ≤ 64 by omega)
    rw [hmb] at w1 w2 w3
    refine Or.inl ⟨rfl, fullWire (Ed25519.Spec.sign (skb.take 32) ((skb.drop 32).take 32) msg) msg dil spx, ls, ?_, ?_, T_ext ?_ ?_⟩
    · rw [view_write_disj (by exact hd)]
      exact view_write_same' (by exact hsm) w1
    · rw [w2]
      exact hR
    · rw [e, ← hx]
    · dsimp only
      rw [hmb, w2, w3, htr, ep]

/-- A world whose random source gives `b` (no line of its own; for the examples). -/
def giving (b : Bytes) (l : List Bytes) : World where
  mem := fun i => l[i]?
  sp := l.length
  rng :=
    { draw := fun _ n => if b.length = n then some b else none
      len_draw := by
        intro i n x hx
        by_cases hn : b.length = n
        · rw [if_pos hn] at hx; cases hx; exact hn
        · rw [if_neg hn] at hx; cases hx
      log := [] }

theorem giving_view {b : Bytes} {l : List Bytes} {i n : Nat} {x : Bytes} (h : l[i]? = some x) (hn : x.length = n) : (giving b l).view ⟨i, 0⟩ n = some x := view_block h hn

theorem giving_draw {b : Bytes} {l : List Bytes} {n : Nat} (hn : b.length = n) : (giving b l).rng.draw (giving b l).rng.log.length n = some b := if_pos hn

example : ∃ (fuel : Nat) (W W' : World) (sm smlen m sk : Ptr) (seed pk skb : Bytes), KeyGen S128 S256 seed (pkDil pk) (skDil skb) ∧ skSpxPk skb = pkSpx pk ∧
    W.view m 1 = some [2] ∧ W.view sk 4064 = some skb ∧ (W.view sm (52342 + 1)).isSome ∧ (W.view smlen 8).isSome ∧ Disj smlen 8 sm (52342 + 1) ∧
    Verif.Hybrid.signFull (real fuel) (some sm) (some smlen) (some m) 1 (some sk) W = .ok (0, W') := by
  obtain ⟨pk, skb, sig, hk, hs⟩ := Witness.keys_and_signature
  have hp := keysOf_parts isShake128_S128 isShake256_S256 Witness.length_seed160 hk
  have hz : (zeros 52343).length = 52343 := List.length_replicate
  generalize zeros 52343 = z at hz
  have v0 : (giving (List.replicate 32 0) [z, zeros 8, [2], skb]).view ⟨0, 0⟩ (52342 + 1) = some z := giving_view rfl hz
  have v1 : (giving (List.replicate 32 0) [z, zeros 8, [2], skb]).view ⟨1, 0⟩ 8 = some (zeros 8) := giving_view rfl List.length_replicate
  have v2 : (giving (List.replicate 32 0) [z, zeros 8, [2], skb]).view ⟨2, 0⟩ 1 = some [2] := giving_view rfl rfl
  have v3 : (giving (List.replicate 32 0) [z, zeros 8, [2], skb]).view ⟨3, 0⟩ 4064 = some skb := giving_view rfl hp.2.1
  obtain ⟨F, hF⟩ := (real_full_sign isShake128_S128 isShake256_S256 v2 v3 (isSome_of v0) (isSome_of v1) (by decide) (by decide)).2 _ _ (giving_draw List.length_replicate) hs
  exact ⟨F, _, _, _, _, _, _, _, pk, skb, hp.2.2.2.2.2.1, hp.2.2.2.2.2.2.2.1, v2, v3, isSome_of v0, isSome_of v1, Or.inl (by decide), hF F (Nat.le_refl _)⟩

/-- C102, signing in compact mode, for a secret key whose Dilithium part was generated: shown are the Dilithium public key, the length of the message, the Dilithium part of the signature and
the rejected attempts for the hash that is signed; and a call that fails shows nothing. -/
theorem ct_hybrid_sign_compact (h1 : IsShake128 H128) (h2 : IsShake256 H256) :
    ∃ (t : Bytes → Nat → Bytes → List (Bytes × List Nat) → List Ev) (f : List Ev),
    ∀ (fuel : Nat) (W W' : World) (sm smlen m sk : Ptr) (mlen : Nat) (seed pk skb msg : Bytes) (r : Int),
      KeyGen H128 H256 seed (pkDil pk) (skDil skb) →
      W.view m mlen = some msg → W.view sk 4064 = some skb → (W.view sm (2526 + mlen)).isSome → (W.view smlen 8).isSome → Disj sm (2526 + mlen) m mlen → Disj smlen 8 sm (2526 + mlen) →
      1 ≤ mlen → mlen ≤ 64 →
      Verif.Hybrid.signCompact (real fuel) (some sm) (some smlen) (some m) mlen (some sk) W = .ok (r, W') →
      (r = 0 ∧ ∃ sig h ls, W'.view sm (2526 + mlen) = some sig ∧ IsCompactHash (slice sig 2486 40) msg (skSpxPk skb) h ∧ Rejected (skDil skb) h (slice sig 66 2420) ls ∧
        signCompact fuel (some sm) (some smlen) (some m) mlen (some sk) W = ⟨.ok (0, W'), t (pkDil pk) mlen (slice sig 66 2420) ls⟩) ∨
      (r = -1 ∧ signCompact fuel (some sm) (some smlen) (some m) mlen (some sk) W = ⟨.ok (-1, W'), f⟩) := by
  obtain rfl := h1.eq
  obtain rfl := h2.eq
  obtain ⟨t, ht⟩ := signCompact_tr
  refine ⟨t, .branch false :: (inTr 0 0 ED_SK ++ (inTr 0 ED_SK DIL_SK ++ ([] ++ ([.branch true] ++ [])))),
    fun fuel W W' sm smlen m sk mlen seed pk skb msg r hk hm hsk hsm hl hd hd2 hlo hhi h => ?_⟩
  have e := (signCompact_res fuel (some sm) (some smlen) (some m) mlen (some sk) W).trans h
  have hmb := length_of_view hm
  have hkb := length_of_view hsk
  rcases (real_compact_sign h1 h2 hm hsk hsm hl hd hlo hhi).1 _ _ _ h with ⟨rfl, hdr, -⟩ | ⟨rfl, nonce, sig, hdr, ⟨h', k', dil', hh', hs', rfl⟩, rfl⟩
  · refine Or.inr ⟨rfl, T_ext e ?_⟩
    generalize hy : signCompact fuel (some sm) (some smlen) (some m) mlen (some sk) W = y
    unfold signCompact at hy
    dsimp only at hy
    rw [condM_neg (by simp [MAX_MSG_LEN]; omega), bind_run (copyIn_step (copyIn_zeros hsk (by decide))), bind_run (copyIn_step (copyIn_zeros hsk (by decide))), bind_run (random_run _ _), hdr] at hy
    rw [← hy]
    rfl
  · obtain ⟨hh, dil, k, ls, hhb, hs, hR, htr⟩ := ht _ _ _ _ _ _ _ _ _ _ _ _ _ _ hk hm hsk hlo hhi hdr e
    obtain rfl : hh = h' := Keccak.bits_injective (hhb.trans hh'.symm)
    have l2 := (Verif.Dilithium.keygen_parts hk).2.1
    obtain rfl := (dil_deterministic isShake128_S128 isShake256_S256).2 _ _ _ _ _ _ l2 hs hs'
    have ld := dilSigned_length isShake128_S128 isShake256_S256 l2 hs
    obtain ⟨w1, -, -, -, w2, w3, -⟩ := wire_compact_slices (Ed25519.length_specSign (skb.take 32) ((skb.drop 32).take 32) hh) ld (W.rng.len_draw _ _ _ hdr) (show msg.length ≤ 64 by omega)
    rw [hmb] at w1
    refine Or.inl ⟨rfl, compactWire (Ed25519.Spec.sign (skb.take 32) ((skb.drop 32).take 32) hh) dil nonce msg, hh, ls, ?_, ?_, ?_, T_ext e ?_⟩
    · rw [view_write_disj (by exact hd2)]
      exact view_write_same' (by exact hsm) w1
    · rw [w3]
      exact hhb
    · rw [w2]
      exact hR
    · rw [htr, w2]

example : ∃ (fuel : Nat) (W W' : World) (sm smlen m sk : Ptr) (seed pk skb : Bytes), KeyGen S128 S256 seed (pkDil pk) (skDil skb) ∧
    W.view m 1 = some [2] ∧ W.view sk 4064 = some skb ∧ (W.view sm (2526 + 1)).isSome ∧ (W.view smlen 8).isSome ∧ Disj sm (2526 + 1) m 1 ∧ Disj smlen 8 sm (2526 + 1) ∧
    Verif.Hybrid.signCompact (real fuel) (some sm) (some smlen) (some m) 1 (some sk) W = .ok (0, W') := by
  obtain ⟨pk, skb, sig, -, -, hl, hs, -, hk, -⟩ := Witness.compact_signature
  have hz : (zeros 2527).length = 2527 := List.length_replicate
  generalize zeros 2527 = z at hz
  have v0 : (giving Witness.nonceC [z, zeros 8, [2], skb]).view ⟨0, 0⟩ (2526 + 1) = some z := giving_view rfl hz
  have v1 : (giving Witness.nonceC [z, zeros 8, [2], skb]).view ⟨1, 0⟩ 8 = some (zeros 8) := giving_view rfl List.length_replicate
  have v2 : (giving Witness.nonceC [z, zeros 8, [2], skb]).view ⟨2, 0⟩ 1 = some [2] := giving_view rfl rfl
  have v3 : (giving Witness.nonceC [z, zeros 8, [2], skb]).view ⟨3, 0⟩ 4064 = some skb := giving_view rfl hl
  obtain ⟨F, hF⟩ := (real_compact_sign isShake128_S128 isShake256_S256 v2 v3 (isSome_of v0) (isSome_of v1) (Or.inl (by decide)) (by decide) (by decide)).2 _ _
    (giving_draw (by decide)) hs
  exact ⟨F, _, _, _, _, _, _, _, pk, skb, hk, v2, v3, isSome_of v0, isSome_of v1, Or.inl (by decide), Or.inl (by decide), hF F (Nat.le_refl _)⟩

end Verif.Ct.Hybrid
