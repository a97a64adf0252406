import Verif.Real.Props2

/-!
End-to-end properties, third part: the scheme is correct (C69), round trips of the API (C01 to C04), absence of undefined behaviour (C13), the seed expander (C18) and
malleability (C21).
-/

namespace Verif.Real
open Verif Verif.Hybrid Verif.Hybrid.Toy Dilithium

variable {fuel : Nat} {H128 H256 : Bytes → Nat → Bytes}

/-! ### C69: correctness of the scheme -/

theorem length_spxPk (h2 : IsShake256 H256) {pub sec : Bytes} (h : pub.length = 32) : (Sphincs.Spec.publicKey H256 ⟨pub, sec⟩).length = 64 := by
  rw [← shake256F_eq h2, Sphincs.Spec.publicKey, List.length_append, Sphincs.length_xmssRoot Sphincs.length_shake256F]; exact congrArg (· + 32) h

theorem keysOf_parts (h1 : IsShake128 H128) (h2 : IsShake256 H256) {seed pk sk : Bytes} (hs : seed.length = 160) (h : KeysOf H128 H256 seed pk sk) :
    pk.length = 1408 ∧ sk.length = 4064 ∧
    pkEd pk = Ed25519.Spec.publicKey (seed.take 32) ∧ sk.take 32 = seed.take 32 ∧ (sk.drop 32).take 32 = pkEd pk ∧
    Dilithium.Spec.KeyGen H128 H256 ((seed.drop 32).take 32) (pkDil pk) (skDil sk) ∧
    pkSpx pk = Sphincs.Spec.publicKey H256 ⟨seed.drop 128, (seed.drop 64).take 32⟩ ∧ skSpxPk sk = pkSpx pk ∧
    slice (skSpx sk) 64 32 = seed.drop 128 ∧ (skSpx sk).take 32 = (seed.drop 64).take 32 ∧ (skSpx sk).drop 64 = pkSpx pk := by
  obtain ⟨dilPk, dilSk, hg, rfl, rfl⟩ := h
  have g1 : dilPk.length = 1312 ∧ dilSk.length = 2560 := by
    have hl : ((seed.drop 32).take 32).length = 32 := by rw [List.length_take, List.length_drop]; omega
    obtain ⟨F, hF⟩ := (dil_keygen_spec (pk := zeros 1312) (sk := zeros 2560) h1 h2 List.length_replicate List.length_replicate hl).2.2 _ _ hg
    exact ((dil_keygen_spec (pk := zeros 1312) (sk := zeros 2560) h1 h2 List.length_replicate List.length_replicate hl).2.1 _ _ _ _ (hF F (Nat.le_refl _))).2.2
  have lE : (Ed25519.Spec.publicKey (seed.take 32)).length = 32 := Ed25519.length_encode _
  have lp : (seed.drop 128).length = 32 := by rw [List.length_drop]; omega
  have lS := length_spxPk h2 (sec := (seed.drop 64).take 32) lp
  have ls : (seed.take 32).length = 32 := by rw [List.length_take]; omega
  have ed : (Sphincs.Spec.publicKey H256 ⟨seed.drop 128, (seed.drop 64).take 32⟩).take 32 = seed.drop 128 := by
    rw [Sphincs.Spec.publicKey]
    exact List.take_left' lp
  obtain ⟨S, hS⟩ : ∃ S, S = Sphincs.Spec.publicKey H256 ⟨seed.drop 128, (seed.drop 64).take 32⟩ := ⟨_, rfl⟩
  rw [← hS] at lS ed ⊢
  have l64 : (seed.drop 64 ++ S.drop 32).length = 128 := by rw [List.length_append, List.length_drop, List.length_drop]; omega
  have e64 : (seed.drop 64 ++ S.drop 32).drop 64 = S := by
    rw [List.drop_append_of_le_length (by rw [List.length_drop]; omega), List.drop_drop, ← ed, List.take_append_drop]
  obtain ⟨p1, p2, p3⟩ := pk_parts lE g1.1 lS
  obtain ⟨q1, q2, q3, q4⟩ := sk_parts (a := seed.take 32 ++ Ed25519.Spec.publicKey (seed.take 32)) (by rw [List.length_append]; omega) g1.2 g1.1 l64
  rw [p1, p2, p3, q2, q3, q4, e64]
  refine ⟨by simp only [List.length_append]; omega, by simp only [List.length_append, List.length_drop] at l64 ⊢; omega, rfl, ?_, ?_, hg, rfl, rfl, ?_, ?_, rfl⟩
  · simp only [List.append_assoc]
    rw [List.take_left' ls]
  · simp only [List.append_assoc]
    rw [List.drop_left' ls, List.take_left' lE]
  · unfold slice
    rw [e64, ed]
  · rw [List.take_append_of_le_length (by rw [List.length_drop]; omega)]

/-- C69, full mode: what the signer makes with the keys of a seed is a full-mode signature of the message. -/
theorem full_scheme_correct (h1 : IsShake128 H128) (h2 : IsShake256 H256) {seed pk sk msg opt sm : Bytes} (hs : seed.length = 160) (hlo : 1 ≤ msg.length) (hhi : msg.length ≤ 64)
    (hk : KeysOf H128 H256 seed pk sk) (hsig : FullSigned H128 H256 sk msg opt sm) : FullMeets H128 H256 pk msg sm := by
  obtain ⟨lp, lk, a1, a2, a3, a4, a5, a6, a7, a8, a9⟩ := keysOf_parts h1 h2 hs hk
  obtain ⟨k, dil, hd, rfl⟩ := hsig
  have hl : dil.length = 2420 := by
    have l2 : (skDil sk).length = 2560 := by unfold skDil; rw [List.length_take, List.length_drop]; omega
    obtain ⟨F, hF⟩ := (dil_sign_spec (sig := zeros 2420) (n := 0) h1 h2 l2 List.length_replicate).2.2 _ _ hd
    exact ((dil_sign_spec (sig := zeros 2420) (n := 0) h1 h2 l2 List.length_replicate).2.1 _ _ _ _ (hF F (Nat.le_refl _))).2.2.1
  have hv : Sphincs.Spec.Valid H256 (pkSpx pk) (Sphincs.Spec.sign H256 ⟨slice (skSpx sk) 64 32, (skSpx sk).take 32⟩ (slice (skSpx sk) 32 32) ((skSpx sk).drop 64) opt msg) msg := by
    rw [a7, a8, a9, a5]
    exact Sphincs.sign_valid (shake := H256) (fun m n => by rw [← shake256F_eq h2]; exact Sphincs.length_shake256F m n)
      (s := ⟨seed.drop 128, (seed.drop 64).take 32⟩) (by show (seed.drop 128).length = 32; rw [List.length_drop]; omega) _ _ _
  refine ⟨hlo, hhi, _, dil, _, Ed25519.length_specSign _ _ _, hl, hv.1, rfl, ?_, dil_scheme_correct h1 h2 a4 hd, hv⟩
  rw [a2, a3, a1]
  exact Ed25519.valid_sign _ _

/-- C69, compact mode. -/
theorem compact_scheme_correct (h1 : IsShake128 H128) (h2 : IsShake256 H256) {seed pk sk msg nonce sm : Bytes} (hs : seed.length = 160) (hlo : 1 ≤ msg.length)
    (hhi : msg.length ≤ 64) (hn : nonce.length = 40) (hk : KeysOf H128 H256 seed pk sk) (hsig : CompactSigned H128 H256 sk msg nonce sm) : CompactMeets H128 H256 pk msg sm := by
  obtain ⟨lp, lk, a1, a2, a3, a4, a5, a6, -⟩ := keysOf_parts h1 h2 hs hk
  obtain ⟨h, k, dil, hh, hd, rfl⟩ := hsig
  have hl : dil.length = 2420 := by
    have l2 : (skDil sk).length = 2560 := by unfold skDil; rw [List.length_take, List.length_drop]; omega
    obtain ⟨F, hF⟩ := (dil_sign_spec (sig := zeros 2420) (n := 0) h1 h2 l2 List.length_replicate).2.2 _ _ hd
    exact ((dil_sign_spec (sig := zeros 2420) (n := 0) h1 h2 l2 List.length_replicate).2.1 _ _ _ _ (hF F (Nat.le_refl _))).2.2.1
  rw [a6] at hh
  refine ⟨hlo, hhi, _, dil, nonce, h, Ed25519.length_specSign _ _ _, hl, hn, rfl, hh, ?_, dil_scheme_correct h1 h2 a4 hd⟩
  rw [a2, a3, a1]
  exact Ed25519.valid_sign _ _

example : (List.replicate 160 (6 : Byte)).length = 160 ∧ (1 ≤ (List.replicate 20 (5 : Byte)).length ∧ (List.replicate 20 (5 : Byte)).length ≤ 64) ∧
    (List.replicate 40 (1 : Byte)).length = 40 := by
  refine ⟨List.length_replicate, ⟨?_, ?_⟩, List.length_replicate⟩ <;> rw [List.length_replicate] <;> decide

/-! ### C01 to C04: round trips of the API -/

theorem disj_symm {p q : Ptr} {n k : Nat} (h : Disj p n q k) : Disj q k p n := by
  unfold Disj at h ⊢
  rcases h with h | h | h
  · exact Or.inl (Ne.symm h)
  · exact Or.inr (Or.inr h)
  · exact Or.inr (Or.inl h)

theorem generated_keys (h1 : IsShake128 H128) (h2 : IsShake256 H256) {pkb skb : Bytes} (h : Generated (real fuel) pkb skb) :
    ∃ seed : Bytes, seed.length = 160 ∧ KeysOf H128 H256 seed pkb skb := by
  obtain ⟨W, W', pk, sk, seed, hs, hpk, hsk, hd, h, v1, v2⟩ := h
  obtain ⟨seedb, hs⟩ := Option.isSome_iff_exists.1 hs
  obtain ⟨-, p, s, hk, rfl⟩ := (real_keypair h1 h2 hs hpk hsk hd).1 _ _ _ h
  obtain ⟨lp, ls, -⟩ := keysOf_parts h1 h2 (length_of_view hs) hk
  rw [view_write_same' (write_view_isSome hsk) ls] at v2
  rw [view_write_disj (by rw [ls]; exact disj_symm hd), view_write_same' hpk lp] at v1
  cases v1; cases v2
  exact ⟨seedb, length_of_view hs, hk⟩

/-- The outcome of Dilithium verification does not depend on the fuel. -/
theorem dilVerify_fuel {f g : Nat} {sig m pk : Bytes} {v w : Int} (hs : sig.length = 2420) (hv : (real f).dilVerify sig m pk = .ok v) (hw : (real g).dilVerify sig m pk = .ok w) :
    v = w := by
  rw [dilVerify_eq, hs] at hv hw
  obtain ⟨hp, hv⟩ := when_ok hv
  obtain ⟨-, hw⟩ := when_ok hw
  have hf := (dil_verify_spec (m := m) isShake128_S128 isShake256_S256 hp hs).2.1
  rcases hf f v hv with ⟨rfl, a⟩ | ⟨rfl, a⟩ <;> rcases hf g w hw with ⟨rfl, b⟩ | ⟨rfl, b⟩
  · rfl
  · exact absurd a b
  · exact absurd b a
  · rfl

theorem fullOpen_fuel {f g : Nat} {sb pkb : Bytes} {x y : Except Int Bytes} (hx : fullOpen (real f) sb pkb = .ok x) (hy : fullOpen (real g) sb pkb = .ok y) : x = y := by
  unfold fullOpen at hx hy
  by_cases c1 : sb.length < 52343 ∨ sb.length > 52406
  · rw [if_pos c1] at hx hy
    exact Except.ok.inj (hx.symm.trans hy)
  rw [if_neg c1] at hx hy
  by_cases c2 : (sb.getD 0 0).toNat ≠ 2
  · rw [if_pos c2] at hx hy
    exact Except.ok.inj (hx.symm.trans hy)
  rw [if_neg c2] at hx hy
  simp only [] at hx hy
  obtain ⟨n, hn⟩ : ∃ n, n = (sb.getD 1 0).toNat := ⟨_, rfl⟩
  rw [← hn] at hx hy
  by_cases c3 : n ≤ 0 ∨ n > 64
  · rw [if_pos c3] at hx hy
    exact Except.ok.inj (hx.symm.trans hy)
  rw [if_neg c3] at hx hy
  by_cases c4 : sb.length ≠ 52342 + n
  · rw [if_pos c4] at hx hy
    exact Except.ok.inj (hx.symm.trans hy)
  rw [if_neg c4] at hx hy
  have hed : (real g).edOpen = (real f).edOpen := rfl
  have hsp : (real g).spxVerify = (real f).spxVerify := rfl
  rw [hed, hsp] at hy
  obtain ⟨⟨r1, m1, l1⟩, e1, hx⟩ := bind_eq_ok.1 hx
  rw [e1, ok_bind] at hy
  simp only [] at hx hy
  by_cases c5 : r1 ≠ 0
  · rw [if_pos c5] at hx hy
    exact Except.ok.inj (hx.symm.trans hy)
  rw [if_neg c5] at hx hy
  by_cases c6 : toInt32 l1 ≠ (n : Int)
  · rw [if_pos c6] at hx hy
    exact Except.ok.inj (hx.symm.trans hy)
  rw [if_neg c6] at hx hy
  obtain ⟨r2, e2, hx⟩ := bind_eq_ok.1 hx
  obtain ⟨s2, e2', hy⟩ := bind_eq_ok.1 hy
  have := dilVerify_fuel (length_slice (by omega)) e2 e2'
  subst this
  exact Except.ok.inj (hx.symm.trans hy)

theorem compactOpen_fuel {f g : Nat} {sb pkb : Bytes} {x y : Except Int Bytes} (hx : compactOpen (real f) sb pkb = .ok x) (hy : compactOpen (real g) sb pkb = .ok y) : x = y := by
  unfold compactOpen at hx hy
  by_cases c1 : sb.length < 2527 ∨ sb.length > 2590
  · rw [if_pos c1] at hx hy
    exact Except.ok.inj (hx.symm.trans hy)
  rw [if_neg c1] at hx hy
  by_cases c2 : (sb.getD 0 0).toNat ≠ 1
  · rw [if_pos c2] at hx hy
    exact Except.ok.inj (hx.symm.trans hy)
  rw [if_neg c2] at hx hy
  simp only [] at hx hy
  obtain ⟨n, hn⟩ : ∃ n, n = (sb.getD 1 0).toNat := ⟨_, rfl⟩
  rw [← hn] at hx hy
  by_cases c3 : n ≤ 0 ∨ n > 64
  · rw [if_pos c3] at hx hy
    exact Except.ok.inj (hx.symm.trans hy)
  rw [if_neg c3] at hx hy
  by_cases c4 : sb.length ≠ 2526 + n
  · rw [if_pos c4] at hx hy
    exact Except.ok.inj (hx.symm.trans hy)
  rw [if_neg c4] at hx hy
  have hed : (real g).edOpen = (real f).edOpen := rfl
  have hsp : (real g).sha3_512 = (real f).sha3_512 := rfl
  rw [hed, hsp] at hy
  obtain ⟨⟨r1, m1, l1⟩, e1, hx⟩ := bind_eq_ok.1 hx
  rw [e1, ok_bind] at hy
  simp only [] at hx hy
  by_cases c5 : r1 ≠ 0
  · rw [if_pos c5] at hx hy
    exact Except.ok.inj (hx.symm.trans hy)
  rw [if_neg c5] at hx hy
  by_cases c6 : l1 ≠ 64
  · rw [if_pos c6] at hx hy
    exact Except.ok.inj (hx.symm.trans hy)
  rw [if_neg c6] at hx hy
  by_cases c7 : m1.take 64 ≠ (real f).sha3_512 (slice sb 2486 40 ++ slice sb 2526 n ++ slice pkb 1344 64)
  · rw [if_pos c7] at hx hy
    exact Except.ok.inj (hx.symm.trans hy)
  rw [if_neg c7] at hx hy
  obtain ⟨r2, e2, hx⟩ := bind_eq_ok.1 hx
  obtain ⟨s2, e2', hy⟩ := bind_eq_ok.1 hy
  have := dilVerify_fuel (length_slice (by omega)) e2 e2'
  subst this
  exact Except.ok.inj (hx.symm.trans hy)

theorem real_verify_total (h1 : IsShake128 H128) (h2 : IsShake256 H256) {V : World} (hV : V.WF) {sm m pk : Ptr} {n k : Nat} {sb pkb mb : Bytes}
    (hsm : V.view sm n = some sb) (hpk : V.view pk 1408 = some pkb) (hm : V.view m k = some mb) (h : FullMeets H128 H256 pkb mb sb) :
    (∀ fuel r V', verifyFull (real fuel) (some m) k (some sm) n (some pk) V = .ok (r, V') → r = 0 ∧ V' = V) ∧
    ∃ F, ∀ fuel, F ≤ fuel → verifyFull (real fuel) (some m) k (some sm) n (some pk) V = .ok (0, V) := by
  have hmb := length_of_view hm
  obtain ⟨F, hF⟩ := (real_full_verify h1 h2 hV hsm hpk hm).2 h
  refine ⟨fun fuel r V' e => ?_, F, hF⟩
  have hlo : 1 ≤ k := by have := h.1; omega
  have hhi : k ≤ 64 := by have := h.2.1; omega
  have e' := hF F (Nat.le_refl _)
  rw [verifyFull_run hV real_sized hsm hpk hm hlo hhi] at e e'
  obtain ⟨x, hx, e⟩ := bind_eq_ok.1 e
  obtain ⟨y, hy, e'⟩ := bind_eq_ok.1 e'
  have := fullOpen_fuel hx hy
  subst this
  have e := Except.ok.inj (e.symm.trans e')
  rw [Prod.mk.injEq] at e
  exact e

/-- C01 with the component code: keys from one run, signature from a second, verification in a third with any contents of the rest of memory.  Verification never returns anything but 0, and it ends. -/
theorem real_full_roundtrip {fk fs : Nat} {pkb skb : Bytes} (hg : Generated (real fk) pkb skb) {W W' : World} {sm smlen m sk : Ptr} {mlen : Nat} {mb : Bytes}
    (hm : W.view m mlen = some mb) (hsk : W.view sk 4064 = some skb)
    (hsm : (W.view sm (52342 + mlen)).isSome) (hl : (W.view smlen 8).isSome) (hd : Disj smlen 8 sm (52342 + mlen))
    (h : signFull (real fs) (some sm) (some smlen) (some m) mlen (some sk) W = .ok (0, W')) :
    ∃ n sb, W'.view smlen 8 = some (le64 n) ∧ W'.view sm n = some sb ∧
      ∀ (V : World) (m' sm' pk' : Ptr), V.WF → V.view m' mlen = some mb → V.view sm' n = some sb → V.view pk' 1408 = some pkb →
        (∀ fv r V', verifyFull (real fv) (some m') mlen (some sm') n (some pk') V = .ok (r, V') → r = 0 ∧ V' = V) ∧
        ∃ F, ∀ fv, F ≤ fv → verifyFull (real fv) (some m') mlen (some sm') n (some pk') V = .ok (0, V) := by
  have hmb := length_of_view hm
  have hr : 1 ≤ mlen ∧ mlen ≤ 64 := by
    by_contra hr
    rw [((invalid_arguments (P := real fs) W (some sm) (some smlen) (some m) (some sk) none none none mlen 0).1 (Or.inr (by omega))).1] at h
    simp at h
  obtain ⟨seed, hs, hk⟩ := generated_keys isShake128_S128 isShake256_S256 hg
  rcases (real_full_sign isShake128_S128 isShake256_S256 hm hsk hsm hl hr.1 hr.2).1 _ _ _ h with ⟨h0, -⟩ | ⟨-, opt, sig, -, hsig, rfl⟩
  · omega
  · have hv := full_scheme_correct isShake128_S128 isShake256_S256 hs (by omega) (by omega) hk hsig
    have hw : sig.length = 52342 + mlen := by
      obtain ⟨-, -, ed, dil, spx, l1, l2, l3, rfl, -⟩ := hv
      rw [(wire_full_slices l1 l2 l3 (by omega)).1, hmb]
    refine ⟨52342 + mlen, sig, view_write_same' (write_view_isSome (W := { W with rng := Sphincs.drawn W.rng 32 }) hl) (length_le64 _), ?_, fun V m' sm' pk' hV v1 v2 v3 => ?_⟩
    · rw [view_write_disj (by simpa [length_le64] using hd)]
      exact view_write_same' (W := { W with rng := Sphincs.drawn W.rng 32 }) hsm hw
    · exact real_verify_total isShake128_S128 isShake256_S256 hV v2 v3 v1 hv

/-- C02 with the component code. -/
theorem real_full_open_roundtrip {fk fs : Nat} {pkb skb : Bytes} (hg : Generated (real fk) pkb skb) {W W' : World} {sm smlen m sk : Ptr} {mlen : Nat} {mb : Bytes}
    (hm : W.view m mlen = some mb) (hsk : W.view sk 4064 = some skb)
    (hsm : (W.view sm (52342 + mlen)).isSome) (hl : (W.view smlen 8).isSome) (hd : Disj smlen 8 sm (52342 + mlen))
    (h : signFull (real fs) (some sm) (some smlen) (some m) mlen (some sk) W = .ok (0, W')) :
    ∃ n sb, W'.view smlen 8 = some (le64 n) ∧ W'.view sm n = some sb ∧
      ∀ (V : World) (m' l' sm' pk' : Ptr), (V.view m' mlen).isSome → (V.view l' 8).isSome → Disj l' 8 m' mlen →
        V.view sm' n = some sb → V.view pk' 1408 = some pkb →
        (∀ fv r V', openFull (real fv) (some m') (some l') (some sm') n (some pk') V = .ok (r, V') →
          r = 0 ∧ V'.view m' mlen = some mb ∧ V'.view l' 8 = some (le64 mlen)) ∧
        ∃ F, ∀ fv, F ≤ fv → ∃ V', openFull (real fv) (some m') (some l') (some sm') n (some pk') V = .ok (0, V') := by
  have hmb := length_of_view hm
  have hr : 1 ≤ mlen ∧ mlen ≤ 64 := by
    by_contra hr
    rw [((invalid_arguments (P := real fs) W (some sm) (some smlen) (some m) (some sk) none none none mlen 0).1 (Or.inr (by omega))).1] at h
    simp at h
  obtain ⟨seed, hs, hk⟩ := generated_keys isShake128_S128 isShake256_S256 hg
  rcases (real_full_sign isShake128_S128 isShake256_S256 hm hsk hsm hl hr.1 hr.2).1 _ _ _ h with ⟨h0, -⟩ | ⟨-, opt, sig, -, hsig, rfl⟩
  · omega
  · have hv := full_scheme_correct isShake128_S128 isShake256_S256 hs (by omega) (by omega) hk hsig
    have hw : sig.length = 52342 + mlen := by
      obtain ⟨-, -, ed, dil, spx, l1, l2, l3, rfl, -⟩ := hv
      rw [(wire_full_slices l1 l2 l3 (by omega)).1, hmb]
    refine ⟨52342 + mlen, sig, view_write_same' (write_view_isSome (W := { W with rng := Sphincs.drawn W.rng 32 }) hl) (length_le64 _), ?_, fun V m' l' sm' pk' v1 v2 v3 v4 v5 => ?_⟩
    · rw [view_write_disj (by simpa [length_le64] using hd)]
      exact view_write_same' (W := { W with rng := Sphincs.drawn W.rng 32 }) hsm hw
    · have v1' : (V.view m' (52342 + mlen - 52342)).isSome := by rw [Nat.add_sub_cancel_left]; exact v1
      obtain ⟨F, hF⟩ := (real_full_open isShake128_S128 isShake256_S256 v4 v5 v1' v2).2 mb hv
      refine ⟨fun fv r V' e => ?_, F, fun fv hf => ⟨_, hF fv hf⟩⟩
      have e' := hF F (Nat.le_refl _)
      rw [openFull_run real_sized v4 v5 v1' v2] at e e'
      obtain ⟨x, hx, e⟩ := bind_eq_ok.1 e
      obtain ⟨y, hy, e'⟩ := bind_eq_ok.1 e'
      have := fullOpen_fuel hx hy
      subst this
      have e := e.symm.trans e'
      have e := Except.ok.inj e
      rw [Prod.mk.injEq] at e
      obtain ⟨rfl, rfl⟩ := e
      refine ⟨rfl, ?_, ?_⟩
      · rw [view_write_disj (by rw [length_le64]; exact v3), view_write_same' v1 hmb]
      · rw [hmb]
        exact view_write_same' (write_view_isSome v2) (length_le64 _)
theorem real_verify_total_compact (h1 : IsShake128 H128) (h2 : IsShake256 H256) {V : World} (hV : V.WF) {sm m pk : Ptr} {n k : Nat} {sb pkb mb : Bytes}
    (hsm : V.view sm n = some sb) (hpk : V.view pk 1408 = some pkb) (hm : V.view m k = some mb) (h : CompactMeets H128 H256 pkb mb sb) :
    (∀ fuel r V', verifyCompact (real fuel) (some m) k (some sm) n (some pk) V = .ok (r, V') → r = 0 ∧ V' = V) ∧
    ∃ F, ∀ fuel, F ≤ fuel → verifyCompact (real fuel) (some m) k (some sm) n (some pk) V = .ok (0, V) := by
  have hmb := length_of_view hm
  obtain ⟨F, hF⟩ := (real_compact_verify h1 h2 hV hsm hpk hm).2 h
  refine ⟨fun fuel r V' e => ?_, F, hF⟩
  have hlo : 1 ≤ k := by have := h.1; omega
  have hhi : k ≤ 64 := by have := h.2.1; omega
  have e' := hF F (Nat.le_refl _)
  rw [verifyCompact_run hV real_sized hsm hpk hm hlo hhi] at e e'
  obtain ⟨x, hx, e⟩ := bind_eq_ok.1 e
  obtain ⟨y, hy, e'⟩ := bind_eq_ok.1 e'
  have := compactOpen_fuel hx hy
  subst this
  have e := Except.ok.inj (e.symm.trans e')
  rw [Prod.mk.injEq] at e
  exact e

/-- C03 with the component code. -/
theorem real_compact_roundtrip {fk fs : Nat} {pkb skb : Bytes} (hg : Generated (real fk) pkb skb) {W W' : World} {sm smlen m sk : Ptr} {mlen : Nat} {mb : Bytes}
    (hm : W.view m mlen = some mb) (hsk : W.view sk 4064 = some skb)
    (hsm : (W.view sm (2526 + mlen)).isSome) (hl : (W.view smlen 8).isSome) (hd : Disj smlen 8 sm (2526 + mlen)) (hdm : Disj sm (2526 + mlen) m mlen)
    (h : signCompact (real fs) (some sm) (some smlen) (some m) mlen (some sk) W = .ok (0, W')) :
    ∃ n sb, W'.view smlen 8 = some (le64 n) ∧ W'.view sm n = some sb ∧
      ∀ (V : World) (m' sm' pk' : Ptr), V.WF → V.view m' mlen = some mb → V.view sm' n = some sb → V.view pk' 1408 = some pkb →
        (∀ fv r V', verifyCompact (real fv) (some m') mlen (some sm') n (some pk') V = .ok (r, V') → r = 0 ∧ V' = V) ∧
        ∃ F, ∀ fv, F ≤ fv → verifyCompact (real fv) (some m') mlen (some sm') n (some pk') V = .ok (0, V) := by
  have hmb := length_of_view hm
  have hr : 1 ≤ mlen ∧ mlen ≤ 64 := by
    by_contra hr
    rw [((invalid_arguments (P := real fs) W (some sm) (some smlen) (some m) (some sk) none none none mlen 0).1 (Or.inr (by omega))).2] at h
    simp at h
  obtain ⟨seed, hs, hk⟩ := generated_keys isShake128_S128 isShake256_S256 hg
  rcases (real_compact_sign isShake128_S128 isShake256_S256 hm hsk hsm hl hdm hr.1 hr.2).1 _ _ _ h with ⟨h0, -⟩ | ⟨-, nonce, sig, hn, hsig, rfl⟩
  · omega
  · have hv := compact_scheme_correct isShake128_S128 isShake256_S256 hs (by omega) (by omega) (W.rng.len_draw _ _ _ hn) hk hsig
    have hw : sig.length = 2526 + mlen := by
      obtain ⟨-, -, ed, dil, nc, h, l1, l2, l3, rfl, -⟩ := hv
      rw [(wire_compact_slices l1 l2 l3 (by omega)).1, hmb]
    refine ⟨2526 + mlen, sig, view_write_same' (write_view_isSome (W := { W with rng := Sphincs.drawn W.rng 40 }) hl) (length_le64 _), ?_, fun V m' sm' pk' hV v1 v2 v3 => ?_⟩
    · rw [view_write_disj (by simpa [length_le64] using hd)]
      exact view_write_same' (W := { W with rng := Sphincs.drawn W.rng 40 }) hsm hw
    · exact real_verify_total_compact isShake128_S128 isShake256_S256 hV v2 v3 v1 hv

/-- C04 with the component code. -/
theorem real_compact_open_roundtrip {fk fs : Nat} {pkb skb : Bytes} (hg : Generated (real fk) pkb skb) {W W' : World} {sm smlen m sk : Ptr} {mlen : Nat} {mb : Bytes}
    (hm : W.view m mlen = some mb) (hsk : W.view sk 4064 = some skb)
    (hsm : (W.view sm (2526 + mlen)).isSome) (hl : (W.view smlen 8).isSome) (hd : Disj smlen 8 sm (2526 + mlen)) (hdm : Disj sm (2526 + mlen) m mlen)
    (h : signCompact (real fs) (some sm) (some smlen) (some m) mlen (some sk) W = .ok (0, W')) :
    ∃ n sb, W'.view smlen 8 = some (le64 n) ∧ W'.view sm n = some sb ∧
      ∀ (V : World) (m' l' sm' pk' : Ptr), (V.view m' mlen).isSome → (V.view l' 8).isSome → Disj l' 8 m' mlen → Disj m' mlen sm' n →
        V.view sm' n = some sb → V.view pk' 1408 = some pkb →
        (∀ fv r V', openCompact (real fv) (some m') (some l') (some sm') n (some pk') V = .ok (r, V') →
          r = 0 ∧ V'.view m' mlen = some mb ∧ V'.view l' 8 = some (le64 mlen)) ∧
        ∃ F, ∀ fv, F ≤ fv → ∃ V', openCompact (real fv) (some m') (some l') (some sm') n (some pk') V = .ok (0, V') := by
  have hmb := length_of_view hm
  have hr : 1 ≤ mlen ∧ mlen ≤ 64 := by
    by_contra hr
    rw [((invalid_arguments (P := real fs) W (some sm) (some smlen) (some m) (some sk) none none none mlen 0).1 (Or.inr (by omega))).2] at h
    simp at h
  obtain ⟨seed, hs, hk⟩ := generated_keys isShake128_S128 isShake256_S256 hg
  rcases (real_compact_sign isShake128_S128 isShake256_S256 hm hsk hsm hl hdm hr.1 hr.2).1 _ _ _ h with ⟨h0, -⟩ | ⟨-, nonce, sig, hn, hsig, rfl⟩
  · omega
  · have hv := compact_scheme_correct isShake128_S128 isShake256_S256 hs (by omega) (by omega) (W.rng.len_draw _ _ _ hn) hk hsig
    have hw : sig.length = 2526 + mlen := by
      obtain ⟨-, -, ed, dil, nc, h, l1, l2, l3, rfl, -⟩ := hv
      rw [(wire_compact_slices l1 l2 l3 (by omega)).1, hmb]
    refine ⟨2526 + mlen, sig, view_write_same' (write_view_isSome (W := { W with rng := Sphincs.drawn W.rng 40 }) hl) (length_le64 _), ?_, fun V m' l' sm' pk' v1 v2 v3 v6 v4 v5 => ?_⟩
    · rw [view_write_disj (by simpa [length_le64] using hd)]
      exact view_write_same' (W := { W with rng := Sphincs.drawn W.rng 40 }) hsm hw
    · have v1' : (V.view m' (2526 + mlen - 2526)).isSome := by rw [Nat.add_sub_cancel_left]; exact v1
      have v6' : Disj m' (2526 + mlen - 2526) sm' (2526 + mlen) := by rw [Nat.add_sub_cancel_left]; exact v6
      obtain ⟨F, hF⟩ := (real_compact_open isShake128_S128 isShake256_S256 v4 v5 v1' v2 v6').2 mb hv
      refine ⟨fun fv r V' e => ?_, F, fun fv hf => ⟨_, hF fv hf⟩⟩
      have e' := hF F (Nat.le_refl _)
      rw [openCompact_run real_sized v4 v5 v1' v2 v6'] at e e'
      obtain ⟨x, hx, e⟩ := bind_eq_ok.1 e
      obtain ⟨y, hy, e'⟩ := bind_eq_ok.1 e'
      have := compactOpen_fuel hx hy
      subst this
      have e := e.symm.trans e'
      have e := Except.ok.inj e
      rw [Prod.mk.injEq] at e
      obtain ⟨rfl, rfl⟩ := e
      refine ⟨rfl, ?_, ?_⟩
      · rw [view_write_disj (by rw [length_le64]; exact v3), view_write_same' v1 hmb]
      · rw [hmb]
        exact view_write_same' (write_view_isSome v2) (length_le64 _)

theorem view_block {W : World} {b n : Nat} {x : Bytes} (h : W.mem b = some x) (hn : x.length = n) : W.view ⟨b, 0⟩ n = some x := by
  subst hn
  unfold World.view
  simp only [h]
  rw [if_pos (by omega), slice, List.drop_zero, List.take_length]

/-- `Generated` for the component code holds exactly for the keys of seeds: the hypothesis of the round trips is met by every key pair of the specification. -/
theorem keysOf_generated (h1 : IsShake128 H128) (h2 : IsShake256 H256) {seed pkb skb : Bytes} (hs : seed.length = 160) (hk : KeysOf H128 H256 seed pkb skb) :
    ∃ F, ∀ fuel, F ≤ fuel → Generated (real fuel) pkb skb := by
  obtain ⟨lp, ls, -⟩ := keysOf_parts h1 h2 hs hk
  obtain ⟨z1, hz1, l1⟩ : ∃ z : Bytes, z = zeros 1408 ∧ z.length = 1408 := ⟨_, rfl, List.length_replicate⟩
  obtain ⟨z2, hz2, l2⟩ : ∃ z : Bytes, z = zeros 4064 ∧ z.length = 4064 := ⟨_, rfl, List.length_replicate⟩
  obtain ⟨W, w0, w1, w2⟩ : ∃ W : World, W.mem 0 = some z1 ∧ W.mem 1 = some z2 ∧ W.mem 2 = some seed :=
    ⟨{ Toy.demo with mem := fun b => if b = 0 then some z1 else if b = 1 then some z2 else some seed }, rfl, rfl, rfl⟩
  have v0 : W.view ⟨0, 0⟩ 1408 = some z1 := view_block w0 l1
  have v1 : W.view ⟨1, 0⟩ 4064 = some z2 := view_block w1 l2
  have v2 : W.view ⟨2, 0⟩ 160 = some seed := view_block w2 hs
  have hpk : (W.view ⟨0, 0⟩ 1408).isSome := by rw [v0]; rfl
  have hsk : (W.view ⟨1, 0⟩ 4064).isSome := by rw [v1]; rfl
  have hd : Disj ⟨0, 0⟩ 1408 ⟨1, 0⟩ 4064 := Or.inl (by decide)
  obtain ⟨F, hF⟩ := (real_keypair h1 h2 v2 hpk hsk hd).2 _ _ hk
  refine ⟨F, fun fuel hf => ⟨W, _, ⟨0, 0⟩, ⟨1, 0⟩, ⟨2, 0⟩, by rw [v2]; rfl, hpk, hsk, hd, hF fuel hf, ?_, ?_⟩⟩
  · rw [view_write_disj (by rw [ls]; exact disj_symm hd), view_write_same' hpk lp]
  · rw [view_write_same' (write_view_isSome hsk) ls]

/-! ### C13: no undefined behaviour -/

/-- C13 with the component code: given buffers of the documented sizes, no function of the API has undefined behaviour. -/
theorem real_safe {W : World} {a b c d : Ptr} {n k : Nat} :
    ((W.view c n).isSome → (W.view d 4064).isSome → (W.view a (52342 + n)).isSome → (W.view b 8).isSome →
      signFull (real fuel) (some a) (some b) (some c) n (some d) W ≠ .error .ub) ∧
    ((W.view c n).isSome → (W.view d 4064).isSome → (W.view a (2526 + n)).isSome → (W.view b 8).isSome →
      signCompact (real fuel) (some a) (some b) (some c) n (some d) W ≠ .error .ub) ∧
    ((W.view c n).isSome → (W.view d 1408).isSome → (W.view b 8).isSome → (W.view a (n - 52342)).isSome →
      openFull (real fuel) (some a) (some b) (some c) n (some d) W ≠ .error .ub) ∧
    ((W.view c n).isSome → (W.view d 1408).isSome → (W.view b 8).isSome → (W.view a (n - 2526)).isSome →
      openCompact (real fuel) (some a) (some b) (some c) n (some d) W ≠ .error .ub) ∧
    (W.WF → (W.view c n).isSome → (W.view d 1408).isSome → (W.view a k).isSome →
      verifyFull (real fuel) (some a) k (some c) n (some d) W ≠ .error .ub ∧ verifyCompact (real fuel) (some a) k (some c) n (some d) W ≠ .error .ub) ∧
    ((W.view a 1408).isSome → (W.view b 4064).isSome →
      ((W.view c 160).isSome → keypairSeed (real fuel) (some a) (some b) (some c) W ≠ .error .ub) ∧
      (W.WF → keypair (real fuel) (some a) (some b) W ≠ .error .ub)) ∧
    ((W.view c 96).isSome → (W.view a 160).isSome → seedExpander (real fuel) (some c) (some a) W ≠ .error .ub) ∧
    ((W.view c n).isSome → (W.view d 1312).isSome → (W.view a k).isSome → verifyDilithium (real fuel) (some a) k (some c) n (some d) W ≠ .error .ub) :=
  ⟨fun h1 h2 h3 h4 => full_sign_safe real_sized real_noUB h1 h2 h3 h4,
   fun h1 h2 h3 h4 => compact_sign_safe real_sized real_noUB h1 h2 h3 h4,
   fun h1 h2 h3 h4 => (open_safe real_sized real_noUB h1 h2 h3).1 h4,
   fun h1 h2 h3 h4 => (open_safe real_sized real_noUB h1 h2 h3).2 h4,
   fun hW h1 h2 h3 => verify_safe real_sized real_noUB hW h1 h2 h3,
   fun h1 h2 => keypair_safe real_sized real_noUB h1 h2,
   fun h1 h2 => expander_safe real_sized real_noUB h1 h2,
   fun h1 h2 h3 => dilithium_verify_safe real_noUB h1 h2 h3⟩

example : demo.WF ∧ (demo.view ⟨2, 0⟩ 20).isSome ∧ (demo.view ⟨3, 0⟩ 4064).isSome ∧ (demo.view ⟨0, 0⟩ (52342 + 20)).isSome ∧ (demo.view ⟨1, 0⟩ 8).isSome ∧
    (demo.view ⟨4, 0⟩ 1408).isSome ∧ (demo.view ⟨5, 0⟩ 160).isSome :=
  ⟨demo_WF, some_isSome (demo_m 20 (by omega)), some_isSome demo_sk, some_isSome (demo_sm _ (by omega)), some_isSome demo_len, some_isSome demo_pk,
   some_isSome (demo_seed 160 (by omega))⟩

/-! ### C18: the seed expander -/

/-- C18 with the component code. -/
theorem real_expander {W : World} {seed ex : Ptr} {seedb : Bytes} (hs : W.view seed 96 = some seedb) (hx : (W.view ex 160).isSome) (hd : Disj ex 160 seed 96) :
    ∃ s tmp, EffectiveSeed seedb s ∧ tmp.length = 128 ∧ Keccak.Spec.bits tmp = Keccak.Spec.SHAKE256 (Keccak.Spec.bits (s ++ [2])) 1024 ∧
      seedExpander (real fuel) (some seed) (some ex) W = .ok (0, W.write ex (tmp.take 32 ++ (seedb.drop 64).take 32 ++ tmp.drop 32)) := by
  have hsb := length_of_view hs
  have he := effectiveSeed_spec hsb
  have hl : (effectiveSeed seedb).length = 64 := he.1
  obtain ⟨tmp, e, l, hb⟩ := expander_real (fuel := fuel) (s := effectiveSeed seedb) (n := 128) (by omega) (by omega)
  refine ⟨_, tmp, he, l, hb, ?_⟩
  rw [seedExpander_run real_sized hs hx hd]
  unfold expandBytes
  rw [e, ok_bind]
  simp only []
  rw [if_neg (by decide), ok_bind]
  have e1 : slice tmp 32 96 = tmp.drop 32 := by
    unfold slice
    exact List.take_of_length_le (by rw [List.length_drop]; omega)
  rw [e1]
  rfl

example : ∃ W : World, W.view ⟨0, 0⟩ 96 = some (List.replicate 96 7) ∧ (W.view ⟨1, 0⟩ 160).isSome ∧ Disj ⟨1, 0⟩ 160 ⟨0, 0⟩ 96 :=
  ⟨{ Toy.demo with mem := fun b => if b = 0 then some (List.replicate 96 7) else some (List.replicate 160 0) },
   view_block rfl List.length_replicate, by rw [view_block (x := List.replicate 160 0) rfl List.length_replicate]; rfl, Or.inl (by decide)⟩

/-! ### C21: malleability -/

/-- The signature bytes `sig` with the Ed25519 scalar in bytes 34 to 65 replaced by the other scalar with the same multiple of the base point. -/
def mauled (sm : Bytes) : Bytes := sm.take 34 ++ Ed25519.Spec.leBytes 32 (Ed25519.otherScalar (Ed25519.Spec.leVal ((sm.drop 34).take 32))) ++ sm.drop 66

theorem ed_other {pk m R S : Bytes} (hR : R.length = 32) (hS : S.length = 32) (h : Ed25519.Spec.Valid pk m (R ++ S)) :
    Ed25519.Spec.Valid pk m (R ++ Ed25519.Spec.leBytes 32 (Ed25519.otherScalar (Ed25519.Spec.leVal S))) ∧
    Ed25519.Spec.leBytes 32 (Ed25519.otherScalar (Ed25519.Spec.leVal S)) ≠ S := by
  obtain ⟨s, hs'⟩ : ∃ s, s = Ed25519.Spec.leVal S := ⟨_, rfl⟩
  have lt0 : s < 2 ^ 256 := by
    have := Ed25519.leVal_lt S
    rw [hS] at this
    rw [hs']
    norm_num at this ⊢
    exact this
  have hL1 : 0 < Ed25519.Spec.L := by decide +kernel
  have hL2 : 2 * Ed25519.Spec.L < 2 ^ 256 := by decide +kernel
  rw [← hs']
  have ho : Ed25519.otherScalar s < 2 ^ 256 ∧ Ed25519.otherScalar s ≠ s ∧ Ed25519.otherScalar s • Ed25519.Spec.B = s • Ed25519.Spec.B := by
    unfold Ed25519.otherScalar
    by_cases hf : s + Ed25519.Spec.L < 2 ^ 256
    · rw [if_pos hf]
      exact ⟨hf, by omega, by rw [add_smul, Ed25519.L_smul_B, add_zero]⟩
    · rw [if_neg hf]
      refine ⟨by omega, by omega, ?_⟩
      have : s = (s - Ed25519.Spec.L) + Ed25519.Spec.L := by omega
      conv => rhs; rw [this, add_smul, Ed25519.L_smul_B, add_zero]
  have hv : Ed25519.Spec.leVal (Ed25519.Spec.leBytes 32 (Ed25519.otherScalar s)) = Ed25519.otherScalar s := by
    rw [Ed25519.leVal_leBytes, Nat.mod_eq_of_lt (by have := ho.1; norm_num at this ⊢; exact this)]
  refine ⟨Ed25519.valid_shift hR (by rw [hv, ho.2.2, hs']) h, fun he => ?_⟩
  have := congrArg Ed25519.Spec.leVal he
  rw [hv, ← hs'] at this
  exact ho.2.1 this

theorem mauled_cons {a b : Byte} {R S rest : Bytes} (hR : R.length = 32) (hS : S.length = 32) :
    mauled (a :: b :: (R ++ S ++ rest)) = a :: b :: (R ++ Ed25519.Spec.leBytes 32 (Ed25519.otherScalar (Ed25519.Spec.leVal S)) ++ rest) := by
  have e : a :: b :: (R ++ S ++ rest) = (a :: b :: R) ++ (S ++ rest) := by simp
  have l : (a :: b :: R).length = 34 := by simp [hR]
  have e2 : a :: b :: (R ++ S ++ rest) = (a :: b :: (R ++ S)) ++ rest := by simp
  have l2 : (a :: b :: (R ++ S)).length = 66 := by simp [hR, hS]
  unfold mauled
  have t1 : (a :: b :: (R ++ S ++ rest)).take 34 = a :: b :: R := by rw [e]; exact List.take_left' l
  have t2 : ((a :: b :: (R ++ S ++ rest)).drop 34).take 32 = S := by rw [e, List.drop_left' l]; exact List.take_left' hS
  have t3 : (a :: b :: (R ++ S ++ rest)).drop 66 = rest := by rw [e2]; exact List.drop_left' l2
  rw [t1, t2, t3]
  simp

/-- C21 is false in both modes: for every signature of a message there is another signature of that message of the same length, computed without the secret key. -/
theorem hybrid_malleable {pk msg sm : Bytes} :
    (FullMeets H128 H256 pk msg sm → FullMeets H128 H256 pk msg (mauled sm) ∧ mauled sm ≠ sm ∧ (mauled sm).length = sm.length) ∧
    (CompactMeets H128 H256 pk msg sm → CompactMeets H128 H256 pk msg (mauled sm) ∧ mauled sm ≠ sm ∧ (mauled sm).length = sm.length) := by
  constructor
  · rintro ⟨hlo, hhi, ed, dil, spx, l1, l2, l3, rfl, v1, v2, v3⟩
    have e0 : ed = ed.take 32 ++ ed.drop 32 := (List.take_append_drop 32 ed).symm
    have lR : (ed.take 32).length = 32 := by rw [List.length_take]; omega
    have lS : (ed.drop 32).length = 32 := by rw [List.length_drop]; omega
    rw [e0] at v1
    obtain ⟨w, ne⟩ := ed_other lR lS v1
    have lO := Ed25519.length_leBytes 32 (Ed25519.otherScalar (Ed25519.Spec.leVal (ed.drop 32)))
    have lT : (ed.take 32 ++ Ed25519.Spec.leBytes 32 (Ed25519.otherScalar (Ed25519.Spec.leVal (ed.drop 32)))).length = 64 := by
      rw [List.length_append, lR, lO]
    have hm : mauled (fullWire ed msg dil spx) = fullWire (ed.take 32 ++ Ed25519.Spec.leBytes 32 (Ed25519.otherScalar (Ed25519.Spec.leVal (ed.drop 32)))) msg dil spx := by
      have := mauled_cons (a := 2) (b := BitVec.ofNat 8 msg.length) (rest := msg ++ dil ++ spx) lR lS
      rw [List.take_append_drop] at this
      unfold fullWire
      rw [List.append_assoc, List.append_assoc, ← List.append_assoc msg, this]
      simp
    rw [hm]
    refine ⟨⟨hlo, hhi, _, dil, spx, by rw [List.length_append]; omega, l2, l3, rfl, w, v2, v3⟩, fun h => ?_, ?_⟩
    · have a1 := (wire_full_slices (ed := ed) (msg := msg) l1 l2 l3 hhi).2.2.2.2.2.2
      have a2 := (wire_full_slices (msg := msg) lT l2 l3 hhi).2.2.2.2.2.2
      rw [h, a1] at a2
      have a2 := congrArg (List.drop 32) a2
      rw [List.drop_left' lR] at a2
      exact ne a2.symm
    · rw [(wire_full_slices (ed := ed) (msg := msg) l1 l2 l3 hhi).1, (wire_full_slices (msg := msg) lT l2 l3 hhi).1]
  · rintro ⟨hlo, hhi, ed, dil, nonce, h, l1, l2, l3, rfl, v0, v1, v2⟩
    have e0 : ed = ed.take 32 ++ ed.drop 32 := (List.take_append_drop 32 ed).symm
    have lR : (ed.take 32).length = 32 := by rw [List.length_take]; omega
    have lS : (ed.drop 32).length = 32 := by rw [List.length_drop]; omega
    rw [e0] at v1
    obtain ⟨w, ne⟩ := ed_other lR lS v1
    have lO := Ed25519.length_leBytes 32 (Ed25519.otherScalar (Ed25519.Spec.leVal (ed.drop 32)))
    have lT : (ed.take 32 ++ Ed25519.Spec.leBytes 32 (Ed25519.otherScalar (Ed25519.Spec.leVal (ed.drop 32)))).length = 64 := by
      rw [List.length_append, lR, lO]
    have hm : mauled (compactWire ed dil nonce msg) = compactWire (ed.take 32 ++ Ed25519.Spec.leBytes 32 (Ed25519.otherScalar (Ed25519.Spec.leVal (ed.drop 32)))) dil nonce msg := by
      have := mauled_cons (a := 1) (b := BitVec.ofNat 8 msg.length) (rest := dil ++ nonce ++ msg) lR lS
      rw [List.take_append_drop] at this
      unfold compactWire
      rw [List.append_assoc, List.append_assoc, ← List.append_assoc dil, this]
      simp
    rw [hm]
    refine ⟨⟨hlo, hhi, _, dil, nonce, h, by rw [List.length_append]; omega, l2, l3, rfl, v0, w, v2⟩, fun h => ?_, ?_⟩
    · have a1 := (wire_compact_slices (ed := ed) (msg := msg) l1 l2 l3 hhi).2.2.2.1
      have a2 := (wire_compact_slices (msg := msg) lT l2 l3 hhi).2.2.2.1
      rw [h, a1] at a2
      have a2 := congrArg (List.drop 32) a2
      rw [List.drop_left' lR] at a2
      exact ne a2.symm
    · rw [(wire_compact_slices (ed := ed) (msg := msg) l1 l2 l3 hhi).1, (wire_compact_slices (msg := msg) lT l2 l3 hhi).1]

/-- C21 is false of the API: whatever buffer verification accepts, it also accepts the mauled buffer, which differs, in any memory that holds it. -/
theorem real_malleable {W W' V : World} (hW : W.WF) (hV : V.WF) {sm m pk sm' m' pk' : Ptr} {n k : Nat} {sb pkb mb : Bytes}
    (hsm : W.view sm n = some sb) (hpk : W.view pk 1408 = some pkb) (hm : W.view m k = some mb)
    (hsm' : V.view sm' n = some (mauled sb)) (hpk' : V.view pk' 1408 = some pkb) (hm' : V.view m' k = some mb) :
    (verifyFull (real fuel) (some m) k (some sm) n (some pk) W = .ok (0, W') →
      mauled sb ≠ sb ∧ ∃ F, ∀ fv, F ≤ fv → verifyFull (real fv) (some m') k (some sm') n (some pk') V = .ok (0, V)) ∧
    (verifyCompact (real fuel) (some m) k (some sm) n (some pk) W = .ok (0, W') →
      mauled sb ≠ sb ∧ ∃ F, ∀ fv, F ≤ fv → verifyCompact (real fv) (some m') k (some sm') n (some pk') V = .ok (0, V)) := by
  constructor
  · intro h
    obtain ⟨-, h⟩ := (real_full_verify isShake128_S128 isShake256_S256 hW hsm hpk hm).1 _ _ h
    obtain ⟨a, b, -⟩ := hybrid_malleable.1 h
    exact ⟨b, (real_full_verify isShake128_S128 isShake256_S256 hV hsm' hpk' hm').2 a⟩
  · intro h
    obtain ⟨-, h⟩ := (real_compact_verify isShake128_S128 isShake256_S256 hW hsm hpk hm).1 _ _ h
    obtain ⟨a, b, -⟩ := hybrid_malleable.2 h
    exact ⟨b, (real_compact_verify isShake128_S128 isShake256_S256 hV hsm' hpk' hm').2 a⟩

end Verif.Real
