import Verif.Real.Model

/-!
The contracts of Hybrid/Spec.lean hold for the component code.
-/

namespace Verif.Real
open Verif Verif.Hybrid

theorem when_ok {α : Type} {c : Prop} [Decidable c] {x : C α} {a : α} (h : when c x = .ok a) : c ∧ x = .ok a := by
  unfold when at h
  by_cases hc : c
  · rw [if_pos hc] at h; exact ⟨hc, h⟩
  · rw [if_neg hc] at h; cases h

theorem when_pos {α : Type} {c : Prop} [Decidable c] {x : C α} (h : c) : when c x = x := if_pos h

variable {fuel : Nat}

theorem dilKeypair_eq (pk sk s : Bytes) : (real fuel).dilKeypairSeed pk sk s = when (pk.length = 1312 ∧ sk.length = 2560 ∧ s.length = 32) (Dilithium.keypairSeed fuel pk sk s) := rfl
theorem dilSign_eq (sig m sk : Bytes) (n : Nat) : (real fuel).dilSign sig n m sk = when (sig.length = 2420 ∧ sk.length = 2560) (Dilithium.signature fuel sig n m sk) := rfl
theorem dilVerify_eq (sig m pk : Bytes) : (real fuel).dilVerify sig m pk = when (pk.length = 1312) (Dilithium.verify fuel sig sig.length m pk) := rfl
theorem spxSign_eq (sig m sk : Bytes) (n : Nat) (R : Rng) :
    (real fuel).spxSign sig n m sk R = when (sig.length = 49856 ∧ sk.length = 128) (Sphincs.signature Sphincs.shake256F sig n m sk R) := rfl

theorem edSign_real {b m sk b' : Bytes} {n n' : Nat} {r : Int} (h : (real fuel).edSign b n m sk = .ok (r, b', n')) :
    sk.length = 64 ∧ 64 + m.length ≤ b.length ∧ r = 0 ∧ b' = Ed25519.Spec.sign (sk.take 32) (sk.drop 32) m ++ m ++ b.drop (64 + m.length) ∧ n' = 64 + m.length := by
  obtain ⟨⟨h1, h2, h3⟩, h⟩ := when_ok h
  rw [Ed25519.sign_ok h1 h2 h3] at h
  have h := Except.ok.inj h
  rw [Prod.mk.injEq, Prod.mk.injEq] at h
  exact ⟨h1, h3, h.1.symm, h.2.1.symm, h.2.2.symm⟩

theorem edKeypair_real {pk sk s pk' sk' : Bytes} {r : Int} (h : (real fuel).edKeypairSeed pk sk s = .ok (r, pk', sk')) :
    pk.length = 32 ∧ sk.length = 64 ∧ s.length = 32 ∧ r = 0 ∧ pk' = Ed25519.Spec.publicKey s ∧ sk' = s ++ Ed25519.Spec.publicKey s := by
  obtain ⟨⟨h1, h2, h3⟩, h⟩ := when_ok h
  rw [Ed25519.keypairSeed_ok h1 h2 h3] at h
  have h := Except.ok.inj h
  rw [Prod.mk.injEq, Prod.mk.injEq] at h
  exact ⟨h1, h2, h3, h.1.symm, h.2.1.symm, h.2.2.symm⟩

theorem sha3_real (m : Bytes) : ((real fuel).sha3_512 m).length = 64 ∧ Keccak.Spec.bits ((real fuel).sha3_512 m) = Keccak.Spec.SHA3_512 (Keccak.Spec.bits m) := by
  obtain ⟨d, e, hl, hs⟩ := (Keccak.hash_functions_fips202 (List.replicate 64 0) m).2.2.1 (by rw [List.length_replicate])
  rw [List.drop_of_length_le (by rw [List.length_replicate]), List.append_nil] at e
  have : (real fuel).sha3_512 m = d := by
    show (match Keccak.sha3_512 (List.replicate 64 0) m m.length with | .ok d => d | .error _ => []) = d
    rw [e]
  rw [this]
  exact ⟨hl, hs⟩

theorem expander_real {s : Bytes} {n : Nat} (h1 : 32 ≤ s.length) (h2 : s.length < n) :
    ∃ d, (real fuel).seedexpander s n = .ok (0, d) ∧ d.length = n ∧ Keccak.Spec.bits d = Keccak.Spec.SHAKE256 (Keccak.Spec.bits (s ++ [2])) (8 * n) := by
  obtain ⟨d, hd, e, hb⟩ := ((Keccak.seedexpander_wrapper_spec (some s) (some (List.replicate n 0)) n).2 s _ rfl rfl).2.2 h1 h2 (by rw [List.length_replicate])
  rw [List.drop_of_length_le (by rw [List.length_replicate]), List.append_nil] at e
  refine ⟨d, ?_, hd, hb⟩
  show (Keccak.seedexpanderWrapper (some s) s.length (some (List.replicate n 0)) n >>= _) = _
  rw [e, ok_bind]

theorem expander_length {s out : Bytes} {n : Nat} {r : Int} (h : (real fuel).seedexpander s n = .ok (r, out)) : out.length = n := by
  have hs := (Keccak.seedexpander_wrapper_spec (some s) (some (List.replicate n 0)) n).2 s _ rfl rfl
  have key : ∀ r', Keccak.seedexpanderWrapper (some s) s.length (some (List.replicate n 0)) n = .ok (r', some (List.replicate n 0)) → out.length = n := by
    intro r' e
    change (Keccak.seedexpanderWrapper (some s) s.length (some (List.replicate n 0)) n >>= _) = _ at h
    rw [e, ok_bind] at h
    have h := Except.ok.inj h
    rw [Prod.mk.injEq] at h
    rw [← h.2, List.length_replicate]
  by_cases h1 : s.length < 32
  · exact key _ (hs.1 h1)
  · by_cases h2 : n ≤ s.length
    · exact key _ (hs.2.1 (by omega) h2)
    · obtain ⟨d, e, hl, -⟩ := expander_real (fuel := fuel) (s := s) (n := n) (by omega) (by omega)
      rw [e] at h
      have h := Except.ok.inj h
      rw [Prod.mk.injEq] at h
      rw [← h.2, hl]

theorem spxSign_real {b m sk : Bytes} {n : Nat} {R R' : Rng} {x : Int × Bytes × Nat} (h : (real fuel).spxSign b n m sk R = .ok (x, R')) :
    b.length = 49856 ∧ sk.length = 128 ∧ R' = Sphincs.drawn R 32 ∧
      ((R.draw R.log.length 32 = none ∧ x = (-1, b, n)) ∨ (∃ opt, R.draw R.log.length 32 = some opt ∧
        x = (0, Sphincs.Spec.sign Sphincs.shake256F ⟨slice sk 64 32, sk.take 32⟩ (slice sk 32 32) (sk.drop 64) opt m, 49856))) := by
  obtain ⟨⟨h1, h2⟩, h⟩ := when_ok h
  rw [Sphincs.spx_sign_spec Sphincs.length_shake256F b m sk n R (by omega) h2] at h
  have h := Except.ok.inj h
  rw [Prod.mk.injEq] at h
  refine ⟨h1, h2, h.2.symm, ?_⟩
  have h := h.1
  cases hd : R.draw R.log.length 32 with
  | none =>
    rw [hd] at h
    exact Or.inl ⟨rfl, h.symm⟩
  | some opt =>
    rw [hd] at h
    simp only [] at h
    rw [List.drop_of_length_le (Nat.le_of_eq h1), List.append_nil] at h
    exact Or.inr ⟨opt, rfl, h.symm⟩

theorem spxKeypair_real {pk sk s pk' sk' : Bytes} {r : Int} (h : (real fuel).spxKeypairSeed pk sk s = .ok (r, pk', sk')) :
    pk.length = 64 ∧ sk.length = 128 ∧ s.length = 96 ∧ r = 0 ∧ pk'.length = 64 ∧ sk'.length = 128 ∧ sk'.drop 64 = pk' ∧
      pk' = Sphincs.Spec.publicKey Sphincs.shake256F ⟨s.drop 64, s.take 32⟩ ∧ sk'.take 96 = s := by
  obtain ⟨⟨h1, h2, h3⟩, h⟩ := when_ok h
  have hpub : (s.drop 64).length = 32 := by rw [List.length_drop, h3]
  rw [Sphincs.spx_keygen_spec Sphincs.length_shake256F pk sk s h1 h2 h3] at h
  have h := Except.ok.inj h
  rw [Prod.mk.injEq, Prod.mk.injEq] at h
  obtain ⟨hr, h', h''⟩ := h
  have hpl : (Sphincs.Spec.publicKey Sphincs.shake256F ⟨s.drop 64, s.take 32⟩).length = 64 := by
    rw [Sphincs.Spec.publicKey, List.length_append, Sphincs.length_xmssRoot Sphincs.length_shake256F]; exact congrArg (· + 32) hpub
  have hdrop : (s ++ (Sphincs.Spec.publicKey Sphincs.shake256F ⟨s.drop 64, s.take 32⟩).drop 32).drop 64 =
      Sphincs.Spec.publicKey Sphincs.shake256F ⟨s.drop 64, s.take 32⟩ := by
    rw [List.drop_append_of_le_length (by omega), Sphincs.Spec.publicKey]
    simp only
    rw [List.drop_left' hpub]
  subst h' h''
  refine ⟨h1, h2, h3, hr.symm, hpl, ?_, hdrop, rfl, List.take_left' h3⟩
  rw [List.length_append, List.length_drop, hpl, h3]

theorem openBuf_length {x m sm pk : Bytes} {n : Nat} (hp : pk.length = 32) (h64 : 64 ≤ n) (hm : n ≤ m.length) (hs : n ≤ sm.length) (hx : x.length = n - 64) :
    (Ed25519.openBuf x m sm pk n).length = m.length := by
  have l1 : (sm.take 32 ++ pk ++ Ed25519.msgOf sm n).length = n := by
    unfold Ed25519.msgOf
    simp only [List.length_append, List.length_take, List.length_drop]; omega
  unfold Ed25519.openBuf
  simp only [List.length_append, List.length_drop] at l1 ⊢
  omega

open Classical in
theorem edOpen_real {b sm pk b' : Bytes} {l n n' : Nat} {r : Int} (h : (real fuel).edOpen b l sm n pk = .ok (r, b', n')) :
    pk.length = 32 ∧ n ≤ b.length ∧ n ≤ sm.length ∧ b'.length = b.length ∧
      (r = 0 → 64 ≤ n ∧ Ed25519.Spec.Valid pk (Ed25519.msgOf sm n) (sm.take 64) ∧ n' = n - 64 ∧ b'.take n' = (sm.drop 64).take n') := by
  obtain ⟨⟨h1, h2, h3, h4⟩, h⟩ := when_ok h
  obtain ⟨c, out, len, e, a1, -, -, a2⟩ := Ed25519.ed_open_failure_partial (l := l) h1 h2 h3 h4
  have h' := h
  rw [e] at h
  have h := Except.ok.inj h
  rw [Prod.mk.injEq, Prod.mk.injEq] at h
  obtain ⟨rfl, rfl, rfl⟩ := h
  refine ⟨h1, h3, h4, a1, fun hc => ?_⟩
  obtain ⟨b1, b2, b3⟩ := a2 hc
  refine ⟨b1, ?_, b2, b3⟩
  rw [Ed25519.signOpen_ok h1 h2 h3 h4] at h'
  have h' := Except.ok.inj h'
  split at h'
  · rw [Prod.mk.injEq] at h'; omega
  · split at h'
    · assumption
    · rw [Prod.mk.injEq] at h'; omega

theorem edOpen_valid {b sm pk : Bytes} {l n : Nat} (h1 : pk.length = 32) (h2 : n < 2 ^ 31) (h64 : 64 ≤ n) (h3 : n ≤ b.length) (h4 : n ≤ sm.length)
    (hv : Ed25519.Spec.Valid pk (Ed25519.msgOf sm n) (sm.take 64)) :
    ∃ out, (real fuel).edOpen b l sm n pk = .ok (0, out, n - 64) := by
  refine ⟨Ed25519.openBuf (Ed25519.msgOf sm n) b sm pk n, ?_⟩
  show when _ (Ed25519.signOpen b l sm n pk) = _
  rw [when_pos ⟨h1, h2, h3, h4⟩, Ed25519.signOpen_ok h1 h2 h3 h4, if_neg, if_pos hv]
  rintro (h | h)
  · omega
  · exact h (hv.imp fun _ h => h.1)

theorem msgOf_wire {sig m z : Bytes} (hs : sig.length = 64) : Ed25519.msgOf (sig ++ m ++ z) (64 + m.length) = m ∧ (sig ++ m ++ z).take 64 = sig := by
  constructor
  · unfold Ed25519.msgOf
    rw [List.take_left' (by rw [List.length_append]; omega), List.drop_left' hs]
  · rw [List.append_assoc, List.take_left' hs]

/-- Acceptance of the Ed25519 component, in terms of RFC 8032. -/
theorem edAccepts_real {pk sig m : Bytes} (hp : pk.length = 32) (hs : sig.length = 64) (hm : m.length ≤ 64) :
    EdAccepts (real fuel) pk sig m ↔ Ed25519.Spec.Valid pk m sig := by
  have hl : (sig ++ m ++ List.replicate (64 - m.length) 0).length = 128 := by
    rw [List.length_append, List.length_append, List.length_replicate]; omega
  have hw := msgOf_wire (sig := sig) (m := m) (z := List.replicate (64 - m.length) 0) hs
  unfold EdAccepts
  rw [hs]
  constructor
  · rintro ⟨out, len, h⟩
    have := (edOpen_real h).2.2.2.2 rfl
    rw [hw.1, hw.2] at this
    exact this.2.1
  · intro h
    obtain ⟨out, e⟩ := edOpen_valid (fuel := fuel) (b := List.replicate 128 0) (l := 0) (sm := sig ++ m ++ List.replicate (64 - m.length) 0) (n := 64 + m.length) hp
      (by omega) (by omega) (by rw [List.length_replicate]; omega) (by omega) (by rw [hw.1, hw.2]; exact h)
    exact ⟨out, _, e⟩

theorem real_sized : (real fuel).Sized where
  edKeypairSeed pk sk s r pk' sk' h := by
    obtain ⟨h1, h2, h3, -, rfl, rfl⟩ := edKeypair_real h
    have : (Ed25519.Spec.publicKey s).length = 32 := Ed25519.length_encode _
    rw [List.length_append]
    omega
  edSign b n m sk r b' n' h := by
    obtain ⟨h1, h2, -, rfl, -⟩ := edSign_real h
    rw [List.length_append, List.length_append, Ed25519.length_specSign, List.length_drop]
    omega
  edOpen b n sm k pk r b' n' h := (edOpen_real h).2.2.2.1
  dilKeypairSeed pk sk s r pk' sk' h := by
    obtain ⟨⟨h1, h2, h3⟩, h⟩ := when_ok h
    obtain ⟨-, -, h4, h5⟩ := (Dilithium.dil_keygen_spec Dilithium.isShake128_S128 Dilithium.isShake256_S256 h1 h2 h3).2.1 _ _ _ _ h
    omega
  dilSign b n m sk r b' n' h := by
    obtain ⟨⟨h1, h2⟩, h⟩ := when_ok h
    obtain ⟨-, -, h4, -⟩ := (Dilithium.dil_sign_spec Dilithium.isShake128_S128 Dilithium.isShake256_S256 h2 h1).2.1 _ _ _ _ h
    omega
  spxKeypairSeed pk sk s r pk' sk' h := by
    obtain ⟨h1, h2, -, -, h3, h4, -⟩ := spxKeypair_real h
    omega
  spxSign b n m sk R r b' n' R' h := by
    obtain ⟨h1, h2, -, h3⟩ := spxSign_real h
    rcases h3 with ⟨-, h3⟩ | ⟨opt, -, h3⟩
    · cases h3; rfl
    · have h3 := (Prod.mk.inj (Prod.mk.inj h3).2).1
      rw [h3, Sphincs.length_sign Sphincs.length_shake256F, h1]
  sha3_512 x := (sha3_real x).1
  seedexpander s n r out h := expander_length h

theorem real_edShape : (real fuel).EdShape where
  sign m sk b n hm h := by
    obtain ⟨-, -, -, rfl, rfl⟩ := edSign_real h
    refine ⟨rfl, ?_⟩
    rw [List.append_assoc, List.drop_left' (Ed25519.length_specSign _ _ _), List.take_left' rfl]
  open_ sm n pk out l hs h1 h2 h := by
    obtain ⟨-, -, -, -, hv⟩ := edOpen_real h
    exact (hv rfl).2.2

theorem real_keyShape : (real fuel).KeyShape where
  ed s pk sk h := by
    obtain ⟨-, -, h3, -, rfl, rfl⟩ := edKeypair_real h
    exact List.drop_left' h3
  spx s pk sk h := (spxKeypair_real h).2.2.2.2.2.2.1

theorem real_spxDraw : (real fuel).SpxDraw where
  log b n m sk R r R' h := by
    obtain ⟨-, -, rfl, -⟩ := spxSign_real h
    exact ⟨rfl, rfl⟩
  fail b n m sk R r R' h hd := by
    obtain ⟨-, -, -, h3⟩ := spxSign_real h
    rcases h3 with ⟨-, h3⟩ | ⟨opt, h', -⟩
    · rw [h3]; show (-1 : Int) ≠ 0; decide
    · rw [hd] at h'; cases h'

theorem real_correct : (real fuel).Correct where
  ed s pk sk m b n hm hk hs := by
    obtain ⟨-, -, h3, -, rfl, rfl⟩ := edKeypair_real hk
    obtain ⟨-, -, -, rfl, rfl⟩ := edSign_real hs
    rw [List.take_left' h3, List.drop_left' h3, List.append_assoc, List.take_left' (Ed25519.length_specSign _ _ _),
      edAccepts_real (pk := Ed25519.Spec.publicKey s) (Ed25519.length_encode _) (Ed25519.length_specSign _ _ _) hm]
    exact Ed25519.valid_sign s m
  dil s pk sk m b hk hs := by
    rw [dilKeypair_eq] at hk
    rw [dilSign_eq] at hs
    obtain ⟨⟨h1, h2, h3⟩, hk⟩ := when_ok hk
    obtain ⟨⟨h4, h5⟩, hs⟩ := when_ok hs
    obtain ⟨-, -, -, a4, a5, -, -⟩ := Dilithium.dil_round_trip h1 h2 h3 h4 hk hs
    obtain ⟨-, -, h6, -⟩ := (Dilithium.dil_keygen_spec Dilithium.isShake128_S128 Dilithium.isShake256_S256 h1 h2 h3).2.1 _ _ _ _ hk
    show when _ (Dilithium.verify fuel b b.length m pk) = _
    rw [when_pos h6, a4]
    exact a5
  spx s pk sk m b R R' hk hs := by
    obtain ⟨h1, h2, h3, -, h4, h5, h6, h7, h8⟩ := spxKeypair_real hk
    obtain ⟨-, -, -, hs⟩ := spxSign_real hs
    rcases hs with ⟨-, hs⟩ | ⟨opt, -, hs⟩
    · exact absurd (Prod.mk.inj hs).1 (by decide)
    · have hs := (Prod.mk.inj (Prod.mk.inj hs).2).1
      have hpub : (s.drop 64).length = 32 := by rw [List.length_drop, h3]
      have e1 : slice sk 64 32 = s.drop 64 := by
        rw [← h8, slice, List.drop_take]
      have e2 : sk.take 32 = s.take 32 := by rw [← h8, List.take_take]; rfl
      rw [e1, e2, h6] at hs
      have hv := Sphincs.sign_valid Sphincs.length_shake256F (s := ⟨s.drop 64, s.take 32⟩) hpub (slice sk 32 32) opt m
      rw [← h7, ← hs] at hv
      show when _ (Sphincs.verify Sphincs.shake256F b b.length m pk) = _
      rw [when_pos h4, hv.1, Sphincs.verify_run Sphincs.length_shake256F h4 (Nat.le_of_eq hv.1.symm), if_pos hv.2]

theorem real_noUB : (real fuel).NoUB where
  edKeypairSeed s h := by
    show when _ (Ed25519.keypairSeed _ _ s) ≠ _
    rw [when_pos ⟨List.length_replicate, List.length_replicate, h⟩, Ed25519.keypairSeed_ok List.length_replicate List.length_replicate h]
    simp
  edSign m sk hm h := by
    show when _ (Ed25519.sign _ _ m sk) ≠ _
    rw [when_pos ⟨h, by omega, by rw [List.length_replicate]; omega⟩, Ed25519.sign_ok h (by omega) (by rw [List.length_replicate]; omega)]
    simp
  edOpen sm n pk hs hn h := by
    show when _ (Ed25519.signOpen _ _ sm n pk) ≠ _
    have h3 : n ≤ (List.replicate 128 (0 : Byte)).length := by rw [List.length_replicate]; omega
    rw [when_pos ⟨h, by omega, h3, by omega⟩, Ed25519.signOpen_ok h (by omega) h3 (by omega)]
    simp
  dilKeypairSeed s h := by
    rw [dilKeypair_eq, when_pos ⟨List.length_replicate, List.length_replicate, h⟩]
    exact (Dilithium.dil_keygen_spec Dilithium.isShake128_S128 Dilithium.isShake256_S256 List.length_replicate List.length_replicate h).1 fuel
  dilSign m sk h := by
    rw [dilSign_eq, when_pos ⟨List.length_replicate, h⟩]
    exact (Dilithium.dil_sign_spec Dilithium.isShake128_S128 Dilithium.isShake256_S256 h List.length_replicate).1 fuel
  dilVerify s m pk hs h := by
    show when _ (Dilithium.verify fuel s s.length m pk) ≠ _
    rw [when_pos h, hs]
    exact (Dilithium.dil_verify_spec Dilithium.isShake128_S128 Dilithium.isShake256_S256 h hs).1 fuel
  spxKeypairSeed s h := by
    show when _ (Sphincs.seedKeypair Sphincs.shake256F _ _ s) ≠ _
    rw [when_pos ⟨List.length_replicate, List.length_replicate, h⟩, Sphincs.spx_keygen_spec Sphincs.length_shake256F _ _ s List.length_replicate List.length_replicate h]
    simp
  spxSign m sk R h := by
    rw [spxSign_eq, when_pos ⟨List.length_replicate, h⟩, Sphincs.spx_sign_spec Sphincs.length_shake256F _ m sk 0 R (by rw [List.length_replicate]) h]
    intro h
    cases h
  spxVerify s m pk hs h := by
    show when _ (Sphincs.verify Sphincs.shake256F s s.length m pk) ≠ _
    rw [when_pos h]
    rcases Sphincs.spx_verify_spec Sphincs.length_shake256F s m pk s.length (Nat.le_refl _) h with ⟨e, -⟩ | ⟨e, -⟩ <;> rw [e] <;> simp
  seedexpander s h := by
    obtain ⟨d, e, -⟩ := expander_real (fuel := fuel) (s := s) (n := 128) (by omega) (by omega)
    rw [e]
    simp

end Verif.Real
