import Verif.Hybrid.Props

/-!
Property theorems of the hybrid layer, second part: keys, round trips, randomness, separation of messages and modes,
overlapping buffers, call histories.
-/

namespace Verif.Hybrid
open Verif Toy

variable {P : Prims}

/-! ### C14, C15: keys -/

theorem keyBytes_ok {seedb pkb skb : Bytes} (h : keyBytes P seedb = .ok (0, pkb, skb)) :
    ∃ pk1 sk1 pk2 sk2 pk3 sk3, P.edKeypairSeed (zeros 32) (zeros 64) (slice seedb 0 32) = .ok (0, pk1, sk1) ∧
      P.dilKeypairSeed (zeros 1312) (zeros 2560) (slice seedb 32 32) = .ok (0, pk2, sk2) ∧
      P.spxKeypairSeed (zeros 64) (zeros 128) (slice seedb 64 96) = .ok (0, pk3, sk3) ∧
      pkb = pk1 ++ pk2 ++ pk3 ∧ skb = sk1 ++ sk2 ++ pk2 ++ sk3 := by
  unfold keyBytes at h
  obtain ⟨⟨r1, pk1, sk1⟩, h1, ha⟩ := bind_eq_ok.1 h
  simp only at ha
  split at ha
  · simp at ha
  rename_i c1
  obtain ⟨⟨r2, pk2, sk2⟩, h2, hb⟩ := bind_eq_ok.1 ha
  simp only at hb
  split at hb
  · simp at hb
  rename_i c2
  obtain ⟨⟨r3, pk3, sk3⟩, h3, hc⟩ := bind_eq_ok.1 hb
  simp only at hc
  split at hc
  · simp at hc
  rename_i c3
  simp only [not_not] at c1 c2 c3
  subst c1 c2 c3
  simp only [Except.ok.injEq, Prod.mk.injEq, true_and] at hc
  exact ⟨pk1, sk1, pk2, sk2, pk3, sk3, h1, h2, h3, hc.1.symm, hc.2.symm⟩

/-- C14: layout of the composite keys. -/
theorem keypair_layout (hP : P.Sized) (hK : P.KeyShape) {W W' : World} {pk sk seed : Ptr} {seedb : Bytes}
    (hs : W.view seed 160 = some seedb) (hpk : (W.view pk 1408).isSome) (hsk : (W.view sk 4064).isSome)
    (hd : Disj pk 1408 sk 4064)
    (h : keypairSeed P (some pk) (some sk) (some seed) W = .ok (0, W')) :
    ∃ edPk edSk dilPk dilSk spxPk spxSk,
      P.edKeypairSeed (List.replicate 32 0) (List.replicate 64 0) (seedb.take 32) = .ok (0, edPk, edSk) ∧
      P.dilKeypairSeed (List.replicate 1312 0) (List.replicate 2560 0) ((seedb.drop 32).take 32) = .ok (0, dilPk, dilSk) ∧
      P.spxKeypairSeed (List.replicate 64 0) (List.replicate 128 0) ((seedb.drop 64).take 96) = .ok (0, spxPk, spxSk) ∧
      edPk.length = 32 ∧ edSk.length = 64 ∧ dilPk.length = 1312 ∧ dilSk.length = 2560 ∧ spxPk.length = 64 ∧ spxSk.length = 128 ∧
      W'.view pk 1408 = some (edPk ++ dilPk ++ spxPk) ∧
      W'.view sk 4064 = some (edSk ++ dilSk ++ dilPk ++ spxSk) ∧
      edSk.drop 32 = edPk ∧ spxSk.drop 64 = spxPk := by
  rw [keypairSeed_run hP hs hpk hsk hd] at h
  obtain ⟨⟨r, pkb, skb⟩, hk, h⟩ := bind_eq_ok.1 h
  simp only [Except.ok.injEq, Prod.mk.injEq] at h
  obtain ⟨rfl, rfl⟩ := h
  obtain ⟨pk1, sk1, pk2, sk2, pk3, sk3, e1, e2, e3, rfl, rfl⟩ := keyBytes_ok hk
  obtain ⟨l1, l1'⟩ := hP.edKeypairSeed _ _ _ _ _ _ e1
  obtain ⟨l2, l2'⟩ := hP.dilKeypairSeed _ _ _ _ _ _ e2
  obtain ⟨l3, l3'⟩ := hP.spxKeypairSeed _ _ _ _ _ _ e3
  rw [length_zeros] at l1 l1' l2 l2' l3 l3'
  refine ⟨pk1, sk1, pk2, sk2, pk3, sk3, e1, e2, e3, l1, l1', l2, l2', l3, l3', ?_, ?_, hK.ed _ _ _ e1, hK.spx _ _ _ e3⟩
  · rw [view_write_disj (by
      have : (sk1 ++ sk2 ++ pk2 ++ sk3).length = 4064 := by simp only [List.length_append]; omega
      rw [this]; exact hd.elim (fun h => Or.inl (Ne.symm h)) (fun h => h.elim (fun h => Or.inr (Or.inr h)) (fun h => Or.inr (Or.inl h))))]
    exact view_write_same' hpk (by simp only [List.length_append]; omega)
  · exact view_write_same' (write_view_isSome hsk) (by simp only [List.length_append]; omega)

example : toy.Sized ∧ toy.KeyShape ∧ demo.view ⟨5, 0⟩ 160 = some (List.replicate 160 6) ∧ (demo.view ⟨4, 0⟩ 1408).isSome ∧
    (demo.view ⟨3, 0⟩ 4064).isSome ∧ Disj ⟨4, 0⟩ 1408 ⟨3, 0⟩ 4064 ∧
    ∃ W', keypairSeed toy (some ⟨4, 0⟩) (some ⟨3, 0⟩) (some ⟨5, 0⟩) demo = .ok (0, W') :=
  ⟨toy_sized, toy_keyShape, demo_seed 160 (by omega), some_isSome demo_pk, some_isSome demo_sk, Or.inl (by decide), demo_keypairSeed⟩

/-- What a caller can see of a key generation call: the fault, or the code and, if it is 0, both keys. -/
def keyResult (pk sk : Ptr) (x : C (Int × World)) : C (Int × Option (Option Bytes × Option Bytes)) :=
  x.map fun r => (r.1, if r.1 = 0 then some (r.2.view pk 1408, r.2.view sk 4064) else none)

theorem keyResult_run (hP : P.Sized) {W : World} {pk sk : Ptr} {seedb : Bytes}
    (hpk : (W.view pk 1408).isSome) (hsk : (W.view sk 4064).isSome) (hd : Disj pk 1408 sk 4064) :
    keyResult pk sk (keyBytes P seedb >>= fun r => .ok (r.1, (W.write pk r.2.1).write sk r.2.2)) =
      (keyBytes P seedb).map fun r => (r.1, if r.1 = 0 then some (some r.2.1, some r.2.2) else none) := by
  cases hk : keyBytes P seedb with
  | error e => rfl
  | ok r =>
    obtain ⟨c, pkb, skb⟩ := r
    simp only [ok_bind, keyResult, Except.map]
    by_cases hc : c = 0
    · subst hc
      rw [if_pos rfl, if_pos rfl]
      obtain ⟨pk1, sk1, pk2, sk2, pk3, sk3, e1, e2, e3, rfl, rfl⟩ := keyBytes_ok hk
      obtain ⟨l1, l1'⟩ := hP.edKeypairSeed _ _ _ _ _ _ e1
      obtain ⟨l2, l2'⟩ := hP.dilKeypairSeed _ _ _ _ _ _ e2
      obtain ⟨l3, l3'⟩ := hP.spxKeypairSeed _ _ _ _ _ _ e3
      rw [length_zeros] at l1 l1' l2 l2' l3 l3'
      rw [view_write_disj (by
        have : (sk1 ++ sk2 ++ pk2 ++ sk3).length = 4064 := by simp only [List.length_append]; omega
        rw [this]; exact hd.elim (fun h => Or.inl (Ne.symm h)) (fun h => h.elim (fun h => Or.inr (Or.inr h)) (fun h => Or.inr (Or.inl h))))]
      rw [view_write_same' hpk (by simp only [List.length_append]; omega),
        view_write_same' (write_view_isSome hsk) (by simp only [List.length_append]; omega)]
    · rw [if_neg hc, if_neg hc]

/-- C15: the visible result of seeded key generation depends on the 160 seed bytes only. -/
theorem keypairSeed_pure (hP : P.Sized) {W1 W2 : World} {pk1 sk1 seed1 pk2 sk2 seed2 : Ptr} {seedb : Bytes}
    (hs1 : W1.view seed1 160 = some seedb) (hpk1 : (W1.view pk1 1408).isSome) (hsk1 : (W1.view sk1 4064).isSome)
    (hd1 : Disj pk1 1408 sk1 4064)
    (hs2 : W2.view seed2 160 = some seedb) (hpk2 : (W2.view pk2 1408).isSome) (hsk2 : (W2.view sk2 4064).isSome)
    (hd2 : Disj pk2 1408 sk2 4064) :
    keyResult pk1 sk1 (keypairSeed P (some pk1) (some sk1) (some seed1) W1) =
      keyResult pk2 sk2 (keypairSeed P (some pk2) (some sk2) (some seed2) W2) := by
  rw [keypairSeed_run hP hs1 hpk1 hsk1 hd1, keypairSeed_run hP hs2 hpk2 hsk2 hd2, keyResult_run hP hpk1 hsk1 hd1,
    keyResult_run hP hpk2 hsk2 hd2]

/-- C15: seeded key generation leaves the random source alone. -/
theorem keypairSeed_no_randomness {W W' : World} {pk sk seed : Option Ptr} {r : Int}
    (h : keypairSeed P pk sk seed W = .ok (r, W')) : W'.rng.log = W.rng.log ∧ W'.rng.draw = W.rng.draw := by
  have := keypairSeed_draws pk sk seed _ _ _ h
  exact ⟨by simpa [drawLog] using this.2, this.1⟩

/-- C15: unseeded key generation is seeded key generation on the 160 bytes that the random source delivers. -/
theorem keypair_eq_keypairSeed (hP : P.Sized) {W1 W2 : World} (hW : W1.WF) {pk1 sk1 pk2 sk2 seed2 : Ptr} {seedb : Bytes}
    (hr : W1.rng.draw W1.rng.log.length 160 = some seedb)
    (hpk1 : (W1.view pk1 1408).isSome) (hsk1 : (W1.view sk1 4064).isSome) (hd1 : Disj pk1 1408 sk1 4064)
    (hs2 : W2.view seed2 160 = some seedb) (hpk2 : (W2.view pk2 1408).isSome) (hsk2 : (W2.view sk2 4064).isSome)
    (hd2 : Disj pk2 1408 sk2 4064) :
    keyResult pk1 sk1 (keypair P (some pk1) (some sk1) W1) =
      keyResult pk2 sk2 (keypairSeed P (some pk2) (some sk2) (some seed2) W2) := by
  rw [keypair_run hW hP hpk1 hsk1 hd1, keypairSeed_run hP hs2 hpk2 hsk2 hd2, keyResult_run hP hpk2 hsk2 hd2]
  simp only [randombytes, ok_bind, hr]
  exact keyResult_run hP (W := { W1 with rng := { W1.rng with log := W1.rng.log ++ [(160, some seedb)] } }) hpk1 hsk1 hd1

example : toy.Sized ∧ demo.WF ∧ demo.rng.draw demo.rng.log.length 160 = some (List.replicate 160 0) :=
  ⟨toy_sized, demo_WF, rfl⟩

/-! ### C16: failing random source -/

/-- C16: unseeded key generation and compact sign return -1 and change nothing but the log of draws. -/
theorem rng_failure_minus_one {W : World} {pk sk : Ptr} (hr : W.rng.draw W.rng.log.length 160 = none) :
    keypair P (some pk) (some sk) W = .ok (-1, { W with rng := { W.rng with log := W.rng.log ++ [(160, none)] } }) := by
  simp only [keypair, M_bind_apply, liftR, randombytes, hr, ok_bind, M_pure_apply]

/-- C16, compact sign. -/
theorem rng_failure_compact (hP : P.Sized) {W : World} {sm smlen m sk : Ptr} {mlen : Nat} {mb skb : Bytes}
    (hm : W.view m mlen = some mb) (hsk : W.view sk 4064 = some skb) (hsm : (W.view sm (2526 + mlen)).isSome)
    (h1 : 1 ≤ mlen) (h2 : mlen ≤ 64) (hr : W.rng.draw W.rng.log.length 40 = none) :
    signCompact P (some sm) (some smlen) (some m) mlen (some sk) W =
      .ok (-1, { W with rng := { W.rng with log := W.rng.log ++ [(40, none)] } }) := by
  rw [signCompact_gen hP hm hsk hsm h1 h2]
  simp only [compactSig, RandM_bind_apply, randombytes, hr, ok_bind, RandM_pure_apply]

/-- C16, full sign: never 0, memory unchanged, and -4 when the other two signers succeed. -/
theorem rng_failure_full (hP : P.Sized) (hR : P.SpxDraw) {W W' : World} {sm smlen m sk : Ptr} {mlen : Nat} {mb skb : Bytes} {r : Int}
    (hm : W.view m mlen = some mb) (hsk : W.view sk 4064 = some skb) (hsm : (W.view sm (52342 + mlen)).isSome)
    (hl : (W.view smlen 8).isSome) (h1 : 1 ≤ mlen) (h2 : mlen ≤ 64) (hr : W.rng.draw W.rng.log.length 32 = none)
    (h : signFull P (some sm) (some smlen) (some m) mlen (some sk) W = .ok (r, W')) :
    r ≠ 0 ∧ W'.mem = W.mem ∧
      ((∃ b n, P.edSign (List.replicate 128 0) 0 mb (skEd skb) = .ok (0, b, n)) →
       (∃ b n, P.dilSign (List.replicate 2420 0) 0 mb (skDil skb) = .ok (0, b, n)) → r = -4) := by
  have key : r ≠ 0 ∧ ((∃ b n, P.edSign (List.replicate 128 0) 0 mb (skEd skb) = .ok (0, b, n)) →
       (∃ b n, P.dilSign (List.replicate 2420 0) 0 mb (skDil skb) = .ok (0, b, n)) → r = -4) := by
    rw [signFull_run hP hm hsk hsm hl h1 h2] at h
    obtain ⟨⟨x, R'⟩, hf, h⟩ := bind_eq_ok.1 h
    unfold fullSig at hf
    simp only [RandM_bind_apply] at hf
    obtain ⟨⟨⟨r1, b1, n1⟩, R1⟩, e1, ha⟩ := bind_eq_ok.1 hf
    obtain ⟨⟨⟨r2, b2, n2⟩, R2⟩, e2, hb⟩ := bind_eq_ok.1 ha
    obtain ⟨⟨⟨r3, b3, n3⟩, R3⟩, e3, hc⟩ := bind_eq_ok.1 hb
    clear hf ha hb
    obtain ⟨e1', rfl⟩ := liftCR_eq_ok e1
    obtain ⟨e2', rfl⟩ := liftCR_eq_ok e2
    have hne := hR.fail _ _ _ _ _ _ _ e3 hr
    simp only at hne hc
    have ed : (∃ b n, P.edSign (List.replicate 128 0) 0 mb (skEd skb) = .ok (0, b, n)) → r1 = 0 := by
      rintro ⟨b, n, e⟩
      have : P.edSign (List.replicate 128 0) 0 mb (skEd skb) = .ok (r1, b1, n1) := e1'
      rw [e] at this
      simp only [Except.ok.injEq, Prod.mk.injEq] at this
      exact this.1.symm
    have dil : (∃ b n, P.dilSign (List.replicate 2420 0) 0 mb (skDil skb) = .ok (0, b, n)) → r2 = 0 := by
      rintro ⟨b, n, e⟩
      have : P.dilSign (List.replicate 2420 0) 0 mb (skDil skb) = .ok (r2, b2, n2) := e2'
      rw [e] at this
      simp only [Except.ok.injEq, Prod.mk.injEq] at this
      exact this.1.symm
    by_cases c1 : r1 = 0
    swap
    · rw [if_pos c1] at hc
      simp only [RandM_pure_apply, Except.ok.injEq, Prod.mk.injEq] at hc
      obtain ⟨rfl, rfl⟩ := hc
      simp only [Except.ok.injEq, Prod.mk.injEq] at h
      exact ⟨by omega, fun h => absurd (ed h) c1⟩
    rw [if_neg (not_not.2 c1)] at hc
    by_cases c2 : r2 = 0
    swap
    · rw [if_pos c2] at hc
      simp only [RandM_pure_apply, Except.ok.injEq, Prod.mk.injEq] at hc
      obtain ⟨rfl, rfl⟩ := hc
      simp only [Except.ok.injEq, Prod.mk.injEq] at h
      exact ⟨by omega, fun _ h => absurd (dil h) c2⟩
    rw [if_neg (not_not.2 c2), if_pos hne] at hc
    simp only [RandM_pure_apply, Except.ok.injEq, Prod.mk.injEq] at hc
    obtain ⟨rfl, rfl⟩ := hc
    simp only [Except.ok.injEq, Prod.mk.injEq] at h
    exact ⟨by omega, fun _ _ => by omega⟩
  exact ⟨key.1, full_sign_failure_clean h key.1, key.2⟩

/-- In the demo memory with a failing random source full sign returns -4. -/
example : toy.SpxDraw ∧ demoFail.rng.draw demoFail.rng.log.length 32 = none ∧
    ∃ W', signFull toy (some ⟨0, 0⟩) (some ⟨1, 0⟩) (some ⟨2, 0⟩) 20 (some ⟨3, 0⟩) demoFail = .ok (-4, W') := by
  refine ⟨toy_spxDraw, rfl, ?_⟩
  rw [signFull_run toy_sized (mb := List.replicate 20 5) (skb := List.replicate 4064 3) (view_replicate rfl (by omega))
    (view_replicate rfl (by omega)) (some_isSome (view_replicate (v := 9) (N := 60000) rfl (by omega)))
    (some_isSome (view_replicate (v := 9) (N := 8) rfl (by omega))) (by omega) (by omega)]
  exact ⟨_, rfl⟩

/-! ### C01-C04: round trips -/

theorem pk_parts {a b c : Bytes} (ha : a.length = 32) (hb : b.length = 1312) (hc : c.length = 64) :
    pkEd (a ++ b ++ c) = a ∧ pkDil (a ++ b ++ c) = b ∧ pkSpx (a ++ b ++ c) = c := by
  refine ⟨?_, ?_, ?_⟩
  · rw [pkEd, List.append_assoc, List.take_left' ha]
  · rw [pkDil, ← slice_eq, List.append_assoc, slice_here ha hb]
  · rw [pkSpx, ← slice_eq, slice_last (by simp only [List.length_append]; omega) hc]

theorem sk_parts {a b c d : Bytes} (ha : a.length = 64) (hb : b.length = 2560) (hc : c.length = 1312) (hd : d.length = 128) :
    skEd (a ++ b ++ c ++ d) = a ∧ skDil (a ++ b ++ c ++ d) = b ∧ skSpx (a ++ b ++ c ++ d) = d ∧
      skSpxPk (a ++ b ++ c ++ d) = d.drop 64 := by
  have hl : (a ++ b ++ c).length = 3936 := by simp only [List.length_append]; omega
  refine ⟨?_, ?_, ?_, ?_⟩
  · rw [skEd, List.append_assoc, List.append_assoc, List.take_left' ha]
  · rw [skDil, ← slice_eq, List.append_assoc, List.append_assoc, slice_here ha (by simpa using hb)]
  · rw [skSpx, ← slice_eq, slice_last hl hd]
  · rw [skSpxPk, List.drop_append, List.drop_of_length_le (by omega), hl, List.nil_append, List.take_of_length_le]
    rw [List.length_drop]; omega

/-- A key pair as seeded key generation leaves it in memory. -/
def Generated (P : Prims) (pkb skb : Bytes) : Prop :=
  ∃ (W W' : World) (pk sk seed : Ptr), (W.view seed 160).isSome ∧ (W.view pk 1408).isSome ∧ (W.view sk 4064).isSome ∧
    Disj pk 1408 sk 4064 ∧ keypairSeed P (some pk) (some sk) (some seed) W = .ok (0, W') ∧
    W'.view pk 1408 = some pkb ∧ W'.view sk 4064 = some skb

/-- What round trips need to know about a generated key pair. -/
theorem Generated.parts (hP : P.Sized) (hK : P.KeyShape) {pkb skb : Bytes} (h : Generated P pkb skb) :
    ∃ s1 s2 s3, P.edKeypairSeed (List.replicate 32 0) (List.replicate 64 0) s1 = .ok (0, pkEd pkb, skEd skb) ∧
      P.dilKeypairSeed (List.replicate 1312 0) (List.replicate 2560 0) s2 = .ok (0, pkDil pkb, skDil skb) ∧
      P.spxKeypairSeed (List.replicate 64 0) (List.replicate 128 0) s3 = .ok (0, pkSpx pkb, skSpx skb) ∧
      skSpxPk skb = pkSpx pkb := by
  obtain ⟨W, W', pk, sk, seed, hs, hpk, hsk, hd, h, h1, h2⟩ := h
  obtain ⟨seedb, hs⟩ := Option.isSome_iff_exists.1 hs
  obtain ⟨a, a', b, b', c, c', e1, e2, e3, l1, l1', l2, l2', l3, l3', v1, v2, k1, k2⟩ := keypair_layout hP hK hs hpk hsk hd h
  rw [h1] at v1; rw [h2] at v2
  simp only [Option.some.injEq] at v1 v2
  subst v1 v2
  obtain ⟨p1, p2, p3⟩ := pk_parts l1 l2 l3
  obtain ⟨q1, q2, q3, q4⟩ := sk_parts l1' l2' l2 l3'
  exact ⟨_, _, _, by rw [p1, q1]; exact e1, by rw [p2, q2]; exact e2, by rw [p3, q3]; exact e3, by rw [q4, p3, k2]⟩

/-- A buffer that full sign produced for a generated key is valid. -/
theorem full_sign_valid (hP : P.Sized) (hE : P.EdShape) (hK : P.KeyShape) (hC : P.Correct) {pkb skb : Bytes}
    (hg : Generated P pkb skb) {W W' : World} {sm smlen m sk : Ptr} {mlen : Nat} {mb : Bytes}
    (hm : W.view m mlen = some mb) (hsk : W.view sk 4064 = some skb)
    (hsm : (W.view sm (52342 + mlen)).isSome) (hl : (W.view smlen 8).isSome) (hd : Disj smlen 8 sm (52342 + mlen))
    (h : signFull P (some sm) (some smlen) (some m) mlen (some sk) W = .ok (0, W')) :
    ∃ sb, W'.view sm (52342 + mlen) = some sb ∧ W'.view smlen 8 = some (le64 (52342 + mlen)) ∧ FullValid P pkb mb sb := by
  have hmb := length_of_view hm
  have hr : 1 ≤ mlen ∧ mlen ≤ 64 := by
    by_contra hr
    rw [((invalid_arguments (P := P) W (some sm) (some smlen) (some m) (some sk) none none none mlen 0).1 (Or.inr (by omega))).1] at h
    simp at h
  obtain ⟨s1, s2, s3, k1, k2, k3, -⟩ := hg.parts hP hK
  obtain ⟨ed, dil, spx, l1, l2, l3, v1, v2, ⟨b, e1, rfl⟩, e2, e3⟩ :=
    full_sign_wire_format hP hE hm hsk hsm hl hd hr.1 hr.2 h
  exact ⟨_, v1, v2, by omega, by omega, _, _, _, l1, l2, l3, rfl, hC.ed _ _ _ _ _ _ (by omega) k1 e1, hC.dil _ _ _ _ _ k2 e2,
    hC.spx _ _ _ _ _ _ _ k3 e3⟩

/-- A buffer that compact sign produced for a generated key is valid. -/
theorem compact_sign_valid (hP : P.Sized) (hK : P.KeyShape) (hC : P.Correct) {pkb skb : Bytes}
    (hg : Generated P pkb skb) {W W' : World} {sm smlen m sk : Ptr} {mlen : Nat} {mb : Bytes}
    (hm : W.view m mlen = some mb) (hsk : W.view sk 4064 = some skb)
    (hsm : (W.view sm (2526 + mlen)).isSome) (hl : (W.view smlen 8).isSome) (hd : Disj smlen 8 sm (2526 + mlen))
    (hdm : Disj sm (2526 + mlen) m mlen)
    (h : signCompact P (some sm) (some smlen) (some m) mlen (some sk) W = .ok (0, W')) :
    ∃ sb, W'.view sm (2526 + mlen) = some sb ∧ W'.view smlen 8 = some (le64 (2526 + mlen)) ∧ CompactValid P pkb mb sb := by
  have hmb := length_of_view hm
  have hr : 1 ≤ mlen ∧ mlen ≤ 64 := by
    by_contra hr
    rw [((invalid_arguments (P := P) W (some sm) (some smlen) (some m) (some sk) none none none mlen 0).1 (Or.inr (by omega))).2] at h
    simp at h
  obtain ⟨s1, s2, s3, k1, k2, k3, k4⟩ := hg.parts hP hK
  obtain ⟨ed, dil, nonce, l1, l2, l3, v1, v2, -, ⟨b, e1, rfl⟩, e2⟩ :=
    compact_sign_wire_format hP hm hsk hsm hl hd hdm hr.1 hr.2 h
  rw [k4] at e1 e2
  have h64 : (compactHash P nonce mb (pkSpx pkb)).length = 64 := hP.sha3_512 _
  exact ⟨_, v1, v2, by omega, by omega, _, _, _, l1, l2, l3, rfl, hC.ed _ _ _ _ _ _ (by omega) k1 e1, hC.dil _ _ _ _ _ k2 e2⟩

/-- C01: what full sign produced for a generated key pair is accepted by full verify, in every later memory that holds
the same bytes. -/
theorem full_roundtrip (hP : P.Sized) (hE : P.EdShape) (hK : P.KeyShape) (hC : P.Correct) {pkb skb : Bytes}
    (hg : Generated P pkb skb) {W W' : World} {sm smlen m sk : Ptr} {mlen : Nat} {mb : Bytes}
    (hm : W.view m mlen = some mb) (hsk : W.view sk 4064 = some skb)
    (hsm : (W.view sm (52342 + mlen)).isSome) (hl : (W.view smlen 8).isSome) (hd : Disj smlen 8 sm (52342 + mlen))
    (h : signFull P (some sm) (some smlen) (some m) mlen (some sk) W = .ok (0, W')) :
    ∃ n sb, W'.view smlen 8 = some (le64 n) ∧ W'.view sm n = some sb ∧
      ∀ (V : World) (m' sm' pk' : Ptr), V.WF → V.view m' mlen = some mb → V.view sm' n = some sb → V.view pk' 1408 = some pkb →
        verifyFull P (some m') mlen (some sm') n (some pk') V = .ok (0, V) := by
  obtain ⟨sb, v1, v2, hv⟩ := full_sign_valid hP hE hK hC hg hm hsk hsm hl hd h
  exact ⟨_, sb, v2, v1, fun V m' sm' pk' hV hm' hsm' hpk' => (full_verify_iff hP hE hV hsm' hpk' hm').2 ⟨rfl, hv⟩⟩

/-- C02: opening delivers exactly the signed message and its length. -/
theorem full_open_roundtrip (hP : P.Sized) (hE : P.EdShape) (hK : P.KeyShape) (hC : P.Correct) {pkb skb : Bytes}
    (hg : Generated P pkb skb) {W W' : World} {sm smlen m sk : Ptr} {mlen : Nat} {mb : Bytes}
    (hm : W.view m mlen = some mb) (hsk : W.view sk 4064 = some skb)
    (hsm : (W.view sm (52342 + mlen)).isSome) (hl : (W.view smlen 8).isSome) (hd : Disj smlen 8 sm (52342 + mlen))
    (h : signFull P (some sm) (some smlen) (some m) mlen (some sk) W = .ok (0, W')) :
    ∃ n sb, W'.view smlen 8 = some (le64 n) ∧ W'.view sm n = some sb ∧
      ∀ (V : World) (m' l' sm' pk' : Ptr), (V.view m' mlen).isSome → (V.view l' 8).isSome → Disj l' 8 m' mlen →
        V.view sm' n = some sb → V.view pk' 1408 = some pkb →
        ∃ V', openFull P (some m') (some l') (some sm') n (some pk') V = .ok (0, V') ∧
          V'.view m' mlen = some mb ∧ V'.view l' 8 = some (le64 mlen) := by
  have hmb := length_of_view hm
  obtain ⟨sb, v1, v2, hv⟩ := full_sign_valid hP hE hK hC hg hm hsk hsm hl hd h
  refine ⟨_, sb, v2, v1, fun V m' l' sm' pk' hm' hl' hd' hsm' hpk' => ⟨(V.write m' mb).write l' (le64 mlen), ?_, ?_, ?_⟩⟩
  · exact (full_open_iff hP hE hsm' hpk' (by rw [Nat.add_sub_cancel_left]; exact hm') hl').2 ⟨mb, hv, by rw [hmb]⟩
  · rw [view_write_disj (by rw [length_le64]; exact hd')]; exact view_write_same' hm' hmb
  · exact view_write_same' (write_view_isSome hl') (length_le64 _)

/-- C03: compact round trip. -/
theorem compact_roundtrip (hP : P.Sized) (hE : P.EdShape) (hK : P.KeyShape) (hC : P.Correct) {pkb skb : Bytes}
    (hg : Generated P pkb skb) {W W' : World} {sm smlen m sk : Ptr} {mlen : Nat} {mb : Bytes}
    (hm : W.view m mlen = some mb) (hsk : W.view sk 4064 = some skb)
    (hsm : (W.view sm (2526 + mlen)).isSome) (hl : (W.view smlen 8).isSome) (hd : Disj smlen 8 sm (2526 + mlen))
    (hdm : Disj sm (2526 + mlen) m mlen)
    (h : signCompact P (some sm) (some smlen) (some m) mlen (some sk) W = .ok (0, W')) :
    ∃ n sb, W'.view smlen 8 = some (le64 n) ∧ W'.view sm n = some sb ∧
      ∀ (V : World) (m' sm' pk' : Ptr), V.WF → V.view m' mlen = some mb → V.view sm' n = some sb → V.view pk' 1408 = some pkb →
        verifyCompact P (some m') mlen (some sm') n (some pk') V = .ok (0, V) := by
  obtain ⟨sb, v1, v2, hv⟩ := compact_sign_valid hP hK hC hg hm hsk hsm hl hd hdm h
  exact ⟨_, sb, v2, v1, fun V m' sm' pk' hV hm' hsm' hpk' => (compact_verify_iff hP hE hV hsm' hpk' hm').2 ⟨rfl, hv⟩⟩

/-- C04: compact open delivers exactly the signed message and its length. -/
theorem compact_open_roundtrip (hP : P.Sized) (hE : P.EdShape) (hK : P.KeyShape) (hC : P.Correct) {pkb skb : Bytes}
    (hg : Generated P pkb skb) {W W' : World} {sm smlen m sk : Ptr} {mlen : Nat} {mb : Bytes}
    (hm : W.view m mlen = some mb) (hsk : W.view sk 4064 = some skb)
    (hsm : (W.view sm (2526 + mlen)).isSome) (hl : (W.view smlen 8).isSome) (hd : Disj smlen 8 sm (2526 + mlen))
    (hdm : Disj sm (2526 + mlen) m mlen)
    (h : signCompact P (some sm) (some smlen) (some m) mlen (some sk) W = .ok (0, W')) :
    ∃ n sb, W'.view smlen 8 = some (le64 n) ∧ W'.view sm n = some sb ∧
      ∀ (V : World) (m' l' sm' pk' : Ptr), (V.view m' mlen).isSome → (V.view l' 8).isSome → Disj l' 8 m' mlen →
        Disj m' mlen sm' n → V.view sm' n = some sb → V.view pk' 1408 = some pkb →
        ∃ V', openCompact P (some m') (some l') (some sm') n (some pk') V = .ok (0, V') ∧
          V'.view m' mlen = some mb ∧ V'.view l' 8 = some (le64 mlen) := by
  have hmb := length_of_view hm
  obtain ⟨sb, v1, v2, hv⟩ := compact_sign_valid hP hK hC hg hm hsk hsm hl hd hdm h
  refine ⟨_, sb, v2, v1, fun V m' l' sm' pk' hm' hl' hd' hdo hsm' hpk' => ⟨(V.write m' mb).write l' (le64 mlen), ?_, ?_, ?_⟩⟩
  · exact (compact_open_iff hP hE hsm' hpk' (by rw [Nat.add_sub_cancel_left]; exact hm') hl'
      (by rw [Nat.add_sub_cancel_left]; exact hdo)).2 ⟨mb, hv, by rw [hmb]⟩
  · rw [view_write_disj (by rw [length_le64]; exact hd')]; exact view_write_same' hm' hmb
  · exact view_write_same' (write_view_isSome hl') (length_le64 _)

/-- The toy components generate a key pair, and in a memory that holds it both sign calls return 0. -/
example : toy.Correct ∧ ∃ pkb skb, Generated toy pkb skb ∧ ∃ W W1 W2 : World, W.view ⟨3, 0⟩ 4064 = some skb ∧
    W.view ⟨2, 0⟩ 20 = some (List.replicate 20 5) ∧
    signFull toy (some ⟨0, 0⟩) (some ⟨1, 0⟩) (some ⟨2, 0⟩) 20 (some ⟨3, 0⟩) W = .ok (0, W1) ∧
    signCompact toy (some ⟨0, 0⟩) (some ⟨1, 0⟩) (some ⟨2, 0⟩) 20 (some ⟨3, 0⟩) W = .ok (0, W2) := by
  obtain ⟨W, h⟩ := demo_keypairSeed
  obtain ⟨a, a', b, b', c, c', -, -, -, l1, l1', l2, l2', l3, l3', v1, v2, -, -⟩ := keypair_layout toy_sized toy_keyShape
    (demo_seed 160 (by omega)) (some_isSome demo_pk) (some_isSome demo_sk) (Or.inl (by decide)) h
  refine ⟨toy_correct, _, _, ⟨demo, W, ⟨4, 0⟩, ⟨3, 0⟩, ⟨5, 0⟩, some_isSome (demo_seed 160 (by omega)), some_isSome demo_pk,
    some_isSome demo_sk, Or.inl (by decide), h, v1, v2⟩, ?_⟩
  have hl : (a' ++ b' ++ b ++ c').length = 4064 := by simp only [List.length_append]; omega
  have hsk : (demo.write ⟨3, 0⟩ (a' ++ b' ++ b ++ c')).view ⟨3, 0⟩ 4064 = some (a' ++ b' ++ b ++ c') :=
    view_write_same demo_sk hl
  have hm : (demo.write ⟨3, 0⟩ (a' ++ b' ++ b ++ c')).view ⟨2, 0⟩ 20 = some (List.replicate 20 5) := by
    rw [view_write_disj (Or.inl (by decide))]; exact demo_m 20 (by omega)
  refine ⟨demo.write ⟨3, 0⟩ (a' ++ b' ++ b ++ c'), ?_⟩
  have hr : (demo.write ⟨3, 0⟩ (a' ++ b' ++ b ++ c')).rng = demoRng := write_rng _ _ _
  have e1 := signFull_run toy_sized hm hsk (write_view_isSome (some_isSome (demo_sm (52342 + 20) (by omega))))
    (write_view_isSome (some_isSome demo_len)) (by omega) (by omega)
  have e2 := signCompact_run toy_sized hm hsk (write_view_isSome (some_isSome (demo_sm (2526 + 20) (by omega))))
    (write_view_isSome (some_isSome demo_len)) (Or.inl (by decide)) (by omega) (by omega)
  rw [hr] at e1 e2
  simp only [fullSig, RandM_bind_apply] at e1
  simp only [toy, liftCR_ok, ok_bind] at e1
  simp only [demoRng, List.length_nil, show (0 : Nat) < 100 by omega, if_true] at e1
  simp only [ne_eq, not_true_eq_false, if_false, RandM_pure_apply, ok_bind, List.length_replicate] at e1
  simp only [compactSig, RandM_bind_apply, randombytes, ok_bind] at e2
  simp only [demoRng, List.length_nil, show (0 : Nat) < 100 by omega, if_true, RandM_bind_apply] at e2
  simp only [toy, liftCR_ok, ok_bind, length_fit] at e2
  simp only [ne_eq, not_true_eq_false, if_false, RandM_pure_apply, ok_bind] at e2
  exact ⟨_, _, hsk, hm, e1, e2⟩

/-! ### C17, C18: seed expander -/

/-- The 64 bytes that the expander really hashes: even positions of the seed, zero elsewhere. -/
def EffectiveSeed (seed s : Bytes) : Prop :=
  s.length = 64 ∧ ∀ i, i < 64 → s[i]? = if i % 2 = 0 then seed[i]? else some 0

theorem effectiveSeed_spec {seedb : Bytes} (h : seedb.length = 96) : EffectiveSeed seedb (effectiveSeed seedb) := by
  refine ⟨by simp [effectiveSeed], fun i hi => ?_⟩
  simp only [effectiveSeed, List.getElem?_map, List.getElem?_range hi, Option.map_some]
  split
  · rw [List.getD_eq_getElem?_getD, List.getElem?_eq_getElem (by omega), Option.getD_some]
  · rfl

theorem EffectiveSeed.unique {seed s s' : Bytes} (h : EffectiveSeed seed s) (h' : EffectiveSeed seed s') : s = s' := by
  apply List.ext_getElem?
  intro i
  by_cases hi : i < 64
  · rw [h.2 i hi, h'.2 i hi]
  · rw [List.getElem?_eq_none (by rw [h.1]; omega), List.getElem?_eq_none (by rw [h'.1]; omega)]

/-- C18: the expander copies seed bytes 64..95 to positions 32..63 and fills the rest with the 128 bytes of the SHAKE
expander on the effective seed. -/
theorem expander_structure (hP : P.Sized) {W W' : World} {seed ex : Ptr} {seedb : Bytes} {r : Int}
    (hs : W.view seed 96 = some seedb) (hx : (W.view ex 160).isSome) (hd : Disj ex 160 seed 96)
    (h : seedExpander P (some seed) (some ex) W = .ok (r, W')) :
    ∃ s tmp, EffectiveSeed seedb s ∧ P.seedexpander s 128 = .ok (r, tmp) ∧
      (r = 0 → W'.view ex 160 = some (tmp.take 32 ++ (seedb.drop 64).take 32 ++ tmp.drop 32)) ∧ (r ≠ 0 → W' = W) := by
  have hsb := length_of_view hs
  rw [seedExpander_run hP hs hx hd] at h
  obtain ⟨x, hx', h⟩ := bind_eq_ok.1 h
  unfold expandBytes at hx'
  obtain ⟨⟨r', tmp⟩, e, h2⟩ := bind_eq_ok.1 hx'
  have hl := hP.seedexpander _ _ _ _ e
  simp only at h2
  by_cases c : r' = 0
  · rw [if_neg (not_not.2 c)] at h2
    simp only [Except.ok.injEq] at h2
    subst h2 c
    simp only [Except.ok.injEq, Prod.mk.injEq] at h
    obtain ⟨rfl, rfl⟩ := h
    refine ⟨_, tmp, effectiveSeed_spec hsb, e, fun _ => ?_, fun h => absurd rfl h⟩
    have hb : (slice tmp 0 32 ++ slice seedb 64 32 ++ slice tmp 32 96).length = 160 := by
      simp only [List.length_append]; rw [length_slice (by omega), length_slice (by omega), length_slice (by omega)]
    rw [view_write_same' hx hb]
    simp only [slice_eq, List.drop_zero]
    rw [List.take_of_length_le (l := List.drop 32 tmp) (by rw [List.length_drop]; omega)]
  · rw [if_pos c] at h2
    simp only [Except.ok.injEq] at h2
    subst h2
    simp only [Except.ok.injEq, Prod.mk.injEq] at h
    obtain ⟨rfl, rfl⟩ := h
    exact ⟨_, tmp, effectiveSeed_spec hsb, e, fun h => absurd h c, fun _ => rfl⟩

/-- C17 (what holds): the expander's visible result is a function of the even positions below 64 and of positions
64..95.  The full claim, that all 96 bytes matter, is false of the code: see `expander_ignores_odd_bytes`. -/
theorem expander_pure_partial (hP : P.Sized) {W1 W2 : World} {seed1 ex1 seed2 ex2 : Ptr} {s1 s2 : Bytes}
    (h1 : W1.view seed1 96 = some s1) (hx1 : (W1.view ex1 160).isSome) (hd1 : Disj ex1 160 seed1 96)
    (h2 : W2.view seed2 96 = some s2) (hx2 : (W2.view ex2 160).isSome) (hd2 : Disj ex2 160 seed2 96)
    (heven : ∀ i, i < 64 → i % 2 = 0 → s1[i]? = s2[i]?) (hrest : s1.drop 64 = s2.drop 64) :
    (seedExpander P (some seed1) (some ex1) W1).map (fun r => (r.1, if r.1 = 0 then r.2.view ex1 160 else none)) =
      (seedExpander P (some seed2) (some ex2) W2).map (fun r => (r.1, if r.1 = 0 then r.2.view ex2 160 else none)) := by
  have l1 := length_of_view h1
  have l2 := length_of_view h2
  rw [seedExpander_run hP h1 hx1 hd1, seedExpander_run hP h2 hx2 hd2]
  have he : effectiveSeed s1 = effectiveSeed s2 := by
    refine (effectiveSeed_spec l1).unique ⟨(effectiveSeed_spec l2).1, fun i hi => ?_⟩
    rw [(effectiveSeed_spec l2).2 i hi]
    split
    · rw [heven i hi ‹_›]
    · rfl
  have hb : expandBytes P s1 = expandBytes P s2 := by
    unfold expandBytes
    rw [he, slice_eq, slice_eq, hrest]
  rw [hb]
  cases hx : expandBytes P s2 with
  | error e => rfl
  | ok x =>
    cases x with
    | error c =>
      simp only [ok_bind, Except.map]
      have hc : c ≠ 0 := by
        unfold expandBytes at hx
        obtain ⟨⟨r', tmp⟩, e, hy⟩ := bind_eq_ok.1 hx
        simp only at hy
        split at hy
        · simp only [Except.ok.injEq, Except.error.injEq] at hy; subst hy; assumption
        · simp at hy
      rw [if_neg hc, if_neg hc]
    | ok b =>
      have hl : b.length = 160 := by
        unfold expandBytes at hx
        obtain ⟨⟨r', tmp⟩, e, hy⟩ := bind_eq_ok.1 hx
        have := hP.seedexpander _ _ _ _ e
        simp only at hy
        split at hy
        · simp at hy
        · simp only [Except.ok.injEq] at hy
          subst hy
          simp only [List.length_append]; rw [length_slice (by omega), length_slice (by omega), length_slice (by omega)]
      simp only [ok_bind, Except.map, if_true]
      rw [view_write_same' hx1 hl, view_write_same' hx2 hl]

/-- C17 is false of the code: two different seeds, in otherwise equal memories, give the same 160 bytes for every hash
function.  Byte 1 of the seed is one of the 32 bytes that are ignored. -/
theorem expander_ignores_odd_bytes (hP : P.Sized) :
    ∃ s1 s2 : Bytes, s1.length = 96 ∧ s2.length = 96 ∧ s1 ≠ s2 ∧
      ∀ (W1 W2 : World) (seed ex : Ptr), W1.view seed 96 = some s1 → W2.view seed 96 = some s2 →
        (W1.view ex 160).isSome → (W2.view ex 160).isSome → Disj ex 160 seed 96 →
        (seedExpander P (some seed) (some ex) W1).map (fun r => (r.1, if r.1 = 0 then r.2.view ex 160 else none)) =
          (seedExpander P (some seed) (some ex) W2).map (fun r => (r.1, if r.1 = 0 then r.2.view ex 160 else none)) := by
  refine ⟨List.replicate 96 0, 0 :: 1 :: List.replicate 94 0, by simp, by simp, by decide, ?_⟩
  intro W1 W2 seed ex h1 h2 hx1 hx2 hd
  refine expander_pure_partial hP h1 hx1 hd h2 hx2 hd ?_ (by decide)
  intro i hi he
  match i, he with
  | 0, _ => rfl
  | 1, he => omega
  | i + 2, _ => simp

example : toy.Sized ∧ (demo.view ⟨5, 0⟩ 96).isSome ∧ (demo.view ⟨0, 0⟩ 160).isSome ∧ Disj ⟨0, 0⟩ 160 ⟨5, 0⟩ 96 ∧
    ∃ tmp, toy.seedexpander (List.replicate 64 0) 128 = .ok (0, tmp) :=
  ⟨toy_sized, some_isSome (demo_seed 96 (by omega)), some_isSome (demo_sm 160 (by omega)), Or.inl (by decide), _, rfl⟩

/-! ### C19, C20: separation of messages and modes -/

/-- The string that compact mode hashes determines nonce, message and SPHINCS+ public key. -/
theorem compact_input_injective {n m k n' m' k' : Bytes} (hn : n.length = 40) (hn' : n'.length = 40) (hk : k.length = 64)
    (hk' : k'.length = 64) (h : n ++ m ++ k = n' ++ m' ++ k') : n = n' ∧ m = m' ∧ k = k' := by
  have hl : m.length = m'.length := by
    have := congrArg List.length h
    simp only [List.length_append] at this
    omega
  rw [List.append_assoc, List.append_assoc] at h
  obtain ⟨h1, h2⟩ := List.append_inj h (by omega)
  obtain ⟨h3, h4⟩ := List.append_inj h2 hl
  exact ⟨h1, h3, h4⟩

/-- C19: two accepted compact buffers with the same component signatures have the same nonce, message and SPHINCS+ key,
or the two strings that the code hashes are a collision of SHA3-512, or both component verifiers accept the same signature bytes for the two different hash values. -/
theorem compact_binding (hP : P.Sized) (hE : P.EdShape) {W W1 W2 : World} (hW : W.WF) {sm m pk sm' m' pk' : Ptr}
    {n k n' k' : Nat} {pkb pkb' mb mb' ed dil nonce nonce' : Bytes}
    (led : ed.length = 64) (ldil : dil.length = 2420) (ln : nonce.length = 40) (ln' : nonce'.length = 40)
    (hsm : W.view sm n = some (compactWire ed dil nonce mb)) (hsm' : W.view sm' n' = some (compactWire ed dil nonce' mb'))
    (hpk : W.view pk 1408 = some pkb) (hpk' : W.view pk' 1408 = some pkb')
    (hm : W.view m k = some mb) (hm' : W.view m' k' = some mb')
    (h1 : verifyCompact P (some m) k (some sm) n (some pk) W = .ok (0, W1))
    (h2 : verifyCompact P (some m') k' (some sm') n' (some pk') W = .ok (0, W2)) :
    (nonce = nonce' ∧ mb = mb' ∧ pkSpx pkb = pkSpx pkb') ∨
    (nonce ++ mb ++ pkSpx pkb ≠ nonce' ++ mb' ++ pkSpx pkb' ∧ P.sha3_512 (nonce ++ mb ++ pkSpx pkb) = P.sha3_512 (nonce' ++ mb' ++ pkSpx pkb')) ∨
    (P.sha3_512 (nonce ++ mb ++ pkSpx pkb) ≠ P.sha3_512 (nonce' ++ mb' ++ pkSpx pkb') ∧
      EdAccepts P (pkEd pkb) ed (P.sha3_512 (nonce ++ mb ++ pkSpx pkb)) ∧ EdAccepts P (pkEd pkb') ed (P.sha3_512 (nonce' ++ mb' ++ pkSpx pkb')) ∧
      DilAccepts P (pkDil pkb) dil (P.sha3_512 (nonce ++ mb ++ pkSpx pkb)) ∧ DilAccepts P (pkDil pkb') dil (P.sha3_512 (nonce' ++ mb' ++ pkSpx pkb'))) := by
  obtain ⟨-, -, h64, ed1, dil1, nonce1, a1, a2, a3, e, x1, x2⟩ := (compact_verify_iff hP hE hW hsm hpk hm).1 h1
  obtain ⟨-, -, h64', ed2, dil2, nonce2, b1, b2, b3, e', y1, y2⟩ := (compact_verify_iff hP hE hW hsm' hpk' hm').1 h2
  have inj : ∀ {ed dil nonce ed' dil' nonce' mb : Bytes}, ed.length = 64 → dil.length = 2420 → nonce.length = 40 →
      ed'.length = 64 → dil'.length = 2420 → nonce'.length = 40 →
      compactWire ed dil nonce mb = compactWire ed' dil' nonce' mb → ed = ed' ∧ dil = dil' ∧ nonce = nonce' := by
    intro ed dil nonce ed' dil' nonce' mb p1 p2 p3 q1 q2 q3 h
    simp only [compactWire, List.cons.injEq, true_and, List.append_assoc] at h
    obtain ⟨h1, h⟩ := List.append_inj h (by omega)
    obtain ⟨h2, h⟩ := List.append_inj h (by omega)
    obtain ⟨h3, h⟩ := List.append_inj h (by omega)
    exact ⟨h1, h2, h3⟩
  obtain ⟨rfl, rfl, rfl⟩ := inj led ldil ln a1 a2 a3 e
  obtain ⟨rfl, rfl, rfl⟩ := inj led ldil ln' b1 b2 b3 e'
  have lp : (pkSpx pkb).length = 64 := by rw [pkSpx, ← slice_eq, length_slice]; have := length_of_view hpk; omega
  have lp' : (pkSpx pkb').length = 64 := by rw [pkSpx, ← slice_eq, length_slice]; have := length_of_view hpk'; omega
  by_cases hh : compactHash P nonce mb (pkSpx pkb) = compactHash P nonce' mb' (pkSpx pkb')
  · by_cases hx : nonce ++ mb ++ pkSpx pkb = nonce' ++ mb' ++ pkSpx pkb'
    · exact Or.inl (compact_input_injective ln ln' lp lp' hx)
    · exact Or.inr (Or.inl ⟨hx, hh⟩)
  · exact Or.inr (Or.inr ⟨hh, x1, y1, x2, y2⟩)

/-- C20 is false of the code: an accepted full-mode signature of the 64-byte message
`h = SHA3-512(nonce | m' | SPHINCS+ pk)` contains an accepted compact signature of `m'`, for every nonce and `m'` and
for every choice of components.  No secret key is used. -/
theorem cross_mode_repackaging (hP : P.Sized) (hE : P.EdShape) {W W1 V : World} (hW : W.WF) (hV : V.WF) {sm m pk sm' m' pk' : Ptr}
    {n : Nat} {pkb h ed dil spx nonce mb' : Bytes} (led : ed.length = 64) (ldil : dil.length = 2420)
    (ln : nonce.length = 40) (hm1 : 1 ≤ mb'.length) (hm2 : mb'.length ≤ 64)
    (hh : h = compactHash P nonce mb' (pkSpx pkb))
    (hsm : W.view sm n = some (fullWire ed h dil spx)) (hpk : W.view pk 1408 = some pkb) (hm : W.view m 64 = some h)
    (hacc : verifyFull P (some m) 64 (some sm) n (some pk) W = .ok (0, W1))
    (hsm' : V.view sm' (2526 + mb'.length) = some (compactWire ed dil nonce mb')) (hpk' : V.view pk' 1408 = some pkb)
    (hm' : V.view m' mb'.length = some mb') :
    verifyCompact P (some m') mb'.length (some sm') (2526 + mb'.length) (some pk') V = .ok (0, V) := by
  obtain ⟨-, -, -, ed1, dil1, spx1, a1, a2, a3, e, x1, x2, -⟩ := (full_verify_iff hP hE hW hsm hpk hm).1 hacc
  simp only [fullWire, List.cons.injEq, true_and, List.append_assoc] at e
  obtain ⟨rfl, ea⟩ := List.append_inj e (by omega)
  have eb := List.append_cancel_left ea
  obtain ⟨rfl, ec⟩ := List.append_inj eb (by omega)
  exact (compact_verify_iff hP hE hV hsm' hpk' hm').2 ⟨rfl, hm1, hm2, ed, dil, nonce, led, ldil, ln, rfl, hh ▸ x1, hh ▸ x2⟩

/-- C20 (what holds): apart from that case, the two modes accept the same component signatures only if both components
accept them for these two different strings, the message and the compact hash.  In particular this covers every full-mode message whose length is not 64.
Missing: the case of a full-mode message that equals a compact hash, where the claim is false. -/
theorem mode_separation_partial (hP : P.Sized) (hE : P.EdShape) {W W1 V V1 : World} (hW : W.WF) (hV : V.WF) {sm m pk sm' m' pk' : Ptr}
    {n k n' k' : Nat} {pkb mb mb' ed dil spx nonce : Bytes} (led : ed.length = 64) (ldil : dil.length = 2420)
    (ln : nonce.length = 40)
    (hsm : W.view sm n = some (fullWire ed mb dil spx)) (hpk : W.view pk 1408 = some pkb) (hm : W.view m k = some mb)
    (hacc : verifyFull P (some m) k (some sm) n (some pk) W = .ok (0, W1))
    (hsm' : V.view sm' n' = some (compactWire ed dil nonce mb')) (hpk' : V.view pk' 1408 = some pkb)
    (hm' : V.view m' k' = some mb')
    (hacc' : verifyCompact P (some m') k' (some sm') n' (some pk') V = .ok (0, V1)) :
    mb = compactHash P nonce mb' (pkSpx pkb) ∨ mb ≠ compactHash P nonce mb' (pkSpx pkb) ∧ EdAccepts P (pkEd pkb) ed mb ∧ EdAccepts P (pkEd pkb) ed (compactHash P nonce mb' (pkSpx pkb)) ∧
      DilAccepts P (pkDil pkb) dil mb ∧ DilAccepts P (pkDil pkb) dil (compactHash P nonce mb' (pkSpx pkb)) := by
  obtain ⟨-, -, -, ed1, dil1, spx1, a1, a2, a3, e, x1, x2, -⟩ := (full_verify_iff hP hE hW hsm hpk hm).1 hacc
  simp only [fullWire, List.cons.injEq, true_and, List.append_assoc] at e
  obtain ⟨rfl, ea⟩ := List.append_inj e (by omega)
  have eb := List.append_cancel_left ea
  obtain ⟨rfl, ec⟩ := List.append_inj eb (by omega)
  obtain ⟨-, -, -, ed2, dil2, nonce2, b1, b2, b3, e', y1, y2⟩ := (compact_verify_iff hP hE hV hsm' hpk' hm').1 hacc'
  simp only [compactWire, List.cons.injEq, true_and, List.append_assoc] at e'
  obtain ⟨rfl, fa⟩ := List.append_inj e' (by omega)
  obtain ⟨rfl, fb⟩ := List.append_inj fa (by omega)
  obtain ⟨rfl, fc⟩ := List.append_inj fb (by omega)
  by_cases hne : mb = compactHash P nonce mb' (pkSpx pkb)
  · exact .inl hne
  · exact .inr ⟨hne, x1, y1, x2, y2⟩

/-- A full-mode message of another length never equals a compact hash. -/
example (hP : P.Sized) (mb nonce mb' k : Bytes) (h : mb.length ≠ 64) : mb ≠ compactHash P nonce mb' k := by
  rintro rfl; exact h (hP.sha3_512 _)

/-- A repackaging case with the toy components: a full signature of the hash of `nonce | [7] | pk`, and the compact buffer
made from its parts. -/
example : ∃ (W : World) (nonce h : Bytes), nonce.length = 40 ∧ W.WF ∧ h = compactHash toy nonce [7] (pkSpx toyPk) ∧ h ≠ [7] ∧
    W.view ⟨0, 0⟩ 52406 = some (fullWire (toyEd h) h (toyDil h) (toySpx h)) ∧ W.view ⟨1, 0⟩ 1408 = some toyPk ∧
    W.view ⟨2, 0⟩ 64 = some h ∧ W.view ⟨3, 0⟩ 2527 = some (compactWire (toyEd h) (toyDil h) nonce [7]) ∧ W.view ⟨4, 0⟩ 1 = some [7] ∧
    verifyFull toy (some ⟨2, 0⟩) 64 (some ⟨0, 0⟩) 52406 (some ⟨1, 0⟩) W = .ok (0, W) := by
  have hl : (compactHash toy (List.replicate 40 0) [7] (pkSpx toyPk)).length = 64 := toy_sized.sha3_512 _
  generalize hh : compactHash toy (List.replicate 40 0) [7] (pkSpx toyPk) = h at hl
  have v0 : (holding [fullWire (toyEd h) h (toyDil h) (toySpx h), toyPk, h,
      compactWire (toyEd h) (toyDil h) (List.replicate 40 0) [7], [7]]).view ⟨0, 0⟩ 52406 = some (fullWire (toyEd h) h (toyDil h) (toySpx h)) :=
    holding_view rfl (by rw [(wire_full_slices (ed := toyEd h) (length_edSig _ _) (by simp [toyDil]) (by simp [toySpx]) (by omega)).1, hl])
  refine ⟨holding [fullWire (toyEd h) h (toyDil h) (toySpx h), toyPk, h, compactWire (toyEd h) (toyDil h) (List.replicate 40 0) [7], [7]],
    List.replicate 40 0, h, by simp, holding_WF _, hh.symm, ?_, v0, holding_view rfl (by simp [toyPk]),
    holding_view rfl hl, holding_view rfl ?_, holding_view rfl rfl, ?_⟩
  · rintro rfl; simp at hl
  · rw [(wire_compact_slices (ed := toyEd h) (length_edSig _ _) (by simp [toyDil]) (by simp) (by simp)).1]; rfl
  · exact (full_verify_iff toy_sized toy_edShape (holding_WF _) v0 (holding_view rfl (by simp [toyPk])) (holding_view rfl hl)).2
      ⟨rfl, toy_fullValid (by omega) (by omega)⟩

/-! ### C22: standalone Dilithium verification -/

/-- C22: exact acceptance condition. -/
theorem dilithium_verify_iff {W W' : World} {sm m pk : Ptr} {n k : Nat} {sb pkb mb : Bytes}
    (hsm : W.view sm n = some sb) (hpk : W.view pk 1312 = some pkb) (hm : W.view m k = some mb) :
    verifyDilithium P (some m) k (some sm) n (some pk) W = .ok (0, W') ↔
      W' = W ∧ 1 ≤ mb.length ∧ mb.length ≤ 64 ∧ sb.length = 2420 ∧ DilAccepts P pkb sb mb := by
  have hl := length_of_view hm
  have hl' := length_of_view hsm
  by_cases hr : 1 ≤ k ∧ k ≤ 64
  · by_cases hn : n = 2420
    · subst hn
      rw [verifyDilithium_run hsm hpk hm hr.1 hr.2]
      unfold DilAccepts
      cases P.dilVerify sb mb pkb with
      | error e => simp
      | ok r =>
        simp only [ok_bind, Except.ok.injEq, Prod.mk.injEq]
        by_cases c : r = 0
        · rw [if_neg (not_not.2 c)]
          constructor
          · rintro ⟨-, rfl⟩; exact ⟨rfl, by omega, by omega, hl', c⟩
          · rintro ⟨rfl, -⟩; exact ⟨rfl, rfl⟩
        · rw [if_pos c]
          constructor
          · rintro ⟨h, -⟩; omega
          · rintro ⟨-, -, -, -, h⟩; exact absurd h c
    · constructor
      · intro h
        unfold verifyDilithium at h
        simp only at h
        rw [if_neg (by simp only [MAX_MSG_LEN]; omega), if_pos hn] at h
        simp at h
      · rintro ⟨-, -, -, h, -⟩; omega
  · constructor
    · intro h
      rw [((invalid_arguments (P := P) W (some sm) none (some m) none (some pk) none none k n).2.2.2.1 (Or.inr (by omega))).2.2] at h
      simp at h
    · rintro ⟨-, h1, h2, -⟩; omega

/-- C22: the Dilithium part of an accepted full signature is accepted on its own. -/
theorem dilithium_strip (hP : P.Sized) (hE : P.EdShape) {W W' : World} (hW : W.WF) {sm m pk : Ptr} {n k : Nat}
    {sb pkb mb : Bytes} (hsm : W.view sm n = some sb) (hpk : W.view pk 1408 = some pkb) (hm : W.view m k = some mb)
    (h : verifyFull P (some m) k (some sm) n (some pk) W = .ok (0, W')) :
    verifyDilithium P (some m) k (some (sm.add (66 + k))) 2420 (some (pk.add 32)) W = .ok (0, W) := by
  have hl := length_of_view hm
  have hn := length_of_view hsm
  obtain ⟨-, h1, h64, ed, dil, spx, l1, l2, l3, rfl, -, hd, -⟩ := (full_verify_iff hP hE hW hsm hpk hm).1 h
  obtain ⟨w1, -, -, -, w5, -, -⟩ := wire_full_slices l1 l2 l3 h64
  have v1 := view_sub hsm (o := 66 + k) (k := 2420) (by omega)
  have v2 := view_sub hpk (o := 32) (k := 1312) (by omega)
  rw [← hl] at v1
  rw [w5] at v1
  rw [hl] at v1
  exact (dilithium_verify_iff v1 v2 hm).2 ⟨rfl, h1, h64, l2, hd⟩

/-! ### C23: overlapping buffers -/

/-- C23 for full mode: the result depends on the message and key bytes and on the random source, not on where the buffers
lie; the message may lie inside the output buffer. -/
theorem full_sign_overlap (hP : P.Sized) {W V : World} {sm smlen m sk sm' smlen' m' sk' : Ptr} {mlen : Nat} {mb skb : Bytes} {r : Int} {W' : World}
    (hm : W.view m mlen = some mb) (hsk : W.view sk 4064 = some skb)
    (hsm : (W.view sm (52342 + mlen)).isSome) (hl : (W.view smlen 8).isSome) (hd : Disj smlen 8 sm (52342 + mlen))
    (hm' : V.view m' mlen = some mb) (hsk' : V.view sk' 4064 = some skb)
    (hsm' : (V.view sm' (52342 + mlen)).isSome) (hl' : (V.view smlen' 8).isSome) (hd' : Disj smlen' 8 sm' (52342 + mlen))
    (hR : V.rng = W.rng)
    (h : signFull P (some sm) (some smlen) (some m) mlen (some sk) W = .ok (r, W')) :
    ∃ V', signFull P (some sm') (some smlen') (some m') mlen (some sk') V = .ok (r, V') ∧ V'.rng = W'.rng ∧
      (r = 0 → ∃ sig, W'.view sm (52342 + mlen) = some sig ∧ V'.view sm' (52342 + mlen) = some sig ∧
        V'.view smlen' 8 = W'.view smlen 8) := by
  have hmb := length_of_view hm
  by_cases hr : 1 ≤ mlen ∧ mlen ≤ 64
  · rw [signFull_run hP hm' hsk' hsm' hl' hr.1 hr.2, hR]
    rw [signFull_run hP hm hsk hsm hl hr.1 hr.2] at h
    obtain ⟨⟨x, R'⟩, hf, h⟩ := bind_eq_ok.1 h
    rw [hf]
    cases x with
    | error c =>
      simp only [Except.ok.injEq, Prod.mk.injEq] at h
      obtain ⟨rfl, rfl⟩ := h
      exact ⟨_, rfl, rfl, fun h => absurd h (fullSig_code hf)⟩
    | ok sig =>
      simp only [Except.ok.injEq, Prod.mk.injEq] at h
      obtain ⟨rfl, rfl⟩ := h
      refine ⟨_, rfl, by simp only [write_rng], fun _ => ⟨sig, ?_, ?_, ?_⟩⟩
      · rw [view_write_disj (by rw [length_le64]; exact hd)]
        exact view_write_same' (W := { W with rng := R' }) hsm (fullSig_length hP hmb hr.2 hf)
      · rw [view_write_disj (by rw [length_le64]; exact hd')]
        exact view_write_same' (W := { V with rng := R' }) hsm' (fullSig_length hP hmb hr.2 hf)
      · rw [view_write_same' (write_view_isSome (W := { W with rng := R' }) hl) (length_le64 _),
          view_write_same' (write_view_isSome (W := { V with rng := R' }) hl') (length_le64 _)]
  · have hb : mlen = 0 ∨ 64 < mlen := by omega
    rw [((invalid_arguments (P := P) W (some sm) (some smlen) (some m) (some sk) none none none mlen 0).1 (Or.inr hb)).1] at h
    rw [((invalid_arguments (P := P) V (some sm') (some smlen') (some m') (some sk') none none none mlen 0).1 (Or.inr hb)).1]
    simp only [Except.ok.injEq, Prod.mk.injEq] at h
    obtain ⟨rfl, rfl⟩ := h
    exact ⟨V, rfl, hR, fun h => by omega⟩

/-- A message inside the output buffer. -/
example : demo.view (⟨0, 0⟩ : Ptr) 20 = some (List.replicate 20 9) ∧ (demo.view ⟨0, 0⟩ (52342 + 20)).isSome ∧
    ¬ Disj ⟨0, 0⟩ (52342 + 20) ⟨0, 0⟩ 20 :=
  ⟨demo_sm 20 (by omega), some_isSome (demo_sm _ (by omega)), by simp [Disj]⟩

/-- C23 is false for compact mode: with the message at the start of the output buffer and length 1, a call that returns 0
leaves a signature whose embedded message is the mode byte 1, whatever byte was to be signed. -/
theorem compact_sign_overlap_corrupts (hP : P.Sized) {W W' : World} {sm smlen sk : Ptr} {v : Byte} {skb : Bytes}
    (hm : W.view sm 1 = some [v]) (hsk : W.view sk 4064 = some skb) (hsm : (W.view sm 2527).isSome)
    (hl : (W.view smlen 8).isSome) (hd : Disj smlen 8 sm 2527)
    (h : signCompact P (some sm) (some smlen) (some sm) 1 (some sk) W = .ok (0, W')) :
    ∃ sig, W'.view sm 2527 = some sig ∧ sig.length = 2527 ∧ sig.drop 2526 = [1] := by
  rw [signCompact_gen hP hm hsk hsm (by omega) (by omega)] at h
  obtain ⟨⟨x, R'⟩, hf, h⟩ := bind_eq_ok.1 h
  cases x with
  | error c =>
    simp only [Except.ok.injEq, Prod.mk.injEq] at h
    exact absurd h.1 (compactSig_code hf)
  | ok sig =>
    obtain ⟨nonce, b1, b2, -, -, -, -, rfl, l1, l2, l3⟩ := compactSig_ok hP hf
    have lt : ((compactWire (b1.take 64) b2 nonce [v]).take 2526).length = 2526 := by
      rw [List.length_take, (wire_compact_slices (by simp [l1]) l2 l3 (by simp)).1]; simp
    simp only at h
    generalize hpre : (compactWire (b1.take 64) b2 nonce [v]).take 2526 = pre at h lt
    have hp0 : pre[0]? = some 1 := by rw [← hpre]; rfl
    obtain ⟨y, hy⟩ := Option.isSome_iff_exists.1 hsm
    obtain ⟨b, hb1, hb2, -⟩ := view_eq_some.1 hy
    have hv : (({ W with rng := R' } : World).write sm pre).view sm 1 = some [1] := by
      have h1 : (({ W with rng := R' } : World).write sm pre).view sm 2526 = some pre :=
        view_write_same' (W := { W with rng := R' }) (view_isSome_sub (o := 0) hsm (by omega)) lt
      have h2 := view_sub h1 (o := 0) (k := 1) (by omega)
      have h3 : slice pre 0 1 = [1] := by
        cases pre with
        | nil => simp at lt
        | cons a t => simp only [List.getElem?_cons_zero, Option.some.injEq] at hp0; rw [hp0]; rfl
      rw [h3] at h2
      exact h2
    simp only [signTail, M_bind_apply] at h
    have hcm := copyMem_ok (W := (({ W with rng := R' } : World).write sm pre)) (p := sm) (q := sm) (o := 2526) (s := 0) (n := 1)
      (x := [1]) (write_view_isSome (W := { W with rng := R' }) (view_isSome_sub hsm (by omega))) hv
      (Or.inr (Or.inr (by simp only [Ptr.add]; omega)))
    rw [hcm] at h
    simp only [ok_bind] at h
    have happ : (({ W with rng := R' } : World).write sm pre).write (sm.add 2526) [1] =
        ({ W with rng := R' } : World).write sm (pre ++ [1]) :=
      write_append' (W := { W with rng := R' }) (n := 2527) hsm lt.symm (by rw [lt]; simp)
    rw [happ, storeU64_ok (write_view_isSome (W := { W with rng := R' }) hl)] at h
    simp only [ok_bind, M_pure_apply, Except.ok.injEq, Prod.mk.injEq, true_and] at h
    subst h
    have hl1 : (pre ++ [(1 : Byte)]).length = 2527 := by rw [List.length_append, lt]; rfl
    refine ⟨pre ++ [1], ?_, hl1, ?_⟩
    · rw [view_write_disj (by rw [length_le64]; exact hd)]
      exact view_write_same' (W := { W with rng := R' }) hsm hl1
    · rw [List.drop_append, List.drop_of_length_le (by omega), lt]; rfl

/-- Consequence: the produced buffer is not accepted for the byte that the caller asked to sign, unless that byte is 1.
-/
theorem compact_sign_overlap_rejected (hP : P.Sized) (hE : P.EdShape) {W W' V V' : World} {sm smlen sk : Ptr} {v : Byte} {skb : Bytes}
    (hm : W.view sm 1 = some [v]) (hsk : W.view sk 4064 = some skb) (hsm : (W.view sm 2527).isSome)
    (hl : (W.view smlen 8).isSome) (hd : Disj smlen 8 sm 2527) (hv : v ≠ 1)
    (h : signCompact P (some sm) (some smlen) (some sm) 1 (some sk) W = .ok (0, W'))
    (hV : V.WF) {m' sm' pk' : Ptr} {pkb : Bytes} (hm' : V.view m' 1 = some [v]) (hsm' : V.view sm' 2527 = W'.view sm 2527)
    (hpk' : V.view pk' 1408 = some pkb) :
    verifyCompact P (some m') 1 (some sm') 2527 (some pk') V ≠ .ok (0, V') := by
  intro hacc
  obtain ⟨sig, e1, e2, e3⟩ := compact_sign_overlap_corrupts hP hm hsk hsm hl hd h
  rw [e1] at hsm'
  obtain ⟨-, -, h64, ed, dil, nonce, l1, l2, l3, rfl, -⟩ := (compact_verify_iff hP hE hV hsm' hpk' hm').1 hacc
  obtain ⟨w1, -, -, -, -, -, w7⟩ := wire_compact_slices l1 l2 l3 h64
  rw [slice_eq, e3] at w7
  simp only [List.length_singleton, List.take_succ_cons, List.take_zero, List.cons.injEq, and_true] at w7
  exact hv w7.symm

/-- The corrupted case occurs: in the demo memory, signing the byte 9 stored at the start of the output buffer returns 0. -/
example : ∃ W', signCompact toy (some ⟨0, 0⟩) (some ⟨1, 0⟩) (some ⟨0, 0⟩) 1 (some ⟨3, 0⟩) demo = .ok (0, W') ∧
    demo.view ⟨0, 0⟩ 1 = some [9] := by
  rw [signCompact_gen toy_sized (demo_sm 1 (by omega)) demo_sk (some_isSome (demo_sm _ (by omega))) (by omega) (by omega)]
  simp only [compactSig, RandM_bind_apply, randombytes, ok_bind]
  simp only [demo, demoRng, List.length_nil, show (0 : Nat) < 100 by omega, if_true, RandM_bind_apply]
  simp only [toy, liftCR_ok, ok_bind, length_fit]
  simp only [ne_eq, not_true_eq_false, if_false, RandM_pure_apply, ok_bind]
  generalize hpre : List.take 2526 _ = pre
  generalize hR : Rng.mk _ _ _ = R
  have hl : pre.length = 2526 := by
    rw [← hpre, List.length_take]
    simp only [List.length_append, List.length_take, length_fit, List.length_cons, List.length_nil, List.length_replicate, length_zeros]
    rfl
  obtain ⟨y, -, e⟩ := signTail_total (W := { demo with rng := R }) (sm := ⟨0, 0⟩) (smlen := ⟨1, 0⟩) (m := ⟨0, 0⟩) (mlen := 1) hl
    (some_isSome (demo_sm 1 (by omega))) (some_isSome (demo_sm (2526 + 1) (by omega))) (some_isSome demo_len)
  exact ⟨_, e, demo_sm 1 (by omega)⟩

/-! ### C24: randomness over histories of calls -/

/-- A call of the API, or an arbitrary change of memory by the caller. -/
inductive Call where
  | keypairSeed (pk sk seed : Option Ptr)
  | keypair (pk sk : Option Ptr)
  | seedExpander (seed ex : Option Ptr)
  | signFull (sm smlen m : Option Ptr) (mlen : Nat) (sk : Option Ptr)
  | signCompact (sm smlen m : Option Ptr) (mlen : Nat) (sk : Option Ptr)
  | openFull (m mlen sm : Option Ptr) (n : Nat) (pk : Option Ptr)
  | openCompact (m mlen sm : Option Ptr) (n : Nat) (pk : Option Ptr)
  | verifyFull (m : Option Ptr) (mlen : Nat) (sm : Option Ptr) (n : Nat) (pk : Option Ptr)
  | verifyCompact (m : Option Ptr) (mlen : Nat) (sm : Option Ptr) (n : Nat) (pk : Option Ptr)
  | verifyDilithium (m : Option Ptr) (mlen : Nat) (sm : Option Ptr) (n : Nat) (pk : Option Ptr)
  | caller (f : (Nat → Option Bytes) → Nat → Option Bytes)

/-- The code that a call runs. -/
def Call.run (P : Prims) : Call → M Int
  | .keypairSeed pk sk seed => Hybrid.keypairSeed P pk sk seed
  | .keypair pk sk => Hybrid.keypair P pk sk
  | .seedExpander seed ex => Hybrid.seedExpander P seed ex
  | .signFull sm smlen m mlen sk => Hybrid.signFull P sm smlen m mlen sk
  | .signCompact sm smlen m mlen sk => Hybrid.signCompact P sm smlen m mlen sk
  | .openFull m mlen sm n pk => Hybrid.openFull P m mlen sm n pk
  | .openCompact m mlen sm n pk => Hybrid.openCompact P m mlen sm n pk
  | .verifyFull m mlen sm n pk => Hybrid.verifyFull P m mlen sm n pk
  | .verifyCompact m mlen sm n pk => Hybrid.verifyCompact P m mlen sm n pk
  | .verifyDilithium m mlen sm n pk => Hybrid.verifyDilithium P m mlen sm n pk
  | .caller f => fun W => .ok (0, { W with mem := f W.mem })

/-- A history of calls and the list of return codes. -/
def runAll (P : Prims) : List Call → M (List Int)
  | [] => pure []
  | c :: cs => do
    let r ← c.run P
    let rs ← runAll P cs
    pure (r :: rs)

/-- The specification: which draw a call makes.  Calls with invalid arguments draw nothing. -/
def Call.draws : Call → List Nat
  | .keypair (some _) (some _) => [160]
  | .signFull (some _) (some _) (some _) mlen (some _) => if 1 ≤ mlen ∧ mlen ≤ 64 then [32] else []
  | .signCompact (some _) (some _) (some _) mlen (some _) => if 1 ≤ mlen ∧ mlen ≤ 64 then [40] else []
  | _ => []

theorem call_draws (hR : P.SpxDraw) (c : Call) : Draws c.draws (c.run P) := by
  cases c with
  | keypairSeed pk sk seed => exact keypairSeed_draws pk sk seed
  | keypair pk sk =>
    rcases pk with - | pk <;> rcases sk with - | sk
    · exact .pure _
    · exact .pure _
    · exact .pure _
    · exact keypair_draws pk sk
  | seedExpander seed ex => exact seedExpander_draws seed ex
  | signFull sm smlen m mlen sk =>
    rcases sm with - | sm
    · exact .pure _
    rcases smlen with - | smlen
    · exact .pure _
    rcases m with - | m
    · exact .pure _
    rcases sk with - | sk
    · exact .pure _
    simp only [Call.draws, Call.run]
    split
    · rename_i h; exact signFull_draws hR _ _ _ _ _ h.1 h.2
    · rename_i h
      intro W r W' e
      rw [((invalid_arguments (P := P) W (some sm) (some smlen) (some m) (some sk) none none none mlen 0).1 (Or.inr (by omega))).1] at e
      simp only [Except.ok.injEq, Prod.mk.injEq] at e
      rw [← e.2]; exact Drew.refl W
  | signCompact sm smlen m mlen sk =>
    rcases sm with - | sm
    · exact .pure _
    rcases smlen with - | smlen
    · exact .pure _
    rcases m with - | m
    · exact .pure _
    rcases sk with - | sk
    · exact .pure _
    simp only [Call.draws, Call.run]
    split
    · rename_i h; exact signCompact_draws _ _ _ _ _ h.1 h.2
    · rename_i h
      intro W r W' e
      rw [((invalid_arguments (P := P) W (some sm) (some smlen) (some m) (some sk) none none none mlen 0).1 (Or.inr (by omega))).2] at e
      simp only [Except.ok.injEq, Prod.mk.injEq] at e
      rw [← e.2]; exact Drew.refl W
  | openFull m mlen sm n pk => exact openFull_draws _ _ _ _ _
  | openCompact m mlen sm n pk => exact openCompact_draws _ _ _ _ _
  | verifyFull m mlen sm n pk => exact verifyFull_draws _ _ _ _ _
  | verifyCompact m mlen sm n pk => exact verifyCompact_draws _ _ _ _ _
  | verifyDilithium m mlen sm n pk => exact verifyDilithium_draws _ _ _ _ _
  | caller f =>
    intro W r W' e
    simp only [Call.run, Except.ok.injEq, Prod.mk.injEq] at e
    rw [← e.2]; exact ⟨rfl, by simp [Call.draws, drawLog]⟩

/-- C24: over any history the log of the random source grows by exactly the draws that the specification lists, in order,
each with the answer of the source to that draw. -/
theorem history_draws (hR : P.SpxDraw) (cs : List Call) : Draws (cs.flatMap Call.draws) (runAll P cs) := by
  induction cs with
  | nil => exact .pure _
  | cons c cs ih =>
    unfold runAll
    rw [List.flatMap_cons]
    refine .bind (call_draws hR c) fun r => ?_
    have := Draws.bind ih (fun rs => Draws.pure (r :: rs))
    simpa using this

/-- C24: the nonce stored by a compact sign call at any point of a history is the answer of the random source to a draw
whose number counts all draws before it; two such calls therefore never share a draw. -/
theorem history_nonce (hP : P.Sized) (hR : P.SpxDraw) (pre : List Call) {W W1 W2 : World} {rs : List Int} {sm smlen m sk : Ptr} {mlen : Nat}
    {mb skb : Bytes} (hpre : runAll P pre W = .ok (rs, W1))
    (hm : W1.view m mlen = some mb) (hsk : W1.view sk 4064 = some skb)
    (hsm : (W1.view sm (2526 + mlen)).isSome) (hl : (W1.view smlen 8).isSome) (hd : Disj smlen 8 sm (2526 + mlen))
    (hdm : Disj sm (2526 + mlen) m mlen) (h1 : 1 ≤ mlen) (h2 : mlen ≤ 64)
    (h : signCompact P (some sm) (some smlen) (some m) mlen (some sk) W1 = .ok (0, W2)) :
    ∃ ed dil nonce, ed.length = 64 ∧ dil.length = 2420 ∧ W2.view sm (2526 + mlen) = some (compactWire ed dil nonce mb) ∧
      W.rng.draw (W.rng.log.length + (pre.flatMap Call.draws).length) 40 = some nonce := by
  obtain ⟨hdr, hlog⟩ := history_draws hR pre _ _ _ hpre
  obtain ⟨ed, dil, nonce, l1, l2, l3, v, -, hg, -⟩ := compact_sign_wire_format hP hm hsk hsm hl hd hdm h1 h2 h
  refine ⟨ed, dil, nonce, l1, l2, v, ?_⟩
  have hs := (signCompact_draws (P := P) sm smlen m mlen sk h1 h2 _ _ _ h).2
  rw [hg, List.append_cancel_left_eq] at hs
  simp only [drawLog, List.cons.injEq, Prod.mk.injEq, true_and, and_true] at hs
  rw [hs, hdr, hlog, List.length_append, length_drawLog]

example : toy.SpxDraw ∧ (Call.signCompact (some ⟨0, 0⟩) (some ⟨1, 0⟩) (some ⟨2, 0⟩) 20 (some ⟨3, 0⟩)).draws = [40] ∧
    ∃ W', runAll toy [.signCompact (some ⟨0, 0⟩) (some ⟨1, 0⟩) (some ⟨2, 0⟩) 20 (some ⟨3, 0⟩)] demo = .ok ([0], W') := by
  refine ⟨toy_spxDraw, rfl, ?_⟩
  obtain ⟨W', h⟩ := demo_signCompact
  refine ⟨W', ?_⟩
  simp only [runAll, M_bind_apply, Call.run, h, ok_bind, M_pure_apply]

end Verif.Hybrid
