import Verif.Witness.HybridC

/-!
The property C117: which bytes of the composite secret key the signing functions use.
-/

namespace Verif.Real
open Verif Verif.Hybrid Verif.Hybrid.Toy Dilithium

/-- What a caller sees of a signing call: the result code, the random source after it, the signature buffer and the length cell (no line of its own). -/
def seen (sm smlen : Ptr) (n : Nat) (x : C (Int × World)) : C (Int × Rng × Option Bytes × Option Bytes) :=
  x.map fun p => (p.1, p.2.rng, p.2.view sm n, p.2.view smlen 8)

theorem slice_of_take {a b : Bytes} {k o n : Nat} (h : a.take k = b.take k) (hk : o + n ≤ k) : slice a o n = slice b o n := by
  have e : ∀ x : Bytes, slice x o n = slice (x.take k) o n := by
    intro x
    unfold slice
    rw [List.drop_take, List.take_take, Nat.min_eq_left (by omega)]
  rw [e a, e b, h]

theorem slice_of_drop {a b : Bytes} {k o n : Nat} (h : a.drop k = b.drop k) (hk : k ≤ o) : slice a o n = slice b o n := by
  have e : ∀ x : Bytes, slice x o n = slice (x.drop k) (o - k) n := by
    intro x
    unfold slice
    rw [List.drop_drop, show k + (o - k) = o by omega]
  rw [e a, e b, h]

variable {P : Prims}

theorem seen_tail {W V : World} {sm smlen sm' smlen' : Ptr} {n : Nat} {sig : Bytes} {R : Rng} {b b' c c' : Bytes} (hs : sig.length = n)
    (hd : Disj smlen 8 sm n) (hd' : Disj smlen' 8 sm' n) (h1 : W.view sm n = some b) (h2 : V.view sm' n = some b') (h3 : W.view smlen 8 = some c) (h4 : V.view smlen' 8 = some c') :
    seen sm smlen n (.ok (0, (({ W with rng := R } : World).write sm sig).write smlen (le64 n))) =
      seen sm' smlen' n (.ok (0, (({ V with rng := R } : World).write sm' sig).write smlen' (le64 n))) := by
  have key : ∀ {W : World} {sm smlen : Ptr} {b c : Bytes}, Disj smlen 8 sm n → W.view sm n = some b → W.view smlen 8 = some c →
      seen sm smlen n (.ok (0, (({ W with rng := R } : World).write sm sig).write smlen (le64 n))) = .ok (0, R, some sig, some (le64 n)) := by
    intro W sm smlen b c hd h1 h3
    have hl : (le64 n).length = 8 := length_le64 n
    obtain ⟨y, hy⟩ := Option.isSome_iff_exists.1 (write_view_isSome (p := sm) (x := sig) (Option.isSome_iff_exists.2 ⟨_, (show ({ W with rng := R } : World).view smlen 8 = some c from h3)⟩))
    show Except.ok (0, _, World.view _ sm n, World.view _ smlen 8) = _
    rw [view_write_disj (by rw [hl]; exact hd), view_write_same (show ({ W with rng := R } : World).view sm n = some b from h1) hs, view_write_same hy hl, write_rng, write_rng]
  rw [key hd h1 h3, key hd' h2 h4]

/-- C117, compact signing: the caller sees the same, whatever stands in bytes 2624 to 3999 of the secret key (the copy of the Dilithium public key and the two SPHINCS+ secrets); the memory may differ
in everything else too (hybrid-dilithium-sphincs/hybrid.c:468-564). -/
theorem compact_key_use (hP : P.Sized) {W V : World} {sm smlen m sk sm' smlen' m' sk' : Ptr} {mlen : Nat} {mb skb skb' : Bytes} (hr : W.rng = V.rng)
    (hm : W.view m mlen = some mb) (hm' : V.view m' mlen = some mb) (hsk : W.view sk 4064 = some skb) (hsk' : V.view sk' 4064 = some skb')
    (ht : skb.take 2624 = skb'.take 2624) (he : skb.drop 4000 = skb'.drop 4000)
    {b c : Bytes} (hb : W.view sm (2526 + mlen) = some b) (hb' : V.view sm' (2526 + mlen) = some b) (hc : W.view smlen 8 = some c) (hc' : V.view smlen' 8 = some c)
    (hd : Disj smlen 8 sm (2526 + mlen)) (hd' : Disj smlen' 8 sm' (2526 + mlen)) (hdm : Disj sm (2526 + mlen) m mlen) (hdm' : Disj sm' (2526 + mlen) m' mlen)
    (h1 : 1 ≤ mlen) (h2 : mlen ≤ 64) :
    seen sm smlen (2526 + mlen) (signCompact P (some sm) (some smlen) (some m) mlen (some sk) W) =
      seen sm' smlen' (2526 + mlen) (signCompact P (some sm') (some smlen') (some m') mlen (some sk') V) := by
  rw [signCompact_run hP hm hsk (by rw [hb]; rfl) (by rw [hc]; rfl) hdm h1 h2, signCompact_run hP hm' hsk' (by rw [hb']; rfl) (by rw [hc']; rfl) hdm' h1 h2]
  have e : compactSig P mb skb = compactSig P mb skb' := by
    unfold compactSig
    rw [slice_of_take (o := 0) (n := 64) ht (by omega), slice_of_take (o := 64) (n := 2560) ht (by omega), slice_of_drop (o := 4000) (n := 64) he (by omega)]
  rw [e, hr]
  cases hs : compactSig P mb skb' V.rng with
  | error f => rfl
  | ok t =>
    obtain ⟨x, R⟩ := t
    cases x with
    | error r =>
      show Except.ok _ = Except.ok _
      have v : ∀ (U : World) (p : Ptr) (n : Nat), ({ U with rng := R } : World).view p n = U.view p n := fun _ _ _ => rfl
      simp only [v, hb, hb', hc, hc']
    | ok sig =>
      have hl : sig.length = 2526 + mlen := by
        obtain ⟨pre, hp, rfl⟩ := compactSig_form hP hs
        rw [List.length_append, hp, length_of_view hm]
      exact seen_tail hl hd hd' hb hb' hc hc'

/-- C117, full signing: the caller sees the same, whatever stands in bytes 2624 to 3935 of the secret key (the copy of the Dilithium public key; hybrid-dilithium-sphincs/hybrid.c:259-344). -/
theorem full_key_use (hP : P.Sized) {W V : World} {sm smlen m sk sm' smlen' m' sk' : Ptr} {mlen : Nat} {mb skb skb' : Bytes} (hr : W.rng = V.rng)
    (hm : W.view m mlen = some mb) (hm' : V.view m' mlen = some mb) (hsk : W.view sk 4064 = some skb) (hsk' : V.view sk' 4064 = some skb')
    (ht : skb.take 2624 = skb'.take 2624) (he : skb.drop 3936 = skb'.drop 3936)
    {b c : Bytes} (hb : W.view sm (52342 + mlen) = some b) (hb' : V.view sm' (52342 + mlen) = some b) (hc : W.view smlen 8 = some c) (hc' : V.view smlen' 8 = some c)
    (hd : Disj smlen 8 sm (52342 + mlen)) (hd' : Disj smlen' 8 sm' (52342 + mlen)) (h1 : 1 ≤ mlen) (h2 : mlen ≤ 64) :
    seen sm smlen (52342 + mlen) (signFull P (some sm) (some smlen) (some m) mlen (some sk) W) =
      seen sm' smlen' (52342 + mlen) (signFull P (some sm') (some smlen') (some m') mlen (some sk') V) := by
  rw [signFull_run hP hm hsk (by rw [hb]; rfl) (by rw [hc]; rfl) h1 h2, signFull_run hP hm' hsk' (by rw [hb']; rfl) (by rw [hc']; rfl) h1 h2]
  have e : fullSig P mb skb = fullSig P mb skb' := by
    unfold fullSig
    rw [slice_of_take (o := 0) (n := 64) ht (by omega), slice_of_take (o := 64) (n := 2560) ht (by omega), slice_of_drop (o := 3936) (n := 128) he (by omega)]
  rw [e, hr]
  cases hs : fullSig P mb skb' V.rng with
  | error f => rfl
  | ok t =>
    obtain ⟨x, R⟩ := t
    cases x with
    | error r =>
      show Except.ok _ = Except.ok _
      have v : ∀ (U : World) (p : Ptr) (n : Nat), ({ U with rng := R } : World).view p n = U.view p n := fun _ _ _ => rfl
      simp only [v, hb, hb', hc, hc']
    | ok sig =>
      have hl : sig.length = 52342 + mlen := fullSig_length hP (length_of_view hm) h2 hs
      exact seen_tail hl hd hd' hb hb' hc hc'

example : toy.Sized ∧ ∃ (W V : World) (skb skb' : Bytes), W.rng = V.rng ∧ W.view ⟨2, 0⟩ 20 = some (List.replicate 20 5) ∧ V.view ⟨2, 0⟩ 20 = some (List.replicate 20 5) ∧
    W.view ⟨3, 0⟩ 4064 = some skb ∧ V.view ⟨3, 0⟩ 4064 = some skb' ∧ skb ≠ skb' ∧ skb.take 2624 = skb'.take 2624 ∧ skb.drop 3936 = skb'.drop 3936 ∧ skb.drop 4000 = skb'.drop 4000 ∧
    (∃ b, W.view ⟨0, 0⟩ (52342 + 20) = some b ∧ V.view ⟨0, 0⟩ (52342 + 20) = some b) ∧ (∃ b, W.view ⟨0, 0⟩ (2526 + 20) = some b ∧ V.view ⟨0, 0⟩ (2526 + 20) = some b) ∧
    (∃ c, W.view ⟨1, 0⟩ 8 = some c ∧ V.view ⟨1, 0⟩ 8 = some c) ∧ Disj ⟨1, 0⟩ 8 ⟨0, 0⟩ (52342 + 20) ∧ Disj ⟨0, 0⟩ (2526 + 20) ⟨2, 0⟩ 20 ∧
    ∃ W', signCompact toy (some ⟨0, 0⟩) (some ⟨1, 0⟩) (some ⟨2, 0⟩) 20 (some ⟨3, 0⟩) W = .ok (0, W') := by
  refine ⟨toy_sized, demo, { demo with mem := fun b => if b = 3 then some (List.replicate 2624 3 ++ List.replicate 1312 8 ++ List.replicate 128 3) else demoMem b }, List.replicate 4064 3,
    List.replicate 2624 3 ++ List.replicate 1312 8 ++ List.replicate 128 3, rfl, view_replicate rfl (by omega), view_replicate rfl (by omega), view_replicate rfl (by omega),
    view_block rfl ?_, ?_, ?_, ?_, ?_, ⟨_, view_replicate rfl (by omega), view_replicate rfl (by omega)⟩, ⟨_, view_replicate rfl (by omega), view_replicate rfl (by omega)⟩,
    ⟨_, view_replicate rfl (by omega), view_replicate rfl (by omega)⟩, Or.inl (by decide), Or.inl (by decide), demo_signCompact⟩
  · simp only [List.length_append, List.length_replicate]
  · intro h
    have h := congrArg (fun x : Bytes => x[2624]?) h
    simp only [List.getElem?_append, List.length_append, List.length_replicate, List.getElem?_replicate] at h
    revert h; decide
  · rw [List.append_assoc, List.take_left' List.length_replicate, List.take_replicate]; rfl
  · rw [List.drop_left' (by simp only [List.length_append, List.length_replicate]), List.drop_replicate]
  · have e : (List.replicate 2624 3 ++ List.replicate 1312 8 : Bytes).length = 3936 := by simp only [List.length_append, List.length_replicate]
    rw [List.drop_append, List.drop_eq_nil_of_le (as := List.replicate 2624 3 ++ List.replicate 1312 8) (by omega), e, List.drop_replicate, List.drop_replicate, List.nil_append]

/-- What a secret key must share with a public key for compact signing: the Ed25519 and Dilithium keys, and the copy of the SPHINCS+ public key. Nothing is said of the SPHINCS+ secrets
(hybrid-dilithium-sphincs/hybrid.c:468-564). -/
def CompactPair (pkb skb : Bytes) : Prop :=
  pkEd pkb = Ed25519.Spec.publicKey (skb.take 32) ∧ (skb.drop 32).take 32 = pkEd pkb ∧ (∃ seed, Spec.KeyGen S128 S256 seed (pkDil pkb) (skDil skb)) ∧ skSpxPk skb = pkSpx pkb

/-- C117, consequence: who has the Ed25519 and Dilithium secrets of a key pair signs in compact mode for its public key without the SPHINCS+ secrets, with anything in their place
(hybrid-dilithium-sphincs/hybrid.c:468-564, 669-696). -/
theorem compact_without_sphincs {fs : Nat} {pkb skb : Bytes} (hk : CompactPair pkb skb)
    {W W' : World} {sm smlen m sk : Ptr} {mlen : Nat} {mb : Bytes}
    (hm : W.view m mlen = some mb) (hsk : W.view sk 4064 = some skb)
    (hsm : (W.view sm (2526 + mlen)).isSome) (hl : (W.view smlen 8).isSome) (hd : Disj smlen 8 sm (2526 + mlen)) (hdm : Disj sm (2526 + mlen) m mlen)
    (h : signCompact (real fs) (some sm) (some smlen) (some m) mlen (some sk) W = .ok (0, W')) :
    ∃ n sb, W'.view smlen 8 = some (le64 n) ∧ W'.view sm n = some sb ∧
      ∀ (V : World) (m' sm' pk' : Ptr), V.WF → V.view m' mlen = some mb → V.view sm' n = some sb → V.view pk' 1408 = some pkb →
        ∃ F, ∀ fv, F ≤ fv → verifyCompact (real fv) (some m') mlen (some sm') n (some pk') V = .ok (0, V) := by
  have hmb := length_of_view hm
  have lk := length_of_view hsk
  have hr : 1 ≤ mlen ∧ mlen ≤ 64 := by
    by_contra hr
    rw [((invalid_arguments (P := real fs) W (some sm) (some smlen) (some m) (some sk) none none none mlen 0).1 (Or.inr (by omega))).2] at h
    simp at h
  rcases (real_compact_sign isShake128_S128 isShake256_S256 hm hsk hsm hl hdm hr.1 hr.2).1 _ _ _ h with ⟨h0, -⟩ | ⟨-, nonce, sig, hn, hsig, rfl⟩
  · omega
  · have hv : CompactMeets S128 S256 pkb mb sig := by
      obtain ⟨a1, a3, ⟨ds, a4⟩, a6⟩ := hk
      obtain ⟨d, k, dil, hh, hd, rfl⟩ := hsig
      have hl : dil.length = 2420 := dilSigned_length isShake128_S128 isShake256_S256 (by unfold skDil; rw [List.length_take, List.length_drop]; omega) hd
      rw [a6] at hh
      refine ⟨by omega, by omega, _, dil, nonce, d, Ed25519.length_specSign _ _ _, hl, W.rng.len_draw _ _ _ hn, rfl, hh, ?_, dil_scheme_correct isShake128_S128 isShake256_S256 a4 hd⟩
      rw [a3, a1]
      exact Ed25519.valid_sign _ _
    have hw : sig.length = 2526 + mlen := by
      obtain ⟨-, -, ed, dil, nc, h, l1, l2, l3, rfl, -⟩ := hv
      rw [(wire_compact_slices l1 l2 l3 (by omega)).1, hmb]
    refine ⟨2526 + mlen, sig, view_write_same' (write_view_isSome (W := { W with rng := Sphincs.drawn W.rng 40 }) hl) (length_le64 _), ?_, fun V m' sm' pk' hV v1 v2 v3 => ?_⟩
    · rw [view_write_disj (by simpa [length_le64] using hd)]
      exact view_write_same' (W := { W with rng := Sphincs.drawn W.rng 40 }) hsm hw
    · exact (real_verify_total_compact isShake128_S128 isShake256_S256 hV v2 v3 v1 hv).2

/-- C117: the pairs that seeded key generation makes are such, with anything in bytes 2624 to 3999 of the secret key (hybrid-dilithium-sphincs/hybrid.c:174-245). -/
theorem generated_compact_pair {fk : Nat} {pkb skb skb' : Bytes} (hg : Generated (real fk) pkb skb) (ht : skb.take 2624 = skb'.take 2624) (he : skb.drop 4000 = skb'.drop 4000) :
    CompactPair pkb skb' := by
  obtain ⟨seed, hs, hk⟩ := generated_keys isShake128_S128 isShake256_S256 hg
  obtain ⟨-, -, a1, a2, a3, a4, -, a6, -⟩ := keysOf_parts isShake128_S128 isShake256_S256 hs hk
  have e1 : skb.take 32 = skb'.take 32 := slice_of_take (o := 0) (n := 32) ht (by omega)
  have e2 : (skb.drop 32).take 32 = (skb'.drop 32).take 32 := slice_of_take (o := 32) (n := 32) ht (by omega)
  have e3 : skDil skb = skDil skb' := slice_of_take (o := 64) (n := 2560) ht (by omega)
  have e4 : skSpxPk skb = skSpxPk skb' := slice_of_drop (o := 4000) (n := 64) he (by omega)
  refine ⟨?_, ?_, ⟨(seed.drop 32).take 32, ?_⟩, ?_⟩
  · rw [← e1, a2]; exact a1
  · rw [← e2]; exact a3
  · rw [← e3]; exact a4
  · rw [← e4]; exact a6

/-- The hypotheses of `compact_without_sphincs` can be met: here the SPHINCS+ secrets are zero. -/
theorem compact_demo_run : ∃ (fs : Nat) (pkb skb : Bytes) (W W' : World) (sm smlen m sk : Ptr), CompactPair pkb skb ∧ skSpx skb = List.replicate 128 0 ∧ W.view m 1 = some [2] ∧ W.view sk 4064 = some skb ∧
    (W.view sm (2526 + 1)).isSome ∧ (W.view smlen 8).isSome ∧ Disj smlen 8 sm (2526 + 1) ∧ Disj sm (2526 + 1) m 1 ∧
    signCompact (real fs) (some sm) (some smlen) (some m) 1 (some sk) W = .ok (0, W') := by
  obtain ⟨pkb, skb, sig, hE, lp, ls, hs, hm, hd, k1, k2, k3, k4⟩ := Witness.compact_signature
  obtain ⟨W, w0, w1, w2, w3, wr⟩ : ∃ W : World, W.mem 0 = some [2] ∧ W.mem 1 = some skb ∧ W.mem 2 = some (List.replicate 2527 0) ∧ W.mem 3 = some (List.replicate 8 0) ∧ W.rng.draw W.rng.log.length 40 = some Witness.nonceC :=
    ⟨{ demo with mem := fun b => if b = 0 then some [2] else if b = 1 then some skb else if b = 2 then some (List.replicate 2527 0) else some (List.replicate 8 0),
                 rng := { draw := fun _ n => if n = 40 then some Witness.nonceC else none,
                          len_draw := fun i n b h => by
                            by_cases hn : n = 40
                            · rw [if_pos hn] at h; cases h; rw [hn]; decide
                            · rw [if_neg hn] at h; cases h
                          log := [] } }, rfl, rfl, rfl, rfl, rfl⟩
  have v0 : W.view ⟨0, 0⟩ 1 = some [2] := view_block w0 rfl
  have v1 : W.view ⟨1, 0⟩ 4064 = some skb := view_block w1 ls
  have v2 : (W.view ⟨2, 0⟩ (2526 + 1)).isSome := by rw [view_block w2 List.length_replicate]; rfl
  have v3 : (W.view ⟨3, 0⟩ 8).isSome := by rw [view_block w3 List.length_replicate]; rfl
  obtain ⟨F, hF⟩ := (real_compact_sign isShake128_S128 isShake256_S256 v0 v1 v2 v3 (Or.inl (by decide)) (by omega) (by omega)).2 _ _ wr hs
  exact ⟨F, pkb, skb, W, _, _, _, _, _, ⟨by rw [k1]; exact hE, k2, ⟨_, hd⟩, k3⟩, k4, v0, v1, v2, v3, Or.inl (by decide), Or.inl (by decide), hF F (Nat.le_refl _)⟩

example := compact_demo_run

end Verif.Real
