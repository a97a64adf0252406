import Verif.Real.ForgeryProps3

/-!
The property C101: accepted signatures are bound to their message and mode, up to explicit hash collisions.
-/

namespace Verif.Real
open Verif Verif.Hybrid Dilithium

/-- The two hash values of an Ed25519 signature for two strings are equal modulo L (compare tweetnacl/tweetnacl.c:808-813). -/
def EdCollision (pk ed x y : Bytes) : Prop :=
  ed.take 32 ++ pk ++ x ≠ ed.take 32 ++ pk ++ y ∧
    Ed25519.Spec.leVal (Ed25519.Spec.sha512 (ed.take 32 ++ pk ++ x)) % Ed25519.Spec.L = Ed25519.Spec.leVal (Ed25519.Spec.sha512 (ed.take 32 ++ pk ++ y)) % Ed25519.Spec.L

/-- SHAKE256 collides where a Dilithium signature is checked for two strings: at the message representatives, or at the challenge with the vectors w1 that the signature leads
to (compare dilithium2/sign.c:281-319). -/
def DilCollision (pk dil x y : Bytes) : Prop :=
  (S256 pk 64 ++ x ≠ S256 pk 64 ++ y ∧ S256 (S256 pk 64 ++ x) 64 = S256 (S256 pk 64 ++ y) 64) ∨
  ∃ A c u w1 h u' w1' h', Dilithium.Spec.Checked S128 S256 pk x dil A c u w1 h ∧ Dilithium.Spec.Checked S128 S256 pk y dil A c u' w1' h' ∧
    Dilithium.Spec.hashed S256 pk x w1 ≠ Dilithium.Spec.hashed S256 pk y w1' ∧ S256 (Dilithium.Spec.hashed S256 pk x w1) 32 = S256 (Dilithium.Spec.hashed S256 pk y w1') 32

/-- A SPHINCS+ signature for two strings: in each of the 35 FORS trees the digests of both select the same leaf of the same FORS key, or the function that makes the secret values has the same value for the
addresses of the two leaves; or the hash function is broken (compare sphincs/hash_shake.c:50-82, sphincs/fors.c:66-156). -/
def SpxCollision (skb pk spx x y : Bytes) : Prop :=
  (∀ t, t < 35 → Sphincs.SameFors (Sphincs.Spec.digest S256 (spx.take 32) pk x) (Sphincs.Spec.digest S256 (spx.take 32) pk y) t ∨
    ((Sphincs.forsPrfAdrs (Sphincs.Spec.digest S256 (spx.take 32) pk x) t).bytes ≠ (Sphincs.forsPrfAdrs (Sphincs.Spec.digest S256 (spx.take 32) pk y) t).bytes ∧
      Sphincs.Spec.prf S256 ⟨slice (skSpx skb) 64 32, (skSpx skb).take 32⟩ (Sphincs.forsPrfAdrs (Sphincs.Spec.digest S256 (spx.take 32) pk x) t) =
        Sphincs.Spec.prf S256 ⟨slice (skSpx skb) 64 32, (skSpx skb).take 32⟩ (Sphincs.forsPrfAdrs (Sphincs.Spec.digest S256 (spx.take 32) pk y) t))) ∨
  SpxBreak skb pk x spx ∨ SpxBreak skb pk y spx

theorem scalar_ne_zero (seed : Bytes) : (Ed25519.Spec.scalar seed : ZMod Ed25519.Spec.L) ≠ 0 := by
  have hp : Nat.Prime Ed25519.Spec.L := Fact.out
  rw [Ne, ZMod.natCast_eq_zero_iff]
  intro h
  unfold Ed25519.Spec.scalar at h
  have hq : Ed25519.Spec.leVal ((Ed25519.Spec.sha512 seed).take 32) / 8 % 2 ^ 251 < 2 ^ 251 := Nat.mod_lt _ (Nat.two_pow_pos _)
  generalize Ed25519.Spec.leVal ((Ed25519.Spec.sha512 seed).take 32) / 8 % 2 ^ 251 = q at *
  rw [show 2 ^ 254 + 8 * q = 8 * (2 ^ 251 + q) by ring] at h
  rcases (Nat.Prime.dvd_mul hp).1 h with h | h
  · exact absurd (Nat.le_of_dvd (by decide) h) (by decide)
  · have := Nat.le_of_dvd (Nat.add_pos_left (Nat.two_pow_pos _) _) h
    have hL : (2 : Nat) ^ 252 < Ed25519.Spec.L := by decide
    omega

theorem edCollision_of_valid {seed x y ed : Bytes} (hne : x ≠ y) (h : Ed25519.Spec.Valid (Ed25519.Spec.publicKey seed) x ed)
    (h' : Ed25519.Spec.Valid (Ed25519.Spec.publicKey seed) y ed) : EdCollision (Ed25519.Spec.publicKey seed) ed x y := by
  refine ⟨fun e => hne (List.append_cancel_left e), ?_⟩
  obtain ⟨r, hr, e1, e2⟩ := edNonce_of_valid h
  obtain ⟨r', hr', e1', e2'⟩ := edNonce_of_valid h'
  have e : (r : ZMod Ed25519.Spec.L) = r' := Ed25519.smul_B_iff.1 (Ed25519.encode_inj (e1.symm.trans e1'))
  have e3 := (ZMod.natCast_eq_natCast_iff _ _ _).2 (e2.symm.trans e2')
  push_cast at e3
  rw [e] at e3
  have e4 := mul_right_cancel₀ (scalar_ne_zero seed) (add_left_cancel e3)
  have e5 := (ZMod.natCast_eq_natCast_iff _ _ _).1 e4
  unfold Nat.ModEq Ed25519.Spec.hashL at e5
  rwa [Nat.mod_mod, Nat.mod_mod] at e5

theorem dilCollision_of_valid {pk x y dil : Bytes} (hne : x ≠ y) (hl : dil.length = 2420) (h : Dilithium.Spec.Valid S128 S256 pk x dil) (h' : Dilithium.Spec.Valid S128 S256 pk y dil) :
    DilCollision pk dil x y := by
  obtain ⟨A, c, u, w1, h, u', w1', h', h1, h2, e | ⟨-, e⟩ | e | ⟨e, -⟩⟩ := Dilithium.same_challenge_of_valid hl h h' rfl
  · exact absurd e.1 hne
  · exact .inl ⟨fun e => hne (List.append_cancel_left e), e⟩
  · exact .inr ⟨A, c, u, w1, h, u', w1', h', h1, h2, e⟩
  · exact absurd e hne

theorem spxCollision_of_valid {skb x y spx : Bytes} (hp : (slice (skSpx skb) 64 32).length = 32)
    (h : Sphincs.Spec.Valid S256 (Sphincs.Spec.publicKey S256 ⟨slice (skSpx skb) 64 32, (skSpx skb).take 32⟩) spx x)
    (h' : Sphincs.Spec.Valid S256 (Sphincs.Spec.publicKey S256 ⟨slice (skSpx skb) 64 32, (skSpx skb).take 32⟩) spx y) :
    SpxCollision skb (Sphincs.Spec.publicKey S256 ⟨slice (skSpx skb) 64 32, (skSpx skb).take 32⟩) spx x y := by
  have hH : ∀ m n, (S256 m n).length = n := fun m n => by rw [← shake256F_eq isShake256_S256]; exact Sphincs.length_shake256F m n
  have hl : (spx.take 32).length = 32 := by rw [List.length_take, h.1]; rfl
  rcases Sphincs.forge_inv hH (s := ⟨slice (skSpx skb) 64 32, (skSpx skb).take 32⟩) hp h with c | c | c
  · exact .inr (.inl (.inl c))
  · exact .inr (.inl (.inr c))
  rcases Sphincs.forge_inv hH (s := ⟨slice (skSpx skb) 64 32, (skSpx skb).take 32⟩) hp h' with d | d | d
  · exact .inr (.inr (.inl d))
  · exact .inr (.inr (.inr d))
  generalize Sphincs.Spec.publicKey S256 ⟨slice (skSpx skb) 64 32, (skSpx skb).take 32⟩ = pk at *
  refine .inl fun t ht => ?_
  by_cases hs : Sphincs.SameFors (Sphincs.Spec.digest S256 (spx.take 32) pk x) (Sphincs.Spec.digest S256 (spx.take 32) pk y) t
  · exact .inl hs
  · refine .inr ⟨fun e => hs ((Sphincs.forsPrfAdrs_iff ht ht).1 e).2, ?_⟩
    have e1 := (congrArg (fun s => slice s (32 + 320 * t) 32) c).trans (Sphincs.fors_part hH _ hl ht)
    have e2 := (congrArg (fun s => slice s (32 + 320 * t) 32) d).trans (Sphincs.fors_part hH _ hl ht)
    exact e1.symm.trans e2

/-- C101, full mode: if the three component signatures of one accepted buffer are accepted in another buffer for a different message, then all three schemes are broken at explicit
strings. -/
theorem hybrid_full_binding {fk fv fv' : Nat} {pkb skb : Bytes} (hg : Generated (real fk) pkb skb) {W W' V V' : World} (hW : W.WF) (hV : V.WF) {sm m pk sm' m' pk' : Ptr} {n k n' k' : Nat}
    {mb mb' ed dil spx : Bytes} (l1 : ed.length = 64) (l2 : dil.length = 2420) (l3 : spx.length = 49856)
    (hsm : W.view sm n = some (fullWire ed mb dil spx)) (hpk : W.view pk 1408 = some pkb) (hm : W.view m k = some mb)
    (h : verifyFull (real fv) (some m) k (some sm) n (some pk) W = .ok (0, W'))
    (hsm' : V.view sm' n' = some (fullWire ed mb' dil spx)) (hpk' : V.view pk' 1408 = some pkb) (hm' : V.view m' k' = some mb')
    (h' : verifyFull (real fv') (some m') k' (some sm') n' (some pk') V = .ok (0, V')) :
    mb = mb' ∨ (EdCollision (pkEd pkb) ed mb mb' ∧ DilCollision (pkDil pkb) dil mb mb' ∧ SpxCollision skb (pkSpx pkb) spx mb mb') := by
  by_cases hne : mb = mb'
  · exact .inl hne
  refine .inr ?_
  obtain ⟨-, q1, q2, a1, a2, a3, g1, g2, g3, e, v1, v2, v3⟩ := (real_full_verify isShake128_S128 isShake256_S256 hW hsm hpk hm).1 _ _ h
  obtain ⟨-, r1, r2, b1, b2, b3, f1, f2, f3, e', u1, u2, u3⟩ := (real_full_verify isShake128_S128 isShake256_S256 hV hsm' hpk' hm').1 _ _ h'
  have inj : ∀ {x a b c a' b' c' : Bytes}, x.length ≤ 64 → a.length = 64 → b.length = 2420 → c.length = 49856 → a'.length = 64 → b'.length = 2420 → c'.length = 49856 →
      fullWire a x b c = fullWire a' x b' c' → a = a' ∧ b = b' ∧ c = c' := by
    intro x a b c a' b' c' hx ha hb hc ha' hb' hc' he
    obtain ⟨-, -, -, -, i2, i3, i1⟩ := wire_full_slices ha hb hc hx
    obtain ⟨-, -, -, -, j2, j3, j1⟩ := wire_full_slices ha' hb' hc' hx
    rw [he] at i1 i2 i3
    exact ⟨i1.symm.trans j1, i2.symm.trans j2, i3.symm.trans j3⟩
  obtain ⟨rfl, rfl, rfl⟩ := inj q2 l1 l2 l3 g1 g2 g3 e
  obtain ⟨rfl, rfl, rfl⟩ := inj r2 l1 l2 l3 f1 f2 f3 e'
  obtain ⟨p1, p2, p3⟩ := generated_parts hg
  rw [p1] at v1 u1 ⊢
  rw [p2] at v3 u3 ⊢
  exact ⟨edCollision_of_valid hne v1 u1, dilCollision_of_valid hne l2 v2 u2, spxCollision_of_valid p3 v3 u3⟩

theorem compactWire_inj {x a b c a' b' c' : Bytes} (ha : a.length = 64) (hb : b.length = 2420) (hc : c.length = 40) (ha' : a'.length = 64) (hb' : b'.length = 2420) (hc' : c'.length = 40)
    (he : compactWire a b c x = compactWire a' b' c' x) : a = a' ∧ b = b' ∧ c = c' := by
  simp only [compactWire, List.cons.injEq, true_and, List.append_assoc] at he
  obtain ⟨i1, he⟩ := List.append_inj he (by rw [ha, ha'])
  obtain ⟨i2, he⟩ := List.append_inj he (by rw [hb, hb'])
  exact ⟨i1, i2, (List.append_inj he (by rw [hc, hc'])).1⟩

/-- C101, compact mode: the same two component signatures with another nonce or message are accepted only if the two strings that the code hashes are a collision of SHA3-512 or
both components are broken at the two hash values. -/
theorem hybrid_compact_binding {fv fv' : Nat} {seed pkb : Bytes} (hg : pkEd pkb = Ed25519.Spec.publicKey seed) {W W' V V' : World} (hW : W.WF) (hV : V.WF) {sm m pk sm' m' pk' : Ptr} {n k n' k' : Nat}
    {mb mb' ed dil nonce nonce' : Bytes} (l1 : ed.length = 64) (l2 : dil.length = 2420) (ln : nonce.length = 40) (ln' : nonce'.length = 40)
    (hsm : W.view sm n = some (compactWire ed dil nonce mb)) (hpk : W.view pk 1408 = some pkb) (hm : W.view m k = some mb)
    (h : verifyCompact (real fv) (some m) k (some sm) n (some pk) W = .ok (0, W'))
    (hsm' : V.view sm' n' = some (compactWire ed dil nonce' mb')) (hpk' : V.view pk' 1408 = some pkb) (hm' : V.view m' k' = some mb')
    (h' : verifyCompact (real fv') (some m') k' (some sm') n' (some pk') V = .ok (0, V')) :
    (nonce = nonce' ∧ mb = mb') ∨ Collision (nonce ++ mb ++ pkSpx pkb) (nonce' ++ mb' ++ pkSpx pkb) ∨
      ∃ x y, IsCompactHash nonce mb (pkSpx pkb) x ∧ IsCompactHash nonce' mb' (pkSpx pkb) y ∧ EdCollision (pkEd pkb) ed x y ∧ DilCollision (pkDil pkb) dil x y := by
  obtain ⟨-, q1, q2, a1, a2, a3, x, g1, g2, g3, e, hx, v1, v2⟩ := (real_compact_verify isShake128_S128 isShake256_S256 hW hsm hpk hm).1 _ _ h
  obtain ⟨-, -, -, b1, b2, b3, y, f1, f2, f3, e', hy, u1, u2⟩ := (real_compact_verify isShake128_S128 isShake256_S256 hV hsm' hpk' hm').1 _ _ h'
  obtain ⟨rfl, rfl, rfl⟩ := compactWire_inj l1 l2 ln g1 g2 g3 e
  obtain ⟨rfl, rfl, rfl⟩ := compactWire_inj l1 l2 ln' f1 f2 f3 e'
  by_cases hxy : x = y
  · subst hxy
    by_cases hs : nonce ++ mb ++ pkSpx pkb = nonce' ++ mb' ++ pkSpx pkb
    · left
      exact List.append_inj (List.append_cancel_right hs) (by rw [ln, ln'])
    · exact .inr (.inl ⟨hs, hx.symm.trans hy⟩)
  · rw [hg] at v1 u1 ⊢
    exact .inr (.inr ⟨x, y, hx, hy, edCollision_of_valid hxy v1 u1, dilCollision_of_valid hxy l2 v2 u2⟩)

/-- C101, the two modes: an accepted full signature and an accepted compact one have the same Ed25519 and Dilithium parts only if the message of the first is the hash value of the second
(the attack of C20) or both components are broken at these two strings. -/
theorem hybrid_mode_binding {fv fv' : Nat} {seed pkb : Bytes} (hg : pkEd pkb = Ed25519.Spec.publicKey seed) {W W' V V' : World} (hW : W.WF) (hV : V.WF) {sm m pk sm' m' pk' : Ptr} {n k n' k' : Nat}
    {mb mb' ed dil spx nonce : Bytes} (l1 : ed.length = 64) (l2 : dil.length = 2420) (l3 : spx.length = 49856) (ln : nonce.length = 40)
    (hsm : W.view sm n = some (fullWire ed mb dil spx)) (hpk : W.view pk 1408 = some pkb) (hm : W.view m k = some mb)
    (h : verifyFull (real fv) (some m) k (some sm) n (some pk) W = .ok (0, W'))
    (hsm' : V.view sm' n' = some (compactWire ed dil nonce mb')) (hpk' : V.view pk' 1408 = some pkb) (hm' : V.view m' k' = some mb')
    (h' : verifyCompact (real fv') (some m') k' (some sm') n' (some pk') V = .ok (0, V')) :
    ∃ y, IsCompactHash nonce mb' (pkSpx pkb) y ∧ (mb = y ∨ (EdCollision (pkEd pkb) ed mb y ∧ DilCollision (pkDil pkb) dil mb y)) := by
  obtain ⟨-, q1, q2, a1, a2, a3, g1, g2, g3, e, v1, v2, v3⟩ := (real_full_verify isShake128_S128 isShake256_S256 hW hsm hpk hm).1 _ _ h
  obtain ⟨-, -, -, b1, b2, b3, y, f1, f2, f3, e', hy, u1, u2⟩ := (real_compact_verify isShake128_S128 isShake256_S256 hV hsm' hpk' hm').1 _ _ h'
  obtain ⟨-, -, -, -, i2, i3, i1⟩ := wire_full_slices l1 l2 l3 q2
  obtain ⟨-, -, -, -, j2, j3, j1⟩ := wire_full_slices g1 g2 g3 q2
  rw [e] at i1 i2 i3
  obtain rfl := i1.symm.trans j1
  obtain rfl := i2.symm.trans j2
  obtain ⟨rfl, rfl, rfl⟩ := compactWire_inj l1 l2 ln f1 f2 f3 e'
  refine ⟨y, hy, ?_⟩
  by_cases hxy : mb = y
  · exact .inl hxy
  · rw [hg] at v1 u1 ⊢
    exact .inr ⟨edCollision_of_valid hxy v1 u1, dilCollision_of_valid hxy l2 v2 u2⟩

/-- The hypotheses of `hybrid_full_binding` and of the first half of `hybrid_mode_binding` are met, here with one message.  (With two messages nobody can give an example without breaking all three
schemes; that is the theorem.) -/
example : ∃ (fk fv : Nat) (pkb skb : Bytes) (W : World) (sm m pk : Ptr) (ed dil spx : Bytes), Generated (real fk) pkb skb ∧ W.WF ∧ ed.length = 64 ∧ dil.length = 2420 ∧
    spx.length = 49856 ∧ W.view sm 52343 = some (fullWire ed [2] dil spx) ∧ W.view pk 1408 = some pkb ∧ W.view m 1 = some [2] ∧
    verifyFull (real fv) (some m) 1 (some sm) 52343 (some pk) W = .ok (0, W) ∧ pkEd pkb = Ed25519.Spec.publicKey (skb.take 32) := by
  obtain ⟨fuel, pkb, skb, sig, hg, -, hm, V, m, sm, pk, hV, v0, v1, v2, hv⟩ := Witness.complete_run
  obtain ⟨-, -, ed, dil, spx, l1, l2, l3, rfl, w1, w2, w3⟩ := hm
  exact ⟨fuel, fuel, pkb, skb, V, sm, m, pk, ed, dil, spx, hg, hV, l1, l2, l3, v1, v2, v0, hv, (generated_parts hg).1⟩

/-- The hypotheses of `hybrid_compact_binding` and of the second half of `hybrid_mode_binding` are met. -/
example : ∃ (fv : Nat) (seed pkb : Bytes) (W : World) (sm m pk : Ptr) (ed dil nonce : Bytes), pkEd pkb = Ed25519.Spec.publicKey seed ∧ W.WF ∧ ed.length = 64 ∧ dil.length = 2420 ∧
    nonce.length = 40 ∧ W.view sm 2527 = some (compactWire ed dil nonce [2]) ∧ W.view pk 1408 = some pkb ∧ W.view m 1 = some [2] ∧
    verifyCompact (real fv) (some m) 1 (some sm) 2527 (some pk) W = .ok (0, W) := by
  obtain ⟨fuel, pkb, skb, sig, hE, -, V, m, sm, pk, hV, v0, v1, v2, hv⟩ := Witness.compact_run
  obtain ⟨-, -, -, ed, dil, nonce, x, l1, l2, l3, rfl, -⟩ := (real_compact_verify isShake128_S128 isShake256_S256 hV v1 v2 v0).1 _ _ hv
  exact ⟨fuel, _, pkb, V, sm, m, pk, ed, dil, nonce, hE, hV, l1, l2, l3, v1, v2, v0, hv⟩

end Verif.Real
