import Verif.Real.ForgeryProps2
import Verif.Ed25519.ForgeProps
import Verif.Dilithium.ForgeProps
import Verif.Witness.Hybrid
import Verif.Witness.HybridC

/-!
The property C100: what accepted signatures of the hybrid scheme contain, and how an accepted signature can be changed.
-/

namespace Verif.Real
open Verif Verif.Hybrid Dilithium

/-- The Ed25519 equation with a nonce r, secret scalar of the key with seed `seed` (compare tweetnacl/tweetnacl.c:728-790). -/
def EdNonce (seed pk x ed : Bytes) (r : Nat) : Prop :=
  r < Ed25519.Spec.L ∧ ed.take 32 = Ed25519.Spec.encode (r • Ed25519.Spec.B) ∧
    Ed25519.Spec.leVal (ed.drop 32) % Ed25519.Spec.L =
      (r + Ed25519.Spec.hashL (ed.take 32 ++ pk ++ x) * Ed25519.Spec.scalar seed) % Ed25519.Spec.L

/-- What changing an Ed25519 signature with the same first 32 bytes can do: add a multiple of L to the number S (compare tweetnacl/tweetnacl.c:796-825). -/
def EdVariant (ed ed' : Bytes) : Prop := ed.take 32 = ed'.take 32 ∧ Ed25519.Spec.leVal (ed.drop 32) % Ed25519.Spec.L = Ed25519.Spec.leVal (ed'.drop 32) % Ed25519.Spec.L

/-- Two Dilithium signatures of one string with the same challenge hash break a problem: the two strings that are hashed to the challenge are a collision of SHAKE256, or the
difference of the two vectors z is, with that of the errors u, a short vector that is not 0 in the lattice of (A, I) (compare dilithium2/sign.c:257-328). -/
def DilBreak (pk x dil dil' : Bytes) : Prop := ∃ A c u w1 h u' w1' h', Dilithium.Spec.Checked S128 S256 pk x dil A c u w1 h ∧ Dilithium.Spec.Checked S128 S256 pk x dil' A c u' w1' h' ∧
  ((Dilithium.Spec.hashed S256 pk x w1 ≠ Dilithium.Spec.hashed S256 pk x w1' ∧ S256 (Dilithium.Spec.hashed S256 pk x w1) 32 = S256 (Dilithium.Spec.hashed S256 pk x w1') 32) ∨
  (Dilithium.Spec.Relation S128 pk (Dilithium.Spec.diffV (Dilithium.Spec.zOfSig dil) (Dilithium.Spec.zOfSig dil')) (Dilithium.Spec.mk fun _ => 0) (Dilithium.Spec.diffV u u') ∧
    Dilithium.Spec.Nonzero (Dilithium.Spec.diffV (Dilithium.Spec.zOfSig dil) (Dilithium.Spec.zOfSig dil')) (Dilithium.Spec.mk fun _ => 0)))

/-- A SPHINCS+ signature breaks the hash function: verification of it hashes a second preimage, or it has a chain value before the one that the one-time key gives out
(compare sphincs/sign.c:169-240). -/
def SpxBreak (skb pk m spx : Bytes) : Prop :=
  Sphincs.Spec.SecondPreimage S256 ⟨slice (skSpx skb) 64 32, (skSpx skb).take 32⟩ (Sphincs.Spec.verifyCalls S256 pk spx m) ∨
    Sphincs.Spec.RevealsWots S256 ⟨slice (skSpx skb) 64 32, (skSpx skb).take 32⟩ (Sphincs.Spec.digest S256 (spx.take 32) pk m) spx

theorem edNonce_of_valid {seed x ed : Bytes} (h : Ed25519.Spec.Valid (Ed25519.Spec.publicKey seed) x ed) :
    ∃ r, EdNonce seed (Ed25519.Spec.publicKey seed) x ed r := by
  obtain ⟨A, hA, h⟩ := h
  rw [Ed25519.decodes_unique hA (Ed25519.decodes_encode _)] at h
  obtain ⟨r, hr, e1, e2⟩ := (Ed25519.equation_iff _ _ _ _).1 h
  refine ⟨r, hr, e1, ?_⟩
  have := ZMod.natCast_eq_natCast_iff (Ed25519.Spec.leVal (ed.drop 32)) (r + Ed25519.Spec.hashL (ed.take 32 ++ Ed25519.Spec.publicKey seed ++ x) * Ed25519.Spec.scalar seed) Ed25519.Spec.L
  push_cast at this
  exact this.1 e2

theorem edVariant_of_valid {seed x ed ed' : Bytes} (h : Ed25519.Spec.Valid (Ed25519.Spec.publicKey seed) x ed)
    (h' : Ed25519.Spec.Valid (Ed25519.Spec.publicKey seed) x ed') (hR : ed.take 32 = ed'.take 32) : EdVariant ed ed' := by
  obtain ⟨r, hr, e1, e2⟩ := edNonce_of_valid h
  obtain ⟨r', hr', e1', e2'⟩ := edNonce_of_valid h'
  have e := Ed25519.smul_B_iff.1 (Ed25519.encode_inj (e1.symm.trans (hR.trans e1')))
  have : r = r' := by
    have := (ZMod.natCast_eq_natCast_iff _ _ _).1 e
    unfold Nat.ModEq at this
    rwa [Nat.mod_eq_of_lt hr, Nat.mod_eq_of_lt hr'] at this
  subst this
  exact ⟨hR, by rw [e2, e2', hR]⟩

theorem dil_variant {pk x dil dil' : Bytes} (hl : dil.length = 2420) (h : Dilithium.Spec.Valid S128 S256 pk x dil) (h' : Dilithium.Spec.Valid S128 S256 pk x dil') (hc : dil.take 32 = dil'.take 32) :
    dil = dil' ∨ DilBreak pk x dil dil' := by
  obtain ⟨A, c, u, w1, h, u', w1', h', h1, h2, e | ⟨e, -⟩ | e | ⟨-, e⟩⟩ := Dilithium.same_challenge_of_valid hl h h' hc
  · exact .inl e.2
  · exact absurd rfl e
  · exact .inr ⟨A, c, u, w1, h, u', w1', h', h1, h2, .inl e⟩
  · exact .inr ⟨A, c, u, w1, h, u', w1', h', h1, h2, .inr e⟩

theorem generated_parts {fk : Nat} {pkb skb : Bytes} (hg : Generated (real fk) pkb skb) :
    pkEd pkb = Ed25519.Spec.publicKey (skb.take 32) ∧ pkSpx pkb = Sphincs.Spec.publicKey S256 ⟨slice (skSpx skb) 64 32, (skSpx skb).take 32⟩ ∧ (slice (skSpx skb) 64 32).length = 32 := by
  obtain ⟨seed, hs, hk⟩ := generated_keys isShake128_S128 isShake256_S256 hg
  obtain ⟨-, -, e1, e2, -, -, e3, -, e4, e5, -⟩ := keysOf_parts isShake128_S128 isShake256_S256 hs hk
  rw [e1, e2, e3, e4, e5]
  exact ⟨rfl, rfl, by rw [List.length_drop, hs]⟩

/-- C100, full mode: every buffer that full-mode verification accepts under a generated public key consists of an Ed25519 signature made with some nonce and the secret scalar, a solution of
SelfTargetMSIS for the Dilithium key, and a SPHINCS+ signature that is either exactly what the signing code makes with the randomiser in its first 32 bytes or breaks the hash function. -/
theorem hybrid_full_accepted {fk fv : Nat} {pkb skb : Bytes} (hg : Generated (real fk) pkb skb) {W W' : World} (hW : W.WF) {sm m pk : Ptr} {n k : Nat} {sb mb : Bytes}
    (hsm : W.view sm n = some sb) (hpk : W.view pk 1408 = some pkb) (hm : W.view m k = some mb)
    (h : verifyFull (real fv) (some m) k (some sm) n (some pk) W = .ok (0, W')) :
    ∃ ed dil spx, sb = fullWire ed mb dil spx ∧ (∃ r, EdNonce (skb.take 32) (pkEd pkb) mb ed r) ∧
      (∃ A c u w1 h, Dilithium.Spec.Checked S128 S256 (pkDil pkb) mb dil A c u w1 h) ∧
      (spx = Sphincs.Spec.signWith S256 ⟨slice (skSpx skb) 64 32, (skSpx skb).take 32⟩ (spx.take 32) (pkSpx pkb) mb ∨
        SpxBreak skb (pkSpx pkb) mb spx) := by
  obtain ⟨-, -, -, ed, dil, spx, -, -, -, e, v1, v2, v3⟩ := (real_full_verify isShake128_S128 isShake256_S256 hW hsm hpk hm).1 _ _ h
  obtain ⟨p1, p2, p3⟩ := generated_parts hg
  have hH : ∀ m n, (S256 m n).length = n := fun m n => by rw [← shake256F_eq isShake256_S256]; exact Sphincs.length_shake256F m n
  rw [p1] at v1 ⊢
  rw [p2] at v3 ⊢
  obtain ⟨A, c, u, w1, g, hs⟩ := Dilithium.valid_solution v2
  refine ⟨ed, dil, spx, e, edNonce_of_valid v1, ⟨A, c, u, w1, g, hs⟩, ?_⟩
  rcases Sphincs.forge_inv hH (s := ⟨slice (skSpx skb) 64 32, (skSpx skb).take 32⟩) p3 v3 with c | c | c
  · exact .inr (.inl c)
  · exact .inr (.inr c)
  · exact .inl c

/-- C100, compact mode; for generated keys the hypothesis holds (`generated_parts`). -/
theorem hybrid_compact_accepted {fv : Nat} {seed pkb : Bytes} (hg : pkEd pkb = Ed25519.Spec.publicKey seed) {W W' : World} (hW : W.WF) {sm m pk : Ptr} {n k : Nat} {sb mb : Bytes}
    (hsm : W.view sm n = some sb) (hpk : W.view pk 1408 = some pkb) (hm : W.view m k = some mb)
    (h : verifyCompact (real fv) (some m) k (some sm) n (some pk) W = .ok (0, W')) :
    ∃ ed dil nonce x, sb = compactWire ed dil nonce mb ∧ nonce.length = 40 ∧ IsCompactHash nonce mb (pkSpx pkb) x ∧ (∃ r, EdNonce seed (pkEd pkb) x ed r) ∧
      (∃ A c u w1 h, Dilithium.Spec.Checked S128 S256 (pkDil pkb) x dil A c u w1 h) := by
  obtain ⟨-, -, -, ed, dil, nonce, x, -, -, ln, e, hx, v1, v2⟩ := (real_compact_verify isShake128_S128 isShake256_S256 hW hsm hpk hm).1 _ _ h
  rw [hg] at v1 ⊢
  obtain ⟨A, c, u, w1, g, hs⟩ := Dilithium.valid_solution v2
  exact ⟨ed, dil, nonce, x, e, ln, hx, edNonce_of_valid v1, ⟨A, c, u, w1, g, hs⟩⟩

/-- C100, changing a full signature: two buffers accepted for one message under a generated public key whose parts begin with the same 32 bytes each (Ed25519 point, Dilithium challenge hash, SPHINCS+
randomiser) are equal up to a multiple of L in the Ed25519 part, or break one of the hard problems. -/
theorem hybrid_full_variants {fk fv fv' : Nat} {pkb skb : Bytes} (hg : Generated (real fk) pkb skb) {W W' V V' : World} (hW : W.WF) (hV : V.WF) {sm m pk sm' m' pk' : Ptr} {n k n' k' : Nat}
    {mb ed dil spx ed' dil' spx' : Bytes} (l1 : ed.length = 64) (l2 : dil.length = 2420) (l3 : spx.length = 49856) (l1' : ed'.length = 64) (l2' : dil'.length = 2420) (l3' : spx'.length = 49856)
    (hsm : W.view sm n = some (fullWire ed mb dil spx)) (hpk : W.view pk 1408 = some pkb) (hm : W.view m k = some mb)
    (h : verifyFull (real fv) (some m) k (some sm) n (some pk) W = .ok (0, W'))
    (hsm' : V.view sm' n' = some (fullWire ed' mb dil' spx')) (hpk' : V.view pk' 1408 = some pkb) (hm' : V.view m' k' = some mb)
    (h' : verifyFull (real fv') (some m') k' (some sm') n' (some pk') V = .ok (0, V'))
    (c1 : ed.take 32 = ed'.take 32) (c2 : dil.take 32 = dil'.take 32) (c3 : spx.take 32 = spx'.take 32) :
    (EdVariant ed ed' ∧ dil = dil' ∧ spx = spx') ∨ DilBreak (pkDil pkb) mb dil dil' ∨ SpxBreak skb (pkSpx pkb) mb spx ∨ SpxBreak skb (pkSpx pkb) mb spx' := by
  obtain ⟨-, q1, q2, a1, a2, a3, g1, g2, g3, e, v1, v2, v3⟩ := (real_full_verify isShake128_S128 isShake256_S256 hW hsm hpk hm).1 _ _ h
  obtain ⟨-, -, -, b1, b2, b3, f1, f2, f3, e', u1, u2, u3⟩ := (real_full_verify isShake128_S128 isShake256_S256 hV hsm' hpk' hm').1 _ _ h'
  have inj : ∀ {a b c a' b' c' : Bytes}, a.length = 64 → b.length = 2420 → c.length = 49856 → a'.length = 64 → b'.length = 2420 → c'.length = 49856 →
      fullWire a mb b c = fullWire a' mb b' c' → a = a' ∧ b = b' ∧ c = c' := by
    intro a b c a' b' c' ha hb hc ha' hb' hc' he
    obtain ⟨-, -, -, -, i2, i3, i1⟩ := wire_full_slices ha hb hc (msg := mb) q2
    obtain ⟨-, -, -, -, j2, j3, j1⟩ := wire_full_slices ha' hb' hc' (msg := mb) q2
    rw [he] at i1 i2 i3
    exact ⟨i1.symm.trans j1, i2.symm.trans j2, i3.symm.trans j3⟩
  obtain ⟨rfl, rfl, rfl⟩ := inj l1 l2 l3 g1 g2 g3 e
  obtain ⟨rfl, rfl, rfl⟩ := inj l1' l2' l3' f1 f2 f3 e'
  obtain ⟨p1, p2, p3⟩ := generated_parts hg
  have hH : ∀ m n, (S256 m n).length = n := fun m n => by rw [← shake256F_eq isShake256_S256]; exact Sphincs.length_shake256F m n
  rw [p1] at v1 u1
  rw [p2] at v3 u3 ⊢
  rcases dil_variant l2 v2 u2 c2 with hd | hd
  · rcases Sphincs.forge_inv hH (s := ⟨slice (skSpx skb) 64 32, (skSpx skb).take 32⟩) p3 v3 with c | c | c
    · exact .inr (.inr (.inl (.inl c)))
    · exact .inr (.inr (.inl (.inr c)))
    · rcases Sphincs.forge_inv hH (s := ⟨slice (skSpx skb) 64 32, (skSpx skb).take 32⟩) p3 u3 with d | d | d
      · exact .inr (.inr (.inr (.inl d)))
      · exact .inr (.inr (.inr (.inr d)))
      · exact .inl ⟨edVariant_of_valid v1 u1 c1, hd, by rw [c, d, c3]⟩
  · exact .inr (.inl hd)

/-- C100, changing a compact signature: the same for two buffers accepted for one message with the same nonce. -/
theorem hybrid_compact_variants {fv fv' : Nat} {seed pkb : Bytes} (hg : pkEd pkb = Ed25519.Spec.publicKey seed) {W W' V V' : World} (hW : W.WF) (hV : V.WF) {sm m pk sm' m' pk' : Ptr} {n k n' k' : Nat}
    {mb ed dil ed' dil' nonce : Bytes} (l1 : ed.length = 64) (l2 : dil.length = 2420) (l1' : ed'.length = 64) (l2' : dil'.length = 2420) (ln : nonce.length = 40)
    (hsm : W.view sm n = some (compactWire ed dil nonce mb)) (hpk : W.view pk 1408 = some pkb) (hm : W.view m k = some mb)
    (h : verifyCompact (real fv) (some m) k (some sm) n (some pk) W = .ok (0, W'))
    (hsm' : V.view sm' n' = some (compactWire ed' dil' nonce mb)) (hpk' : V.view pk' 1408 = some pkb) (hm' : V.view m' k' = some mb)
    (h' : verifyCompact (real fv') (some m') k' (some sm') n' (some pk') V = .ok (0, V'))
    (c1 : ed.take 32 = ed'.take 32) (c2 : dil.take 32 = dil'.take 32) :
    (EdVariant ed ed' ∧ dil = dil') ∨ ∃ x, IsCompactHash nonce mb (pkSpx pkb) x ∧ DilBreak (pkDil pkb) x dil dil' := by
  obtain ⟨-, q1, q2, a1, a2, a3, x, g1, g2, g3, e, hx, v1, v2⟩ := (real_compact_verify isShake128_S128 isShake256_S256 hW hsm hpk hm).1 _ _ h
  obtain ⟨-, -, -, b1, b2, b3, y, f1, f2, f3, e', hy, u1, u2⟩ := (real_compact_verify isShake128_S128 isShake256_S256 hV hsm' hpk' hm').1 _ _ h'
  have inj : ∀ {a b c a' b' c' : Bytes}, a.length = 64 → b.length = 2420 → c.length = 40 → a'.length = 64 → b'.length = 2420 → c'.length = 40 →
      compactWire a b c mb = compactWire a' b' c' mb → a = a' ∧ b = b' ∧ c = c' := by
    intro a b c a' b' c' ha hb hc ha' hb' hc' he
    simp only [compactWire, List.cons.injEq, true_and, List.append_assoc] at he
    obtain ⟨i1, he⟩ := List.append_inj he (by rw [ha, ha'])
    obtain ⟨i2, he⟩ := List.append_inj he (by rw [hb, hb'])
    exact ⟨i1, i2, (List.append_inj he (by rw [hc, hc'])).1⟩
  obtain ⟨rfl, rfl, rfl⟩ := inj l1 l2 ln g1 g2 g3 e
  obtain ⟨rfl, rfl, hn⟩ := inj l1' l2' ln f1 f2 f3 e'
  subst hn
  have : x = y := Keccak.bits_injective (hx.trans hy.symm)
  subst this
  rw [hg] at v1 u1
  rcases dil_variant l2 v2 u2 c2 with hd | hd
  · exact .inl ⟨edVariant_of_valid v1 u1 c1, hd⟩
  · exact .inr ⟨x, hx, hd⟩

/-- The hypotheses of `hybrid_full_accepted` and `hybrid_full_variants` are met, by an accepted signature and a different accepted one with another number S. -/
example : ∃ (fk fv fv' : Nat) (pkb skb : Bytes) (W V : World) (sm m pk : Ptr) (mb ed dil spx ed' : Bytes), Generated (real fk) pkb skb ∧ W.WF ∧ V.WF ∧ ed.length = 64 ∧ dil.length = 2420 ∧
    spx.length = 49856 ∧ ed'.length = 64 ∧ W.view sm 52343 = some (fullWire ed mb dil spx) ∧ W.view pk 1408 = some pkb ∧ W.view m 1 = some mb ∧
    verifyFull (real fv) (some m) 1 (some sm) 52343 (some pk) W = .ok (0, W) ∧ V.view sm 52343 = some (fullWire ed' mb dil spx) ∧ V.view pk 1408 = some pkb ∧ V.view m 1 = some mb ∧
    verifyFull (real fv') (some m) 1 (some sm) 52343 (some pk) V = .ok (0, V) ∧ ed.take 32 = ed'.take 32 ∧ ed ≠ ed' := by
  obtain ⟨fuel, pkb, skb, sig, hg, -, hm, _, _, _, _, -, -, -, v2, -⟩ := Witness.complete_run
  have lp := length_of_view v2
  have hm2 := hm
  obtain ⟨-, -, ed, dil, spx, l1, l2, l3, rfl, w1, w2, w3⟩ := hm2
  have lR : (ed.take 32).length = 32 := by rw [List.length_take]; omega
  have lS : (ed.drop 32).length = 32 := by rw [List.length_drop]; omega
  rw [← List.take_append_drop 32 ed] at w1
  obtain ⟨w, ne⟩ := ed_other lR lS w1
  have lT : (ed.take 32 ++ Ed25519.Spec.leBytes 32 (Ed25519.otherScalar (Ed25519.Spec.leVal (ed.drop 32)))).length = 64 := by
    rw [List.length_append, lR, Ed25519.length_leBytes]
  have a0 : ∀ e : Bytes, e.length = 64 → (holding [fullWire e [2] dil spx, pkb, [2]]).view ⟨0, 0⟩ 52343 = some (fullWire e [2] dil spx) := fun e he =>
    holding_view rfl (by rw [(wire_full_slices (msg := [2]) he l2 l3 (by decide)).1]; rfl)
  have a1 : ∀ e : Bytes, (holding [fullWire e [2] dil spx, pkb, [2]]).view ⟨1, 0⟩ 1408 = some pkb := fun e => holding_view rfl lp
  have a2 : ∀ e : Bytes, (holding [fullWire e [2] dil spx, pkb, [2]]).view ⟨2, 0⟩ 1 = some [2] := fun e => holding_view rfl rfl
  obtain ⟨F, hF⟩ := (real_verify_total isShake128_S128 isShake256_S256 (holding_WF _) (a0 _ l1) (a1 _) (a2 _) hm).2
  obtain ⟨G, hG⟩ := (real_verify_total isShake128_S128 isShake256_S256 (holding_WF _) (a0 _ lT) (a1 _) (a2 _) ⟨by decide, by decide, _, dil, spx, lT, l2, l3, rfl, w, w2, w3⟩).2
  refine ⟨fuel, F, G, pkb, skb, _, _, ⟨0, 0⟩, ⟨2, 0⟩, ⟨1, 0⟩, [2], ed, dil, spx, _, hg, holding_WF _, holding_WF _, l1, l2, l3, lT, a0 _ l1, a1 _, a2 _, hF F (Nat.le_refl _), a0 _ lT, a1 _, a2 _,
    hG G (Nat.le_refl _), ?_, fun e => ne ?_⟩
  · rw [List.take_left' lR]
  · have := congrArg (List.drop 32) e
    rw [List.drop_left' lR] at this
    exact this.symm

/-- The same for compact mode. -/
example : ∃ (fv fv' : Nat) (seed pkb : Bytes) (W V : World) (sm m pk : Ptr) (mb ed dil nonce ed' : Bytes), pkEd pkb = Ed25519.Spec.publicKey seed ∧ W.WF ∧ V.WF ∧ ed.length = 64 ∧ dil.length = 2420 ∧
    nonce.length = 40 ∧ ed'.length = 64 ∧ W.view sm 2527 = some (compactWire ed dil nonce mb) ∧ W.view pk 1408 = some pkb ∧ W.view m 1 = some mb ∧
    verifyCompact (real fv) (some m) 1 (some sm) 2527 (some pk) W = .ok (0, W) ∧ V.view sm 2527 = some (compactWire ed' dil nonce mb) ∧ V.view pk 1408 = some pkb ∧ V.view m 1 = some mb ∧
    verifyCompact (real fv') (some m) 1 (some sm) 2527 (some pk) V = .ok (0, V) ∧ ed.take 32 = ed'.take 32 ∧ ed ≠ ed' := by
  obtain ⟨pkb, -, sig, hE, lp, -, -, hm, -⟩ := Witness.compact_signature
  have hm2 := hm
  obtain ⟨-, -, ed, dil, nonce, x, l1, l2, l3, rfl, w0, w1, w2⟩ := hm2
  have lR : (ed.take 32).length = 32 := by rw [List.length_take]; omega
  have lS : (ed.drop 32).length = 32 := by rw [List.length_drop]; omega
  rw [← List.take_append_drop 32 ed] at w1
  obtain ⟨w, ne⟩ := ed_other lR lS w1
  have lT : (ed.take 32 ++ Ed25519.Spec.leBytes 32 (Ed25519.otherScalar (Ed25519.Spec.leVal (ed.drop 32)))).length = 64 := by
    rw [List.length_append, lR, Ed25519.length_leBytes]
  have a0 : ∀ e : Bytes, e.length = 64 → (holding [compactWire e dil nonce [2], pkb, [2]]).view ⟨0, 0⟩ 2527 = some (compactWire e dil nonce [2]) := fun e he =>
    holding_view rfl (by rw [(wire_compact_slices (msg := [2]) he l2 l3 (by decide)).1]; rfl)
  have a1 : ∀ e : Bytes, (holding [compactWire e dil nonce [2], pkb, [2]]).view ⟨1, 0⟩ 1408 = some pkb := fun e => holding_view rfl lp
  have a2 : ∀ e : Bytes, (holding [compactWire e dil nonce [2], pkb, [2]]).view ⟨2, 0⟩ 1 = some [2] := fun e => holding_view rfl rfl
  obtain ⟨F, hF⟩ := (real_verify_total_compact isShake128_S128 isShake256_S256 (holding_WF _) (a0 _ l1) (a1 _) (a2 _) hm).2
  obtain ⟨G, hG⟩ := (real_verify_total_compact isShake128_S128 isShake256_S256 (holding_WF _) (a0 _ lT) (a1 _) (a2 _) ⟨by decide, by decide, _, dil, nonce, x, lT, l2, l3, rfl, w0, w, w2⟩).2
  refine ⟨F, G, _, pkb, _, _, ⟨0, 0⟩, ⟨2, 0⟩, ⟨1, 0⟩, [2], ed, dil, nonce, _, hE, holding_WF _, holding_WF _, l1, l2, l3, lT, a0 _ l1, a1 _, a2 _, hF F (Nat.le_refl _), a0 _ lT, a1 _, a2 _,
    hG G (Nat.le_refl _), ?_, fun e => ne ?_⟩
  · rw [List.take_left' lR]
  · have := congrArg (List.drop 32) e
    rw [List.drop_left' lR] at this
    exact this.symm

end Verif.Real
