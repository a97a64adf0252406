import Verif.Real.ForgeryProps4

/-!
The property C103: which parts of the public key an accepted signature is bound to, for keys that nobody need have generated.
-/

namespace Verif.Real
open Verif Verif.Hybrid Dilithium

/-- SHAKE256 collides where one Dilithium signature is checked for two strings under two public keys: at the public keys, at the message representatives, or at the challenge with the vectors w1 that
the verifier recovers (compare dilithium2/sign.c:281-319). -/
def DilKeyCollision (pk pk' dil x y : Bytes) : Prop :=
  (pk ≠ pk' ∧ S256 pk 64 = S256 pk' 64) ∨
  (S256 pk 64 ++ x ≠ S256 pk' 64 ++ y ∧ S256 (S256 pk 64 ++ x) 64 = S256 (S256 pk' 64 ++ y) 64) ∨
  ∃ A c u w1 h A' c' u' w1' h', Dilithium.Spec.Checked S128 S256 pk x dil A c u w1 h ∧ Dilithium.Spec.Checked S128 S256 pk' y dil A' c' u' w1' h' ∧
    Dilithium.Spec.hashed S256 pk x w1 ≠ Dilithium.Spec.hashed S256 pk' y w1' ∧ S256 (Dilithium.Spec.hashed S256 pk x w1) 32 = S256 (Dilithium.Spec.hashed S256 pk' y w1') 32

theorem dil_owner {pk pk' x y dil : Bytes} (h : Dilithium.Spec.Valid S128 S256 pk x dil) (h' : Dilithium.Spec.Valid S128 S256 pk' y dil) :
    (pk = pk' ∧ x = y) ∨ DilKeyCollision pk pk' dil x y := by
  obtain ⟨A, c, u, w1, g, hs⟩ := valid_solution h
  obtain ⟨A', c', u', w1', g', hs'⟩ := valid_solution h'
  by_cases e1 : S256 pk 64 = S256 pk' 64
  · by_cases e0 : pk = pk'
    · by_cases e2 : x = y
      · exact .inl ⟨e0, e2⟩
      · refine .inr (.inr ?_)
        by_cases e3 : S256 (S256 pk 64 ++ x) 64 = S256 (S256 pk' 64 ++ y) 64
        · exact .inl ⟨fun e => e2 (List.append_inj e (by rw [e1])).2, e3⟩
        · refine .inr ⟨A, c, u, w1, g, A', c', u', w1', g', hs, hs', fun e => e3 ?_, hs.hash.symm.trans hs'.hash⟩
          exact (List.append_inj e (by rw [Keccak.length_stream, Keccak.length_stream])).1
    · exact .inr (.inl ⟨e0, e1⟩)
  · refine .inr (.inr ?_)
    by_cases e3 : S256 (S256 pk 64 ++ x) 64 = S256 (S256 pk' 64 ++ y) 64
    · exact .inl ⟨fun e => e1 (List.append_inj e (by rw [Keccak.length_stream, Keccak.length_stream])).1, e3⟩
    · refine .inr ⟨A, c, u, w1, g, A', c', u', w1', g', hs, hs', fun e => e3 ?_, hs.hash.symm.trans hs'.hash⟩
      exact (List.append_inj e (by rw [Keccak.length_stream, Keccak.length_stream])).1

/-- C103, full mode, the part that holds: if the Dilithium signature of one accepted buffer is accepted in another buffer under any other public key, then the Dilithium parts of the two public keys
and the messages are equal or SHAKE256 collides at explicit strings.  No key here need be generated.  (What is missing: nothing is said of the Ed25519 and SPHINCS+ parts of the two public keys,
and the first can differ, `hybrid_full_substitution`.) -/
theorem hybrid_full_owner_partial {fv fv' : Nat} {pkb pkb' : Bytes} {W W' V V' : World} (hW : W.WF) (hV : V.WF) {sm m pk sm' m' pk' : Ptr} {n k n' k' : Nat}
    {mb mb' ed dil spx ed' spx' : Bytes} (l1 : ed.length = 64) (l2 : dil.length = 2420) (l3 : spx.length = 49856) (l1' : ed'.length = 64) (l3' : spx'.length = 49856)
    (hsm : W.view sm n = some (fullWire ed mb dil spx)) (hpk : W.view pk 1408 = some pkb) (hm : W.view m k = some mb)
    (h : verifyFull (real fv) (some m) k (some sm) n (some pk) W = .ok (0, W'))
    (hsm' : V.view sm' n' = some (fullWire ed' mb' dil spx')) (hpk' : V.view pk' 1408 = some pkb') (hm' : V.view m' k' = some mb')
    (h' : verifyFull (real fv') (some m') k' (some sm') n' (some pk') V = .ok (0, V')) :
    (pkDil pkb = pkDil pkb' ∧ mb = mb') ∨ DilKeyCollision (pkDil pkb) (pkDil pkb') dil mb mb' := by
  obtain ⟨-, q1, q2, a1, a2, a3, g1, g2, g3, e, -, v2, -⟩ := (real_full_verify isShake128_S128 isShake256_S256 hW hsm hpk hm).1 _ _ h
  obtain ⟨-, r1, r2, b1, b2, b3, f1, f2, f3, e', -, u2, -⟩ := (real_full_verify isShake128_S128 isShake256_S256 hV hsm' hpk' hm').1 _ _ h'
  have inj : ∀ {x a b c a' b' c' : Bytes}, x.length ≤ 64 → a.length = 64 → b.length = 2420 → c.length = 49856 → a'.length = 64 → b'.length = 2420 → c'.length = 49856 →
      fullWire a x b c = fullWire a' x b' c' → b = b' := by
    intro x a b c a' b' c' hx ha hb hc ha' hb' hc' he
    obtain ⟨-, -, -, -, i2, i3, i1⟩ := wire_full_slices ha hb hc hx
    obtain ⟨-, -, -, -, j2, j3, j1⟩ := wire_full_slices ha' hb' hc' hx
    rw [he] at i1 i2 i3
    exact i2.symm.trans j2
  obtain rfl := inj q2 l1 l2 l3 g1 g2 g3 e
  obtain rfl := inj r2 l1' l2 l3' f1 f2 f3 e'
  exact dil_owner v2 u2

/-- C103, compact mode, the part that holds: if the Dilithium signature of one accepted buffer is accepted in another buffer under any other public key, then the Dilithium and SPHINCS+ parts of the
two public keys, the nonces and the messages are equal or SHA3-512 or SHAKE256 collide at explicit strings.  (What is missing: nothing is said of the Ed25519 parts, and they can differ,
`hybrid_compact_substitution`.) -/
theorem hybrid_compact_owner_partial {fv fv' : Nat} {pkb pkb' : Bytes} {W W' V V' : World} (hW : W.WF) (hV : V.WF) {sm m pk sm' m' pk' : Ptr} {n k n' k' : Nat}
    {mb mb' ed dil nonce ed' nonce' : Bytes} (l1 : ed.length = 64) (l2 : dil.length = 2420) (ln : nonce.length = 40) (l1' : ed'.length = 64) (ln' : nonce'.length = 40)
    (hsm : W.view sm n = some (compactWire ed dil nonce mb)) (hpk : W.view pk 1408 = some pkb) (hm : W.view m k = some mb)
    (h : verifyCompact (real fv) (some m) k (some sm) n (some pk) W = .ok (0, W'))
    (hsm' : V.view sm' n' = some (compactWire ed' dil nonce' mb')) (hpk' : V.view pk' 1408 = some pkb') (hm' : V.view m' k' = some mb')
    (h' : verifyCompact (real fv') (some m') k' (some sm') n' (some pk') V = .ok (0, V')) :
    (pkDil pkb = pkDil pkb' ∧ pkSpx pkb = pkSpx pkb' ∧ nonce = nonce' ∧ mb = mb') ∨ Collision (nonce ++ mb ++ pkSpx pkb) (nonce' ++ mb' ++ pkSpx pkb') ∨
      ∃ x y, IsCompactHash nonce mb (pkSpx pkb) x ∧ IsCompactHash nonce' mb' (pkSpx pkb') y ∧ DilKeyCollision (pkDil pkb) (pkDil pkb') dil x y := by
  obtain ⟨-, q1, q2, a1, a2, a3, x, g1, g2, g3, e, hx, -, v2⟩ := (real_compact_verify isShake128_S128 isShake256_S256 hW hsm hpk hm).1 _ _ h
  obtain ⟨-, -, -, b1, b2, b3, y, f1, f2, f3, e', hy, -, u2⟩ := (real_compact_verify isShake128_S128 isShake256_S256 hV hsm' hpk' hm').1 _ _ h'
  obtain ⟨rfl, rfl, rfl⟩ := compactWire_inj l1 l2 ln g1 g2 g3 e
  obtain ⟨rfl, rfl, rfl⟩ := compactWire_inj l1' l2 ln' f1 f2 f3 e'
  rcases dil_owner v2 u2 with ⟨e1, rfl⟩ | hc
  · by_cases hs : nonce ++ mb ++ pkSpx pkb = nonce' ++ mb' ++ pkSpx pkb'
    · left
      have p1 := length_of_view hpk
      have p2 := length_of_view hpk'
      have s1 : (pkSpx pkb).length = (pkSpx pkb').length := by simp only [pkSpx, List.length_take, List.length_drop, p1, p2]
      obtain ⟨i1, i2⟩ := List.append_inj' hs s1
      obtain ⟨i3, i4⟩ := List.append_inj i1 (by rw [ln, ln'])
      exact ⟨e1, i2, i3, i4⟩
    · exact .inr (.inl ⟨hs, hx.symm.trans hy⟩)
  · exact .inr (.inr ⟨x, y, hx, hy, hc⟩)

/-! ### The Ed25519 part can be exchanged -/

/-- The two encodings of the neutral point with y = 1 that decoding accepts: as RFC 8032 has it, and with y = 1 + p (compare tweetnacl/tweetnacl.c:760-794). -/
def neutral : Bytes := 1 :: List.replicate 31 0
/-- The second encoding of the neutral point (compare tweetnacl/tweetnacl.c:760-794). -/
def neutral' : Bytes := 0xee :: List.replicate 30 0xff ++ [0x7f]

/-- The Ed25519 signature that belongs to the neutral point: R the neutral point, S = 0 (compare tweetnacl/tweetnacl.c:796-825). -/
def neutralSig : Bytes := neutral ++ List.replicate 32 0

theorem encode_zero : Ed25519.Spec.encode 0 = neutral := by
  have h1 : ((1 : Ed25519.Spec.F)).val = 1 := ZMod.val_one_eq_one_mod _ |>.trans (by decide +kernel)
  unfold Ed25519.Spec.encode
  rw [Ed25519.Point.zero_y, Ed25519.Point.zero_x, h1, ZMod.val_zero]
  decide +kernel

theorem neutral_valid {pk : Bytes} (h : Ed25519.Spec.Decodes pk 0) (x : Bytes) : Ed25519.Spec.Valid pk x neutralSig := by
  refine ⟨0, h, ?_⟩
  have e1 : neutralSig.take 32 = neutral := rfl
  have e2 : Ed25519.Spec.leVal (neutralSig.drop 32) = 0 := by decide +kernel
  rw [smul_zero, e2, zero_smul, sub_zero, encode_zero, e1]

theorem neutral_decodes : Ed25519.Spec.Decodes neutral 0 := by
  refine ⟨?_, .inr rfl⟩
  rw [Ed25519.Point.zero_y, show Ed25519.Spec.leVal neutral % 2 ^ 255 = 1 by decide +kernel, Nat.cast_one]

theorem neutral'_decodes : Ed25519.Spec.Decodes neutral' 0 := by
  refine ⟨?_, .inr rfl⟩
  rw [Ed25519.Point.zero_y, show Ed25519.Spec.leVal neutral' % 2 ^ 255 = 1 + Ed25519.Spec.p by decide +kernel, Nat.cast_add, Nat.cast_one, ZMod.natCast_self, add_zero]

theorem parts_exchange {p pk : Bytes} (hp : p.length = 32) : pkEd (p ++ pk.drop 32) = p ∧ pkDil (p ++ pk.drop 32) = pkDil pk ∧ pkSpx (p ++ pk.drop 32) = pkSpx pk := by
  refine ⟨List.take_left' hp, ?_, ?_⟩
  · unfold pkDil; rw [List.drop_left' hp]
  · unfold pkSpx
    rw [show 1344 = 32 + 1312 from rfl, ← List.drop_drop, List.drop_left' hp, List.drop_drop]

theorem neutral_ne (r : Bytes) : neutral ++ r ≠ neutral' ++ r := fun h => absurd (List.append_inj h rfl).1 (by decide)

/-- C103, full mode, what fails: from any accepted buffer and its public key one gets a buffer with the same Dilithium and SPHINCS+ signatures that is accepted under two different public keys, which differ
in their Ed25519 parts. -/
theorem hybrid_full_substitution {fv : Nat} {pkb : Bytes} {W W' : World} (hW : W.WF) {sm m pk : Ptr} {n k : Nat} {sb mb : Bytes}
    (hsm : W.view sm n = some sb) (hpk : W.view pk 1408 = some pkb) (hm : W.view m k = some mb)
    (h : verifyFull (real fv) (some m) k (some sm) n (some pk) W = .ok (0, W')) :
    ∃ ed dil spx, sb = fullWire ed mb dil spx ∧ neutral ++ pkb.drop 32 ≠ neutral' ++ pkb.drop 32 ∧
      ∀ p, p = neutral ∨ p = neutral' → ∀ (V : World) (sm' m' pk' : Ptr) (n' k' : Nat), V.WF → V.view sm' n' = some (fullWire neutralSig mb dil spx) → V.view pk' 1408 = some (p ++ pkb.drop 32) →
        V.view m' k' = some mb → ∃ F, ∀ fuel, F ≤ fuel → verifyFull (real fuel) (some m') k' (some sm') n' (some pk') V = .ok (0, V) := by
  obtain ⟨-, q1, q2, ed, dil, spx, g1, g2, g3, e, v1, v2, v3⟩ := (real_full_verify isShake128_S128 isShake256_S256 hW hsm hpk hm).1 _ _ h
  refine ⟨ed, dil, spx, e, neutral_ne _, fun p hp V sm' m' pk' n' k' hV w1 w2 w3 => (real_full_verify isShake128_S128 isShake256_S256 hV w1 w2 w3).2 ?_⟩
  have hd : Ed25519.Spec.Decodes p 0 ∧ p.length = 32 := by
    rcases hp with rfl | rfl
    · exact ⟨neutral_decodes, rfl⟩
    · exact ⟨neutral'_decodes, rfl⟩
  obtain ⟨e1, e2, e3⟩ := parts_exchange (pk := pkb) hd.2
  refine ⟨q1, q2, neutralSig, dil, spx, rfl, g2, g3, rfl, ?_, ?_, ?_⟩
  · rw [e1]; exact neutral_valid hd.1 _
  · rw [e2]; exact v2
  · rw [e3]; exact v3

/-- C103, compact mode, what fails. -/
theorem hybrid_compact_substitution {fv : Nat} {pkb : Bytes} {W W' : World} (hW : W.WF) {sm m pk : Ptr} {n k : Nat} {sb mb : Bytes}
    (hsm : W.view sm n = some sb) (hpk : W.view pk 1408 = some pkb) (hm : W.view m k = some mb)
    (h : verifyCompact (real fv) (some m) k (some sm) n (some pk) W = .ok (0, W')) :
    ∃ ed dil nonce, sb = compactWire ed dil nonce mb ∧ neutral ++ pkb.drop 32 ≠ neutral' ++ pkb.drop 32 ∧
      ∀ p, p = neutral ∨ p = neutral' → ∀ (V : World) (sm' m' pk' : Ptr) (n' k' : Nat), V.WF → V.view sm' n' = some (compactWire neutralSig dil nonce mb) → V.view pk' 1408 = some (p ++ pkb.drop 32) →
        V.view m' k' = some mb → ∃ F, ∀ fuel, F ≤ fuel → verifyCompact (real fuel) (some m') k' (some sm') n' (some pk') V = .ok (0, V) := by
  obtain ⟨-, q1, q2, ed, dil, nonce, x, g1, g2, g3, e, hx, v1, v2⟩ := (real_compact_verify isShake128_S128 isShake256_S256 hW hsm hpk hm).1 _ _ h
  refine ⟨ed, dil, nonce, e, neutral_ne _, fun p hp V sm' m' pk' n' k' hV w1 w2 w3 => (real_compact_verify isShake128_S128 isShake256_S256 hV w1 w2 w3).2 ?_⟩
  have hd : Ed25519.Spec.Decodes p 0 ∧ p.length = 32 := by
    rcases hp with rfl | rfl
    · exact ⟨neutral_decodes, rfl⟩
    · exact ⟨neutral'_decodes, rfl⟩
  obtain ⟨e1, e2, e3⟩ := parts_exchange (pk := pkb) hd.2
  refine ⟨q1, q2, neutralSig, dil, nonce, x, rfl, g2, g3, rfl, ?_, ?_, ?_⟩
  · rw [e3]; exact hx
  · rw [e1]; exact neutral_valid hd.1 _
  · rw [e2]; exact v2

theorem world_of (a b c : Bytes) : ∃ V : World, V.WF ∧ V.view ⟨0, 0⟩ a.length = some a ∧ V.view ⟨1, 0⟩ b.length = some b ∧ V.view ⟨2, 0⟩ c.length = some c := by
  have l0 : (List.replicate 32 0 : Bytes).length = 32 := List.length_replicate
  refine ⟨{ mem := fun i => if i = 0 then some a else if i = 1 then some b else if i = 2 then some c else none, sp := 3, rng := optRng (List.replicate 32 0) l0 }, ?_, ?_, ?_, ?_⟩
  · intro i hi
    have hi : 3 ≤ i := hi
    show (if i = 0 then some a else if i = 1 then some b else if i = 2 then some c else none) = none
    rw [if_neg (by omega), if_neg (by omega), if_neg (by omega)]
  · exact view_block rfl rfl
  · exact view_block rfl rfl
  · exact view_block rfl rfl

/-- `mb` with the buffer `sb` is accepted in full mode under the public key `pkb`, in some memory (compare hybrid-dilithium-sphincs/hybrid.c:439-469). -/
def AcceptsFull (pkb mb sb : Bytes) : Prop := ∃ (fuel : Nat) (V : World) (m sm pk : Ptr), V.WF ∧ V.view m mb.length = some mb ∧ V.view sm sb.length = some sb ∧ V.view pk 1408 = some pkb ∧
  verifyFull (real fuel) (some m) mb.length (some sm) sb.length (some pk) V = .ok (0, V)

/-- The same for compact mode (compare hybrid-dilithium-sphincs/hybrid.c:669-696). -/
def AcceptsCompact (pkb mb sb : Bytes) : Prop := ∃ (fuel : Nat) (V : World) (m sm pk : Ptr), V.WF ∧ V.view m mb.length = some mb ∧ V.view sm sb.length = some sb ∧ V.view pk 1408 = some pkb ∧
  verifyCompact (real fuel) (some m) mb.length (some sm) sb.length (some pk) V = .ok (0, V)

/-- C103 is false of the code: in both modes there is a buffer that is accepted under two different public keys.  Their Dilithium and SPHINCS+ parts are equal, so this is no hash collision. -/
theorem hybrid_owner_false :
    (∃ pkb pkb' mb sb, pkb ≠ pkb' ∧ pkDil pkb = pkDil pkb' ∧ pkSpx pkb = pkSpx pkb' ∧ AcceptsFull pkb mb sb ∧ AcceptsFull pkb' mb sb) ∧
    (∃ pkb pkb' mb sb, pkb ≠ pkb' ∧ pkDil pkb = pkDil pkb' ∧ pkSpx pkb = pkSpx pkb' ∧ AcceptsCompact pkb mb sb ∧ AcceptsCompact pkb' mb sb) := by
  constructor
  · obtain ⟨fuel, pkb, skb, sig, -, -, -, V, m, sm, pk, hV, v0, v1, v2, hv⟩ := Witness.complete_run
    have lp := length_of_view v2
    obtain ⟨ed, dil, spx, -, ne, h⟩ := hybrid_full_substitution hV v1 v2 v0 hv
    obtain ⟨-, a2, a3⟩ := parts_exchange (p := neutral) (pk := pkb) rfl
    obtain ⟨-, b2, b3⟩ := parts_exchange (p := neutral') (pk := pkb) rfl
    have acc : ∀ p, p = neutral ∨ p = neutral' → AcceptsFull (p ++ pkb.drop 32) [2] (fullWire neutralSig [2] dil spx) := fun p hp => by
      obtain ⟨U, hU, u0, u1, u2⟩ := world_of [2] (fullWire neutralSig [2] dil spx) (p ++ pkb.drop 32)
      have hl : (p ++ pkb.drop 32).length = 1408 := by
        have : p.length = 32 := by rcases hp with rfl | rfl <;> rfl
        rw [List.length_append, List.length_drop, this, lp]
      rw [hl] at u2
      obtain ⟨F, hF⟩ := h p hp U _ _ _ _ _ hU u1 u2 u0
      exact ⟨F, U, _, _, _, hU, u0, u1, u2, hF F (Nat.le_refl _)⟩
    exact ⟨_, _, _, _, ne, a2.trans b2.symm, a3.trans b3.symm, acc _ (.inl rfl), acc _ (.inr rfl)⟩
  · obtain ⟨fuel, pkb, skb, sig, -, -, V, m, sm, pk, hV, v0, v1, v2, hv⟩ := Witness.compact_run
    have lp := length_of_view v2
    obtain ⟨ed, dil, nonce, -, ne, h⟩ := hybrid_compact_substitution hV v1 v2 v0 hv
    obtain ⟨-, a2, a3⟩ := parts_exchange (p := neutral) (pk := pkb) rfl
    obtain ⟨-, b2, b3⟩ := parts_exchange (p := neutral') (pk := pkb) rfl
    have acc : ∀ p, p = neutral ∨ p = neutral' → AcceptsCompact (p ++ pkb.drop 32) [2] (compactWire neutralSig dil nonce [2]) := fun p hp => by
      obtain ⟨U, hU, u0, u1, u2⟩ := world_of [2] (compactWire neutralSig dil nonce [2]) (p ++ pkb.drop 32)
      have hl : (p ++ pkb.drop 32).length = 1408 := by
        have : p.length = 32 := by rcases hp with rfl | rfl <;> rfl
        rw [List.length_append, List.length_drop, this, lp]
      rw [hl] at u2
      obtain ⟨F, hF⟩ := h p hp U _ _ _ _ _ hU u1 u2 u0
      exact ⟨F, U, _, _, _, hU, u0, u1, u2, hF F (Nat.le_refl _)⟩
    exact ⟨_, _, _, _, ne, a2.trans b2.symm, a3.trans b3.symm, acc _ (.inl rfl), acc _ (.inr rfl)⟩

/-- The hypotheses of the other theorems on C103 are met in full mode by the buffer of `hybrid_owner_false` (twice, under two public keys), and in the same way in compact mode. -/
example : ∃ (fv fv' : Nat) (pkb pkb' : Bytes) (W V : World) (sm m pk sm' m' pk' : Ptr) (ed dil spx : Bytes), pkb ≠ pkb' ∧ W.WF ∧ V.WF ∧ ed.length = 64 ∧ dil.length = 2420 ∧ spx.length = 49856 ∧
    ∃ n mb, W.view sm n = some (fullWire ed mb dil spx) ∧ W.view pk 1408 = some pkb ∧ W.view m mb.length = some mb ∧ verifyFull (real fv) (some m) mb.length (some sm) n (some pk) W = .ok (0, W) ∧
      V.view sm' n = some (fullWire ed mb dil spx) ∧ V.view pk' 1408 = some pkb' ∧ V.view m' mb.length = some mb ∧ verifyFull (real fv') (some m') mb.length (some sm') n (some pk') V = .ok (0, V) := by
  obtain ⟨pkb, pkb', mb, sb, ne, -, -, ⟨f, W, m, sm, pk, hW, w0, w1, w2, hw⟩, ⟨f', V, m', sm', pk', hV, v0, v1, v2, hv⟩⟩ := hybrid_owner_false.1
  obtain ⟨-, -, -, ed, dil, spx, l1, l2, l3, e, -⟩ := (real_full_verify isShake128_S128 isShake256_S256 hW w1 w2 w0).1 _ _ hw
  rw [e] at w1 v1
  exact ⟨f, f', pkb, pkb', W, V, sm, m, pk, sm', m', pk', ed, dil, spx, ne, hW, hV, l1, l2, l3, sb.length, mb, by rw [e]; exact w1, w2, w0, hw, by rw [e]; exact v1, v2, v0, hv⟩

example : ∃ (fv fv' : Nat) (pkb pkb' : Bytes) (W V : World) (sm m pk sm' m' pk' : Ptr) (ed dil nonce : Bytes), pkb ≠ pkb' ∧ W.WF ∧ V.WF ∧ ed.length = 64 ∧ dil.length = 2420 ∧ nonce.length = 40 ∧
    ∃ n mb, W.view sm n = some (compactWire ed dil nonce mb) ∧ W.view pk 1408 = some pkb ∧ W.view m mb.length = some mb ∧ verifyCompact (real fv) (some m) mb.length (some sm) n (some pk) W = .ok (0, W) ∧
      V.view sm' n = some (compactWire ed dil nonce mb) ∧ V.view pk' 1408 = some pkb' ∧ V.view m' mb.length = some mb ∧ verifyCompact (real fv') (some m') mb.length (some sm') n (some pk') V = .ok (0, V) := by
  obtain ⟨pkb, pkb', mb, sb, ne, -, -, ⟨f, W, m, sm, pk, hW, w0, w1, w2, hw⟩, ⟨f', V, m', sm', pk', hV, v0, v1, v2, hv⟩⟩ := hybrid_owner_false.2
  obtain ⟨-, -, -, ed, dil, nonce, x, l1, l2, l3, e, -⟩ := (real_compact_verify isShake128_S128 isShake256_S256 hW w1 w2 w0).1 _ _ hw
  rw [e] at w1 v1
  exact ⟨f, f', pkb, pkb', W, V, sm, m, pk, sm', m', pk', ed, dil, nonce, ne, hW, hV, l1, l2, l3, sb.length, mb, by rw [e]; exact w1, w2, w0, hw, by rw [e]; exact v1, v2, v0, hv⟩

end Verif.Real
