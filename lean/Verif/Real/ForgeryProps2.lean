import Verif.Real.Forgery
import Verif.Sphincs.ForgeProps

/-!
The property C96 for the hybrid scheme: what a forgery of a full signature contains in its SPHINCS+ part.
-/

namespace Verif.Real
open Verif Verif.Hybrid Dilithium

/-- The messages and the SPHINCS+ parts of the full signatures in a session (layout comment in hybrid-dilithium-sphincs/hybrid.c:259-268). -/
def spxPairs (qs : List Query) : List (Bytes × Bytes) :=
  qs.filterMap fun
    | .full msg sig => some (msg, (sig.drop (2486 + msg.length)).take 49856)
    | .compact _ _ => none

/-- The SPHINCS+ parts of the answers in a session under a generated key are signatures of the specification. -/
theorem spxPairs_made {fk : Nat} {pkb skb : Bytes} (hg : Generated (real fk) pkb skb) : ∃ s : Sphincs.Spec.Seeds, s.pub.length = 32 ∧
    s = ⟨slice (skSpx skb) 64 32, (skSpx skb).take 32⟩ ∧ pkSpx pkb = Sphincs.Spec.publicKey S256 s ∧
    ∀ {U : World} {qs : List Query}, Session skb U qs → ∀ q ∈ spxPairs qs, q.2.length = 49856 ∧ q.2 = Sphincs.Spec.signWith S256 s (q.2.take 32) (pkSpx pkb) q.1 := by
  obtain ⟨seed, hs, hk⟩ := generated_keys isShake128_S128 isShake256_S256 hg
  obtain ⟨-, lsk, -, -, -, -, e1, -, e2, e3, e4⟩ := keysOf_parts isShake128_S128 isShake256_S256 hs hk
  have hH : ∀ m n, (S256 m n).length = n := fun m n => by rw [← shake256F_eq isShake256_S256]; exact Sphincs.length_shake256F m n
  refine ⟨⟨seed.drop 128, (seed.drop 64).take 32⟩, by show (seed.drop 128).length = 32; rw [List.length_drop, hs], by rw [e2, e3], e1, ?_⟩
  intro U qs hS q hq
  obtain ⟨a, ha, hb⟩ := List.mem_filterMap.1 hq
  have hans := session_answers isShake128_S128 isShake256_S256 hS a ha
  cases a with
  | compact => cases hb
  | full msg sig =>
    simp only [Option.some.injEq] at hb
    subst hb
    obtain ⟨-, hm, opt, k, dil, hd, e⟩ := hans
    have l2 : (skDil skb).length = 2560 := by unfold skDil; rw [List.length_take, List.length_drop]; omega
    have ld := dilSigned_length isShake128_S128 isShake256_S256 l2 hd
    have le := Ed25519.length_specSign (skb.take 32) ((skb.drop 32).take 32) msg
    have hspx := Sphincs.length_sign hH ⟨slice (skSpx skb) 64 32, (skSpx skb).take 32⟩ (slice (skSpx skb) 32 32) ((skSpx skb).drop 64) opt msg
    have w := (wire_full_slices le ld hspx hm).2.2.2.2.2.1
    rw [← e] at w
    simp only
    rw [← slice, w]
    refine ⟨hspx, ?_⟩
    rw [Sphincs.sign_eq_signWith, e2, e3, e4]
    have ht : ∀ R : Bytes, R.length = 32 → (Sphincs.Spec.signWith S256 ⟨seed.drop 128, (seed.drop 64).take 32⟩ R (pkSpx pkb) msg).take 32 = R := fun R hR => by
      rw [Sphincs.Spec.signWith, List.append_assoc, List.take_left' hR]
    rw [ht _ (hH _ _)]

/-- C96 for the hybrid scheme: if, after any session with the signing functions, full-mode verification under the generated public key accepts a message for which no full
signature was asked, then the SPHINCS+ part of the buffer contains a second preimage of a hash value in the trees of the key pair, a chain value before the one that its
one-time key gives out, or a FORS secret value that no full signature in the session has, or else the digest of a message that was never signed selects only FORS leaves that
the session gave out.  (Hypotheses met: see the example on C90 in Witness/Hybrid.lean.) -/
theorem hybrid_spx_forgery {fk fv : Nat} {pkb skb : Bytes} (hg : Generated (real fk) pkb skb) {U : World} {qs : List Query} (hS : Session skb U qs)
    {W W' : World} (hW : W.WF) {sm m pk : Ptr} {n k : Nat} {sb mb : Bytes}
    (hsm : W.view sm n = some sb) (hpk : W.view pk 1408 = some pkb) (hm : W.view m k = some mb)
    (h : verifyFull (real fv) (some m) k (some sm) n (some pk) W = .ok (0, W')) (hnew : ∀ sig, Query.full mb sig ∉ qs) :
    ∃ ed dil spx, sb = fullWire ed mb dil spx ∧ (∀ q ∈ spxPairs qs, q.1 ≠ mb) ∧
      Sphincs.Breaks S256 ⟨slice (skSpx skb) 64 32, (skSpx skb).take 32⟩ (pkSpx pkb) (spxPairs qs) mb spx := by
  obtain ⟨ed, dil, spx, e, ⟨hv, -⟩, -⟩ := full_forgery (qs := qs) hW hsm hpk hm h hnew
  have hH : ∀ m n, (S256 m n).length = n := fun m n => by rw [← shake256F_eq isShake256_S256]; exact Sphincs.length_shake256F m n
  obtain ⟨s, hp, es, ep, hq⟩ := spxPairs_made hg
  refine ⟨ed, dil, spx, e, ?_, ?_⟩
  · intro q hq hc
    obtain ⟨a, ha, hb⟩ := List.mem_filterMap.1 hq
    cases a with
    | compact => cases hb
    | full msg sig =>
      simp only [Option.some.injEq] at hb
      subst hb
      cases hc
      exact hnew _ ha
  · rw [← es]
    rw [ep] at hv hq ⊢
    exact Sphincs.breaks_of_valid hH hp (hq hS) hv

end Verif.Real
