import Verif.Conc.Exact
import Verif.Conc.WaitProps
import Verif.Conc.RaceFalseProps

/-!
C131: at which turn a call ends that returns 0.
-/

namespace Verif.Conc
open Verif
open Verif.Hybrid (zeros)
open Verif.Real (real when view_block)
open Verif.Witness (RunC.hash)
open Verif.Dilithium (S128 S256 isShake128_S128 isShake256_S256)

/-- The number of steps of a call that returns 0, from the two lengths it is given; none for `crypto_verify_dilithium`, where it depends on the hints of the signature
(hybrid-dilithium-sphincs/hybrid.c:140-711). -/
def Call.turns : Call → Option Nat
  | .seedExpander .. => some 224
  | .keypairSeed .. => some 5632
  | .keypair .. => some 5635
  | .signFull _ _ _ mlen _ => some (55103 + 5 * mlen)
  | .openFull _ _ _ smlen _ => some (53758 + 2 * (smlen - 52342))
  | .verifyFull _ mlen _ smlen _ => some (53770 + 2 * (smlen - 52342) + 2 * mlen)
  | .signCompact _ _ _ mlen _ => some (5223 + 3 * mlen)
  | .openCompact _ _ _ smlen _ => some (3942 + 3 * (smlen - 2526))
  | .verifyCompact _ mlen _ smlen _ => some (3954 + 3 * (smlen - 2526) + 2 * mlen)
  | .verifyDilithium .. => none

/-- SPHINCS+ signing without randomness does not return 0. -/
theorem spxBody_none (sig : Bytes) (n : Nat) (a b sk : Bytes) (r : Int) (sig' : Bytes) (n' : Nat) (h : spxBody sig n a b sk none = .ok (r, sig', n')) : r ≠ 0 := by
  unfold spxBody when at h
  split at h
  · cases h; decide
  · cases h

/-- C131: a call that has returned 0 did so at the turn that the table says, and not before, whatever other threads have written to its buffers in the meantime and whatever the bytes of the keys, the seed, the message and the signature are
(hybrid-dilithium-sphincs/hybrid.c:140-688). -/
theorem calls_turn {ι : Type} [DecidableEq ι] (fuel : Nat) (W : World) (p : ι → Prog Int) (i : ι) (call : Call) (N : Nat) (hN : call.turns = some N) (hp : p i = call.prog (real fuel) spxBody) (s : List ι)
    (h : (((start W p).run s).thr i).prog = .ret 0) (t : List ι) (ht : t <+: s) : (((start W p).run t).thr i).prog = .ret 0 ↔ N ≤ t.count i := by
  refine paths_turn (c := start W p) ?_ h ht
  show Paths (p i) _
  rw [hp]
  cases call <;> simp only [Call.turns, Option.some.injEq, reduceCtorEq] at hN <;> subst hN
  case seedExpander a b => exact paths_seedExpander _ a b
  case keypairSeed a b c => exact paths_keypairSeed _ a b c
  case keypair a b => exact paths_keypair _ a b
  case signFull a b c d e => exact paths_signFull _ spxBody spxBody_none a b c d e
  case openFull a b c d e => exact (paths_openFull _ a b c d e).mono fun r n hn h => (hn h).2.2
  case verifyFull a b c d e => exact paths_verifyFull _ a b c d e
  case signCompact a b c d e => exact paths_signCompact _ a b c d e
  case openCompact a b c d e => exact (paths_openCompact _ a b c d e).mono fun r n hn h => (hn h).2.2
  case verifyCompact a b c d e => exact paths_verifyCompact _ a b c d e

/-- C131: Dilithium-only verification that has returned 0 has had at least 6512 + mlen turns, whatever other threads write: it has then decoded all of z and t1, read all four hint counts and read the key a second time and the message
(hybrid-dilithium-sphincs/hybrid.c:698-711, dilithium2/sign.c:273-290). -/
theorem verify_dilithium_least {ι : Type} [DecidableEq ι] (fuel : Nat) (W : World) (p : ι → Prog Int) (i : ι) (m sm pk : Option Ptr) (mlen smlen : Nat) (hp : p i = verifyDilithiumSteps fuel m mlen sm smlen pk) (s : List ι)
    (h : (((start W p).run s).thr i).prog = .ret 0) : 6512 + mlen ≤ s.count i := by
  obtain ⟨k, hk, -, -, hq⟩ := paths_run (c := start W p) (i := i) (by show Paths (p i) _; rw [hp]; exact paths_verifyDilithium fuel m mlen sm smlen pk) s
  rw [h] at hq
  have := paths_ret hq rfl
  omega

/-- A case: the verification of C129, which accepts a malformed signature because another thread changes its last count. -/
example : ∃ (sb pkb : Bytes) (fuel : Nat) (s : List Bool),
    (((duo (threeBlocks sb pkb RunC.hash) (verifyDilithiumSteps fuel (some ⟨2, 0⟩) 64 (some ⟨0, 0⟩) 2420 (some ⟨1, 0⟩)) (overwrite ⟨0, 2419⟩ [255])).run s).thr false).prog = .ret 0 ∧ 6576 ≤ s.count false := by
  obtain ⟨sb, pkb, fuel, s, -, -, -, -, h⟩ := accepted_example
  exact ⟨sb, pkb, fuel, s, h, verify_dilithium_least fuel _ _ false (some ⟨2, 0⟩) (some ⟨0, 0⟩) (some ⟨1, 0⟩) 64 2420 (if_neg (by decide)) s h⟩

/-- A case: two threads that sign one byte with the same key in any order that lets both return 0; each returned at its turn 55108. -/
example : ∃ (fuel : Nat) (W : World) (s : List Bool), ∀ b, (((together fuel W twoSigners).run s).thr b).prog = .ret 0 ∧
    ∀ t, t <+: s → ((((together fuel W twoSigners).run t).thr b).prog = .ret 0 ↔ 55108 ≤ t.count b) := by
  obtain ⟨fuel, skb, s, c, g, opt, sig, hc, -, h⟩ := two_signers_demo
  subst hc
  exact ⟨fuel, _, s, fun b => ⟨(h b).1, fun t ht => calls_turn fuel _ _ b (twoSigners b) 55108 (by simp only [twoSigners, Call.turns, List.length_cons, List.length_nil]) rfl s (h b).1 t ht⟩⟩

/-- A case: opening and verifying a signature of one byte beside a thread that writes to the signature buffer, 53760 and 53774 turns. -/
example : ∃ (fuel : Nat) (W : World) (s s' : List Bool), 53760 ≤ s.count false ∧ 53774 ≤ s'.count false ∧
    (((duo W (Conc.openFull (real fuel) (some ⟨0, 0⟩) (some ⟨3, 0⟩) (some ⟨1, 0⟩) 52343 (some ⟨2, 0⟩)) (replaceMessage ⟨1, 0⟩ [3])).run s).thr false).prog = .ret 0 ∧
    (((duo W (Conc.verifyFull (real fuel) (some ⟨0, 0⟩) 1 (some ⟨1, 0⟩) 52343 (some ⟨2, 0⟩)) (replaceMessage ⟨1, 0⟩ [3])).run s').thr false).prog = .ret 0 := by
  obtain ⟨fuel, pkb, skb, sig, -, -, hm, V, m, sm, pk, -, -, v1, v2, -⟩ := Witness.complete_run
  have l1 := length_of_view v1
  have l2 := length_of_view v2
  have hWF := fourBlocks_WF [2] sig pkb
  have b1 : (fourBlocks [2] sig pkb).view ⟨1, 0⟩ 52343 = some sig := view_block rfl l1
  have b2 : (fourBlocks [2] sig pkb).view ⟨2, 0⟩ 1408 = some pkb := view_block rfl l2
  have b0 : (fourBlocks [2] sig pkb).view ⟨0, 0⟩ 1 = some [2] := view_block rfl rfl
  have b3 : (fourBlocks [2] sig pkb).view ⟨3, 0⟩ 8 = some (zeros 8) := view_block rfl (by simp)
  generalize fourBlocks [2] sig pkb = W at *
  obtain ⟨F, hF⟩ := (Real.real_full_open isShake128_S128 isShake256_S256 (m := ⟨0, 0⟩) (mlen := ⟨3, 0⟩) b1 b2 (by rw [b0]; rfl) (by rw [b3]; rfl)).2 _ hm
  obtain ⟨G, hG⟩ := (Real.real_full_verify isShake128_S128 isShake256_S256 hWF b1 b2 b0).2 hm
  obtain ⟨s, hs⟩ := runs_to_end hWF (other := replaceMessage ⟨1, 0⟩ [3]) ((congrFun (exec_openFull ..) W).trans (hF (max F G) (Nat.le_max_left ..)))
  obtain ⟨s', hs'⟩ := runs_to_end hWF (other := replaceMessage ⟨1, 0⟩ [3]) ((congrFun (exec_verifyFull ..) W).trans (hG (max F G) (Nat.le_max_right ..)))
  exact ⟨max F G, W, s, s', (calls_turn _ W _ false (.openFull (some ⟨0, 0⟩) (some ⟨3, 0⟩) (some ⟨1, 0⟩) 52343 (some ⟨2, 0⟩)) 53760 (by simp only [Call.turns]) rfl s hs s (List.prefix_refl _)).1 hs,
    (calls_turn _ W _ false (.verifyFull (some ⟨0, 0⟩) 1 (some ⟨1, 0⟩) 52343 (some ⟨2, 0⟩)) 53774 (by simp only [Call.turns]) rfl s' hs' s' (List.prefix_refl _)).1 hs', hs, hs'⟩

end Verif.Conc
