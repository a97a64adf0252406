import Verif.Conc.RaceSign

/-!
Property C126: signing while other threads change the message.
-/

namespace Verif.Conc
open Verif
open Verif.Hybrid (fullWire skDil)
open Verif.Real (real CompactSigned)
open Verif.Dilithium (S128 S256)

variable {ι : Type} [DecidableEq ι]

/-- C126, what holds in compact mode: `crypto_sign_compact_dilithium_ed25519_sphincs` while other threads do anything at all to the memory it reads.  If it returns 0, there are a secret key and two messages of the length
given by the caller, every byte of which was in memory at some moment of the call (of the key only the bytes that are used), such that what it has written is the compact signature of the first message with the second
message in the place of the first; if it returns something else it has written nothing.  Missing: that the two messages are equal, which is false (`compact_sign_other`, `compact_sign_under_writers_false`). -/
theorem compact_sign_under_writers_partial (fuel : Nat) {W : World} {p : ι → Prog Int} {i : ι} {sm smlen m sk : Ptr} {mlen : Nat} (hsm : sm.blk < W.sp) (hsl : smlen.blk < W.sp) (hm : m.blk < W.sp) (hsk : sk.blk < W.sp)
    (hp : p i = Conc.signCompact (real fuel) (some sm) (some smlen) (some m) mlen (some sk)) (s : List ι) (c : Conf ι Int) (hc : c = start W p) :
    (((c.run s).thr i).prog = .ret 0 → ∃ skb msg msg' nonce sig, skb.length = 4064 ∧ msg.length = mlen ∧ msg'.length = mlen ∧ nonce.length = 40 ∧ Shown c s sk (skb.take 2624) ∧ Shown c s (sk.add 4000) (skb.drop 4000) ∧
      Shown c s m msg ∧ Shown c s m msg' ∧ CompactSigned S128 S256 skb msg nonce sig ∧ ∀ a v, Stored c i s a v ↔ Output sm smlen (sig.take 2526 ++ msg') a v) ∧
    (∀ r, ((c.run s).thr i).prog = .ret r → r ≠ 0 → ∀ a v, ¬ Stored c i s a v) := by
  subst hc
  have safe : Safe W.sp (fun _ _ _ => True)
      (fun _ _ R S r => (r = 0 → ∃ skb msg msg' nonce sig, skb.length = 4064 ∧ msg.length = mlen ∧ msg'.length = mlen ∧ nonce.length = 40 ∧ At sk 0 (skb.take 2624) ⊆ R ∧ At sk 4000 (skb.drop 4000) ⊆ R ∧
        At m 0 msg ⊆ R ∧ At m 0 msg' ⊆ R ∧ CompactSigned S128 S256 skb msg nonce sig ∧ ∀ a v, (a, v) ∈ S ↔ Output sm smlen (sig.take 2526 ++ msg') a v) ∧ (r ≠ 0 → S = ∅)) (p i) (fun _ => none) W.sp ∅ ∅ := by
    rw [hp]
    refine safe_signCompact hsm hsl hm hsk (fun _ _ _ => trivial) (fun R' c hc => ⟨fun h => absurd h hc, fun _ => rfl⟩)
      fun R' skb msg msg' nonce sig l1 l2 l3 l4 a1 a2 a3 a4 hs h1 h64 => ⟨fun _ => ⟨skb, msg, msg', nonce, sig, l1, l2, l3, l4, a1, a2, a3, a4, hs, fun a v => ?_⟩, fun h => absurd rfl h⟩
    have hlen : (sig.take 2526 ++ msg').length = 2526 + mlen := by
      obtain ⟨h, k, dil, -, hd, rfl⟩ := hs
      have l2' : (skDil skb).length = 2560 := by unfold skDil; rw [List.length_take, List.length_drop]; omega
      have ld := Real.dilSigned_length Dilithium.isShake128_S128 Dilithium.isShake256_S256 l2' hd
      have le := Ed25519.length_specSign (skb.take 32) ((skb.drop 32).take 32) h
      unfold Hybrid.compactWire
      simp only [List.length_append, List.length_take, List.length_cons, l2, l3, l4, ld, le]
      omega
    rw [output_iff, hlen]
    simp
  obtain ⟨-, st, R, S, -, -, hR, hS, hQ⟩ := safe_run safe s
  refine ⟨fun h => ?_, fun r h hr a v hst => ?_⟩
  · rw [h] at hQ
    obtain ⟨skb, msg, msg', nonce, sig, l1, l2, l3, l4, a1, a2, a3, a4, hs, h3⟩ := hQ.1 rfl
    rw [at_add] at a2
    exact ⟨skb, msg, msg', nonce, sig, l1, l2, l3, l4, shown_of hR a1, shown_of hR a2, shown_of hR a3, shown_of hR a4, hs, fun a v => (hS a v).symm.trans (h3 a v)⟩
  · rw [h] at hQ
    have := hQ.2 hr
    rw [← hS, this] at hst
    exact hst.elim

/-- C126, what holds in full mode: `crypto_sign_dilithium_ed25519_sphincs` while other threads do anything at all to the memory it reads.  If it returns 0, there are a secret key and four messages of the length given by
the caller, every byte of which was in memory at some moment of the call (of the key only the bytes that are used), such that what it has written is a full signature with the first message, whose Ed25519 part is that of the
first, whose Dilithium part is that of the second and whose SPHINCS+ part is that of the fourth with the randomiser of the third; if it returns something else it has written nothing.  Missing: that the four messages are equal, which is false
(`full_sign_other`, `full_sign_under_writers_false`). -/
theorem full_sign_under_writers_partial (fuel : Nat) {W : World} {p : ι → Prog Int} {i : ι} {sm smlen m sk : Ptr} {mlen : Nat} (hsm : sm.blk < W.sp) (hsl : smlen.blk < W.sp) (hm : m.blk < W.sp) (hsk : sk.blk < W.sp)
    (hp : p i = Conc.signFull (real fuel) spxBody (some sm) (some smlen) (some m) mlen (some sk)) (s : List ι) (c : Conf ι Int) (hc : c = start W p) :
    (((c.run s).thr i).prog = .ret 0 → ∃ skb msg1 msg2 msg3 msg4 opt k dil, skb.length = 4064 ∧ msg1.length = mlen ∧ msg2.length = mlen ∧ msg3.length = mlen ∧ msg4.length = mlen ∧ opt.length = 32 ∧ Shown c s sk (skb.take 2624) ∧
      Shown c s (sk.add 3936) (skb.drop 3936) ∧ Shown c s m msg1 ∧ Shown c s m msg2 ∧ Shown c s m msg3 ∧ Shown c s m msg4 ∧ Dilithium.Spec.Signs S128 S256 (skDil skb) msg2 k dil ∧
      ∀ a v, Stored c i s a v ↔ Output sm smlen (fullWire (Ed25519.Spec.sign (skb.take 32) ((skb.drop 32).take 32) msg1) msg1 dil (spxOf skb opt msg3 msg4)) a v) ∧
    (∀ r, ((c.run s).thr i).prog = .ret r → r ≠ 0 → ∀ a v, ¬ Stored c i s a v) := by
  subst hc
  have safe : Safe W.sp (fun _ _ _ => True)
      (fun _ _ R S r => (r = 0 → ∃ skb msg1 msg2 msg3 msg4 opt k dil, skb.length = 4064 ∧ msg1.length = mlen ∧ msg2.length = mlen ∧ msg3.length = mlen ∧ msg4.length = mlen ∧ opt.length = 32 ∧ At sk 0 (skb.take 2624) ⊆ R ∧
        At sk 3936 (skb.drop 3936) ⊆ R ∧ At m 0 msg1 ⊆ R ∧ At m 0 msg2 ⊆ R ∧ At m 0 msg3 ⊆ R ∧ At m 0 msg4 ⊆ R ∧ Dilithium.Spec.Signs S128 S256 (skDil skb) msg2 k dil ∧
        ∀ a v, (a, v) ∈ S ↔ Output sm smlen (fullWire (Ed25519.Spec.sign (skb.take 32) ((skb.drop 32).take 32) msg1) msg1 dil (spxOf skb opt msg3 msg4)) a v) ∧ (r ≠ 0 → S = ∅)) (p i) (fun _ => none) W.sp ∅ ∅ := by
    rw [hp]
    refine safe_signFull hsm hsl hm hsk (fun _ _ _ => trivial) (fun R' c hc => ⟨fun h => absurd h hc, fun _ => rfl⟩)
      fun R' skb msg1 msg2 msg3 msg4 opt dil k l1 l2 l3 l4 l5 lo a1 a2 a3 a4 a5 a6 hd h1 h64 => ⟨fun _ => ⟨skb, msg1, msg2, msg3, msg4, opt, k, dil, l1, l2, l3, l4, l5, lo, a1, a2, a3, a4, a5, a6, hd, fun a v => ?_⟩, fun h => absurd rfl h⟩
    have l2' : (skDil skb).length = 2560 := by unfold skDil; rw [List.length_take, List.length_drop]; omega
    have ld := Real.dilSigned_length Dilithium.isShake128_S128 Dilithium.isShake256_S256 l2' hd
    have le := Ed25519.length_specSign (skb.take 32) ((skb.drop 32).take 32) msg1
    have ls : (spxOf skb opt msg3 msg4).length = 49856 := length_twice _ _ _ _
    generalize spxOf skb opt msg3 msg4 = spx at *
    have hlen : (fullWire (Ed25519.Spec.sign (skb.take 32) ((skb.drop 32).take 32) msg1) msg1 dil spx).length = 52342 + mlen := by
      rw [(Hybrid.wire_full_slices le ld ls (by omega)).1, l2]
    rw [output_iff, hlen]
    simp
  obtain ⟨-, st, R, S, -, -, hR, hS, hQ⟩ := safe_run safe s
  refine ⟨fun h => ?_, fun r h hr a v hst => ?_⟩
  · rw [h] at hQ
    obtain ⟨skb, msg1, msg2, msg3, msg4, opt, k, dil, l1, l2, l3, l4, l5, lo, a1, a2, a3, a4, a5, a6, hd, h3⟩ := hQ.1 rfl
    rw [at_add] at a2
    exact ⟨skb, msg1, msg2, msg3, msg4, opt, k, dil, l1, l2, l3, l4, l5, lo, shown_of hR a1, shown_of hR a2, shown_of hR a3, shown_of hR a4, shown_of hR a5, shown_of hR a6, hd, fun a v => (hS a v).symm.trans (h3 a v)⟩
  · rw [h] at hQ
    have := hQ.2 hr
    rw [← hS, this] at hst
    exact hst.elim

end Verif.Conc
