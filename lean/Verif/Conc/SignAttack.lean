import Verif.Conc.RaceSign
import Verif.Conc.AttackProps

/-!
A second thread that changes the message between two of the reads of a signing call.
-/

namespace Verif.Conc
open Verif
open Verif.Hybrid

/-- The second thread: it writes the bytes `x` to `q` (no line of its own). -/
def overwrite (q : Ptr) (x : Bytes) : Prog Int := do
  copyOut q 0 x 0 x.length
  pure 0

theorem exec_overwrite {U : World} {q : Ptr} {x : Bytes} (h : (U.view q x.length).isSome) : exec (overwrite q x) U = .ok (0, U.write q x) := by
  unfold overwrite
  have h' : (U.view (q.add 0) x.length).isSome := by simpa [Ptr.add] using h
  rw [exec_bind, exec_copyOut, M_bind_apply, copyOut_ok h' (by omega)]
  simp only [ok_bind]
  rw [slice_full rfl]
  rfl

/-- The end of compact signing: the message is read again (hybrid-dilithium-sphincs/hybrid.c:557-563). -/
def signTailP (sm smlen m : Ptr) (mlen : Nat) : Prog Int := do
  copyMem sm 2526 m 0 mlen
  storeU64 smlen (2526 + mlen)
  pure 0

variable (P : Prims)

theorem drawn_ok {W : World} {n : Nat} {b : Bytes} (h : W.rng.draw W.rng.log.length n = some b) : exec (draw n) W = .ok (some b, { W with rng := Sphincs.drawn W.rng n }) := by
  rw [exec_draw, ← h]; rfl

set_option maxRecDepth 100000 in
/-- Compact signing up to the second read of the message. -/
theorem leads_signCompact (hP : P.Sized) {W : World} {sm smlen m sk : Ptr} {mlen : Nat} {mb skb nonce s1 s2 : Bytes} (hm : W.view m mlen = some mb) (hsk : W.view sk 4064 = some skb)
    (hsm : (W.view sm (2526 + mlen)).isSome) (h1 : 1 ≤ mlen) (h2 : mlen ≤ 64) (hn : W.rng.draw W.rng.log.length 40 = some nonce)
    (he : P.edSign (zeros 128) 0 (P.sha3_512 (nonce ++ mb ++ slice skb 4000 64)) (slice skb 0 64) = .ok (0, s1, 128))
    (hd : P.dilSign (zeros 2420) 0 (P.sha3_512 (nonce ++ mb ++ slice skb 4000 64)) (slice skb 64 2560) = .ok (0, s2, 2420)) :
    Leads (Conc.signCompact P (some sm) (some smlen) (some m) mlen (some sk), W)
      (signTailP sm smlen m mlen, ({ W with rng := Sphincs.drawn W.rng 40 } : World).write sm ([1, BitVec.ofNat 8 mlen] ++ slice s1 0 64 ++ s2 ++ nonce)) := by
  have hmb := length_of_view hm
  have hskb := length_of_view hsk
  have hnl := W.rng.len_draw _ _ _ hn
  have hspl : (slice skb 4000 64).length = 64 := length_slice (by omega)
  simp only [Conc.signCompact]
  simp only [ED_SK, DIL_SK, DIL_PK, SPX_SK, SPX_PK, ED_SIG, DIL_SIG, LEN_BYTES, MAX_MSG_LEN, COMPACT_ID, NONCE_BYTES, HASH_LENGTH]
  rw [if_neg (by omega)]
  simp only [Nat.reduceAdd, Nat.reduceDiv]
  refine (leads_bind (W' := W) (by rw [exec_copyIn]; exact copyIn_zeros hsk (by omega))).trans ?_
  refine (leads_bind (W' := W) (by rw [exec_copyIn]; exact copyIn_zeros hsk (by omega))).trans ?_
  refine (leads_bind (drawn_ok hn)).trans ?_
  generalize hW1 : ({ W with rng := Sphincs.drawn W.rng 40 } : World) = W1
  have hm1 : W1.view m mlen = some mb := by subst hW1; exact hm
  have hsk1 : W1.view sk 4064 = some skb := by subst hW1; exact hsk
  have hsm1 : (W1.view sm (2526 + mlen)).isSome := by subst hW1; exact hsm
  dsimp only
  rw [copy_ok (by omega) (by simp)]
  refine (leads_bind (W' := W1) (by rw [exec_liftC]; rfl)).trans ?_
  refine (leads_bind (W' := W1) (by rw [exec_copyIn]; exact copyIn_ok (x := mb) (by simpa [Ptr.add] using hm1) (by rw [length_splice (by simp [slice])]; simp; omega))).trans ?_
  rw [slice_full hnl, splice_append hnl (by simp; omega)]
  refine (leads_bind (W' := W1) (by rw [exec_copyIn]; exact copyIn_ok (view_sub hsk1 (by omega)) (by rw [length_splice (by simp; omega)]; simp; omega))).trans ?_
  rw [splice_append (by simp; omega) (by simp; omega)]
  rw [prefixOf_ok (by rw [length_splice (by simp; omega)]; simp; omega), take_splice (by simp; omega)]
  refine (leads_bind (W' := W1) (by rw [exec_liftC]; rfl)).trans ?_
  refine (leads_bind (W' := W1) (by rw [exec_liftC, he]; rfl)).trans ?_
  refine (leads_bind (W' := W1) (by rw [exec_liftC, hd]; rfl)).trans ?_
  dsimp only
  rw [if_neg (by decide), if_neg (by decide), if_neg (by decide), if_neg (by decide)]
  have e1 := hP.edSign _ _ _ _ _ _ _ he
  have e2 := hP.dilSign _ _ _ _ _ _ _ hd
  simp only [length_zeros] at e1 e2
  have e4 : (slice s1 0 64).length = 64 := length_slice (by omega)
  rw [← write_nil W1 sm]
  refine (leads_bind (by rw [exec_store]; exact store_append hsm1 (by rfl) (by omega))).trans ?_
  refine (leads_bind (by rw [exec_store]; exact store_append hsm1 (by rfl) (by omega))).trans ?_
  refine (leads_bind (by rw [exec_copyOut]; exact copyOut_append hsm1 (by rfl) (by omega) (by omega))).trans ?_
  refine (leads_bind (by rw [exec_copyOut]; exact copyOut_append hsm1 (by simp [e4]) (by omega) (by omega))).trans ?_
  refine (leads_bind (by rw [exec_copyOut]; exact copyOut_append hsm1 (by simp [e4, length_slice, e2]) (by omega) (by omega))).trans ?_
  rw [slice_full e2, slice_full hnl, write_nil]
  exact Leads.refl _

theorem exec_signTail {W : World} {sm smlen m : Ptr} {mlen : Nat} : exec (signTailP sm smlen m mlen) W = signTail sm smlen m mlen W := by
  unfold signTailP signTail
  rw [exec_bind, exec_copyMem, M_bind_apply, M_bind_apply]
  cases Verif.copyMem sm 2526 m 0 mlen W with
  | error e => rfl
  | ok t =>
    simp only [ok_bind]
    rw [exec_bind, exec_storeU64]; rfl

/-- The end of full signing: the Dilithium and the SPHINCS+ signature and the copy to the signature buffer (hybrid-dilithium-sphincs/hybrid.c:295-341). -/
def signFullTail (body : Bytes → Nat → Bytes → Bytes → Bytes → Option Bytes → C (Int × Bytes × Nat)) (sm smlen m : Ptr) (mlen : Nat) (sk2 sk3 : Bytes) (r1 : Int) (sig1 : Bytes) (sigLen1 : Nat) : Prog Int := do
  let msg2 ← readMem m mlen
  let (r2, sig2, sigLen2) ← liftC (P.dilSign (zeros 2420) 0 msg2 sk2)
  let (r3, sig3, sigLen3) ← spxSign body (zeros 49856) 0 m mlen sk3
  if r1 ≠ 0 then pure (-2) else
  if r2 ≠ 0 then pure (-3) else
  if r3 ≠ 0 then pure (-4) else
  if sigLen1 ≠ 64 + mlen then pure (-5) else
  if sigLen2 ≠ 2420 then pure (-6) else
  if sigLen3 ≠ 49856 then pure (-6) else do
  store sm 0 (BitVec.ofNat 8 2)
  store sm 1 (BitVec.ofNat 8 mlen)
  copyOut sm 2 sig1 0 sigLen1
  copyOut sm (2 + sigLen1) sig2 0 sigLen2
  copyOut sm (2 + sigLen1 + sigLen2) sig3 0 sigLen3
  storeU64 smlen (52342 + mlen)
  pure 0

set_option maxRecDepth 100000 in
/-- Full signing up to the second read of the message. -/
theorem leads_signFull {body : Bytes → Nat → Bytes → Bytes → Bytes → Option Bytes → C (Int × Bytes × Nat)} {W : World} {sm smlen m sk : Ptr} {mlen : Nat} {mb skb s1 : Bytes} {r1 : Int} {l1 : Nat} (hm : W.view m mlen = some mb) (hsk : W.view sk 4064 = some skb)
    (h1 : 1 ≤ mlen) (h2 : mlen ≤ 64) (he : P.edSign (zeros 128) 0 mb (slice skb 0 64) = .ok (r1, s1, l1)) :
    Leads (Conc.signFull P body (some sm) (some smlen) (some m) mlen (some sk), W)
      (signFullTail P body sm smlen m mlen (slice skb 64 2560) (slice skb 3936 128) r1 s1 l1, W) := by
  simp only [Conc.signFull, signFullTail]
  simp only [ED_SK, DIL_SK, DIL_PK, SPX_SK, ED_SIG, DIL_SIG, SPX_SIG, LEN_BYTES, MAX_MSG_LEN, FULL_ID]
  generalize zeros 49856 = z
  rw [if_neg (by omega)]
  simp only [Nat.reduceAdd]
  refine (leads_bind (W' := W) (by rw [exec_copyIn]; exact copyIn_zeros hsk (by omega))).trans ?_
  refine (leads_bind (W' := W) (by rw [exec_copyIn]; exact copyIn_zeros hsk (by omega))).trans ?_
  refine (leads_bind (W' := W) (by rw [exec_copyIn]; exact copyIn_zeros hsk (by omega))).trans ?_
  refine (leads_bind (W' := W) (by rw [exec_readMem]; exact readMem_ok hm)).trans ?_
  refine (leads_bind (W' := W) (by rw [exec_liftC, he]; rfl)).trans ?_
  exact Leads.refl _

set_option maxRecDepth 100000 in
theorem exec_signFullTail (hP : P.Sized) {body : Bytes → Nat → Bytes → Bytes → Bytes → Option Bytes → C (Int × Bytes × Nat)} (hb : OneDraw P body) {W : World} {sm smlen m : Ptr} {mlen : Nat} {x sk2 sk3 s1 s2 s3 : Bytes} {R' : Rng}
    (hm : W.view m mlen = some x) (hs1 : 64 + mlen ≤ s1.length) (hd : P.dilSign (zeros 2420) 0 x sk2 = .ok (0, s2, 2420)) (hs : P.spxSign (zeros 49856) 0 x sk3 W.rng = .ok ((0, s3, 49856), R'))
    (hsm : (W.view sm (52342 + mlen)).isSome) (hl : (W.view smlen 8).isSome) :
    exec (signFullTail P body sm smlen m mlen sk2 sk3 0 s1 (64 + mlen)) W =
      .ok (0, (({ W with rng := R' } : World).write sm ([2, BitVec.ofNat 8 mlen] ++ slice s1 0 (64 + mlen) ++ s2 ++ s3)).write smlen (le64 (52342 + mlen))) := by
  have e2 := hP.dilSign _ _ _ _ _ _ _ hd
  have e3 := hP.spxSign _ _ _ _ _ _ _ _ _ hs
  simp only [length_zeros] at e2 e3
  unfold signFullTail
  generalize zeros 49856 = z at hs ⊢
  rw [exec_bind, exec_readMem, M_bind_apply, readMem_ok hm]; simp only [ok_bind]
  rw [exec_bind, exec_liftC, M_bind_apply, hd]; simp only [liftC_ok, ok_bind]
  rw [exec_bind, M_bind_apply, exec_spxSign hb _ _ _ _ _ (readMem_ok hm)]
  have e : Verif.liftR (P.spxSign z 0 x sk3) W = .ok ((0, s3, 49856), { W with rng := R' }) := by
    simp only [Verif.liftR, hs]
  rw [e]; simp only [ok_bind]
  rw [if_neg (by decide), if_neg (by decide), if_neg (by decide), if_neg (by omega), if_neg (by decide), if_neg (by decide)]
  generalize hW1 : ({ W with rng := R' } : World) = W1
  have hsm1 : (W1.view sm (52342 + mlen)).isSome := by subst hW1; exact hsm
  have hl1 : (W1.view smlen 8).isSome := by subst hW1; exact hl
  have e4 : (slice s1 0 (64 + mlen)).length = 64 + mlen := length_slice (by omega)
  rw [← write_nil W1 sm]
  rw [exec_bind, exec_store, M_bind_apply, store_append hsm1 (by rfl) (by omega)]; simp only [ok_bind]
  rw [exec_bind, exec_store, M_bind_apply, store_append hsm1 (by rfl) (by omega)]; simp only [ok_bind]
  rw [exec_bind, exec_copyOut, M_bind_apply, copyOut_append hsm1 (by rfl) (by omega) (by omega)]; simp only [ok_bind]
  rw [exec_bind, exec_copyOut, M_bind_apply, copyOut_append hsm1 (by simp [e4]; omega) (by omega) (by omega)]; simp only [ok_bind]
  rw [exec_bind, exec_copyOut, M_bind_apply, copyOut_append hsm1 (by simp [e4, length_slice, e2]; omega) (by omega) (by omega)]; simp only [ok_bind]
  rw [exec_bind, exec_storeU64, M_bind_apply, storeU64_ok (write_view_isSome hl1), slice_full e2, slice_full e3]
  simp only [ok_bind, write_nil]
  rfl

end Verif.Conc
