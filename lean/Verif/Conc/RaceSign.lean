import Verif.Conc.RaceProps
import Verif.Conc.Props
import Verif.Real.Props2

/-!
Signing while other threads change the message: what the calls have read and stored.
-/

namespace Verif.Conc
open Verif
open Verif.Hybrid
open Verif.Real (real real_sized CompactSigned FullSigned)
open Verif.Dilithium (S128 S256 isShake128_S128 isShake256_S256)

variable {base : Nat} {G : Facts → Addr → Byte → Prop} {Q : (Nat → Option Bytes) → Nat → Facts → Facts → Int → Prop} {st : Nat → Option Bytes} {sp : Nat} {R S : Facts}

theorem safe_draw {Q : (Nat → Option Bytes) → Nat → Facts → Facts → Option Bytes → Prop} {n : Nat} (h : ∀ o, (∀ b, o = some b → b.length = n) → Q st sp R S o) : Safe base G Q (draw n) st sp R S := h

theorem dil_signed {fuel : Nat} {m sk sig : Bytes} {r : Int} {n : Nat} (h : (real fuel).dilSign (zeros 2420) 0 m sk = .ok (r, sig, n)) :
    r = 0 ∧ n = 2420 ∧ sig.length = 2420 ∧ ∃ k, Dilithium.Spec.Signs S128 S256 sk m k sig := by
  have hz : (zeros 2420).length = 2420 := List.length_replicate
  rw [Real.dilSign_eq] at h
  obtain ⟨⟨-, l2⟩, h⟩ := Real.when_ok h
  obtain ⟨rfl, rfl, hl, k, hk⟩ := (Dilithium.dil_sign_spec (m := m) (n := 0) isShake128_S128 isShake256_S256 l2 hz).2.1 fuel _ _ _ h
  exact ⟨rfl, rfl, hl, k, hk⟩

theorem length_twice (sk opt m m' : Bytes) : (Sphincs.Spec.signWith S256 ⟨slice sk 64 32, sk.take 32⟩ (S256 (slice sk 32 32 ++ opt ++ m) 32) (sk.drop 64) m').length = 49856 := by
  have hs : ∀ m n, (S256 m n).length = n := fun m n => by rw [← Real.shake256F_eq isShake256_S256]; exact Sphincs.length_shake256F m n
  rw [Sphincs.Spec.signWith]
  simp only [List.length_append, Sphincs.length_forsSign hs, Sphincs.length_htSign hs, hs]

theorem spx_none {z m m' sk : Bytes} {r : Int} {sig : Bytes} {n : Nat} (h : spxBody z 0 m m' sk none = .ok (r, sig, n)) : r = -1 := by
  obtain ⟨-, h⟩ := Real.when_ok h
  have h := Except.ok.inj h
  rw [Prod.mk.injEq] at h
  exact h.1.symm

theorem spx_some {z m m' sk opt sig : Bytes} {r : Int} {n : Nat} (hz : z = zeros 49856) (hk : sk.length = 128) (h : spxBody z 0 m m' sk (some opt) = .ok (r, sig, n)) :
    r = 0 ∧ n = 49856 ∧ sig = Sphincs.Spec.signWith S256 ⟨slice sk 64 32, sk.take 32⟩ (S256 (slice sk 32 32 ++ opt ++ m) 32) (sk.drop 64) m' := by
  have lz : z.length = 49856 := by rw [hz]; exact List.length_replicate
  obtain ⟨-, h⟩ := Real.when_ok h
  have e : sk.drop 64 = slice sk 64 32 ++ sk.drop 96 := by
    rw [slice, show 96 = 64 + 32 from rfl, ← List.drop_drop, List.take_append_drop]
  have h1 := Sphincs.signTwice_run Sphincs.length_shake256F (s := ⟨slice sk 64 32, sk.take 32⟩) (length_slice (by omega)) (by dsimp only; rw [List.length_take]; omega) (prfKey := slice sk 32 32) (root := sk.drop 96)
    (length_slice (by omega)) (by rw [List.length_drop]; omega) (sig := z) (by omega) m m' opt
  dsimp only at h1
  rw [← e, ← Sphincs.split3, Real.shake256F_eq isShake256_S256] at h1
  have hl := length_twice sk opt m m'
  generalize Sphincs.Spec.signWith S256 ⟨slice sk 64 32, sk.take 32⟩ (S256 (slice sk 32 32 ++ opt ++ m) 32) (sk.drop 64) m' = X at *
  rw [Real.shake256F_eq isShake256_S256] at h
  dsimp only at h
  rw [h1] at h
  have h := Except.ok.inj h
  rw [Prod.mk.injEq, Prod.mk.injEq] at h
  refine ⟨h.1.symm, h.2.2.symm, ?_⟩
  rw [← h.2.1, splice, List.take_zero, List.nil_append, Nat.zero_add, hl, List.drop_of_length_le (by omega), List.append_nil]

theorem two_bytes {p : Ptr} {a b : Byte} {x y z w : Bytes} :
    At p 0 (([a, b] ++ x ++ y ++ z) ++ w) = {((p.blk, p.off + 0), a)} ∪ {((p.blk, p.off + 1), b)} ∪ At p 2 x ∪ At p (2 + x.length) y ∪ At p (2 + x.length + y.length) z ∪ At p (2 + x.length + y.length + z.length) w := by
  have e : At p 0 [a, b] = {((p.blk, p.off + 0), a)} ∪ {((p.blk, p.off + 1), b)} := by
    rw [show [a, b] = [a] ++ [b] from rfl, At_append, At_single, At_single]; rfl
  simp only [At_append, e, List.length_append, List.length_cons, List.length_nil, Nat.zero_add, Nat.reduceAdd]

set_option maxRecDepth 100000 in
/-- Compact signing reads the message once for the hash and once more for the copy in the signature (hybrid-dilithium-sphincs/hybrid.c:507-511, 557-559). -/
theorem safe_signCompact {fuel : Nat} {sm smlen m sk : Ptr} {mlen : Nat} (hsm : sm.blk < base) (hsl : smlen.blk < base) (hm : m.blk < base) (hsk : sk.blk < base) (hG : ∀ R a v, G R a v)
    (hbad : ∀ R' c, c ≠ 0 → Q st sp R' S c)
    (hok : ∀ R' (skb msg msg' nonce sig : Bytes), skb.length = 4064 → msg.length = mlen → msg'.length = mlen → nonce.length = 40 → At sk 0 (skb.take 2624) ⊆ R' → At sk 4000 (skb.drop 4000) ⊆ R' →
      At m 0 msg ⊆ R' → At m 0 msg' ⊆ R' → CompactSigned S128 S256 skb msg nonce sig → 1 ≤ mlen → mlen ≤ 64 →
      Q st sp R' (S ∪ At sm 0 (sig.take 2526 ++ msg') ∪ At smlen 0 (le64 (2526 + mlen))) 0) :
    Safe base G Q (Conc.signCompact (real fuel) (some sm) (some smlen) (some m) mlen (some sk)) st sp R S := by
  simp only [Conc.signCompact]
  simp only [ED_SK, DIL_SK, DIL_PK, SPX_SK, SPX_PK, ED_SIG, DIL_SIG, LEN_BYTES, MAX_MSG_LEN, COMPACT_ID, NONCE_BYTES, HASH_LENGTH]
  by_cases c1 : mlen ≤ 0 ∨ mlen > 64
  · rw [if_pos c1]; exact hbad _ _ (by decide)
  rw [if_neg c1]
  simp only [Nat.reduceAdd, Nat.reduceDiv]
  refine Safe.bind (safe_copyIn hsk (by simp) fun y1 k1 => ?_)
  refine Safe.bind (safe_copyIn hsk (by simp) fun y2 k2 => ?_)
  rw [splice_zeros k1, splice_zeros k2]
  refine Safe.bind (safe_draw fun o ho => ?_)
  cases o with
  | none => exact hbad _ _ (by decide)
  | some nonce =>
  have ln := ho _ rfl
  dsimp only
  refine Safe.bind (safe_liftC fun a ha => ?_)
  rw [copy_ok (by omega) (by simp), slice_full ln] at ha
  injection ha with ha
  subst ha
  refine Safe.bind (safe_copyIn hm (by rw [length_splice (by simp; omega)]; simp; omega) fun x lx => ?_)
  rw [splice_append (by omega) (by simp; omega)]
  refine Safe.bind (safe_copyIn hsk (by rw [length_splice (by simp; omega)]; simp; omega) fun y3 k3 => ?_)
  rw [splice_append (by simp; omega) (by simp; omega)]
  rw [prefixOf_ok (by rw [length_splice (by simp; omega)]; simp; omega), take_splice (by simp; omega)]
  refine Safe.bind (safe_liftC fun a ha => ?_)
  injection ha with ha
  subst ha
  have hh := real_sized.sha3_512 (nonce ++ x ++ y3) (P := real fuel)
  generalize hhash : (real fuel).sha3_512 (nonce ++ x ++ y3) = h at hh
  refine Safe.bind (safe_liftC fun t ht => ?_)
  obtain ⟨r1, sig1, l1⟩ := t
  dsimp only
  have hr1 := (Real.edSign_real ht).2.2.1
  have hsig1 := (Real.edSign_real ht).2.2.2.1
  have hl1 := (Real.edSign_real ht).2.2.2.2
  obtain ⟨ed, hed⟩ : ∃ ed, ed = Ed25519.Spec.sign (y1.take 32) (y1.drop 32) h := ⟨_, rfl⟩
  have hel : ed.length = 64 := by rw [hed]; exact Ed25519.length_specSign _ _ _
  have hse : slice sig1 0 64 = ed := by
    rw [hsig1, ← hed, List.append_assoc, slice_append_left (by omega)]; exact slice_full hel
  have hsl1 : 64 ≤ sig1.length := by rw [hsig1, ← hed]; simp only [List.length_append]; omega
  clear ht hsig1
  refine Safe.bind (safe_liftC fun t ht => ?_)
  obtain ⟨r2, sig2, l2⟩ := t
  dsimp only
  obtain ⟨rfl, rfl, hs2, k, hk⟩ := dil_signed ht
  rw [if_neg (not_not.2 hr1), if_neg (by decide), if_neg (by omega), if_neg (by decide)]
  refine Safe.bind ⟨fun _ => ⟨hG _ _ _, ?_⟩, fun hb => absurd hsm (by omega)⟩
  refine Safe.bind ⟨fun _ => ⟨hG _ _ _, ?_⟩, fun hb => absurd hsm (by omega)⟩
  refine Safe.bind (safe_copyOut hsm (by omega) (fun _ _ => hG _ _ _) ?_)
  refine Safe.bind (safe_copyOut hsm (by omega) (fun _ _ => hG _ _ _) ?_)
  refine Safe.bind (safe_copyOut hsm (by omega) (fun _ _ => hG _ _ _) ?_)
  refine Safe.bind (safe_copyMem hsm hm (fun _ _ _ _ => hG _ _ _) fun x' lx' => ?_)
  refine Safe.bind (safe_copyOut hsl (by simp) (fun _ _ => hG _ _ _) ?_)
  refine safe_pure ?_
  rw [hse, slice_full hs2, slice_full ln, show slice (le64 (2526 + mlen)) 0 8 = le64 (2526 + mlen) from slice_full (by simp)]
  have wl : (compactWire ed sig2 nonce x).take 2526 = [1, BitVec.ofNat 8 mlen] ++ ed ++ sig2 ++ nonce := by
    have e : compactWire ed sig2 nonce x = ([1, BitVec.ofNat 8 mlen] ++ ed ++ sig2 ++ nonce) ++ x := by rw [compactWire, lx]; rfl
    rw [e]
    refine List.take_left' ?_
    rw [List.length_append, List.length_append, List.length_append, hel, hs2, ln]; rfl
  have lsk : (y1 ++ (y2 ++ (List.replicate 1312 0 ++ (List.replicate 64 0 ++ y3))) : Bytes).length = 4064 := by
    simp [k1, k2, k3]
  have tk : (y1 ++ (y2 ++ (List.replicate 1312 0 ++ (List.replicate 64 0 ++ y3))) : Bytes).take 2624 = y1 ++ y2 := by
    rw [← List.append_assoc]; exact List.take_left' (by simp [k1, k2])
  have dk : (y1 ++ (y2 ++ (List.replicate 1312 0 ++ (List.replicate 64 0 ++ y3))) : Bytes).drop 4000 = y3 := by
    rw [← List.append_assoc, ← List.append_assoc, ← List.append_assoc]; exact List.drop_left' (by simp [k1, k2])
  have hS : ∀ T : Facts, T = S ∪ At sm 0 ((compactWire ed sig2 nonce x).take 2526 ++ x') ∪ At smlen 0 (le64 (2526 + mlen)) → ∀ R', Q st sp R' (S ∪ At sm 0 ((compactWire ed sig2 nonce x).take 2526 ++ x') ∪ At smlen 0 (le64 (2526 + mlen))) 0 → Q st sp R' T 0 := by
    rintro _ rfl R' h; exact h
  refine hS _ ?_ _ (hok _ _ x x' nonce _ lsk lx lx' ln ?_ ?_ ?_ ?_ ⟨h, k, sig2, ?_, ?_, ?_⟩ (by omega) (by omega))
  · rw [wl, two_bytes]
    simp only [hel, hs2, ln, Nat.reduceAdd]
    ext f
    simp only [Set.mem_union]
    tauto
  · rw [tk, At_append, k1]
    intro f hf
    simp only [Set.mem_union, Nat.zero_add] at hf ⊢
    tauto
  · rw [dk]
    intro f hf
    simp only [Set.mem_union] at hf ⊢
    tauto
  · intro f hf
    simp only [Set.mem_union] at hf ⊢
    tauto
  · intro f hf
    simp only [Set.mem_union] at hf ⊢
    tauto
  · rw [Real.compactHash_real (fuel := fuel), ← hhash]
    unfold compactHash skSpxPk
    rw [dk, List.take_of_length_le (by omega)]
  · have : skDil (y1 ++ (y2 ++ (List.replicate 1312 0 ++ (List.replicate 64 0 ++ y3)))) = y2 := by
      unfold skDil
      rw [List.drop_left' k1, List.take_left' k2]
    rw [this]; exact hk
  · have a1 : (y1 ++ (y2 ++ (List.replicate 1312 0 ++ (List.replicate 64 0 ++ y3)))).take 32 = y1.take 32 := List.take_append_of_le_length (by omega)
    have a2 : ((y1 ++ (y2 ++ (List.replicate 1312 0 ++ (List.replicate 64 0 ++ y3)))).drop 32).take 32 = y1.drop 32 := by
      rw [List.drop_append_of_le_length (by omega), List.take_left' (by rw [List.length_drop]; omega)]
    rw [a1, a2, ← hed]

/-- The SPHINCS+ part of a full signature (compare sphincs/sign.c:96-163) when the message is `m` at the first reading and `m'` at the second. -/
abbrev spxOf (skb opt m m' : Bytes) : Bytes :=
  Sphincs.Spec.signWith S256 ⟨slice (skSpx skb) 64 32, (skSpx skb).take 32⟩ (S256 (slice (skSpx skb) 32 32 ++ opt ++ m) 32) ((skSpx skb).drop 64) m'

theorem safe_spxSign {Q : (Nat → Option Bytes) → Nat → Facts → Facts → Int × Bytes × Nat → Prop} {z sk : Bytes} {m : Ptr} {mlen : Nat} (hm : m.blk < base) (hz : z = zeros 49856) (hk : sk.length = 128)
    (hbad : ∀ sig n, Q st sp R S (-1, sig, n))
    (hok : ∀ opt x x' : Bytes, opt.length = 32 → x.length = mlen → x'.length = mlen → Q st sp (R ∪ At m 0 x ∪ At m 0 x') S
      (0, Sphincs.Spec.signWith S256 ⟨slice sk 64 32, sk.take 32⟩ (S256 (slice sk 32 32 ++ opt ++ x) 32) (sk.drop 64) x', 49856)) :
    Safe base G Q (spxSign spxBody z 0 m mlen sk) st sp R S := by
  unfold spxSign
  refine Safe.bind (safe_draw fun o ho => ?_)
  cases o with
  | none =>
    refine safe_liftC fun t ht => ?_
    obtain ⟨r, sig, n⟩ := t
    have := spx_none ht
    rw [this]; exact hbad _ _
  | some opt =>
    dsimp only
    simp only [Conc.readMem]
    refine Safe.bind (safe_copyIn hm (by simp) fun x lx => ?_)
    rw [splice_all (by simp [lx])]
    refine Safe.bind (safe_copyIn hm (by simp) fun x' lx' => ?_)
    rw [splice_all (by simp [lx'])]
    refine safe_liftC fun t ht => ?_
    obtain ⟨r, sig, n⟩ := t
    have h := spx_some hz hk ht
    rw [h.1, h.2.1, h.2.2]
    exact hok _ _ _ (ho _ rfl) lx lx'

set_option maxRecDepth 100000 in
/-- Full signing reads the message for each algorithm, for SPHINCS+ twice (hybrid-dilithium-sphincs/hybrid.c:294-296, sphincs/sign.c:130, 133). -/
theorem safe_signFull {fuel : Nat} {sm smlen m sk : Ptr} {mlen : Nat} (hsm : sm.blk < base) (hsl : smlen.blk < base) (hm : m.blk < base) (hsk : sk.blk < base) (hG : ∀ R a v, G R a v)
    (hbad : ∀ R' c, c ≠ 0 → Q st sp R' S c)
    (hok : ∀ R' (skb msg1 msg2 msg3 msg4 opt dil : Bytes) (k : Nat), skb.length = 4064 → msg1.length = mlen → msg2.length = mlen → msg3.length = mlen → msg4.length = mlen → opt.length = 32 → At sk 0 (skb.take 2624) ⊆ R' →
      At sk 3936 (skb.drop 3936) ⊆ R' → At m 0 msg1 ⊆ R' → At m 0 msg2 ⊆ R' → At m 0 msg3 ⊆ R' → At m 0 msg4 ⊆ R' → Dilithium.Spec.Signs S128 S256 (skDil skb) msg2 k dil → 1 ≤ mlen → mlen ≤ 64 →
      Q st sp R' (S ∪ At sm 0 (fullWire (Ed25519.Spec.sign (skb.take 32) ((skb.drop 32).take 32) msg1) msg1 dil (spxOf skb opt msg3 msg4)) ∪ At smlen 0 (le64 (52342 + mlen))) 0) :
    Safe base G Q (Conc.signFull (real fuel) spxBody (some sm) (some smlen) (some m) mlen (some sk)) st sp R S := by
  simp only [Conc.signFull]
  simp only [ED_SK, DIL_SK, DIL_PK, SPX_SK, ED_SIG, DIL_SIG, SPX_SIG, LEN_BYTES, MAX_MSG_LEN, FULL_ID, Conc.readMem]
  generalize hz : zeros 49856 = z
  by_cases c1 : mlen ≤ 0 ∨ mlen > 64
  · rw [if_pos c1]; exact hbad _ _ (by decide)
  rw [if_neg c1]
  simp only [Nat.reduceAdd]
  refine Safe.bind (safe_copyIn hsk (by simp) fun y1 k1 => ?_)
  refine Safe.bind (safe_copyIn hsk (by simp) fun y2 k2 => ?_)
  refine Safe.bind (safe_copyIn hsk (by simp) fun y3 k3 => ?_)
  rw [splice_zeros k1, splice_zeros k2, splice_zeros k3]
  refine Safe.bind (safe_copyIn hm (by simp) fun x1 lx1 => ?_)
  rw [splice_all (by simp [lx1])]
  refine Safe.bind (safe_liftC fun t ht => ?_)
  obtain ⟨r1, sig1, l1⟩ := t
  dsimp only
  have hr1 := (Real.edSign_real ht).2.2.1
  have hsig1 := (Real.edSign_real ht).2.2.2.1
  have hl1 := (Real.edSign_real ht).2.2.2.2
  obtain ⟨ed, hed⟩ : ∃ ed, ed = Ed25519.Spec.sign (y1.take 32) (y1.drop 32) x1 := ⟨_, rfl⟩
  have hel : ed.length = 64 := by rw [hed]; exact Ed25519.length_specSign _ _ _
  have hse : slice sig1 0 (64 + mlen) = ed ++ x1 := by
    rw [hsig1, ← hed, slice_append_left (by simp only [List.length_append]; omega)]; exact slice_full (by simp only [List.length_append]; omega)
  have hsl1 : 64 + mlen ≤ sig1.length := by rw [hsig1, ← hed]; simp only [List.length_append]; omega
  clear ht hsig1
  refine Safe.bind (safe_copyIn hm (by simp) fun x2 lx2 => ?_)
  rw [splice_all (by simp [lx2])]
  refine Safe.bind (safe_liftC fun t ht => ?_)
  obtain ⟨r2, sig2, l2⟩ := t
  dsimp only
  obtain ⟨rfl, rfl, hs2, k, hk⟩ := dil_signed ht
  refine Safe.bind (safe_spxSign hm hz.symm k3 (fun sig n => ?_) fun opt x3 x4 lo lx3 lx4 => ?_)
  · dsimp only
    rw [if_neg (not_not.2 hr1), if_neg (by decide), if_pos (by decide)]
    exact hbad _ _ (by decide)
  dsimp only
  obtain ⟨spx, hspx⟩ : ∃ spx, spx = Sphincs.Spec.signWith S256 ⟨slice y3 64 32, y3.take 32⟩ (S256 (slice y3 32 32 ++ opt ++ x3) 32) (y3.drop 64) x4 := ⟨_, rfl⟩
  have hsp : spx.length = 49856 := by rw [hspx]; exact length_twice _ _ _ _
  rw [← hspx, if_neg (not_not.2 hr1), if_neg (by decide), if_neg (by decide), if_neg (by omega), if_neg (by decide), if_neg (by decide)]
  have hl1' : l1 = 64 + mlen := by omega
  rw [hl1']
  refine Safe.bind ⟨fun _ => ⟨hG _ _ _, ?_⟩, fun hb => absurd hsm (by omega)⟩
  refine Safe.bind ⟨fun _ => ⟨hG _ _ _, ?_⟩, fun hb => absurd hsm (by omega)⟩
  refine Safe.bind (safe_copyOut hsm (by omega) (fun _ _ => hG _ _ _) ?_)
  refine Safe.bind (safe_copyOut hsm (by omega) (fun _ _ => hG _ _ _) ?_)
  refine Safe.bind (safe_copyOut hsm (by omega) (fun _ _ => hG _ _ _) ?_)
  refine Safe.bind (safe_copyOut hsl (by simp) (fun _ _ => hG _ _ _) ?_)
  refine safe_pure ?_
  rw [hse, slice_full hs2, slice_full hsp, show slice (le64 (52342 + mlen)) 0 8 = le64 (52342 + mlen) from slice_full (by simp)]
  have lsk : (y1 ++ (y2 ++ (List.replicate 1312 0 ++ y3)) : Bytes).length = 4064 := by
    simp [k1, k2, k3]
  have tk : (y1 ++ (y2 ++ (List.replicate 1312 0 ++ y3)) : Bytes).take 2624 = y1 ++ y2 := by
    rw [← List.append_assoc]; exact List.take_left' (by simp [k1, k2])
  have dk : (y1 ++ (y2 ++ (List.replicate 1312 0 ++ y3)) : Bytes).drop 3936 = y3 := by
    rw [← List.append_assoc, ← List.append_assoc]; exact List.drop_left' (by simp [k1, k2])
  have a0 : skDil (y1 ++ (y2 ++ (List.replicate 1312 0 ++ y3))) = y2 := by
    unfold skDil
    rw [List.drop_left' k1, List.take_left' k2]
  have a1 : (y1 ++ (y2 ++ (List.replicate 1312 0 ++ y3))).take 32 = y1.take 32 := List.take_append_of_le_length (by omega)
  have a2 : ((y1 ++ (y2 ++ (List.replicate 1312 0 ++ y3))).drop 32).take 32 = y1.drop 32 := by
    rw [List.drop_append_of_le_length (by omega), List.take_left' (by rw [List.length_drop]; omega)]
  have a3 : skSpx (y1 ++ (y2 ++ (List.replicate 1312 0 ++ y3))) = y3 := by
    unfold skSpx
    rw [dk, List.take_of_length_le (by omega)]
  have H := fun R' h4 h5 h6 h7 h8 h9 => hok R' (y1 ++ (y2 ++ (List.replicate 1312 0 ++ y3))) x1 x2 x3 x4 opt sig2 k lsk lx1 lx2 lx3 lx4 lo h4 h5 h6 h7 h8 h9 (by rw [a0]; exact hk) (by omega) (by omega)
  rw [a1, a2, spxOf, a3, ← hed, ← hspx, tk, dk] at H
  have e : fullWire ed x1 sig2 spx = ([2, BitVec.ofNat 8 mlen] ++ ed ++ x1 ++ sig2) ++ spx := by rw [fullWire, lx1]; rfl
  have hS : ∀ T : Facts, T = S ∪ At sm 0 (fullWire ed x1 sig2 spx) ∪ At smlen 0 (le64 (52342 + mlen)) → ∀ R', Q st sp R' (S ∪ At sm 0 (fullWire ed x1 sig2 spx) ∪ At smlen 0 (le64 (52342 + mlen))) 0 → Q st sp R' T 0 := by
    rintro _ rfl R' h; exact h
  refine hS _ ?_ _ (H _ ?_ ?_ ?_ ?_ ?_ ?_)
  · rw [e, two_bytes, At_append]
    simp only [hel, hs2, lx1]
    rw [show 2 + (64 + mlen) = 2 + 64 + mlen by omega]
    ext f
    simp only [Set.mem_union]
    tauto
  · rw [At_append, k1]
    intro f hf
    simp only [Set.mem_union, Nat.zero_add] at hf ⊢
    tauto
  all_goals
    intro f hf
    simp only [Set.mem_union] at hf ⊢
    tauto

end Verif.Conc
