import Verif.Conc.Race
import Verif.Hybrid.Lemmas

/-!
Opening and verifying while other threads change the buffers: what the calls have read and stored.
-/

namespace Verif.Conc
open Verif
open Verif.Hybrid

variable {base : Nat} {G : Facts → Addr → Byte → Prop} {Q : (Nat → Option Bytes) → Nat → Facts → Facts → Int → Prop} {st : Nat → Option Bytes} {sp : Nat} {R S : Facts}
  (P : Prims)

/-- The end of full open: the message is copied out of the local array (hybrid-dilithium-sphincs/hybrid.c:428-434). -/
def fullTail (m mlen : Ptr) (msg1 : Bytes) (n : Nat) : Prog Int := do
  copyOut m 0 msg1 0 n
  storeU64 mlen n
  pure 0

/-- The end of compact open: the message is copied out of the signature buffer, which is read again (hybrid-dilithium-sphincs/hybrid.c:656-664). -/
def compactTail (m mlen sm : Ptr) (n : Nat) : Prog Int := do
  copyMem m 0 sm 2526 n
  storeU64 mlen n
  pure 0

/-- Full open reads the signature and the key once; what it has read passes all checks or nothing is stored. -/
theorem safe_openFull (hP : P.Sized) {m mlen sm pk : Ptr} {smlen : Nat} (hsm : sm.blk < base) (hpk : pk.blk < base)
    (hbad : ∀ R' c, c ≠ 0 → Q st sp R' S c)
    (hok : ∀ R' (sb pkb msg1 : Bytes) n, sb.length = smlen → pkb.length = 1408 → At sm 0 sb ⊆ R' → At pk 0 pkb ⊆ R' → n ≤ msg1.length → n ≤ 64 → fullOpen P sb pkb = .ok (.ok (msg1.take n)) →
      Safe base G Q (fullTail m mlen msg1 n) st sp R' S) :
    Safe base G Q (Conc.openFull P (some m) (some mlen) (some sm) smlen (some pk)) st sp R S := by
  simp only [Conc.openFull]
  simp only [ED_PK, DIL_PK, SPX_PK, ED_SIG, DIL_SIG, SPX_SIG, LEN_BYTES, MAX_MSG_LEN, MIN_MSG_LEN, FULL_ID]
  by_cases c1 : smlen < 52343 ∨ smlen > 52406
  · rw [if_pos (by omega)]; exact hbad _ _ (by decide)
  rw [if_neg (by omega)]
  refine Safe.bind (safe_load hsm fun b0 => ?_)
  by_cases c2 : b0.toNat = 2
  swap
  · rw [if_pos c2]; exact hbad _ _ (by decide)
  rw [if_neg (not_not.2 c2)]
  refine Safe.bind (safe_load hsm fun b1 => ?_)
  generalize hn : b1.toNat = n
  by_cases c3 : n ≤ 0 ∨ n > 64
  · rw [if_pos c3]; exact hbad _ _ (by decide)
  rw [if_neg c3]
  by_cases c4 : smlen = 52342 + n
  swap
  · rw [if_pos (by omega)]; exact hbad _ _ (by decide)
  rw [if_neg (by omega)]
  refine Safe.bind (safe_copyIn hsm (by simp; omega) fun x1 l1 => ?_)
  refine Safe.bind (safe_copyIn hpk (by simp) fun y1 k1 => ?_)
  refine Safe.bind (safe_liftC fun t ht => ?_)
  obtain ⟨r1, m1, len1⟩ := t
  dsimp only
  have e1 := hP.edOpen _ _ _ _ _ _ _ _ ht
  simp only [length_zeros] at e1
  by_cases c5 : r1 = 0
  swap
  · rw [if_pos c5]; exact hbad _ _ (by decide)
  rw [if_neg (not_not.2 c5)]
  by_cases c6 : toInt32 len1 = n
  swap
  · rw [if_pos c6]; exact hbad _ _ (by decide)
  rw [if_neg (not_not.2 c6)]
  refine Safe.bind (safe_copyIn hsm (by simp) fun x2 l2 => ?_)
  refine Safe.bind (safe_copyIn hpk (by simp) fun y2 k2 => ?_)
  rw [prefixOf_ok (by omega)]
  refine Safe.bind (safe_liftC fun a ha => ?_)
  injection ha with ha
  subst ha
  refine Safe.bind (safe_liftC fun r2 hr2 => ?_)
  by_cases c7 : r2 = 0
  swap
  · rw [if_pos c7]; exact hbad _ _ (by decide)
  rw [if_neg (not_not.2 c7)]
  refine Safe.bind (safe_copyIn hsm (by simp) fun x3 l3 => ?_)
  refine Safe.bind (safe_copyIn hpk (by simp) fun y3 k3 => ?_)
  refine Safe.bind (safe_liftC fun r3 hr3 => ?_)
  by_cases c8 : r3 = 0
  swap
  · rw [if_pos c8]; exact hbad _ _ (by decide)
  rw [if_neg (not_not.2 c8)]
  subst c5 c7 c8
  rw [splice_zeros k1] at ht
  rw [splice_zeros l2, splice_zeros k2] at hr2
  rw [splice_zeros l3, splice_zeros k3] at hr3
  have hsb : ([b0] ++ ([b1] ++ (x1 ++ (x2 ++ x3)))).length = smlen := by simp [l1, l2, l3]; omega
  refine hok _ ([b0] ++ ([b1] ++ (x1 ++ (x2 ++ x3)))) (y1 ++ (y2 ++ y3)) m1 n hsb (by simp [k1, k2, k3]) ?_ ?_ (by omega) (by omega) ?_
  · simp only [At_append, At_single, l1, l2, List.length_singleton, Nat.zero_add, Nat.reduceAdd]
    rw [show 2 + (64 + n) = 2 + 64 + n by omega]
    intro f hf
    simp only [Set.mem_union] at hf ⊢
    tauto
  · simp only [At_append, k1, k2, Nat.zero_add]
    intro f hf
    simp only [Set.mem_union] at hf ⊢
    tauto
  · have s1 : slice ([b0] ++ ([b1] ++ (x1 ++ (x2 ++ x3)))) 2 (64 + n) = x1 := by
      rw [← List.append_assoc]; exact slice_here rfl l1
    have s2 : slice ([b0] ++ ([b1] ++ (x1 ++ (x2 ++ x3)))) (66 + n) 2420 = x2 := by
      rw [← List.append_assoc, ← List.append_assoc]; exact slice_here (by simp [l1]; omega) l2
    have s3 : slice ([b0] ++ ([b1] ++ (x1 ++ (x2 ++ x3)))) (2486 + n) 49856 = x3 := by
      rw [← List.append_assoc, ← List.append_assoc, ← List.append_assoc]; exact slice_last (by simp [l1, l2]; omega) l3
    have t1 : slice (y1 ++ (y2 ++ y3)) 0 32 = y1 := by
      rw [slice_append_left (by omega)]; exact slice_full k1
    have t2 : slice (y1 ++ (y2 ++ y3)) 32 1312 = y2 := slice_here k1 k2
    have t3 : slice (y1 ++ (y2 ++ y3)) 1344 64 = y3 := by
      rw [← List.append_assoc]; exact slice_last (by simp [k1, k2]) k3
    have g0 : ([b0] ++ ([b1] ++ (x1 ++ (x2 ++ x3)))).getD 0 0 = b0 := rfl
    have g1 : ([b0] ++ ([b1] ++ (x1 ++ (x2 ++ x3)))).getD 1 0 = b1 := rfl
    generalize [b0] ++ ([b1] ++ (x1 ++ (x2 ++ x3))) = sb at *
    generalize y1 ++ (y2 ++ y3) = pkb at *
    unfold fullOpen
    rw [g0, g1, hn, hsb, if_neg c1, if_neg (not_not.2 c2)]
    simp only
    rw [if_neg c3, if_neg (not_not.2 c4), s1, s2, s3, t1, t2, t3, ht]
    simp only [ok_bind]
    rw [if_neg (by simp), if_neg (not_not.2 c6), hr2]
    simp only [ok_bind]
    rw [if_neg (by simp), hr3]
    simp

/-- Compact open reads the key and the signature once and then the message part of the signature a second time. -/
theorem safe_openCompact (hP : P.Sized) {m mlen sm pk : Ptr} {smlen : Nat} (hsm : sm.blk < base) (hpk : pk.blk < base)
    (hbad : ∀ R' c, c ≠ 0 → Q st sp R' S c)
    (hok : ∀ R' (sb pkb msg : Bytes), sb.length = smlen → pkb.length = 1408 → At sm 0 sb ⊆ R' → At pk 0 pkb ⊆ R' → msg.length ≤ 64 → compactOpen P sb pkb = .ok (.ok msg) →
      Safe base G Q (compactTail m mlen sm msg.length) st sp R' S) :
    Safe base G Q (Conc.openCompact P (some m) (some mlen) (some sm) smlen (some pk)) st sp R S := by
  simp only [Conc.openCompact]
  simp only [ED_PK, DIL_PK, SPX_PK, ED_SIG, DIL_SIG, LEN_BYTES, MAX_MSG_LEN, MIN_MSG_LEN, COMPACT_ID, NONCE_BYTES, HASH_LENGTH]
  by_cases c1 : smlen < 2527 ∨ smlen > 2590
  · rw [if_pos (by omega)]; exact hbad _ _ (by decide)
  rw [if_neg (by omega)]
  refine Safe.bind (safe_load hsm fun b0 => ?_)
  by_cases c2 : b0.toNat = 1
  swap
  · rw [if_pos c2]; exact hbad _ _ (by decide)
  rw [if_neg (not_not.2 c2)]
  refine Safe.bind (safe_load hsm fun b1 => ?_)
  generalize hn : b1.toNat = n
  by_cases c3 : n ≤ 0 ∨ n > 64
  · rw [if_pos c3]; exact hbad _ _ (by decide)
  rw [if_neg c3]
  by_cases c4 : smlen = 2526 + n
  swap
  · rw [if_pos (by omega)]; exact hbad _ _ (by decide)
  rw [if_neg (by omega)]
  simp only [Nat.reduceAdd]
  refine Safe.bind (safe_copyIn hsm (by simp) fun x3 l3 => ?_)
  refine Safe.bind (safe_copyIn hsm (by rw [length_splice (by simp; omega)]; simp; omega) fun x4 l4 => ?_)
  rw [splice_append (by omega) (by simp; omega)]
  refine Safe.bind (safe_copyIn hpk (by rw [length_splice (by simp; omega)]; simp; omega) fun y3 k3 => ?_)
  rw [splice_append (by simp; omega) (by simp; omega)]
  rw [prefixOf_ok (by rw [length_splice (by simp; omega)]; simp; omega), take_splice (by simp; omega)]
  refine Safe.bind (safe_liftC fun a ha => ?_)
  injection ha with ha
  subst ha
  have hh := hP.sha3_512 (x3 ++ x4 ++ y3)
  generalize hhash : P.sha3_512 (x3 ++ x4 ++ y3) = h at hh
  refine Safe.bind (safe_copyIn hsm (by simp) fun x1 l1 => ?_)
  rw [copy_ok (by omega) (by rw [length_splice (by simp; omega)]; simp)]
  refine Safe.bind (safe_liftC fun a ha => ?_)
  injection ha with ha
  subst ha
  rw [slice_full hh, splice_append l1 (by simp; omega), splice_zeros (by simp; omega)]
  refine Safe.bind (safe_copyIn hpk (by simp) fun y1 k1 => ?_)
  rw [splice_zeros k1]
  refine Safe.bind (safe_liftC fun t ht => ?_)
  obtain ⟨r1, m1, len1⟩ := t
  dsimp only
  have e1 := hP.edOpen _ _ _ _ _ _ _ _ ht
  simp only [length_zeros] at e1
  by_cases c5 : r1 = 0
  swap
  · rw [if_pos c5]; exact hbad _ _ (by decide)
  rw [if_neg (not_not.2 c5)]
  by_cases c6 : len1 = 64
  swap
  · rw [if_pos c6]; exact hbad _ _ (by decide)
  rw [if_neg (not_not.2 c6), prefixOf_ok (by omega), prefixOf_ok (by omega)]
  refine Safe.bind (safe_liftC fun a ha => ?_)
  injection ha with ha
  subst ha
  refine Safe.bind (safe_liftC fun a ha => ?_)
  injection ha with ha
  subst ha
  rw [List.take_of_length_le (l := h) (by omega)]
  by_cases c7 : m1.take 64 = h
  swap
  · rw [if_pos c7]; exact hbad _ _ (by decide)
  rw [if_neg (not_not.2 c7)]
  refine Safe.bind (safe_copyIn hsm (by simp) fun x2 l2 => ?_)
  refine Safe.bind (safe_copyIn hpk (by simp) fun y2 k2 => ?_)
  rw [splice_zeros l2, splice_zeros k2]
  refine Safe.bind (safe_liftC fun r2 hr2 => ?_)
  by_cases c8 : r2 = 0
  swap
  · rw [if_pos c8]; exact hbad _ _ (by decide)
  rw [if_neg (not_not.2 c8)]
  subst c5 c8
  have hsb : ([b0] ++ ([b1] ++ (x1 ++ (x2 ++ (x3 ++ x4))))).length = smlen := by simp [l1, l2, l3, l4]; omega
  have := hok (R ∪ {((sm.blk, sm.off + 0), b0)} ∪ {((sm.blk, sm.off + 1), b1)} ∪ At sm 2486 x3 ∪ At sm 2526 x4 ∪ At pk 1344 y3 ∪ At sm 2 x1 ∪ At pk 0 y1 ∪ At sm 66 x2 ∪ At pk 32 y2)
    ([b0] ++ ([b1] ++ (x1 ++ (x2 ++ (x3 ++ x4))))) (y1 ++ (y2 ++ y3)) x4 hsb (by simp [k1, k2, k3]) ?_ ?_ (by omega) ?_
  · rw [l4] at this; exact this
  · simp only [At_append, At_single, l1, l2, l3, List.length_singleton, Nat.zero_add, Nat.reduceAdd]
    intro f hf
    simp only [Set.mem_union] at hf ⊢
    tauto
  · simp only [At_append, k1, k2, Nat.zero_add]
    intro f hf
    simp only [Set.mem_union] at hf ⊢
    tauto
  · have s1 : slice ([b0] ++ ([b1] ++ (x1 ++ (x2 ++ (x3 ++ x4))))) 2 64 = x1 := by
      rw [← List.append_assoc]; exact slice_here rfl l1
    have s2 : slice ([b0] ++ ([b1] ++ (x1 ++ (x2 ++ (x3 ++ x4))))) 66 2420 = x2 := by
      rw [← List.append_assoc, ← List.append_assoc]; exact slice_here (by simp [l1]) l2
    have s3 : slice ([b0] ++ ([b1] ++ (x1 ++ (x2 ++ (x3 ++ x4))))) 2486 40 = x3 := by
      rw [← List.append_assoc, ← List.append_assoc, ← List.append_assoc]; exact slice_here (by simp [l1, l2]) l3
    have s4 : slice ([b0] ++ ([b1] ++ (x1 ++ (x2 ++ (x3 ++ x4))))) 2526 n = x4 := by
      rw [← List.append_assoc, ← List.append_assoc, ← List.append_assoc, ← List.append_assoc]; exact slice_last (by simp [l1, l2, l3]) l4
    have t1 : slice (y1 ++ (y2 ++ y3)) 0 32 = y1 := by
      rw [slice_append_left (by omega)]; exact slice_full k1
    have t2 : slice (y1 ++ (y2 ++ y3)) 32 1312 = y2 := slice_here k1 k2
    have t3 : slice (y1 ++ (y2 ++ y3)) 1344 64 = y3 := by
      rw [← List.append_assoc]; exact slice_last (by simp [k1, k2]) k3
    have g0 : ([b0] ++ ([b1] ++ (x1 ++ (x2 ++ (x3 ++ x4))))).getD 0 0 = b0 := rfl
    have g1 : ([b0] ++ ([b1] ++ (x1 ++ (x2 ++ (x3 ++ x4))))).getD 1 0 = b1 := rfl
    generalize [b0] ++ ([b1] ++ (x1 ++ (x2 ++ (x3 ++ x4)))) = sb at *
    generalize y1 ++ (y2 ++ y3) = pkb at *
    unfold compactOpen
    rw [g0, g1, hn, hsb, if_neg c1, if_neg (not_not.2 c2)]
    simp only
    rw [if_neg c3, if_neg (not_not.2 c4), s1, s2, s3, s4, t1, t2, t3, hhash, ht]
    simp only [ok_bind]
    rw [if_neg (by simp), if_neg (not_not.2 c6), if_neg (not_not.2 c7), hr2]
    simp

/-! ### Results in local arrays -/

theorem safe_storeU64_local {Q : (Nat → Option Bytes) → Nat → Facts → Facts → Unit → Prop} {b : Bytes} {k v : Nat} (hk : base ≤ k) (hb : b.length = 8)
    (h : Q (Function.update st k (some (le64 v))) sp R S ()) : Safe base G Q (storeU64 ⟨k, 0⟩ v) (Function.update st k (some b)) sp R S := by
  refine safe_copyOut_local hk (by simp) (by omega) ?_
  have e : splice b 0 (slice (le64 v) 0 8) = le64 v := by
    rw [slice_full (by simp), splice_all (by simp [hb])]
  rw [e]; exact h

theorem take_splice_local {b x : Bytes} : (splice b 0 x).take x.length = x := take_splice rfl

/-- The end of full open when message and length go to local arrays. -/
theorem safe_fullTail_local {k n : Nat} {msg1 b : Bytes} (hk : base ≤ k) (hn : n ≤ msg1.length) (hb : n ≤ b.length)
    (h : ∀ b' : Bytes, n ≤ b'.length → b'.take n = msg1.take n → Q (Function.update (Function.update st k (some b')) (k + 1) (some (le64 n))) sp R S 0) :
    Safe base G Q (fullTail ⟨k, 0⟩ ⟨k + 1, 0⟩ msg1 n) (Function.update (Function.update st k (some b)) (k + 1) (some (zeros 8))) sp R S := by
  unfold fullTail
  rw [Function.update_comm (by omega)]
  refine Safe.bind (safe_copyOut_local hk (by omega) (by omega) ?_)
  rw [Function.update_comm (by omega)]
  refine Safe.bind (safe_storeU64_local (by omega) (by simp) (safe_pure ?_))
  have e : (slice msg1 0 n).length = n := length_slice (by omega)
  refine h _ (by rw [length_splice (by omega)]; omega) ?_
  have := take_splice_local (b := b) (x := slice msg1 0 n)
  rw [e] at this
  rw [this]; simp [slice]

/-- The end of compact open when message and length go to local arrays. -/
theorem safe_compactTail_local {k n : Nat} {sm : Ptr} {b : Bytes} (hk : base ≤ k) (hsm : sm.blk < base) (hb : n ≤ b.length)
    (h : ∀ b' msg : Bytes, n ≤ b'.length → msg.length = n → b'.take n = msg → Q (Function.update (Function.update st k (some b')) (k + 1) (some (le64 n))) sp (R ∪ At sm 2526 msg) S 0) :
    Safe base G Q (compactTail ⟨k, 0⟩ ⟨k + 1, 0⟩ sm n) (Function.update (Function.update st k (some b)) (k + 1) (some (zeros 8))) sp R S := by
  unfold compactTail
  rw [Function.update_comm (by omega)]
  refine Safe.bind (safe_copyMem_local hk hsm (by omega) fun x hx => ?_)
  rw [Function.update_comm (by omega)]
  refine Safe.bind (safe_storeU64_local (by omega) (by simp) (safe_pure ?_))
  refine h _ x (by rw [length_splice (by omega)]; omega) hx ?_
  have := take_splice_local (b := b) (x := x)
  rw [hx] at this
  exact this

/-- The common body of the two verify functions: open into local arrays, then compare. -/
theorem safe_verify {X : Facts → Bytes → Prop} (hX : ∀ R R' msg, R ⊆ R' → X R msg → X R' msg) {op : Ptr → Ptr → Prog Int} {b : Bytes} {m : Ptr} {mlen : Nat} (hsp : base ≤ sp) (hm : m.blk < base)
    (hop : Safe base (fun _ _ _ => False) (fun st _ R S r => S = ∅ ∧ (r = 0 → ∃ (msg b' : Bytes), X R msg ∧ msg.length ≤ 64 ∧ st sp = some b' ∧ msg.length ≤ b'.length ∧ b'.take msg.length = msg ∧
      st (sp + 1) = some (le64 msg.length))) (op ⟨sp, 0⟩ ⟨sp + 1, 0⟩) (Function.update (Function.update st sp (some b)) (sp + 1) (some (zeros 8))) (sp + 2) R ∅) :
    Safe base (fun _ _ _ => False) (fun _ _ R S r => S = ∅ ∧ (r = 0 → ∃ msg : Bytes, msg.length = mlen ∧ X R msg ∧ At m 0 msg ⊆ R))
      (withLocal b fun buf => withLocal (zeros 8) fun lenp => do
        let r ← op buf lenp
        if r ≠ 0 then pure (-2) else do
        let l ← loadU64 lenp
        if l ≠ mlen then pure (-3) else
        cmpMem buf m 0 l) st sp R ∅ := by
  refine safe_withLocal hsp (safe_withLocal (by omega) (Safe.bind (hop.mono (fun _ _ _ h => h) fun st' sp' R' S' r h => ?_)))
  obtain ⟨rfl, h⟩ := h
  by_cases hr : r = 0
  swap
  · rw [if_pos hr]; exact ⟨rfl, fun h => absurd h (by decide)⟩
  rw [if_neg (not_not.2 hr)]
  obtain ⟨msg, b', h1, h2, h3, h4, h5, h6⟩ := h hr
  refine Safe.bind (safe_loadU64_local (by omega) h6 (by omega) ?_)
  by_cases hl : msg.length = mlen
  swap
  · rw [if_pos hl]; exact ⟨rfl, fun h => absurd h (by decide)⟩
  rw [if_neg (not_not.2 hl)]
  refine safe_cmpMem hsp hm h3 h4 ⟨rfl, fun _ => ⟨msg, hl, hX _ _ _ Set.subset_union_left h1, ?_⟩⟩ fun R' _ => ⟨rfl, fun h => absurd h (by decide)⟩
  rw [h5]
  exact Set.subset_union_right

end Verif.Conc
