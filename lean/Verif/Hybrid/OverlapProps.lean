import Verif.Hybrid.Overlap

/-!
The property C104, and what is true of C23 in compact mode: buffers that overlap.
-/

namespace Verif.Hybrid
open Verif Toy

variable {P : Prims}

theorem write_rng_view (W : World) (R : Rng) (p q : Ptr) (x : Bytes) (n : Nat) : (({ W with rng := R } : World).write p x).view q n = (W.write p x).view q n := by
  unfold World.write
  simp only
  cases W.mem p.blk with
  | none => rfl
  | some b =>
    simp only
    split <;> rfl

theorem signTail_gen {W : World} {sm smlen m : Ptr} {mlen : Nat} {mb pre : Bytes} (hpre : pre.length = 2526)
    (hm : (W.write sm pre).view m mlen = some mb) (hsm : (W.view sm (2526 + mlen)).isSome) (hl : (W.view smlen 8).isSome) :
    signTail sm smlen m mlen (W.write sm pre) = .ok (0, (W.write sm (pre ++ forward (sm.add 2526) m mb)).write smlen (le64 (2526 + mlen))) := by
  have hmb := length_of_view hm
  simp only [signTail, M_bind_apply]
  rw [copyMem_any (x := mb) (write_view_isSome (view_isSome_sub hsm (by omega))) (by simpa [Ptr.add] using hm),
    write_append' hsm hpre.symm (by rw [length_forward]; omega)]
  simp only [ok_bind]
  rw [storeU64_ok (write_view_isSome hl)]
  rfl

theorem signCompact_apart {W : World} (hP : P.Sized) {sm smlen m sk : Ptr} {mlen : Nat} {mb skb : Bytes}
    (hm : W.view m mlen = some mb) (hsk : W.view sk 4064 = some skb) (hsm : (W.view sm (2526 + mlen)).isSome) (hl : (W.view smlen 8).isSome)
    (hd : Disj sm 2526 m mlen) (h1 : 1 ≤ mlen) (h2 : mlen ≤ 64) :
    signCompact P (some sm) (some smlen) (some m) mlen (some sk) W =
      (compactSig P mb skb W.rng >>= fun p => match p.1 with
        | .error c => .ok (c, { W with rng := p.2 })
        | .ok sig => .ok (0, (({ W with rng := p.2 } : World).write sm sig).write smlen (le64 (2526 + mlen)))) := by
  rw [signCompact_gen hP hm hsk hsm h1 h2]
  cases hs : compactSig P mb skb W.rng with
  | error e => rfl
  | ok t =>
    obtain ⟨x, R'⟩ := t
    cases x with
    | error c => rfl
    | ok sig =>
      obtain ⟨pre, hp, rfl⟩ := compactSig_form hP hs
      simp only [ok_bind]
      rw [List.take_append_of_le_length (by omega), List.take_of_length_le (by omega)]
      have hmb := length_of_view hm
      rw [signTail_gen (W := { W with rng := R' }) (mb := mb) hp (by rw [view_write_disj (by rw [hp]; exact hd)]; exact hm) hsm hl, forward_of_fwd]
      · rw [hmb]
        rcases hd with hd | hd | hd
        · exact .inl hd
        · exact .inr (.inl (by simp only [Ptr.add]; omega))
        · exact .inr (.inr (by simp only [Ptr.add]; omega))

/-- C23 for compact mode (what holds): if the message lies apart from the first 2526 bytes of the output buffer in both memories, the result does not depend on where the buffers lie; so it may lie
where the output buffer ends, whether or not at the place of the embedded message.  Missing: a message that meets the first 2526 bytes of the output, where the claim is false
(`compact_sign_overlap_corrupts`; `compact_sign_overlap_exact` says what the result is). -/
theorem compact_sign_overlap_partial (hP : P.Sized) {W V : World} {sm smlen m sk sm' smlen' m' sk' : Ptr} {mlen : Nat}
    {mb skb : Bytes} {r : Int} {W' : World}
    (hm : W.view m mlen = some mb) (hsk : W.view sk 4064 = some skb)
    (hsm : (W.view sm (2526 + mlen)).isSome) (hl : (W.view smlen 8).isSome) (hd : Disj smlen 8 sm (2526 + mlen))
    (hdm : Disj sm 2526 m mlen)
    (hm' : V.view m' mlen = some mb) (hsk' : V.view sk' 4064 = some skb)
    (hsm' : (V.view sm' (2526 + mlen)).isSome) (hl' : (V.view smlen' 8).isSome) (hd' : Disj smlen' 8 sm' (2526 + mlen))
    (hdm' : Disj sm' 2526 m' mlen) (hR : V.rng = W.rng)
    (h : signCompact P (some sm) (some smlen) (some m) mlen (some sk) W = .ok (r, W')) :
    ∃ V', signCompact P (some sm') (some smlen') (some m') mlen (some sk') V = .ok (r, V') ∧ V'.rng = W'.rng ∧
      (r = 0 → ∃ sig, W'.view sm (2526 + mlen) = some sig ∧ V'.view sm' (2526 + mlen) = some sig ∧
        V'.view smlen' 8 = W'.view smlen 8) := by
  have hmb := length_of_view hm
  by_cases hr : 1 ≤ mlen ∧ mlen ≤ 64
  · rw [signCompact_apart hP hm' hsk' hsm' hl' hdm' hr.1 hr.2, hR]
    rw [signCompact_apart hP hm hsk hsm hl hdm hr.1 hr.2] at h
    obtain ⟨⟨x, R'⟩, hf, h⟩ := bind_eq_ok.1 h
    rw [hf]
    cases x with
    | error c =>
      simp only [Except.ok.injEq, Prod.mk.injEq] at h
      obtain ⟨rfl, rfl⟩ := h
      exact ⟨_, rfl, rfl, fun h => absurd h (compactSig_code hf)⟩
    | ok sig =>
      simp only [Except.ok.injEq, Prod.mk.injEq] at h
      obtain ⟨rfl, rfl⟩ := h
      have hlen : sig.length = 2526 + mlen := by
        obtain ⟨nonce, b1, b2, -, -, -, -, rfl, l1, l2, l3⟩ := compactSig_ok hP hf
        rw [(wire_compact_slices (by simp [l1]) l2 l3 (by omega)).1, hmb]
      refine ⟨_, rfl, by simp only [write_rng], fun _ => ⟨sig, ?_, ?_, ?_⟩⟩
      · rw [view_write_disj (by rw [length_le64]; exact hd)]
        exact view_write_same' (W := { W with rng := R' }) hsm hlen
      · rw [view_write_disj (by rw [length_le64]; exact hd')]
        exact view_write_same' (W := { V with rng := R' }) hsm' hlen
      · rw [view_write_same' (write_view_isSome (W := { W with rng := R' }) hl) (length_le64 _),
          view_write_same' (write_view_isSome (W := { V with rng := R' }) hl') (length_le64 _)]
  · have hb : mlen = 0 ∨ 64 < mlen := by omega
    rw [((invalid_arguments (P := P) W (some sm) (some smlen) (some m) (some sk) none none none mlen 0).1 (Or.inr hb)).2] at h
    rw [((invalid_arguments (P := P) V (some sm') (some smlen') (some m') (some sk') none none none mlen 0).1 (Or.inr hb)).2]
    simp only [Except.ok.injEq, Prod.mk.injEq] at h
    obtain ⟨rfl, rfl⟩ := h
    exact ⟨V, rfl, hR, fun h => by omega⟩

/-- The message at the end of the output buffer, in the place where it will be embedded. -/
example : ∃ W', signCompact toy (some ⟨0, 0⟩) (some ⟨1, 0⟩) (some ⟨0, 2526⟩) 20 (some ⟨3, 0⟩) demo = .ok (0, W') ∧ Disj ⟨0, 0⟩ 2526 ⟨0, 2526⟩ 20 ∧ ¬ Disj ⟨0, 0⟩ (2526 + 20) ⟨0, 2526⟩ 20 := by
  obtain ⟨x, hx⟩ := Option.isSome_iff_exists.1 (view_isSome_sub (some_isSome (demo_sm 2546 (by omega))) (o := 2526) (k := 20) (by omega))
  have hm : demo.view ⟨0, 2526⟩ 20 = some x := hx
  have hd : Disj ⟨0, 0⟩ 2526 ⟨0, 2526⟩ 20 := .inr (.inl (by simp))
  have hn : ¬ Disj ⟨0, 0⟩ (2526 + 20) ⟨0, 2526⟩ 20 := by
    rintro (h | h | h) <;> simp at h
  rw [signCompact_apart toy_sized hm demo_sk (some_isSome (demo_sm _ (by omega))) (some_isSome demo_len) hd (by omega) (by omega)]
  simp only [compactSig, RandM_bind_apply, randombytes, ok_bind]
  simp only [demo, demoRng, List.length_nil, show (0 : Nat) < 100 by omega, if_true, RandM_bind_apply]
  simp only [toy, liftCR_ok, ok_bind, length_fit]
  simp only [ne_eq, not_true_eq_false, if_false, RandM_pure_apply, ok_bind]
  exact ⟨_, rfl, hd, hn⟩

/-- C104, compact signing: what a call that returns 0 writes, for every placement of message and output.  The signed message is the one before the call; the embedded one is the forward copy of what lies at
`m` after the first 2526 bytes were written. -/
theorem compact_sign_overlap_exact (hP : P.Sized) {W W' : World} {sm smlen m sk : Ptr} {mlen : Nat} {mb skb : Bytes}
    (hm : W.view m mlen = some mb) (hsk : W.view sk 4064 = some skb) (hsm : (W.view sm (2526 + mlen)).isSome) (hl : (W.view smlen 8).isSome)
    (hd : Disj smlen 8 sm (2526 + mlen)) (h : signCompact P (some sm) (some smlen) (some m) mlen (some sk) W = .ok (0, W')) :
    ∃ ed dil nonce emb, ed.length = 64 ∧ dil.length = 2420 ∧ W.rng.draw W.rng.log.length 40 = some nonce ∧
      (∃ b, P.edSign (List.replicate 128 0) 0 (P.sha3_512 (nonce ++ mb ++ skb.drop 4000)) (skEd skb) = .ok (0, b, 128) ∧ ed = b.take 64) ∧
      P.dilSign (List.replicate 2420 0) 0 (P.sha3_512 (nonce ++ mb ++ skb.drop 4000)) (skDil skb) = .ok (0, dil, 2420) ∧
      (W.write sm ([1, BitVec.ofNat 8 mlen] ++ ed ++ dil ++ nonce)).view m mlen = some emb ∧
      W'.view sm (2526 + mlen) = some ([1, BitVec.ofNat 8 mlen] ++ ed ++ dil ++ nonce ++ forward (sm.add 2526) m emb) := by
  have hmb := length_of_view hm
  have hskb := length_of_view hsk
  by_cases hr : 1 ≤ mlen ∧ mlen ≤ 64
  swap
  · have hb : mlen = 0 ∨ 64 < mlen := by omega
    rw [((invalid_arguments (P := P) W (some sm) (some smlen) (some m) (some sk) none none none mlen 0).1 (Or.inr hb)).2] at h
    simp at h
  rw [signCompact_gen hP hm hsk hsm hr.1 hr.2] at h
  obtain ⟨⟨x, R'⟩, hf, h⟩ := bind_eq_ok.1 h
  cases x with
  | error c =>
    simp only [Except.ok.injEq, Prod.mk.injEq] at h
    exact absurd h.1 (compactSig_code hf)
  | ok sig =>
    obtain ⟨nonce, b1, b2, d1, -, d2, d3, rfl, l1, l2, l3⟩ := compactSig_ok hP hf
    have lt : ([1, BitVec.ofNat 8 mlen] ++ b1.take 64 ++ b2 ++ nonce).length = 2526 := by simp [l1, l2, l3]
    have ht : (compactWire (b1.take 64) b2 nonce mb).take 2526 = [1, BitVec.ofNat 8 mlen] ++ b1.take 64 ++ b2 ++ nonce := by
      show ([1, BitVec.ofNat 8 mb.length] ++ b1.take 64 ++ b2 ++ nonce ++ mb).take 2526 = _
      rw [hmb, List.take_append_of_le_length (by omega), List.take_of_length_le (by omega)]
    have hdrop : slice skb 4000 64 = skb.drop 4000 := by
      rw [slice_eq, List.take_of_length_le (by rw [List.length_drop]; omega)]
    rw [hdrop] at d2 d3
    simp only [ht] at h
    obtain ⟨emb, he⟩ := Option.isSome_iff_exists.1 (write_view_isSome (W := { W with rng := R' }) (p := sm) (x := [1, BitVec.ofNat 8 mlen] ++ b1.take 64 ++ b2 ++ nonce) (some_isSome hm))
    rw [signTail_gen (W := { W with rng := R' }) lt he hsm hl] at h
    simp only [Except.ok.injEq, Prod.mk.injEq, true_and] at h
    subst h
    refine ⟨b1.take 64, b2, nonce, emb, by simp [l1], l2, d1, ⟨b1, d2, rfl⟩, d3, ?_, ?_⟩
    · exact (write_rng_view W R' _ _ _ _).symm.trans he
    · rw [view_write_disj (by rw [length_le64]; exact hd)]
      refine view_write_same' (W := { W with rng := R' }) hsm ?_
      rw [List.length_append, lt, length_forward, length_of_view he]

/-- A message of 20 bytes that begins six bytes before the place where it is embedded: it meets the nonce and its own copy, and the call returns 0. -/
example : (∃ W', signCompact toy (some ⟨0, 0⟩) (some ⟨1, 0⟩) (some ⟨0, 2520⟩) 20 (some ⟨3, 0⟩) demo = .ok (0, W')) ∧ ¬ Fwd (Ptr.add ⟨0, 0⟩ 2526) ⟨0, 2520⟩ 20 := by
  refine ⟨?_, by rintro (h | h | h) <;> simp [Ptr.add] at h⟩
  obtain ⟨x, hx⟩ := Option.isSome_iff_exists.1 (view_isSome_sub (some_isSome (demo_sm 2546 (by omega))) (o := 2520) (k := 20) (by omega))
  have hm : demo.view ⟨0, 2520⟩ 20 = some x := hx
  rw [signCompact_gen toy_sized hm demo_sk (some_isSome (demo_sm _ (by omega))) (by omega) (by omega)]
  simp only [compactSig, RandM_bind_apply, randombytes, ok_bind]
  simp only [demo, demoRng, List.length_nil, show (0 : Nat) < 100 by omega, if_true, RandM_bind_apply]
  simp only [toy, liftCR_ok, ok_bind, length_fit]
  simp only [ne_eq, not_true_eq_false, if_false, RandM_pure_apply, ok_bind]
  generalize hpre : List.take 2526 _ = pre
  generalize hR : Rng.mk _ _ _ = R
  have hl : pre.length = 2526 := by
    rw [← hpre, List.length_take]
    simp only [List.length_append, List.length_take, length_fit, List.length_cons, List.length_nil, List.length_replicate, length_zeros]
    omega
  obtain ⟨y, -, e⟩ := signTail_total (W := { demo with rng := R }) (sm := ⟨0, 0⟩) (smlen := ⟨1, 0⟩) (m := ⟨0, 2520⟩) (mlen := 20) hl
    (some_isSome hm) (some_isSome (demo_sm (2526 + 20) (by omega))) (some_isSome demo_len)
  exact ⟨_, e⟩

/-- C104, compact open: for every placement of the buffers, the call returns 0 exactly for valid buffers; it delivers the forward copy of the message. -/
theorem compact_open_overlap (hP : P.Sized) (hE : P.EdShape) {W W' : World} {sm m mlen pk : Ptr} {smlen : Nat}
    {sb pkb : Bytes} (hsm : W.view sm smlen = some sb) (hpk : W.view pk 1408 = some pkb) (hm : (W.view m (smlen - 2526)).isSome) (hl : (W.view mlen 8).isSome) :
    openCompact P (some m) (some mlen) (some sm) smlen (some pk) W = .ok (0, W') ↔
      ∃ msg, CompactValid P pkb msg sb ∧ W' = (W.write m (forward m (sm.add 2526) msg)).write mlen (le64 msg.length) := by
  have hsb := length_of_view hsm
  have tail : ∀ msg, compactOpen P sb pkb = .ok (.ok msg) → openTail m mlen sm msg.length W = .ok (0, (W.write m (forward m (sm.add 2526) msg)).write mlen (le64 msg.length)) := by
    intro msg hx
    have hb := compactOpen_bounds hx
    have hmsg := compactOpen_msg hx
    simp only [openTail, M_bind_apply]
    rw [copyMem_any (x := msg) (view_isSome_sub hm (by omega)) (by rw [view_sub hsm (by omega), ← hmsg])]
    simp only [ok_bind]
    rw [storeU64_ok (write_view_isSome hl)]
    simp only [ok_bind, M_pure_apply, Ptr.add, Nat.add_zero]
  rw [openCompact_gen hP hsm hpk]
  constructor
  · intro h
    obtain ⟨x, hx, h⟩ := bind_eq_ok.1 h
    cases x with
    | error c =>
      simp only [Except.ok.injEq, Prod.mk.injEq] at h
      exact absurd h.1 (compactOpen_nonneg hx)
    | ok msg =>
      refine ⟨msg, (compactOpen_iff hP hE).1 hx, ?_⟩
      simp only [tail msg hx, Except.ok.injEq, Prod.mk.injEq, true_and] at h
      exact h.symm
  · rintro ⟨msg, hv, rfl⟩
    have hx := (compactOpen_iff hP hE).2 hv
    rw [hx]
    exact tail msg hx

/-- C104: a forward copy is exact if the output begins no later than the message in the buffer or lies apart from it; so a signed message may be opened in place.  If the output begins `d` bytes after the
message, with `d` below its length, the output is the first `d` bytes of the message, repeated; so it is the message only if the message has that period. -/
theorem forward_spec (p q : Ptr) (x : Bytes) :
    (p.blk ≠ q.blk ∨ p.off ≤ q.off ∨ q.off + x.length ≤ p.off → forward p q x = x) ∧
    (∀ d, p.blk = q.blk → p.off = q.off + d → 0 < d → d < x.length → (forward p q x).length = x.length ∧ (∀ i, i < x.length → (forward p q x)[i]? = x[i % d]?) ∧
      (forward p q x = x ↔ ∀ i, i + d < x.length → x[i]? = x[i + d]?)) := by
  refine ⟨forward_of_fwd, fun d hb ho h0 hd => ?_⟩
  have key : ∀ i, i < x.length → (forward p q x)[i]? = x[i % d]? := by
    intro i hi
    unfold forward
    rw [if_pos ⟨hb, by omega, by omega⟩]
    have : i % d < x.length := Nat.lt_trans (Nat.mod_lt _ h0) hd
    simp only [List.getElem?_map, List.getElem?_range hi, Option.map_some, show p.off - q.off = d by omega, List.getD, List.getElem?_eq_getElem this, Option.getD_some]
  refine ⟨length_forward _ _ _, key, fun h i hi => ?_, fun h => ?_⟩
  · have a := key i (by omega)
    have b := key (i + d) hi
    rw [h] at a b
    rw [a, b, Nat.add_mod_right]
  · have per : ∀ k i, i + k * d < x.length → x[i]? = x[i + k * d]? := by
      intro k
      induction k with
      | zero => intro i _; simp
      | succ k ih =>
        intro i hi
        rw [ih i (by rw [Nat.succ_mul] at hi; omega), h (i + k * d) (by rw [Nat.succ_mul] at hi; omega), Nat.succ_mul, Nat.add_assoc]
    refine List.ext_getElem? fun i => ?_
    by_cases hi : i < x.length
    · rw [key i hi]
      have e : i % d + i / d * d = i := by rw [Nat.mul_comm]; exact Nat.mod_add_div i d
      have := per (i / d) (i % d) (by rw [e]; exact hi)
      rw [this, e]
    · rw [List.getElem?_eq_none (by rw [length_forward]; omega), List.getElem?_eq_none (by omega)]

/-- A valid compact buffer of the message 7, 8, 9 with the toy components. -/
theorem toy_three : ∃ sb : Bytes, sb.length = 2529 ∧ CompactValid toy toyPk [7, 8, 9] sb := by
  have hv : CompactValid toy toyPk [7, 8, 9] _ := toy_compactValid (nonce := List.replicate 40 0) (by simp) (by simp) (by simp)
  refine ⟨_, ?_, hv⟩
  exact (wire_compact_slices (ed := toyEd (compactHash toy (List.replicate 40 0) [7, 8, 9] (pkSpx toyPk))) (length_edSig _ _) (by simp [toyDil]) (by simp) (by simp)).1

/-- C104: opening into a place that begins one byte after the embedded message returns 0 and delivers the bytes 7, 7, 7 for the message 7, 8, 9; opening in place delivers the message. -/
theorem compact_open_shifted : ∃ (W W1 W2 : World) (sb : Bytes), W.view ⟨0, 0⟩ 2529 = some sb ∧ W.view ⟨1, 0⟩ 1408 = some toyPk ∧ CompactValid toy toyPk [7, 8, 9] sb ∧
    openCompact toy (some ⟨0, 2527⟩) (some ⟨2, 0⟩) (some ⟨0, 0⟩) 2529 (some ⟨1, 0⟩) W = .ok (0, W1) ∧ W1.view ⟨0, 2527⟩ 3 = some [7, 7, 7] ∧
    openCompact toy (some ⟨0, 0⟩) (some ⟨2, 0⟩) (some ⟨0, 0⟩) 2529 (some ⟨1, 0⟩) W = .ok (0, W2) ∧ W2.view ⟨0, 0⟩ 3 = some [7, 8, 9] := by
  obtain ⟨sb, hl, hv⟩ := toy_three
  have hW : (holding [sb ++ [0], toyPk, List.replicate 8 0]).view ⟨0, 0⟩ 2530 = some (sb ++ [0]) := holding_view rfl (by simp [hl])
  have v0 : (holding [sb ++ [0], toyPk, List.replicate 8 0]).view ⟨0, 0⟩ 2529 = some sb := by
    have := view_sub hW (o := 0) (k := 2529) (by omega)
    rw [slice_eq, List.drop_zero, List.take_append_of_le_length (by omega), List.take_of_length_le (by omega)] at this
    exact this
  have v1 : (holding [sb ++ [0], toyPk, List.replicate 8 0]).view ⟨1, 0⟩ 1408 = some toyPk := holding_view rfl (by simp [toyPk])
  have v2 : (holding [sb ++ [0], toyPk, List.replicate 8 0]).view ⟨2, 0⟩ 8 = some (List.replicate 8 0) := holding_view rfl rfl
  have m1 : ((holding [sb ++ [0], toyPk, List.replicate 8 0]).view ⟨0, 2527⟩ (2529 - 2526)).isSome := view_isSome_sub (some_isSome hW) (o := 2527) (k := 3) (by omega)
  have m2 : ((holding [sb ++ [0], toyPk, List.replicate 8 0]).view ⟨0, 0⟩ (2529 - 2526)).isSome := view_isSome_sub (some_isSome hW) (o := 0) (k := 3) (by omega)
  generalize holding [sb ++ [0], toyPk, List.replicate 8 0] = W at *
  refine ⟨W, _, _, sb, v0, v1, hv, (compact_open_overlap toy_sized toy_edShape v0 v1 m1 (some_isSome v2)).2 ⟨_, hv, rfl⟩, ?_,
    (compact_open_overlap toy_sized toy_edShape v0 v1 m2 (some_isSome v2)).2 ⟨_, hv, rfl⟩, ?_⟩
  · rw [view_write_disj (Or.inl (by simp))]
    exact view_write_same' m1 rfl
  · rw [view_write_disj (Or.inl (by simp))]
    exact view_write_same' m2 rfl

theorem seedExpander_overlap_run (hP : P.Sized) {W : World} {seed ex : Ptr} {seedb : Bytes} (hs : W.view seed 96 = some seedb) (hx : (W.view ex 160).isSome)
    (hd : Disj ex 32 (seed.add 64) 32) (hf : Fwd (ex.add 32) (seed.add 64) 32) :
    seedExpander P (some seed) (some ex) W =
      (expandBytes P seedb >>= fun x => match x with
        | .error c => .ok (c, W)
        | .ok b => .ok (0, W.write ex b)) := by
  have hsb := length_of_view hs
  simp only [seedExpander, expandBytes]
  simp only [M_bind_apply]
  rw [expanderCopy_run hs]; simp only [ok_bind]
  cases he : P.seedexpander (effectiveSeed seedb) 128 with
  | error e => rfl
  | ok t =>
    obtain ⟨r, tmp⟩ := t
    have hl := hP.seedexpander _ _ _ _ he
    simp only [liftC_ok, ok_bind]
    by_cases c : r = 0
    swap
    · rw [if_pos c, if_pos c]; rfl
    rw [if_neg (not_not.2 c), if_neg (not_not.2 c)]
    simp only [M_bind_apply]
    rw [← write_nil W ex, copyOut_append hx (by rfl) (by omega) (by omega)]; simp only [ok_bind, List.nil_append]
    have hl1 : (slice tmp 0 32).length = 32 := length_slice (by omega)
    have hv : (W.write ex (slice tmp 0 32)).view (seed.add 64) 32 = some (slice seedb 64 32) := by
      rw [view_write_disj (by rw [hl1]; exact hd), view_sub hs (by omega)]
    have hl2 : (slice seedb 64 32).length = 32 := length_slice (by omega)
    rw [copyMem_fwd (write_view_isSome (view_isSome_sub hx (by omega))) hv hf, write_append' hx hl1.symm (by omega)]
    simp only [ok_bind]
    rw [copyOut_append hx (by simp [hl1, hl2]) (by omega) (by omega)]
    rw [write_nil]
    rfl

/-- C104, the seed expander: it gives the result of C18 whenever the seed bytes 64..95 lie apart from the first 32 bytes of the output and not before the place to which they are copied; so it may be called
in place. -/
theorem expander_overlap (hP : P.Sized) {W W' : World} {seed ex : Ptr} {seedb : Bytes} {r : Int} (hs : W.view seed 96 = some seedb) (hx : (W.view ex 160).isSome)
    (hd : Disj ex 32 (seed.add 64) 32) (hf : Fwd (ex.add 32) (seed.add 64) 32) (h : seedExpander P (some seed) (some ex) W = .ok (r, W')) :
    ∃ s tmp, EffectiveSeed seedb s ∧ P.seedexpander s 128 = .ok (r, tmp) ∧
      (r = 0 → W'.view ex 160 = some (tmp.take 32 ++ (seedb.drop 64).take 32 ++ tmp.drop 32)) ∧ (r ≠ 0 → W' = W) := by
  have hsb := length_of_view hs
  rw [seedExpander_overlap_run hP hs hx hd hf] at h
  obtain ⟨x, hx', h⟩ := bind_eq_ok.1 h
  unfold expandBytes at hx'
  obtain ⟨⟨r', tmp⟩, ht, hx'⟩ := bind_eq_ok.1 hx'
  have hl := hP.seedexpander _ _ _ _ ht
  simp only at hx'
  by_cases c : r' = 0
  · subst c
    simp only [ne_eq, not_true_eq_false, if_false, Except.ok.injEq] at hx'
    subst hx'
    simp only [Except.ok.injEq, Prod.mk.injEq] at h
    obtain ⟨rfl, rfl⟩ := h
    refine ⟨_, tmp, effectiveSeed_spec hsb, ht, fun _ => ?_, fun c => absurd rfl c⟩
    rw [view_write_same' hx (by simp [slice, hl, hsb])]
    simp only [slice_eq, List.drop_zero]
    rw [List.take_of_length_le (l := tmp.drop 32) (by rw [List.length_drop]; omega)]
  · simp only [ne_eq, c, not_false_eq_true, if_true, Except.ok.injEq] at hx'
    subst hx'
    simp only [Except.ok.injEq, Prod.mk.injEq] at h
    obtain ⟨rfl, rfl⟩ := h
    exact ⟨_, tmp, effectiveSeed_spec hsb, ht, fun e => absurd e c, fun _ => rfl⟩

/-- In place: seed and output at the same address. -/
example : (∃ W', seedExpander toy (some ⟨5, 0⟩) (some ⟨5, 0⟩) demo = .ok (0, W')) ∧ Disj (⟨5, 0⟩ : Ptr) 32 (Ptr.add ⟨5, 0⟩ 64) 32 ∧ Fwd (Ptr.add ⟨5, 0⟩ 32) (Ptr.add ⟨5, 0⟩ 64) 32 := by
  have hd : Disj (⟨5, 0⟩ : Ptr) 32 (Ptr.add ⟨5, 0⟩ 64) 32 := .inr (.inl (by simp [Ptr.add]))
  have hf : Fwd (Ptr.add ⟨5, 0⟩ 32) (Ptr.add ⟨5, 0⟩ 64) 32 := .inr (.inl (by simp [Ptr.add]))
  refine ⟨?_, hd, hf⟩
  rw [seedExpander_overlap_run toy_sized (demo_seed 96 (by omega)) (some_isSome (demo_seed 160 (by omega))) hd hf]
  exact ⟨_, rfl⟩

end Verif.Hybrid
