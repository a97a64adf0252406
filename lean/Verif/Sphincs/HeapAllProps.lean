import Verif.Sphincs.HeapCount

/-!
The property C114: how many Keccak contexts the SPHINCS+ functions allocate, that all are released, and that the process stops exactly if
one of these allocations fails.
-/

namespace Verif.Sphincs.Heap
open Verif Verif.Keccak Verif.Keccak.Heap Verif.Sphincs.Spec

/-- C114, key generation from a seed: 17183 contexts, whatever the seed. -/
theorem spx_keygen_contexts (pk sk seed : Bytes) (hpk : pk.length = 64) (hsk : sk.length = 128) (hs : seed.length = 96) (h : Ctxs) (hw : h.WF) :
    (OneFails h 17183 → seedKeypairH pk sk seed h = .error (.exit 111)) ∧
    (¬OneFails h 17183 → seedKeypairH pk sk seed h =
      .ok ((0, publicKey shake256F ⟨seed.drop 64, seed.take 32⟩, seed ++ (publicKey shake256F ⟨seed.drop 64, seed.take 32⟩).drop 32), { h with next := h.next + 17183 })) := by
  have hv := spx_keygen_spec length_shake256F pk sk seed hpk hsk hs
  have hb : Between 17183 17183 (seedKeypairH pk sk seed) (seedKeypair shake256F pk sk seed) := by
    unfold seedKeypairH seedKeypair
    refine Between.bindC fun _ _ => Between.bindC fun _ _ => Between.bindC fun _ _ => Between.bindC fun _ _ => Between.bindC fun _ _ => ?_
    refine Between.bind1 ?_ fun _ _ => Between.bindC fun _ _ => Between.bindC fun _ _ => Between.pure
    unfold merkleGenRootH merkleGenRoot
    refine Between.bindC fun _ _ => Between.bindC fun _ _ => Between.bind1 (between_merkleSign _ _ _ _ _ _ _) ?_
    rintro ⟨_, root, _⟩ -
    exact Between.pure
  have := hb.exact hv
  rw [hv] at this
  exact uses_iff this h hw

/-- C114, signing: 345874 contexts, whatever the key and the message. -/
theorem spx_sign_contexts (sig m sk opt : Bytes) (hsig : 49856 ≤ sig.length) (hsk : sk.length = 128) (hopt : opt.length = 32) (h : Ctxs) (hw : h.WF) :
    (OneFails h 345874 → signBodyH sig m sk opt h = .error (.exit 111)) ∧
    (¬OneFails h 345874 → signBodyH sig m sk opt h =
      .ok (sign shake256F ⟨slice sk 64 32, sk.take 32⟩ (slice sk 32 32) (sk.drop 64) opt m ++ sig.drop 49856, { h with next := h.next + 345874 })) := by
  have hv : signBody shake256F sig m sk opt = .ok (sign shake256F ⟨slice sk 64 32, sk.take 32⟩ (slice sk 32 32) (sk.drop 64) opt m ++ sig.drop 49856) := by
    have hpub : (slice sk 64 32).length = 32 := length_slice (by omega)
    have hsec : (sk.take 32).length = 32 := by rw [List.length_take, hsk]; rfl
    have e : sk.drop 64 = slice sk 64 32 ++ sk.drop 96 := by
      rw [slice, show 96 = 64 + 32 from rfl, ← List.drop_drop, List.take_append_drop]
    have h := signBody_run' length_shake256F (s := ⟨slice sk 64 32, sk.take 32⟩) hpub hsec (prfKey := slice sk 32 32) (root := sk.drop 96)
      (length_slice (by omega)) (by rw [List.length_drop, hsk]) hsig m opt
    simp only at h
    rw [← e, ← split3] at h
    have hl := length_sign length_shake256F ⟨slice sk 64 32, sk.take 32⟩ (slice sk 32 32) (sk.drop 64) opt m
    rw [h, splice, List.take_zero, List.nil_append, Nat.zero_add, hl]
  have hb : Between 345874 345874 (signBodyH sig m sk opt) (signBody shake256F sig m sk opt) := by
    unfold signBodyH signBody
    refine Between.bindC fun skPrf e1 => Between.bindC fun pkb e2 => Between.bindC fun _ _ => Between.bindC fun _ _ => Between.bindC fun _ _ => Between.bindC fun _ _ => ?_
    have l1 : skPrf.length = 32 := (copy_length e1).trans List.length_replicate
    have l2 : pkb.length = 64 := (copy_length e2).trans List.length_replicate
    refine Between.bindOk (l1 := 1) (h1 := 1) (l2 := 345873) (h2 := 345873) (single_between (ctx_gen_message_random _ _ _ l1 hopt)) ?_
    refine Between.bindC fun _ _ => Between.bindC fun R e3 => ?_
    have l3 : R.length = 32 := (copy_length e3).trans List.length_replicate
    refine Between.bind (l1 := 1) (h1 := 1) (l2 := 345872) (h2 := 345872) (single_between (ctx_hash_message _ _ _ l3 l2)) ?_
    rintro ⟨mhash, tree, idxLeaf⟩ -
    refine Between.bindC fun _ _ => Between.bindC fun _ _ => ?_
    refine Between.bind (l1 := 53761) (h1 := 53761) (l2 := 292111) (h2 := 292111) (between_forsSign _ _ _ _ _) ?_
    rintro ⟨sig, root⟩ -
    refine Between.bind1 (between_loop (lo := 17183) (hi := 17183) ?_ 17 0 _) fun _ _ => Between.pure
    rintro i ⟨sig, root, wotsAddr, treeAddr, tree, idxLeaf⟩
    refine Between.bindC fun _ _ => Between.bindC fun _ _ => Between.bindC fun _ _ => Between.bindC fun _ _ => Between.bind1 (between_merkleSign _ _ _ _ _ _ _) ?_
    rintro ⟨sig, root, treeAddr⟩ -
    exact Between.pure
  have := hb.exact hv
  rw [hv] at this
  exact uses_iff this h hw

/-- The strings that the one-time keys of layers `layer`, ..., `layer + n - 1` of a signature sign, completed: how many hash values that takes (compare `htRootFromSig`; no line of its own). -/
def htSteps (pub : Bytes) : (n layer tree leaf : Nat) → (sig m : Bytes) → Nat
  | 0, _, _, _, _, _ => 0
  | n + 1, layer, tree, leaf, sig, m =>
    steps m + htSteps pub n (layer + 1) (tree / 16) (tree % 16) (sig.drop 2272) (xmssRootFromSig shake256F pub layer tree leaf (sig.take 2272) m)

/-- The same for all 17 layers; the lowest one-time key signs the FORS public key (compare `rootFromSig`; no line of its own). -/
def verifySteps (pk sig m : Bytes) : Nat :=
  let d := digest shake256F (sig.take 32) pk m
  htSteps (pk.take 32) 17 0 (treeOf d) (leafOf d) (sig.drop 11232) (Spec.forsPkFromSig shake256F (pk.take 32) ⟨0, treeOf d, leafOf d⟩ (slice sig 32 11200) (mdOf d))

theorem steps_eq (m : Bytes) : steps m = checksum m + 45 - (checksum m / 256 % 16 + checksum m / 16 % 16 + checksum m % 16) := by
  have e : ((List.range 64).map fun i => 15 - digit m i) = (List.range 64).map fun i => 15 - msgDigit m i := by
    refine List.map_congr_left fun i hi => ?_
    rw [digit, if_pos (List.mem_range.1 hi)]
  rw [steps, sum_map_range_succ, sum_map_range_succ, sum_map_range_succ, e]
  rw [show ((List.range 64).map fun i => 15 - msgDigit m i).sum = checksum m from rfl]
  rw [digit, if_neg (by decide), digit, if_neg (by decide), digit, if_neg (by decide)]
  norm_num
  omega

/-- Between 45 and 990 values for every string: the checksum lengthens where the digits shorten. -/
theorem steps_bounds (m : Bytes) : 45 ≤ steps m ∧ steps m ≤ 990 := by
  have := checksum_le m
  have e : checksum m / 16 / 16 = checksum m / 256 := Nat.div_div_eq_div_mul ..
  rw [steps_eq, ← e]
  generalize hx : checksum m / 16 = x at e ⊢
  generalize hy : x / 16 = y at e ⊢
  have h1 : y % 16 = y := Nat.mod_eq_of_lt (by omega)
  rw [h1]
  omega

theorem htSteps_bounds (pub : Bytes) : ∀ (n layer tree leaf : Nat) (sig m : Bytes), n * 45 ≤ htSteps pub n layer tree leaf sig m ∧ htSteps pub n layer tree leaf sig m ≤ n * 990 := by
  intro n
  induction n with
  | zero => intros; rw [htSteps]; omega
  | succ n ih =>
    intro layer tree leaf sig m
    rw [htSteps]
    have h1 := steps_bounds m
    have h2 := ih (layer + 1) (tree / 16) (tree % 16) (sig.drop 2272) (xmssRootFromSig shake256F pub layer tree leaf (sig.take 2272) m)
    omega

/-- The body of the loop over the layers with the contexts on the heap (sphincs/sign.c:209-236; the same text stands in `verifyH`). -/
def verifyLayerH (sig pub : Bytes) (i : Nat) (s : Bytes × Bytes × Bytes × Bytes × Nat × Nat) : K (Bytes × Bytes × Bytes × Bytes × Nat × Nat) := do
  let (root, wotsAddr, treeAddr, wotsPkAddr, tree, idxLeaf) := (s : Bytes × Bytes × Bytes × Bytes × Nat × Nat)
  let treeAddr ← onC (setLayerAddr treeAddr i)
  let treeAddr ← onC (setTreeAddr treeAddr tree)
  let wotsAddr ← onC (copySubtreeAddr wotsAddr treeAddr)
  let wotsAddr ← onC (setKeypairAddr wotsAddr idxLeaf)
  let wotsPkAddr ← onC (copyKeypairAddr wotsPkAddr wotsAddr)
  let (wotsPk, wotsAddr) ← wotsPkFromSigH sig (11232 + i * 2272) root ⟨pub, none⟩ wotsAddr
  let leaf ← thashH wotsPk 0 67 ⟨pub, none⟩ wotsPkAddr
  let (root, treeAddr) ← computeRootH leaf idxLeaf 0 sig (11232 + i * 2272 + 2144) 4 ⟨pub, none⟩ treeAddr
  let idxLeaf := tree &&& (2 ^ 4 - 1)
  let tree := tree >>> 4
  pure (root, wotsAddr, treeAddr, wotsPkAddr, tree, idxLeaf)

theorem between_layer (sig pub : Bytes) (i : Nat) {t : Bytes × Bytes × Bytes × Bytes × Nat × Nat} (ht : t.1.length = 32) :
    Between (steps t.1 + 5) (steps t.1 + 5) (verifyLayerH sig pub i t) (verifyLayer shake256F sig pub i t) := by
  obtain ⟨root, wotsAddr, treeAddr, wotsPkAddr, tree, idxLeaf⟩ := t
  unfold verifyLayerH verifyLayer
  refine Between.bindC fun _ _ => Between.bindC fun _ _ => Between.bindC fun _ _ => Between.bindC fun _ _ => Between.bindC fun _ _ => ?_
  refine Between.bind (l2 := 5) (h2 := 5) (between_wotsPkFromSig _ _ _ _ _ ht) ?_
  rintro ⟨wotsPk, wotsAddr⟩ -
  refine Between.bind (l1 := 1) (h1 := 1) (l2 := 4) (h2 := 4) (between_thash _ _ _ _ _) fun leaf _ => ?_
  refine Between.bind1 (between_computeRoot _ _ _ _ _ 4 _ _) ?_
  rintro ⟨root, treeAddr⟩ -
  exact Between.pure

attribute [irreducible] htSteps

theorem between_layers {sig pub : Bytes} (hsig : 49856 ≤ sig.length) (hpub : pub.length = 32) : ∀ (n i : Nat) (t : Bytes × Bytes × Bytes × Bytes × Nat × Nat), i + n = 17 → LayerInv t →
    Between (htSteps pub n i t.2.2.2.2.1 t.2.2.2.2.2 (sig.drop (11232 + i * 2272)) t.1 + n * 5) (htSteps pub n i t.2.2.2.2.1 t.2.2.2.2.2 (sig.drop (11232 + i * 2272)) t.1 + n * 5)
      (loopH (verifyLayerH sig pub) i n t) (loop (verifyLayer shake256F sig pub) i n t) := by
  intro n
  induction n with
  | zero => intro i t _ _; rw [htSteps]; exact Between.pure
  | succ n ih =>
    intro i t hi ht
    unfold loopH loop
    obtain ⟨t', e1, ht', e2, e3, e4⟩ := verifyLayer_run length_shake256F hpub hsig (i := i) (by omega) ht
    have hb := between_layer sig pub i ht.1
    rw [e1] at hb ⊢
    have := Between.bindOk hb (ih (i + 1) t' (by omega) ht')
    rw [e2, e3, e4, show 11232 + (i + 1) * 2272 = 11232 + i * 2272 + 2272 by omega] at this
    rw [htSteps, List.drop_drop]
    exact this.mono (by omega) (by omega)

/-- C114, verification of a string of the right length: 437 contexts and one for every value that completes a chain, between 1202 and 17267 in all. -/
theorem spx_verify_contexts (sig m pk : Bytes) (hsig : 49856 ≤ sig.length) (hpk : pk.length = 64) :
    1202 ≤ 437 + verifySteps pk sig m ∧ 437 + verifySteps pk sig m ≤ 17267 ∧ ∀ h : Ctxs, h.WF →
    (OneFails h (437 + verifySteps pk sig m) → verifyH sig 49856 m pk h = .error (.exit 111)) ∧
    (¬OneFails h (437 + verifySteps pk sig m) → verifyH sig 49856 m pk h =
      .ok (if rootFromSig shake256F pk sig m = pk.drop 32 then 0 else -1, { h with next := h.next + (437 + verifySteps pk sig m) })) := by
  obtain ⟨b1, b2⟩ := htSteps_bounds (pk.take 32) 17 0 (treeOf (digest shake256F (sig.take 32) pk m)) (leafOf (digest shake256F (sig.take 32) pk m)) (sig.drop 11232)
    (Spec.forsPkFromSig shake256F (pk.take 32) ⟨0, treeOf (digest shake256F (sig.take 32) pk m), leafOf (digest shake256F (sig.take 32) pk m)⟩ (slice sig 32 11200)
      (mdOf (digest shake256F (sig.take 32) pk m)))
  have eN : verifySteps pk sig m = htSteps (pk.take 32) 17 0 (treeOf (digest shake256F (sig.take 32) pk m)) (leafOf (digest shake256F (sig.take 32) pk m)) (sig.drop 11232)
    (Spec.forsPkFromSig shake256F (pk.take 32) ⟨0, treeOf (digest shake256F (sig.take 32) pk m), leafOf (digest shake256F (sig.take 32) pk m)⟩ (slice sig 32 11200)
      (mdOf (digest shake256F (sig.take 32) pk m))) := rfl
  rw [← eN] at b1 b2
  refine ⟨by omega, by omega, fun h hw => ?_⟩
  have hv := verify_run (sig := sig) length_shake256F hpk hsig m
  have hb : Between (437 + verifySteps pk sig m) (437 + verifySteps pk sig m) (verifyH sig 49856 m pk) (verify shake256F sig 49856 m pk) := by
    have hpub : (pk.take 32).length = 32 := by rw [List.length_take, hpk]; rfl
    have t1 := setType0 (v := 0) (by omega)
    have t2 := setType0 (v := 2) (by omega)
    have t3 := setType0 (v := 1) (by omega)
    unfold verifyH verify
    rw [if_neg (by decide), if_neg (by decide)]
    refine Between.bindC fun pub e1 => Between.bindC fun wa e2 => Between.bindC fun ta e3 => Between.bindC fun pa e4 => Between.bindC fun R e5 => Between.bindC fun pkb e6 => ?_
    obtain rfl := Except.ok.inj ((copy_fresh (by omega)).symm.trans e1)
    obtain rfl := Except.ok.inj (t1.1.symm.trans e2)
    obtain rfl := Except.ok.inj (t2.1.symm.trans e3)
    obtain rfl := Except.ok.inj (t3.1.symm.trans e4)
    obtain rfl := Except.ok.inj ((copy_fresh (by omega)).symm.trans e5)
    obtain rfl := Except.ok.inj ((copy_fresh (by omega)).symm.trans e6)
    rw [slice_all hpk]
    have hh := single_between (ctx_hash_message (slice sig 0 32) pk m (length_slice (by omega)) hpk)
    rw [hashMessage_run length_shake256F] at hh ⊢
    refine (Between.bindOk (l2 := 436 + verifySteps pk sig m) (h2 := 436 + verifySteps pk sig m) hh ?_).mono (by omega) (by omega)
    rw [eN, show slice sig 0 32 = sig.take 32 from rfl, show slice pk 0 32 = pk.take 32 from rfl]
    obtain ⟨d, hd⟩ : ∃ d, d = digest shake256F (sig.take 32) pk m := ⟨_, rfl⟩
    have hmd : (mdOf d).length = 40 := by rw [mdOf, List.length_take, hd, digest, length_shake256F]; rfl
    rw [← hd]
    obtain ⟨pub, hpub'⟩ : ∃ x, x = pk.take 32 := ⟨_, rfl⟩
    rw [← hpub'] at hpub ⊢
    have htr := treeOf_lt d
    have hlf := leafOf_lt d
    generalize treeOf d = tr at htr ⊢
    generalize leafOf d = lf at hlf ⊢
    generalize mdOf d = md at hmd ⊢
    clear eN b1 b2 hd hh
    rw [ok_bind]
    dsimp only
    have t4 := setTree' t1.2 (v := tr) htr
    have t5 := setKeypair' t4.2 (v := lf) (by omega)
    refine Between.bindC fun wa' e1 => Between.bindC fun wa'' e2 => ?_
    obtain rfl := Except.ok.inj (t4.1.symm.trans e1)
    obtain rfl := Except.ok.inj (t5.1.symm.trans e2)
    have hf := between_forsPkFromSig sig 32 md ⟨pub, none⟩ (⟨0, tr, 0, lf, 0, 0⟩ : Adrs).bytes
    rw [forsPkFromSig_run length_shake256F hpub (l := ⟨0, tr, lf⟩) t5.2 (sig := sig) (by omega) hmd] at hf ⊢
    rw [ok_bind]
    obtain ⟨r0, hr0⟩ : ∃ x, x = Spec.forsPkFromSig shake256F pub ⟨0, tr, lf⟩ (slice sig 32 11200) md := ⟨_, rfl⟩
    have hr0l : r0.length = 32 := by rw [hr0]; exact length_T length_shake256F _ _ _
    rw [← hr0] at hf ⊢
    have hl := between_layers (sig := sig) hsig hpub 17 0
      (r0, (⟨0, tr, 0, lf, 0, 0⟩ : Adrs).bytes, (⟨0, 0, 2, 0, 0, 0⟩ : Adrs).bytes, (⟨0, 0, 1, 0, 0, 0⟩ : Adrs).bytes, tr, lf) rfl
      ⟨hr0l, htr, hlf, ⟨0, tr, lf, 0, 0, t5.2, by omega, rfl⟩, ⟨0, 0, 0, 0, t2.2, rfl⟩, ⟨0, 0, 0, t3.2, rfl⟩⟩
    rw [show 11232 + 0 * 2272 = 11232 from rfl] at hl
    simp only at hl
    generalize htSteps pub 17 0 tr lf (sig.drop 11232) r0 = N at hl ⊢
    unfold verifyLayerH verifyLayer at hl
    dsimp only at hl
    refine (Between.bindOk (l2 := N + 17 * 5) (h2 := N + 17 * 5) hf ?_).mono (by omega) (by omega)
    exact Between.bind1 hl fun s _ => Between.bindC fun _ _ => Between.ite (fun _ => Between.pure) (fun _ => Between.pure)
  have hu := hb.exact hv
  rw [hv] at hu
  exact uses_iff hu h hw

/-- C114, verification with another length: no context. -/
theorem spx_verify_no_context (sig m pk : Bytes) (n : Nat) (hn : n ≠ 49856) (h : Ctxs) : verifyH sig n m pk h = .ok (-1, h) := by
  unfold verifyH
  rw [if_pos hn]
  rfl

/-- C114, `crypto_sign_open`: the contexts are those of the verification of the message behind the signature; a string that is too short uses none. -/
theorem spx_open_contexts (m sm pk : Bytes) (smlen : Nat) :
    (smlen < 49856 → ∀ h : Ctxs, cryptoSignOpenH m sm smlen pk h = .ok ((-1, m, 0), h)) ∧
    (49856 ≤ smlen → smlen ≤ sm.length → smlen - 49856 ≤ m.length → pk.length = 64 → ∀ h : Ctxs, h.WF →
      (OneFails h (437 + verifySteps pk sm (slice sm 49856 (smlen - 49856))) → cryptoSignOpenH m sm smlen pk h = .error (.exit 111)) ∧
      (¬OneFails h (437 + verifySteps pk sm (slice sm 49856 (smlen - 49856))) → cryptoSignOpenH m sm smlen pk h =
        .ok (if rootFromSig shake256F pk sm (slice sm 49856 (smlen - 49856)) = pk.drop 32
          then (0, slice sm 49856 (smlen - 49856) ++ m.drop (smlen - 49856), smlen - 49856) else (-1, m, 0),
          { h with next := h.next + (437 + verifySteps pk sm (slice sm 49856 (smlen - 49856))) }))) := by
  refine ⟨fun hs h => ?_, fun h1 h2 h3 h4 h hw => ?_⟩
  · unfold cryptoSignOpenH
    rw [if_pos hs]
    rfl
  · obtain ⟨f1, f2⟩ := (spx_verify_contexts sm (slice sm 49856 (smlen - 49856)) pk (by omega) h4).2.2 h hw
    have e1 : copy (zeroBytes (smlen - 49856)) 0 sm 49856 (smlen - 49856) = .ok (slice sm 49856 (smlen - 49856)) := copy_fresh (by omega)
    have e2 : copy m 0 sm 49856 (smlen - 49856) = .ok (slice sm 49856 (smlen - 49856) ++ m.drop (smlen - 49856)) := by
      rw [copy_ok (by omega) (by omega), splice, List.take_zero, List.nil_append, length_slice (by omega), Nat.zero_add]
    generalize 437 + verifySteps pk sm (slice sm 49856 (smlen - 49856)) = N at *
    generalize slice sm 49856 (smlen - 49856) = msg at *
    have e3 : cryptoSignOpenH m sm smlen pk h = (verifyH sm 49856 msg pk h >>= fun r =>
        if r.1 ≠ 0 then .ok ((-1, m, 0), r.2) else .ok ((0, msg ++ m.drop (smlen - 49856), smlen - 49856), r.2)) := by
      unfold cryptoSignOpenH
      rw [if_neg (by omega), e1, e2]
      show (verifyH sm 49856 msg pk h >>= _) = _
      refine congrArg (verifyH sm 49856 msg pk h >>= ·) (funext fun r => ?_)
      by_cases hr : r.1 ≠ 0
      · simp only [if_pos hr]
        rfl
      · simp only [if_neg hr]
        rfl
    rw [e3]
    refine ⟨fun hf => by rw [f1 hf]; rfl, fun hf => ?_⟩
    rw [f2 hf]
    by_cases hr : rootFromSig shake256F pk sm msg = pk.drop 32
    · simp only [if_pos hr]
      rfl
    · simp only [if_neg hr]
      rfl

/-- A heap in which no allocation fails (no line of its own: for the examples). -/
def calm : Ctxs := ⟨fun p => if p = 0 then some (.inc (some incInit)) else none, 1, fun _ => false⟩

theorem calm_wf : calm.WF := fun p hp => if_neg (show p ≠ 0 by have : 1 ≤ p := hp; omega)

example : ∃ n, 1202 ≤ n ∧ (cryptoSignOpenH [9, 9] (List.replicate 49857 0) 49857 (List.replicate 64 0) calm).map (·.2.next) = .ok (1 + n) := by
  have g : ∀ (a : Int × Bytes × Nat) (N : Nat), ((.ok (a, { calm with next := calm.next + N }) : Except Stop ((Int × Bytes × Nat) × Ctxs))).map (·.2.next) = .ok (1 + N) := fun _ _ => rfl
  refine ⟨_, (spx_verify_contexts (List.replicate 49857 0) (slice (List.replicate 49857 0) 49856 (49857 - 49856)) (List.replicate 64 0) (by rw [List.length_replicate]; omega)
    List.length_replicate).1, ?_⟩
  rw [((spx_open_contexts [9, 9] (List.replicate 49857 0) (List.replicate 64 0) 49857).2 (by decide) (by rw [List.length_replicate]) (by decide) List.length_replicate calm
    calm_wf).2 (by rintro ⟨i, _, hi⟩; cases hi)]
  exact g _ _

example : (seedKeypairH (List.replicate 64 0) (List.replicate 128 0) (List.replicate 96 5) calm).map (fun q => (q.1.1, q.2.next)) = .ok (0, 17184) ∧
    seedKeypairH (List.replicate 64 0) (List.replicate 128 0) (List.replicate 96 5) demo = .error (.exit 111) := by
  constructor
  · rw [(spx_keygen_contexts _ _ _ List.length_replicate List.length_replicate List.length_replicate calm calm_wf).2 (by rintro ⟨i, _, hi⟩; cases hi)]
    rfl
  · exact (spx_keygen_contexts _ _ _ List.length_replicate List.length_replicate List.length_replicate demo demo_wf).1 ⟨3, by decide, rfl⟩

example : (signBodyH (List.replicate 49856 0) [1, 2] (List.replicate 128 3) (List.replicate 32 5) calm).map (fun q => q.2.next) = .ok 345875 := by
  rw [(spx_sign_contexts _ _ _ _ List.length_replicate.ge List.length_replicate List.length_replicate calm calm_wf).2 (by rintro ⟨i, _, hi⟩; cases hi)]
  rfl

example : ∃ N r, 1202 ≤ N ∧ verifyH (List.replicate 49856 0) 49856 [1, 2] (List.replicate 64 3) calm = .ok (r, { calm with next := 1 + N }) := by
  have key : ∀ sig m pk : Bytes, 49856 ≤ sig.length → pk.length = 64 → ∃ N r, 1202 ≤ N ∧ verifyH sig 49856 m pk calm = .ok (r, { calm with next := 1 + N }) := by
    intro sig m pk hsig hpk
    obtain ⟨h1, _, h⟩ := spx_verify_contexts sig m pk hsig hpk
    exact ⟨_, _, h1, (h calm calm_wf).2 (by rintro ⟨i, _, hi⟩; cases hi)⟩
  exact key _ _ _ List.length_replicate.ge List.length_replicate

end Verif.Sphincs.Heap
