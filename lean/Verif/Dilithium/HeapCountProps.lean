import Verif.Keccak.HeapCount
import Verif.Dilithium.HeapProps
import Verif.Dilithium.Props
import Verif.Witness.Check

/-! The property C114 for dilithium2: how many Keccak contexts key generation, signing and verification allocate. -/

namespace Verif.Dilithium.Heap
open Verif Verif.Keccak Verif.Keccak.Heap Verif.Dilithium Verif.Dilithium.Spec

variable {α : Type}

theorem onC_ok_bind {β : Type} {a : α} {f : α → K β} : (onC (.ok a) >>= f) = f a := rfl

theorem between_buildLoop {lo hi : Nat} {f : Nat → K α} {g : Nat → C α} (hf : ∀ i, Between lo hi (f i) (g i)) : ∀ (n i : Nat) (out : List α),
    Between (n * lo) (n * hi) (buildLoopH f i n out) (loop (fun i out => do let v ← g i; wr out i v) i n out) := by
  intro n
  induction n with
  | zero => intro i out; rw [Nat.zero_mul, Nat.zero_mul]; exact Between.pure
  | succ n ih =>
    intro i out
    unfold buildLoopH loop
    have := Between.bind (hf i) (f := fun v => onC (wr out i v) >>= fun out => buildLoopH f (i + 1) n out)
      (g := fun v => wr out i v >>= fun out => loop (fun i out => do let v ← g i; wr out i v) (i + 1) n out) (fun v _ => Between.bindC fun out _ => ih _ _)
    rw [Nat.succ_mul, Nat.succ_mul, Nat.add_comm _ lo, Nat.add_comm _ hi]
    simpa only [bind_assoc] using this

theorem between_build {lo hi : Nat} {f : Nat → K α} {g : Nat → C α} (n : Nat) (d : α) (hf : ∀ i, Between lo hi (f i) (g i)) : Between (n * lo) (n * hi) (buildH n d f) (build n d g) :=
  between_buildLoop hf _ _ _

theorem between_matrixExpand (fuel : Nat) (rho : Bytes) : Between 16 16 (matrixExpandH fuel rho) (matrixExpand fuel rho) :=
  between_build (lo := 4) (hi := 4) _ _ fun _ => between_build (lo := 1) (hi := 1) _ _ fun _ => single_between (ctx_poly_uniform _ _ _)

theorem between_vecUniformEta (fuel : Nat) (seed : Bytes) (nonce : BitVec 16) : Between 4 4 (vecUniformEtaH fuel seed nonce) (vecUniformEta fuel seed nonce) :=
  between_build (lo := 1) (hi := 1) _ _ fun _ => single_between (ctx_poly_uniform_eta _ _ _)

theorem between_vecUniformGamma1 (seed : Bytes) (nonce : BitVec 16) : Between 4 4 (vecUniformGamma1H seed nonce) (vecUniformGamma1 seed nonce) :=
  between_build (lo := 1) (hi := 1) _ _ fun _ => single_between (ctx_poly_uniform_gamma1 _ _)

/-- C114, Dilithium key generation: a run that completes makes 26 contexts, whatever the seed. -/
theorem dil_keygen_contexts {fuel : Nat} {pk0 sk0 seed pk sk : Bytes} {r : Int} (hv : keypairSeed fuel pk0 sk0 seed = .ok (r, pk, sk)) (h : Ctxs) (hw : h.WF) :
    (OneFails h 26 → keypairSeedH fuel pk0 sk0 seed h = .error (.exit 111)) ∧
    (¬OneFails h 26 → keypairSeedH fuel pk0 sk0 seed h = .ok ((r, pk, sk), { h with next := h.next + 26 })) := by
  have hb : Between 26 26 (keypairSeedH fuel pk0 sk0 seed) (keypairSeed fuel pk0 sk0 seed) := by
    unfold keypairSeedH keypairSeed
    refine Between.bindC fun seedbuf _ => Between.bind (l1 := 1) (h1 := 1) (l2 := 25) (h2 := 25) (single_between (ctx_shake _ _ _ _ _)) fun seedbuf _ => ?_
    refine Between.bind (l1 := 16) (h1 := 16) (l2 := 9) (h2 := 9) (between_matrixExpand _ _) fun mat _ => ?_
    refine Between.bind (l1 := 4) (h1 := 4) (l2 := 5) (h2 := 5) (between_vecUniformEta _ _ _) fun s1 _ => ?_
    refine Between.bind (l1 := 4) (h1 := 4) (l2 := 1) (h2 := 1) (between_vecUniformEta _ _ _) fun s2 _ => ?_
    refine Between.bindC fun _ _ => Between.bindC fun _ _ => Between.bindC fun _ _ => Between.bindC fun _ _ => Between.bindC fun _ _ => Between.bindC fun _ _ => Between.bindC fun q _ => ?_
    exact Between.bindC fun _ _ => Between.bind1 (single_between (ctx_shake _ _ _ _ _)) fun _ _ => Between.bindC fun _ _ => Between.pure
  have := hb.exact hv
  rw [hv] at this
  exact uses_iff this h hw

theorem between_signAttempt (fuel : Nat) (x : SignCtx) (sig : Bytes) (nonce : BitVec 16) : Between 6 6 (signAttemptH fuel x sig nonce) (signAttempt fuel x sig nonce) := by
  unfold signAttemptH signAttempt
  refine Between.bind (l1 := 4) (h1 := 4) (l2 := 2) (h2 := 2) (between_vecUniformGamma1 _ _) fun y _ => ?_
  refine Between.bindC fun _ _ => Between.bindC fun _ _ => Between.bindC fun _ _ => Between.bindC fun _ _ => Between.bindC fun _ _ => Between.bindC fun q _ => Between.bindC fun _ _ => ?_
  refine Between.bind (l1 := 1) (h1 := 1) (l2 := 1) (h2 := 1) (single_between (ctx_shake256Inc2 _ _ _ _ _ _)) fun _ _ => Between.bind1 (single_between (ctx_poly_challenge _ _)) fun _ _ => ?_
  refine Between.bindC fun _ _ => Between.bindC fun _ _ => Between.bindC fun _ _ => Between.bindC fun _ _ => Between.bindC fun _ _ => Between.bindC fun _ _ => ?_
  refine Between.ite (fun _ => Between.pure) fun _ => ?_
  refine Between.bindC fun _ _ => Between.bindC fun _ _ => Between.bindC fun _ _ => Between.bindC fun _ _ => Between.bindC fun _ _ => ?_
  refine Between.ite (fun _ => Between.pure) fun _ => ?_
  refine Between.bindC fun _ _ => Between.bindC fun _ _ => Between.bindC fun _ _ => Between.bindC fun _ _ => ?_
  refine Between.ite (fun _ => Between.pure) fun _ => ?_
  refine Between.bindC fun _ _ => Between.bindC fun q _ => ?_
  exact Between.ite (fun _ => Between.pure) fun _ => Between.bindC fun _ _ => Between.pure

theorem uses_signLoop {x : SignCtx} {X : Ctx} (hx : Match x X) (fuel : Nat) : ∀ (rounds : Nat) (sig : Bytes) (k : Nat) (out : Bytes), sig.length = 2420 →
    signLoop fuel x rounds sig (BitVec.ofNat 16 k) = .ok out →
    ∃ k', k ≤ k' ∧ SignsFrom X k k' out ∧ Uses (6 * (k' + 1 - k)) (signLoopH fuel x rounds sig (BitVec.ofNat 16 k)) (.ok out) := by
  intro rounds
  induction rounds with
  | zero => intro sig k out _ h; cases h
  | succ n ih =>
    intro sig k out hs h
    have h0 := h
    unfold signLoop at h
    obtain ⟨h1, h2⟩ := signAttempt_run hx hs fuel k
    rcases (polyChallenge_safe fuel (cTilde_len X k)).cases with ⟨c, ec⟩ | e
    · obtain ⟨b, sig', e, hl, hb, hv⟩ := h2 c ec
      have hc := polyChallenge_sound (cTilde_len X k) ec
      have ha := (between_signAttempt fuel x sig (BitVec.ofNat 16 k)).exact e
      rw [e, ok_bind] at h
      simp only at h
      cases b with
      | true =>
        rw [if_pos rfl] at h
        cases h
        refine ⟨k, Nat.le_refl _, ⟨fun i h1 h2 => absurd h2 (by omega), c, hc, hb.1 rfl, hv rfl⟩, ?_⟩
        rw [show 6 * (k + 1 - k) = 6 + 0 by omega]
        unfold signLoopH
        exact (Uses.bind (M := 0) (g := fun _ => .ok out) ha e Uses.pure : Uses _ _ (_ >>= _)) |> fun u => by rw [e] at u; exact u
      | false =>
        simp only [Bool.false_eq_true, if_false] at h
        rw [nonce_succ] at h
        obtain ⟨k', hk, ⟨hr, hg⟩, hu⟩ := ih sig' (k + 1) out hl h
        refine ⟨k', by omega, ⟨fun i hi1 hi2 => ?_, hg⟩, ?_⟩
        · by_cases c' : i = k
          · subst c'
            exact ⟨c, hc, fun ha => by have := hb.2 ha; cases this⟩
          · exact hr i (by omega) hi2
        · rw [show 6 * (k' + 1 - k) = 6 + 6 * (k' + 1 - (k + 1)) by omega]
          unfold signLoopH
          rw [← nonce_succ] at hu
          have u := Uses.bind (g := fun _ => .ok out) (f := fun q : Bool × Bytes => if q.1 then pure q.2 else signLoopH fuel x n q.2 (BitVec.ofNat 16 k + 1)) ha e hu
          rw [e] at u
          exact u
    · rw [h1 e] at h; cases h

/-- dilithium2/sign.c:108-148: signing up to its rejection loop. -/
def prep (fuel : Nat) (m sk : Bytes) : C SignCtx := do
  let p ← unpackSk sk
  let seedbuf := p.rho ++ p.tr ++ p.key ++ List.replicate 160 0
  let mu ← shake256Inc2 (slice seedbuf 32 64) 64 m m.length (slice seedbuf 160 64) 64
  let seedbuf ← copy seedbuf 160 mu 0 64
  let seedbuf ← loop (fun n b => wr b (128 + n) 0) 0 32 seedbuf
  let rhoprime ← shake256 (slice seedbuf 224 64) 64 (slice seedbuf 96 128) 128
  let mat ← matrixExpand fuel (slice seedbuf 0 32)
  let s1 ← vecNtt p.s1
  let s2 ← vecNtt p.s2
  let t0 ← vecNtt p.t0
  .ok ⟨mat, s1, s2, t0, slice seedbuf 160 64, rhoprime⟩

/-- dilithium2/sign.c:108-148 with contexts on the heap. -/
def prepH (fuel : Nat) (m sk : Bytes) : K SignCtx := do
  let p ← onC (unpackSk sk)
  let seedbuf := p.rho ++ p.tr ++ p.key ++ List.replicate 160 0
  let mu ← shake256Inc2H (slice seedbuf 32 64) 64 m m.length (slice seedbuf 160 64) 64
  let seedbuf ← onC (copy seedbuf 160 mu 0 64)
  let seedbuf ← onC (loop (fun n b => wr b (128 + n) 0) 0 32 seedbuf)
  let rhoprime ← shakeH 136 (slice seedbuf 224 64) 64 (slice seedbuf 96 128) 128
  let mat ← matrixExpandH fuel (slice seedbuf 0 32)
  let s1 ← onC (vecNtt p.s1)
  let s2 ← onC (vecNtt p.s2)
  let t0 ← onC (vecNtt p.t0)
  pure ⟨mat, s1, s2, t0, slice seedbuf 160 64, rhoprime⟩

theorem signature_prep (fuel : Nat) (sig : Bytes) (siglen : Nat) (m sk : Bytes) :
    signature fuel sig siglen m sk = prep fuel m sk >>= fun x => signLoop fuel x fuel sig 0 >>= fun s => .ok (0, s, 2420) := by
  unfold signature prep
  simp only [bind_assoc, ok_bind]

theorem signatureH_prep (fuel : Nat) (sig : Bytes) (siglen : Nat) (m sk : Bytes) :
    signatureH fuel sig siglen m sk = prepH fuel m sk >>= fun x => signLoopH fuel x fuel sig 0 >>= fun s => pure (0, s, 2420) := by
  unfold signatureH prepH
  simp only [bind_assoc, pure_bind]

theorem between_prep (fuel : Nat) (m sk : Bytes) : Between 18 18 (prepH fuel m sk) (prep fuel m sk) := by
  unfold prepH prep
  refine Between.bindC fun p _ => Between.bind (l1 := 1) (h1 := 1) (l2 := 17) (h2 := 17) (single_between (ctx_shake256Inc2 _ _ _ _ _ _)) fun mu _ => Between.bindC fun _ _ => Between.bindC fun _ _ => ?_
  refine Between.bind (l1 := 1) (h1 := 1) (l2 := 16) (h2 := 16) (single_between (ctx_shake _ _ _ _ _)) fun _ _ => ?_
  exact Between.bind1 (between_matrixExpand _ _) fun _ _ => Between.bindC fun _ _ => Between.bindC fun _ _ => Between.bindC fun _ _ => Between.pure

theorem prep_run (fuel : Nat) {m sk : Bytes} (hsk : sk.length = 2560) :
    (matrixExpand fuel (slice sk 0 32) = .error .diverge → prep fuel m sk = .error .diverge) ∧
    ∀ A, matrixExpand fuel (slice sk 0 32) = .ok A → ∃ x, Match x (ctxOf A sk m) ∧ prep fuel m sk = .ok x := by
  have l0 : (slice sk 0 32).length = 32 := length_slice (by omega)
  have l1 : (slice sk 64 64).length = 64 := length_slice (by omega)
  have l2 : (slice sk 32 32).length = 32 := length_slice (by omega)
  generalize e0 : slice sk 0 32 = rho at *
  generalize e1 : slice sk 64 64 = tr at *
  generalize e2 : slice sk 32 32 = key at *
  have hmu : (S256 (tr ++ m) 64).length = 64 := length_stream ..
  have z160 : (List.replicate 160 (0 : Byte)) = List.replicate 32 0 ++ List.replicate 64 0 ++ List.replicate 64 0 := by
    rw [List.replicate_append_replicate, List.replicate_append_replicate]
  have hsb : rho ++ tr ++ key ++ List.replicate 160 0 = (rho ++ tr ++ key ++ List.replicate 32 0) ++ List.replicate 64 0 ++ List.replicate 64 0 := by
    rw [z160]; simp only [List.append_assoc]
  have c1 : slice (rho ++ tr ++ key ++ List.replicate 160 0) 32 64 = tr := by
    rw [List.append_assoc, List.append_assoc, slice_append_right l0, List.take_left' l1]
  have lsb : (rho ++ tr ++ key ++ List.replicate 160 (0 : Byte)).length = 288 := by
    rw [List.length_append, List.length_append, List.length_append, List.length_replicate, l0, l1, l2]
  have c2 : copy (rho ++ tr ++ key ++ List.replicate 160 0) 160 (S256 (tr ++ m) 64) 0 64 =
      .ok ((rho ++ tr ++ key) ++ List.replicate 32 0 ++ (S256 (tr ++ m) 64 ++ List.replicate 64 0)) := by
    rw [copy_whole hmu (by omega), hsb, splice_mid (by
      rw [List.length_append, List.length_append, List.length_append, List.length_replicate, l0, l1, l2]) (by rw [hmu, List.length_replicate])]
    simp only [List.append_assoc]
  have l128 : (rho ++ tr ++ key).length = 128 := by rw [List.length_append, List.length_append, l0, l1, l2]
  have c3 : loop (fun n b => wr b (128 + n) (0 : Byte)) 0 32 ((rho ++ tr ++ key) ++ List.replicate 32 0 ++ (S256 (tr ++ m) 64 ++ List.replicate 64 0)) =
      .ok ((rho ++ tr ++ key) ++ List.replicate 32 0 ++ (S256 (tr ++ m) 64 ++ List.replicate 64 0)) := by
    rw [zero_loop (by rw [List.length_append, List.length_append, l128, List.length_replicate, List.length_append, hmu, List.length_replicate]; omega),
      splice_mid l128 rfl]
  have lbuf : ((rho ++ tr ++ key) ++ List.replicate 32 0 ++ (S256 (tr ++ m) 64 ++ List.replicate 64 0)).length = 288 := by
    rw [List.length_append, List.length_append, l128, List.length_replicate, List.length_append, hmu, List.length_replicate]
  have c4 : slice ((rho ++ tr ++ key) ++ List.replicate 32 0 ++ (S256 (tr ++ m) 64 ++ List.replicate 64 0)) 96 128 =
      key ++ List.replicate 32 0 ++ S256 (tr ++ m) 64 := by
    have : (rho ++ tr ++ key) ++ List.replicate 32 0 ++ (S256 (tr ++ m) 64 ++ List.replicate 64 0) =
        (rho ++ tr) ++ ((key ++ List.replicate 32 0 ++ S256 (tr ++ m) 64) ++ List.replicate 64 0) := by simp only [List.append_assoc]
    rw [this, slice_append_right (by rw [List.length_append, l0, l1]), List.take_left' (by
      rw [List.length_append, List.length_append, l2, List.length_replicate, hmu])]
  have c5 : slice ((rho ++ tr ++ key) ++ List.replicate 32 0 ++ (S256 (tr ++ m) 64 ++ List.replicate 64 0)) 0 32 = rho := by
    rw [List.append_assoc, List.append_assoc, List.append_assoc, slice_append_left (by omega), ← l0, slice_zero_length]
  have c6 : slice ((rho ++ tr ++ key) ++ List.replicate 32 0 ++ (S256 (tr ++ m) 64 ++ List.replicate 64 0)) 160 64 = S256 (tr ++ m) 64 := by
    rw [slice_append_right (by rw [List.length_append, l128, List.length_replicate]), List.take_left' hmu]
  unfold prep
  rw [unpackSk_ok hsk, ok_bind, e0, e1, e2]
  simp only
  rw [c1, shake256Inc2_ok l1.symm (by omega) (by rw [length_slice (by omega)]), ok_bind, List.take_length,
    splice_all (by rw [hmu, length_slice (by omega)]), c2, ok_bind, c3, ok_bind, c4,
    shake256_ok 64 _ 128 (by rw [List.length_append, List.length_append, l2, List.length_replicate, hmu]) (by rw [length_slice (by omega)]), ok_bind, c5, c6]
  refine ⟨fun h => by rw [h]; rfl, fun A hA => ?_⟩
  obtain ⟨n1, en1, bn1, hn1⟩ := vecNtt_ok (v := vec fun i => unpackAt 3 2 (slice sk (128 + i * 96) 96)) (B := 6)
    ⟨length_vec _, fun i hi => by rw [at_vec _ hi]; exact unpackAt_PB 3 2 6 _ (by decide) (by decide)⟩ (by omega)
  obtain ⟨n2, en2, bn2, hn2⟩ := vecNtt_ok (v := vec fun i => unpackAt 3 2 (slice sk (512 + i * 96) 96)) (B := 6)
    ⟨length_vec _, fun i hi => by rw [at_vec _ hi]; exact unpackAt_PB 3 2 6 _ (by decide) (by decide)⟩ (by omega)
  obtain ⟨n0, en0, bn0, hn0⟩ := vecNtt_ok (v := vec fun i => unpackAt 13 4096 (slice sk (896 + i * 416) 416)) (B := 4097)
    ⟨length_vec _, fun i hi => by rw [at_vec _ hi]; exact unpackAt_PB 13 4096 4097 _ (by decide) (by decide)⟩ (by omega)
  refine ⟨⟨A, n1, n2, n0, S256 (tr ++ m) 64, S256 (key ++ List.replicate 32 0 ++ S256 (tr ++ m) 64) 64⟩, ?_, ?_⟩
  · have hM := matrix_MB (matrixExpand_sound l0 hA)
    exact ⟨rfl, hM, by unfold ctxOf; rw [e1], length_stream .., by unfold ctxOf; rw [e1, e2], length_stream .., bn1.mono (by omega), bn2.mono (by omega), bn0.mono (by omega),
      hn1, hn2, hn0⟩
  · rw [hA, ok_bind, en1, ok_bind, en2, ok_bind, en0, ok_bind]

/-- C114, Dilithium signing: a run that completes after `k` rejected attempts makes 18 contexts and 6 for each of the `k + 1` attempts. -/
theorem dil_sign_contexts {H128 H256 : Bytes → Nat → Bytes} (e1 : IsShake128 H128) (e2 : IsShake256 H256) {fuel : Nat} {sig0 m sk sig : Bytes} {n0 n : Nat} {r : Int}
    (hsk : sk.length = 2560) (hsig : sig0.length = 2420) (hv : signature fuel sig0 n0 m sk = .ok (r, sig, n)) :
    ∃ k, Signs H128 H256 sk m k sig ∧ ∀ h : Ctxs, h.WF →
      (OneFails h (18 + 6 * (k + 1)) → signatureH fuel sig0 n0 m sk h = .error (.exit 111)) ∧
      (¬OneFails h (18 + 6 * (k + 1)) → signatureH fuel sig0 n0 m sk h = .ok ((r, sig, n), { h with next := h.next + (18 + 6 * (k + 1)) })) := by
  obtain rfl := e1.eq
  obtain rfl := e2.eq
  obtain ⟨h1, h2⟩ := prep_run fuel (m := m) hsk
  rw [signature_prep] at hv
  rcases (matrixExpand_safe fuel (rho := slice sk 0 32) (length_slice (by omega))).cases with ⟨A, eA⟩ | e
  · obtain ⟨x, hx, e⟩ := h2 A eA
    rw [e, ok_bind] at hv
    obtain ⟨s, es, hv⟩ := bind_eq_ok.1 hv
    cases hv
    obtain ⟨k, _, ⟨hr, hg⟩, hu⟩ := uses_signLoop hx fuel fuel sig0 0 _ hsig es
    refine ⟨k, ⟨ctxOf A sk m, ctx_iff.2 ⟨A, matrixExpand_sound (length_slice (by omega)) eA, rfl⟩, fun i hi => hr i (by omega) hi, hg⟩, fun h hw => ?_⟩
    have hb := (between_prep fuel m sk).exact e
    have u1 := Uses.bind (g := fun s => (.ok (0, s, 2420) : C (Int × Bytes × Nat))) (f := fun s => pure (0, s, 2420)) hu rfl Uses.pure
    have u2 := Uses.bind (f := fun x => signLoopH fuel x fuel sig0 0 >>= fun s => pure (0, s, 2420)) (g := fun _ => (.ok (0, sig, 2420) : C (Int × Bytes × Nat))) hb e u1
    rw [e, ← signatureH_prep fuel sig0 n0 m sk] at u2
    rw [show 18 + 6 * (k + 1) = 18 + (6 * (k + 1 - 0) + 0) by omega]
    exact uses_iff u2 h hw
  · rw [h1 e] at hv; cases hv

theorem at_mem {α : Type} {z : List (List α)} (hz : z.length = 4) {i : Nat} (hi : i < 4) : at_ z i ∈ z := by
  unfold at_
  rw [List.getD_eq_getElem?_getD, List.getElem?_eq_getElem (by omega)]
  exact List.getElem_mem _

theorem co_mem {a : List Int} (ha : a.length = 256) {j : Nat} (hj : j < 256) : co a j ∈ a := by
  unfold co
  rw [List.getD_eq_getElem?_getD, List.getElem?_eq_getElem (by omega)]
  exact List.getElem_mem _

/-- A bound on all members is a bound on all coefficients. -/
theorem bound_iff {z : Vec} (hz : z.length = 4) (hl : ∀ x ∈ z, x.length = 256) (B : Int) :
    (∀ i, i < 4 → ∀ j, j < 256 → -B < co (at_ z i) j ∧ co (at_ z i) j < B) ↔ ∀ x ∈ z, ∀ v ∈ x, |v| < B := by
  refine ⟨fun h x hx v hv => ?_, fun h i hi j hj => abs_lt.1 (h _ (at_mem hz hi) _ (co_mem (hl _ (at_mem hz hi)) hj))⟩
  obtain ⟨i, hi, rfl⟩ := List.getElem_of_mem hx
  obtain ⟨j, hj, rfl⟩ := List.getElem_of_mem hv
  have hj' : j < 256 := by rw [hl _ hx] at hj; exact hj
  have := h i (by omega) j hj'
  unfold at_ co at this
  rw [List.getD_eq_getElem?_getD, List.getD_eq_getElem?_getD, List.getElem?_eq_getElem hi, Option.getD_some, List.getElem?_eq_getElem hj] at this
  exact abs_lt.2 this

/-- The string passes the checks before the first hash is computed (dilithium2/sign.c:273-283). -/
def Reaches (sig : Bytes) (n : Nat) : Prop := n = 2420 ∧ ∃ c z h, unpackSig sig = .ok (some (c, z, h)) ∧ vecChknorm z (GAMMA1 - BETA) = .ok false

theorem verify_uses {fuel : Nat} {sig m pk : Bytes} {n : Nat} {r : Int} (hv : verify fuel sig n m pk = .ok r) : ∃ N, (N = 20 ∧ Reaches sig n ∨ N = 0 ∧ r = -1 ∧ ¬Reaches sig n) ∧ ∀ h : Ctxs, h.WF →
    (OneFails h N → verifyH fuel sig n m pk h = .error (.exit 111)) ∧
    (¬OneFails h N → verifyH fuel sig n m pk h = .ok (r, { h with next := h.next + N })) := by
  have no : ∀ {x : K Int}, x = pure (-1) → r = -1 → ¬Reaches sig n → ∃ N, (N = 20 ∧ Reaches sig n ∨ N = 0 ∧ r = -1 ∧ ¬Reaches sig n) ∧ ∀ h : Ctxs, h.WF →
      (OneFails h N → x h = .error (.exit 111)) ∧ (¬OneFails h N → x h = .ok (r, { h with next := h.next + N })) := by
    rintro x rfl rfl nr
    exact ⟨0, .inr ⟨rfl, rfl, nr⟩, fun h hw => uses_iff Uses.pure h hw⟩
  unfold verify at hv
  unfold verifyH
  by_cases cn : n ≠ 2420
  · rw [if_pos cn] at hv ⊢
    cases hv
    exact no rfl rfl fun h => cn h.1
  rw [if_neg cn] at hv ⊢
  obtain ⟨⟨rho, t1⟩, e1, hv⟩ := bind_eq_ok.1 hv
  rw [e1, onC_ok_bind]
  obtain ⟨q, e2, hv⟩ := bind_eq_ok.1 hv
  simp only
  rw [e2, onC_ok_bind]
  rcases q with _ | ⟨c, z, h⟩
  · cases hv
    refine no rfl rfl ?_
    rintro ⟨-, c, z, h, e, -⟩
    rw [e2] at e
    cases e
  simp only at hv ⊢
  obtain ⟨bad, e3, hv⟩ := bind_eq_ok.1 hv
  rw [e3, onC_ok_bind]
  by_cases d : bad = true
  · rw [if_pos d] at hv ⊢
    cases hv
    refine no rfl rfl ?_
    rintro ⟨-, c, z, h, e, e'⟩
    rw [e2] at e
    cases e
    rw [e3] at e'
    cases e'
    cases d
  rw [if_neg d] at hv ⊢
  refine ⟨20, .inl ⟨rfl, by omega, _, _, _, e2, by rw [e3]; cases bad with | true => exact absurd rfl d | false => rfl⟩, fun h' hw => ?_⟩
  have hb := (Between.bind (l1 := 1) (h1 := 1) (l2 := 19) (h2 := 19) (single_between (ctx_shake 136 (List.replicate 64 0) 64 pk 1312)) fun mu _ =>
    Between.bind (l1 := 1) (h1 := 1) (l2 := 18) (h2 := 18) (single_between (ctx_shake256Inc2 mu 64 m m.length mu 64)) fun mu _ =>
    Between.bind (l1 := 1) (h1 := 1) (l2 := 17) (h2 := 17) (single_between (ctx_poly_challenge fuel c)) fun cp _ =>
    Between.bind (l1 := 16) (h1 := 16) (l2 := 1) (h2 := 1) (between_matrixExpand fuel rho) fun mat _ =>
    Between.bindC (x := vecNtt z) fun z _ => Between.bindC (x := matrixPointwise mat z) fun w1 _ => Between.bindC (x := ntt cp) fun cp _ =>
    Between.bindC (x := vecShiftl t1) fun t1 _ => Between.bindC (x := vecNtt t1) fun t1 _ => Between.bindC (x := vecPointwisePoly cp t1) fun t1 _ =>
    Between.bindC (x := vecSub w1 t1) fun w1 _ => Between.bindC (x := vecReduce w1) fun w1 _ => Between.bindC (x := vecInvntt w1) fun w1 _ =>
    Between.bindC (x := vecCaddq w1) fun w1 _ => Between.bindC (x := vecUseHint w1 h) fun w1 _ => Between.bindC (x := vecPackW1 (List.replicate 768 0) w1) fun buf _ =>
    Between.bind1 (single_between (ctx_shake256Inc2 mu 64 buf 768 (List.replicate 32 0) 32)) fun c2 _ =>
    Between.bindC (x := anyBad (fun i => do
      let x ← rd c i
      let y ← rd c2 i
      .ok (decide (x ≠ y))) 0 32) fun bad _ => Between.ite (c := bad = true) (fun _ => Between.pure (a := (-1 : Int))) fun _ => Between.pure (a := (0 : Int))).exact' hv
  exact uses_iff hb h' hw

/-- C114, Dilithium verification: 20 contexts for a string of 2420 bytes that encodes a response with coefficients below gamma1 - beta = 130994 in absolute value and at most 80 hints; none for any other
string, which is rejected (dilithium2/sign.c:267-335). -/
theorem dil_verify_contexts {fuel : Nat} {sig m pk : Bytes} {n : Nat} {r : Int} (hs : sig.length = 2420) (hv : verify fuel sig n m pk = .ok r) :
    let good := n = 2420 ∧ ∃ c z h, c.length = 32 ∧ z.length = 4 ∧ (∀ x ∈ z, x.length = 256 ∧ ∀ v ∈ x, |v| < 131072 - 78) ∧ IsHint h ∧ weight h ≤ 80 ∧ sig = encodeSig c z h
    (¬good → r = -1) ∧ ∃ N, (good → N = 20) ∧ (¬good → N = 0) ∧ ∀ h : Ctxs, h.WF →
      (OneFails h N → verifyH fuel sig n m pk h = .error (.exit 111)) ∧
      (¬OneFails h N → verifyH fuel sig n m pk h = .ok (r, { h with next := h.next + N })) := by
  intro good
  have hi : Reaches sig n ↔ good := by
    refine and_congr_right fun _ => ⟨?_, ?_⟩
    · rintro ⟨c, z, h, e, e'⟩
      obtain ⟨a1, a2, a3, a4, a5, a6⟩ := ((sig_decode_spec hs).2 c z h).1 e
      have hl := fun x hx => (a3 x hx).1
      have hb := (bound_iff a2 hl 1073741824).2 fun x hx v hv => abs_lt.2 (by have := (a3 x hx).2 v hv; omega)
      obtain ⟨b, eb, hb⟩ := vecChknorm_ok (B := GAMMA1 - BETA) ⟨a2, fun i hi => ⟨hl _ (at_mem a2 hi), hb i hi⟩⟩ (by decide)
      rw [e'] at eb
      cases eb
      exact ⟨c, z, h, a1, a2, fun x hx => ⟨hl x hx, (bound_iff a2 hl _).1 (hb.1 rfl) x hx⟩, a4, a5, a6⟩
    · rintro ⟨c, z, h, a1, a2, a3, a4, a5, a6⟩
      have hl := fun x hx => (a3 x hx).1
      have hb := (bound_iff a2 hl 1073741824).2 fun x hx v hv => lt_trans ((a3 x hx).2 v hv) (by decide)
      obtain ⟨b, eb, hb⟩ := vecChknorm_ok (B := GAMMA1 - BETA) ⟨a2, fun i hi => ⟨hl _ (at_mem a2 hi), hb i hi⟩⟩ (by decide)
      refine ⟨c, z, h, ((sig_decode_spec hs).2 c z h).2 ⟨a1, a2, fun x hx => ⟨hl x hx, fun v hv => by have := abs_lt.1 ((a3 x hx).2 v hv); omega⟩, a4, a5, a6⟩, ?_⟩
      rw [eb, hb.2 ((bound_iff a2 hl _).2 fun x hx => (a3 x hx).2)]
  obtain ⟨N, hN, hu⟩ := verify_uses hv
  rw [hi] at hN
  rcases hN with ⟨e, g⟩ | ⟨e, er, g⟩
  · exact ⟨fun x => absurd g x, N, fun _ => e, fun x => absurd g x, hu⟩
  · exact ⟨fun _ => er, N, fun x => absurd x g, fun _ => e, hu⟩

/-- A heap in which no allocation fails (no line of its own: for the examples). -/
def calm : Ctxs := { demo with fails := fun _ => false }

theorem calm_ok (N : Nat) : ¬OneFails calm N := by rintro ⟨i, _, hi⟩; cases hi

/-- Runs that complete: the key pair of a seed and a signature with it, with the contexts counted. -/
example : ∃ f pk0 sk0 seed pk sk sig0 sig m k, keypairSeedH f pk0 sk0 seed calm = .ok ((0, pk, sk), { calm with next := calm.next + 26 }) ∧
    keypairSeedH f pk0 sk0 seed demo = .error (.exit 111) ∧
    signatureH f sig0 0 m sk calm = .ok ((0, sig, 2420), { calm with next := calm.next + (18 + 6 * (k + 1)) }) := by
  obtain ⟨pk, sk, sig, hk, hs⟩ := Witness.dilithium_run
  have hl : (7 :: List.replicate 31 0 : Bytes).length = 32 := by rw [List.length_cons, List.length_replicate]
  obtain ⟨F1, h1⟩ := (dil_keygen_spec (pk := List.replicate 1312 0) (sk := List.replicate 2560 0) isShake128_S128 isShake256_S256 List.length_replicate List.length_replicate hl).2.2 _ _ hk
  have lsk := ((dil_keygen_spec (pk := List.replicate 1312 0) (sk := List.replicate 2560 0) isShake128_S128 isShake256_S256 List.length_replicate List.length_replicate hl).2.1 _ _ _ _ (h1 F1 (Nat.le_refl _))).2.2.2
  obtain ⟨F3, h3⟩ := (dil_sign_spec (sig := List.replicate 2420 0) (n := 0) isShake128_S128 isShake256_S256 lsk List.length_replicate).2.2 _ _ hs
  obtain ⟨k, -, hu⟩ := dil_sign_contexts isShake128_S128 isShake256_S256 lsk List.length_replicate (h3 (F1 + F3) (by omega))
  have hg := fun h hw => dil_keygen_contexts (h1 (F1 + F3) (by omega)) h hw
  exact ⟨F1 + F3, _, _, _, pk, sk, _, sig, _, k, (hg calm demo_wf).2 (calm_ok _), (hg demo demo_wf).1 ⟨3, by decide, rfl⟩, (hu calm demo_wf).2 (calm_ok _)⟩

/-- A string that reaches the hashes, verified with 20 contexts, and the same string with a wrong length, rejected without any. -/
example : ∃ f sig m pk, sig.length = 2420 ∧ verifyH f sig 2420 m pk calm = .ok (0, { calm with next := calm.next + 20 }) ∧ verifyH f sig 2419 m pk calm = .ok (-1, calm) := by
  obtain ⟨pk, sk, sig, hk, hs⟩ := Witness.dilithium_run
  have hl : (7 :: List.replicate 31 0 : Bytes).length = 32 := by rw [List.length_cons, List.length_replicate]
  obtain ⟨F1, h1⟩ := (dil_keygen_spec (pk := List.replicate 1312 0) (sk := List.replicate 2560 0) isShake128_S128 isShake256_S256 List.length_replicate List.length_replicate hl).2.2 _ _ hk
  have lsk := ((dil_keygen_spec (pk := List.replicate 1312 0) (sk := List.replicate 2560 0) isShake128_S128 isShake256_S256 List.length_replicate List.length_replicate hl).2.1 _ _ _ _ (h1 F1 (Nat.le_refl _))).2.2.2
  obtain ⟨F3, h3⟩ := (dil_sign_spec (sig := List.replicate 2420 0) (n := 0) isShake128_S128 isShake256_S256 lsk List.length_replicate).2.2 _ _ hs
  obtain ⟨-, -, -, ls, hv, -⟩ := dil_round_trip List.length_replicate List.length_replicate hl List.length_replicate (h1 F1 (Nat.le_refl _)) (h3 F3 (Nat.le_refl _))
  obtain ⟨hr, N, hg, -, hu⟩ := dil_verify_contexts ls hv
  refine ⟨F3, sig, [2], pk, ls, ?_, rfl⟩
  have e : N = 20 := hg (by by_contra g; cases hr g)
  rw [← e]
  exact (hu calm demo_wf).2 (calm_ok _)

example : verifyH 9 [1, 2, 3] 3 [] [] demo = .ok (-1, demo) := rfl

end Verif.Dilithium.Heap
