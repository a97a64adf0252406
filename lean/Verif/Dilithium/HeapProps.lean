import Verif.Dilithium.Heap
import Verif.Keccak.HeapProps

/-! The property C86: the Keccak contexts of dilithium2. -/

namespace Verif.Dilithium.Heap
open Verif Verif.Keccak Verif.Keccak.Heap Verif.Dilithium

variable {α : Type}

theorem runAt_squeezeAt {p r off n : Nat} {buf : Bytes} {st : Inc} : RunAt p (squeezeAtH buf off n p r) st (squeezeAt buf off n st r) :=
  RunAt.bind RunAt.squeeze fun _ _ => RunAt.pure

/-- Initialising a stream and then doing `body`. -/
theorem single_stream {r seedlen : Nat} {seed : Bytes} {nonce : BitVec 16} {body : Nat → K α} {v : Inc → C α} (hb : ∀ p st, RunEnd p (body p) st (v st)) :
    Single (do let p ← streamInitH r seed seedlen nonce; let a ← body p; incReleaseH p; pure a) (streamInit r seed seedlen nonce >>= v) := by
  have := Single.of_end (body := fun p => do
      incAbsorbH p r seed seedlen
      incAbsorbH p r [nonce.setWidth 8, (nonce >>> 8).setWidth 8] 2
      incFinalizeH p r
      body p) (v := streamInit r seed seedlen nonce >>= v) (fun p => by
    unfold streamInit
    have := RunAt.bindEnd (p := p) (v := incAbsorb incInit r seed seedlen >>= fun st => .ok ((), st))
      (g := fun q => incAbsorb q.2 r [nonce.setWidth 8, (nonce >>> 8).setWidth 8] 2 >>= fun st => incFinalize st r 0x1F >>= v) RunAt.absorb
      (fun _ st => (show RunEnd p (incAbsorbH p r [nonce.setWidth 8, (nonce >>> 8).setWidth 8] 2 >>= fun _ => incFinalizeH p r >>= fun _ => body p) st _ by
        have := RunAt.bindEnd (p := p) (v := incAbsorb st r [nonce.setWidth 8, (nonce >>> 8).setWidth 8] 2 >>= fun st => .ok ((), st))
          (g := fun q => incFinalize q.2 r 0x1F >>= v) RunAt.absorb (fun _ st => (show RunEnd p (incFinalizeH p r >>= fun _ => body p) st _ by
            have := RunAt.bindEnd (p := p) (v := incFinalize st r 0x1F >>= fun st => .ok ((), st)) (g := fun q => v q.2) RunAt.finalize (fun _ st => hb p st)
            simpa only [bind_assoc, ok_bind] using this))
        simpa only [bind_assoc, ok_bind] using this))
    simpa only [bind_assoc, ok_bind] using this)
  intro h hw
  have := this h hw
  simp only [streamInitH, bind_assoc, pure_bind] at this ⊢
  exact this

theorem runEnd_uniformLoop (p : Nat) : ∀ (fuel : Nat) (a : Poly) (buf : Bytes) (buflen ctr : Nat) (st : Inc),
    RunEnd p (polyUniformLoopH p fuel a buf buflen ctr) st (polyUniformLoop fuel a buf buflen ctr st) := by
  intro fuel
  induction fuel with
  | zero =>
    intro a buf buflen ctr st
    unfold polyUniformLoopH polyUniformLoop
    split
    · exact RunEnd.onC
    · exact RunEnd.pure
  | succ fuel ih =>
    intro a buf buflen ctr st
    unfold polyUniformLoopH polyUniformLoop
    split
    · exact RunEnd.bindC fun buf => RunAt.bindEnd runAt_squeezeAt fun buf st => RunEnd.bindC fun q => ih _ _ _ _ _
    · exact RunEnd.pure

theorem runEnd_etaLoop (p : Nat) : ∀ (fuel : Nat) (a : Poly) (buf : Bytes) (ctr : Nat) (st : Inc),
    RunEnd p (polyUniformEtaLoopH p fuel a buf ctr) st (polyUniformEtaLoop fuel a buf ctr st) := by
  intro fuel
  induction fuel with
  | zero =>
    intro a buf ctr st
    unfold polyUniformEtaLoopH polyUniformEtaLoop
    split
    · exact RunEnd.onC
    · exact RunEnd.pure
  | succ fuel ih =>
    intro a buf ctr st
    unfold polyUniformEtaLoopH polyUniformEtaLoop
    split
    · exact RunAt.bindEnd runAt_squeezeAt fun buf st => RunEnd.bindC fun q => ih _ _ _ _
    · exact RunEnd.pure

/-- C86, `poly_uniform`: one context, made and released on every path. -/
theorem ctx_poly_uniform (fuel : Nat) (seed : Bytes) (nonce : BitVec 16) : Single (polyUniformH fuel seed nonce) (polyUniform fuel seed nonce) := by
  have := single_stream (r := 168) (seedlen := 32) (seed := seed) (nonce := nonce) (body := fun p => do
      let buf ← squeezeAtH (List.replicate 842 0) 0 840 p 168
      let (a, ctr) ← onC (rejUniform (List.replicate 256 0) 0 256 buf 840)
      polyUniformLoopH p fuel a buf 840 ctr)
    (v := fun st => do
      let (buf, st) ← squeezeAt (List.replicate 842 0) 0 840 st 168
      let (a, ctr) ← rejUniform (List.replicate 256 0) 0 256 buf 840
      polyUniformLoop fuel a buf 840 ctr st)
    (fun p st => RunAt.bindEnd runAt_squeezeAt fun buf st => RunEnd.bindC fun q => runEnd_uniformLoop _ _ _ _ _ _ _)
  intro h hw
  have := this h hw
  simp only [bind_assoc] at this
  exact this

example : polyUniformH 5 (List.replicate 32 1) 3 demo4 = .error (.exit 111) := by
  rw [ctx_poly_uniform _ _ _ demo4 demo4_wf]; rfl

/-- C86, `poly_uniform_eta`. -/
theorem ctx_poly_uniform_eta (fuel : Nat) (seed : Bytes) (nonce : BitVec 16) : Single (polyUniformEtaH fuel seed nonce) (polyUniformEta fuel seed nonce) := by
  have := single_stream (r := 136) (seedlen := 64) (seed := seed) (nonce := nonce) (body := fun p => do
      let buf ← squeezeAtH (List.replicate 136 0) 0 136 p 136
      let (a, ctr) ← onC (rejEta (List.replicate 256 0) 0 256 buf 136)
      polyUniformEtaLoopH p fuel a buf ctr)
    (v := fun st => do
      let (buf, st) ← squeezeAt (List.replicate 136 0) 0 136 st 136
      let (a, ctr) ← rejEta (List.replicate 256 0) 0 256 buf 136
      polyUniformEtaLoop fuel a buf ctr st)
    (fun p st => RunAt.bindEnd runAt_squeezeAt fun buf st => RunEnd.bindC fun q => runEnd_etaLoop _ _ _ _ _ _)
  intro h hw
  have := this h hw
  simp only [bind_assoc] at this
  exact this

/-- C86, `poly_uniform_gamma1`. -/
theorem ctx_poly_uniform_gamma1 (seed : Bytes) (nonce : BitVec 16) : Single (polyUniformGamma1H seed nonce) (polyUniformGamma1 seed nonce) := by
  have := Single.tail (single_stream (r := 136) (seedlen := 64) (seed := seed) (nonce := nonce) (body := fun p => squeezeAtH (List.replicate 680 0) 0 680 p 136)
    (v := fun st => do
      let (buf, _) ← squeezeAt (List.replicate 680 0) 0 680 st 136
      .ok buf)
    (fun p st h => by
      have := runAt_squeezeAt (p := p) (r := 136) (off := 0) (n := 680) (buf := List.replicate 680 0) (st := st) h
      rw [this]
      cases squeezeAt (List.replicate 680 0) 0 680 st 136 with
      | error e => exact ⟨fun _ => incInit, by cases e <;> rfl⟩
      | ok q => exact ⟨fun _ => q.2, rfl⟩)) (fun buf => polyzUnpack buf 0)
  intro h hw
  have := this h hw
  simp only [bind_assoc, pure_bind, ok_bind] at this
  exact this

theorem runAt_challengeByte (p : Nat) : ∀ (fuel i : Nat) (buf : Bytes) (pos : Nat) (st : Inc),
    RunAt p (challengeByteH p fuel i (buf, pos)) st (challengeByte fuel i ⟨buf, pos, st⟩ >>= fun q => .ok ((q.1, q.2.buf, q.2.pos), q.2.st)) := by
  intro fuel
  induction fuel with
  | zero => intro i buf pos st h; rfl
  | succ fuel ih =>
    intro i buf pos st
    unfold challengeByteH challengeByte
    have rest : ∀ (buf : Bytes) (pos : Nat) (st : Inc), RunAt p (do
        let b ← onC (rd buf pos)
        if b.toNat > i then challengeByteH p fuel i (buf, pos + 1) else pure (b.toNat, buf, pos + 1)) st
        ((do
          let b ← rd buf pos
          if b.toNat > i then challengeByte fuel i ⟨buf, pos + 1, st⟩ else .ok (b.toNat, (⟨buf, pos + 1, st⟩ : ChalSt))) >>=
            fun q => .ok ((q.1, q.2.buf, q.2.pos), q.2.st)) := by
      intro buf pos st
      have := RunAt.bind (p := p) (st := st) (x := onC (rd buf pos)) (f := fun b => if b.toNat > i then challengeByteH p fuel i (buf, pos + 1) else pure (b.toNat, buf, pos + 1))
        (g := fun q => (if q.1.toNat > i then challengeByte fuel i ⟨buf, pos + 1, q.2⟩ else .ok (q.1.toNat, (⟨buf, pos + 1, q.2⟩ : ChalSt))) >>=
            fun q => .ok ((q.1, q.2.buf, q.2.pos), q.2.st)) RunAt.onC (fun b st => by
          dsimp only
          split
          · exact ih _ _ _ _
          · exact RunAt.pure)
      simpa only [bind_assoc, ok_bind] using this
    by_cases hp : pos ≥ 136
    · simp only [if_pos hp]
      have := RunAt.bind (p := p) (st := st) (x := squeezeAtH buf 0 136 p 136) (v := squeezeAt buf 0 136 st 136) (g := fun q => (do
          let b ← rd q.1 0
          if b.toNat > i then challengeByte fuel i ⟨q.1, 0 + 1, q.2⟩ else .ok (b.toNat, (⟨q.1, 0 + 1, q.2⟩ : ChalSt))) >>=
            fun q => .ok ((q.1, q.2.buf, q.2.pos), q.2.st)) runAt_squeezeAt (fun buf st => rest buf 0 st)
      simpa only [bind_assoc, ok_bind, pure_bind] using this
    · simp only [if_neg hp]
      have := rest buf pos st
      simpa only [bind_assoc, ok_bind, pure_bind] using this

theorem runEnd_challengeLoop (p fuel : Nat) : ∀ (n i : Nat) (c : Poly) (signs : BitVec 64) (buf : Bytes) (pos : Nat) (st : Inc),
    RunEnd p (challengeLoopH p fuel i n c signs (buf, pos)) st (loop (challengeStep fuel) i n (c, signs, ⟨buf, pos, st⟩) >>= fun q => .ok q.1) := by
  intro n
  induction n with
  | zero => intro i c signs buf pos st; exact RunEnd.pure
  | succ n ih =>
    intro i c signs buf pos st
    unfold challengeLoopH loop
    have := RunAt.bindEnd (p := p) (runAt_challengeByte p fuel i buf pos st) (f := fun q => do
        let x ← onC (rd c q.1)
        let c ← onC (wr c i x)
        let c ← onC (wr c q.1 (toI32 ((1 - 2 * (signs &&& 1)).toNat : Int)))
        challengeLoopH p fuel (i + 1) n c (signs >>> 1) q.2)
      (g := fun q => do
        let x ← rd c q.1.1
        let c ← wr c i x
        let c ← wr c q.1.1 (toI32 ((1 - 2 * (signs &&& 1)).toNat : Int))
        loop (challengeStep fuel) (i + 1) n (c, signs >>> 1, ⟨q.1.2.1, q.1.2.2, q.2⟩) >>= fun q => .ok q.1)
      (fun q st => RunEnd.bindC fun x => RunEnd.bindC fun c => RunEnd.bindC fun c => ih (i + 1) c (signs >>> 1) q.2.1 q.2.2 st)
    simp only [challengeStep, bind_assoc, ok_bind] at this ⊢
    exact this

/-- C86, `poly_challenge`. -/
theorem ctx_poly_challenge (fuel : Nat) (seed : Bytes) : Single (polyChallengeH fuel seed) (polyChallenge fuel seed) := by
  have := Single.of_end (body := fun p => do
      incAbsorbH p 136 seed 32
      incFinalizeH p 136
      let buf ← squeezeAtH (List.replicate 136 0) 0 136 p 136
      let signs ← onC (loop (fun i (signs : BitVec 64) => do
        let b ← rd buf i
        .ok (signs ||| b.setWidth 64 <<< (8 * i))) 0 8 0)
      challengeLoopH p fuel 217 39 (List.replicate 256 0) signs (buf, 8)) (v := polyChallenge fuel seed) (fun p => by
    have := RunAt.bindEnd (p := p) (st := incInit) RunAt.absorb (x := incAbsorbH p 136 seed 32) (g := fun q => incFinalize q.2 136 0x1F >>= fun st => (do
        let (buf, st) ← squeezeAt (List.replicate 136 0) 0 136 st 136
        let signs ← loop (fun i (signs : BitVec 64) => do
          let b ← rd buf i
          .ok (signs ||| b.setWidth 64 <<< (8 * i))) 0 8 0
        loop (challengeStep fuel) 217 39 (List.replicate 256 0, signs, ⟨buf, 8, st⟩) >>= fun q => .ok q.1))
      (fun _ st => (show RunEnd p (incFinalizeH p 136 >>= fun _ => _) st _ by
        have := RunAt.bindEnd (p := p) (st := st) RunAt.finalize (x := incFinalizeH p 136) (g := fun q => (do
            let (buf, st) ← squeezeAt (List.replicate 136 0) 0 136 q.2 136
            let signs ← loop (fun i (signs : BitVec 64) => do
              let b ← rd buf i
              .ok (signs ||| b.setWidth 64 <<< (8 * i))) 0 8 0
            loop (challengeStep fuel) 217 39 (List.replicate 256 0, signs, ⟨buf, 8, st⟩) >>= fun q => .ok q.1))
          (fun _ st => RunAt.bindEnd runAt_squeezeAt fun buf st => RunEnd.bindC fun signs => runEnd_challengeLoop _ _ _ _ _ _ _ _ _)
        simpa only [bind_assoc, ok_bind] using this))
    unfold polyChallenge
    simpa only [bind_assoc, ok_bind] using this)
  intro h hw
  have := this h hw
  simp only [bind_assoc] at this
  exact this

/-- C86, the hashes of two pieces in signing and verification. -/
theorem ctx_shake256Inc2 (x : Bytes) (xlen : Nat) (y : Bytes) (ylen : Nat) (out : Bytes) (outlen : Nat) :
    Single (shake256Inc2H x xlen y ylen out outlen) (shake256Inc2 x xlen y ylen out outlen) := by
  have := Single.of_body (body := fun p => do
      incAbsorbH p 136 x xlen
      incAbsorbH p 136 y ylen
      incFinalizeH p 136
      incSqueezeH out outlen p 136)
    (fun p => RunAt.bind' RunAt.absorb fun _ st => RunAt.bind' RunAt.absorb fun _ st => RunAt.bind' RunAt.finalize fun _ st => RunAt.squeeze)
  intro h hw
  have := this h hw
  simp only [bind_assoc, ok_bind, shake256Inc2, shake256Inc2H] at this ⊢
  exact this

theorem clean_buildLoop {f : Nat → K α} {g : Nat → C α} (hf : ∀ i, Clean (f i) (g i)) : ∀ (n i : Nat) (out : List α),
    Clean (buildLoopH f i n out) (loop (fun i out => do let v ← g i; wr out i v) i n out) := by
  intro n
  induction n with
  | zero => intro i out; exact Clean.pure
  | succ n ih =>
    intro i out
    unfold buildLoopH loop
    have := Clean.bind (hf i) (f := fun v => onC (wr out i v) >>= fun out => buildLoopH f (i + 1) n out)
      (g := fun v => wr out i v >>= fun out => loop (fun i out => do let v ← g i; wr out i v) (i + 1) n out) (fun v _ => Clean.bindC fun out _ => ih _ _)
    simpa only [bind_assoc] using this

theorem clean_build {f : Nat → K α} {g : Nat → C α} (n : Nat) (d : α) (hf : ∀ i, Clean (f i) (g i)) : Clean (buildH n d f) (build n d g) := clean_buildLoop hf _ _ _

theorem clean_matrixExpand (fuel : Nat) (rho : Bytes) : Clean (matrixExpandH fuel rho) (matrixExpand fuel rho) :=
  clean_build _ _ fun _ => clean_build _ _ fun _ => (ctx_poly_uniform _ _ _).clean

theorem clean_vecUniformEta (fuel : Nat) (seed : Bytes) (nonce : BitVec 16) : Clean (vecUniformEtaH fuel seed nonce) (vecUniformEta fuel seed nonce) :=
  clean_build _ _ fun _ => (ctx_poly_uniform_eta _ _ _).clean

theorem clean_vecUniformGamma1 (seed : Bytes) (nonce : BitVec 16) : Clean (vecUniformGamma1H seed nonce) (vecUniformGamma1 seed nonce) :=
  clean_build _ _ fun _ => (ctx_poly_uniform_gamma1 _ _).clean

/-- C86, key generation: every context is released, whatever the seed; failing allocations end the process. -/
theorem ctx_keypair_seed (fuel : Nat) (pk sk seed : Bytes) : Clean (keypairSeedH fuel pk sk seed) (keypairSeed fuel pk sk seed) := by
  unfold keypairSeedH keypairSeed
  refine Clean.bindC fun seedbuf _ => Clean.bind (ctx_shake _ _ _ _ _).clean fun seedbuf _ => Clean.bind (clean_matrixExpand _ _) fun mat _ =>
    Clean.bind (clean_vecUniformEta _ _ _) fun s1 _ => Clean.bind (clean_vecUniformEta _ _ _) fun s2 _ => ?_
  refine Clean.bindC fun _ _ => Clean.bindC fun _ _ => Clean.bindC fun _ _ => Clean.bindC fun _ _ => Clean.bindC fun _ _ => Clean.bindC fun _ _ => Clean.bindC fun q _ => ?_
  exact Clean.bindC fun _ _ => Clean.bind (ctx_shake _ _ _ _ _).clean fun _ _ => Clean.bindC fun _ _ => Clean.pure

/-- With the fourth allocation failing, key generation cannot have completed unless it needed at most three contexts. -/
example : ∃ N, keypairSeedH 9 (List.replicate 1312 0) (List.replicate 2560 0) (List.replicate 32 5) demo =
    if (List.range N).any (fun i => demo.fails (demo.next + i)) then .error (.exit 111) else
      toK (keypairSeed 9 (List.replicate 1312 0) (List.replicate 2560 0) (List.replicate 32 5)) >>= fun a => .ok (a, { demo with next := demo.next + N }) := by
  obtain ⟨N, h⟩ := ctx_keypair_seed 9 (List.replicate 1312 0) (List.replicate 2560 0) (List.replicate 32 5)
  exact ⟨N, h demo demo_wf⟩

theorem clean_ite {c : Prop} [Decidable c] {x y : K α} {v w : C α} (hx : Clean x v) (hy : Clean y w) : Clean (if c then x else y) (if c then v else w) := by
  split
  · exact hx
  · exact hy

theorem clean_signAttempt (fuel : Nat) (x : SignCtx) (sig : Bytes) (nonce : BitVec 16) : Clean (signAttemptH fuel x sig nonce) (signAttempt fuel x sig nonce) := by
  unfold signAttemptH signAttempt
  refine Clean.bind (clean_vecUniformGamma1 _ _) fun y _ => ?_
  refine Clean.bindC fun _ _ => Clean.bindC fun _ _ => Clean.bindC fun _ _ => Clean.bindC fun _ _ => Clean.bindC fun _ _ => Clean.bindC fun q _ => Clean.bindC fun _ _ => ?_
  refine Clean.bind (ctx_shake256Inc2 _ _ _ _ _ _).clean fun _ _ => Clean.bind (ctx_poly_challenge _ _).clean fun _ _ => ?_
  refine Clean.bindC fun _ _ => Clean.bindC fun _ _ => Clean.bindC fun _ _ => Clean.bindC fun _ _ => Clean.bindC fun _ _ => Clean.bindC fun _ _ => ?_
  refine clean_ite Clean.pure ?_
  refine Clean.bindC fun _ _ => Clean.bindC fun _ _ => Clean.bindC fun _ _ => Clean.bindC fun _ _ => Clean.bindC fun _ _ => ?_
  refine clean_ite Clean.pure ?_
  refine Clean.bindC fun _ _ => Clean.bindC fun _ _ => Clean.bindC fun _ _ => Clean.bindC fun _ _ => ?_
  refine clean_ite Clean.pure ?_
  refine Clean.bindC fun _ _ => Clean.bindC fun q _ => ?_
  exact clean_ite Clean.pure (Clean.bindC fun _ _ => Clean.pure)

theorem clean_signLoop (fuel : Nat) (x : SignCtx) : ∀ (rounds : Nat) (sig : Bytes) (nonce : BitVec 16), Clean (signLoopH fuel x rounds sig nonce) (signLoop fuel x rounds sig nonce) := by
  intro rounds
  induction rounds with
  | zero => intro sig nonce; exact Clean.onC
  | succ n ih =>
    intro sig nonce
    unfold signLoopH signLoop
    exact Clean.bind (clean_signAttempt _ _ _ _) fun q _ => clean_ite Clean.pure (ih _ _)

/-- C86, signing, through any number of rejections. -/
theorem ctx_signature (fuel : Nat) (sig : Bytes) (siglen : Nat) (m sk : Bytes) : Clean (signatureH fuel sig siglen m sk) (signature fuel sig siglen m sk) := by
  unfold signatureH signature
  refine Clean.bindC fun p _ => Clean.bind (ctx_shake256Inc2 _ _ _ _ _ _).clean fun mu _ => Clean.bindC fun _ _ => Clean.bindC fun _ _ => Clean.bind (ctx_shake _ _ _ _ _).clean fun _ _ => ?_
  refine Clean.bind (clean_matrixExpand _ _) fun _ _ => Clean.bindC fun _ _ => Clean.bindC fun _ _ => Clean.bindC fun _ _ => ?_
  exact Clean.bind (clean_signLoop _ _ _ _ _) fun _ _ => Clean.pure

/-- C86, verification, on every path. -/
theorem ctx_verify (fuel : Nat) (sig : Bytes) (siglen : Nat) (m pk : Bytes) : Clean (verifyH fuel sig siglen m pk) (verify fuel sig siglen m pk) := by
  unfold verifyH verify
  refine clean_ite Clean.pure (Clean.bindC fun q _ => Clean.bindC fun r _ => ?_)
  rcases r with _ | ⟨c, z, h⟩
  · exact Clean.pure
  refine Clean.bindC fun bad _ => clean_ite Clean.pure ?_
  refine Clean.bind (ctx_shake _ _ _ _ _).clean fun _ _ => Clean.bind (ctx_shake256Inc2 _ _ _ _ _ _).clean fun _ _ => Clean.bind (ctx_poly_challenge _ _).clean fun _ _ =>
    Clean.bind (clean_matrixExpand _ _) fun _ _ => ?_
  refine Clean.bindC fun _ _ => Clean.bindC fun _ _ => Clean.bindC fun _ _ => Clean.bindC fun _ _ => Clean.bindC fun _ _ => Clean.bindC fun _ _ => Clean.bindC fun _ _ => ?_
  refine Clean.bindC fun _ _ => Clean.bindC fun _ _ => Clean.bindC fun _ _ => Clean.bindC fun _ _ => Clean.bindC fun _ _ => ?_
  exact Clean.bind (ctx_shake256Inc2 _ _ _ _ _ _).clean fun _ _ => Clean.bindC fun _ _ => clean_ite Clean.pure Clean.pure

/-- A signature of the wrong length is rejected with no context made. -/
example : verifyH 9 [1, 2, 3] 3 [] [] demo4 = .ok (-1, demo4) := rfl

end Verif.Dilithium.Heap
