import Verif.Sphincs.Heap

/-! The property C86 for sphincs: the four functions that use a Keccak context make one and release it, and compute what the model on values says. -/

namespace Verif.Sphincs.Heap
open Verif Verif.Keccak Verif.Keccak.Heap

variable {α β : Type}

/-- Three absorbed pieces are SHAKE256 of their concatenation. -/
theorem absorb3 (x y m : Bytes) (n : Nat) :
    (incAbsorb incInit 136 x x.length >>= fun st => incAbsorb st 136 y y.length >>= fun st => incAbsorb st 136 m m.length >>= fun st =>
      incFinalize st 136 0x1F >>= fun st => incSqueeze (zeroBytes n) n st 136 >>= fun q => .ok q.1) = .ok (shake256F (x ++ y ++ m) n) := by
  obtain ⟨st1, st2, l, h1, h2, h3, h4, h5⟩ := shake_incremental 136 (Or.inr rfl) 0 [x, y, m] [n]
  have h5' : shake256F (x ++ y ++ m) n = l.flatten := by
    have := (shake256F_spec (x ++ y ++ m) n).1
    rw [show [x, y, m].flatten = x ++ y ++ m by simp, show [n].sum = n by simp] at h5
    have h5 : shake256 (List.replicate n 0) n (x ++ y ++ m) (x ++ y ++ m).length = .ok l.flatten := h5
    rw [this] at h5
    exact Except.ok.inj h5
  rw [h5']
  simp only [absorbPieces] at h1
  cases e1 : incAbsorb incInit 136 x x.length with
  | error e => rw [e1] at h1; cases h1
  | ok s1 =>
  rw [e1, ok_bind] at h1
  rw [ok_bind]
  cases e2 : incAbsorb s1 136 y y.length with
  | error e => rw [e2] at h1; cases h1
  | ok s2 =>
  rw [e2, ok_bind] at h1
  rw [ok_bind]
  cases e3 : incAbsorb s2 136 m m.length with
  | error e => rw [e3] at h1; cases h1
  | ok s3 =>
  rw [e3, ok_bind] at h1
  cases h1
  rw [ok_bind, h2, ok_bind]
  simp only [squeezePieces] at h3
  unfold zeroBytes
  cases e4 : incSqueeze (List.replicate n 0) n st2 136 with
  | error e => rw [e4] at h3; cases h3
  | ok q =>
  rw [e4, ok_bind, ok_bind] at h3
  cases h3
  rw [ok_bind]
  simp

theorem shake_at {n : Nat} (b : Bytes) (hb : b.length = n) : Keccak.shake 136 (zeroBytes 32) 32 b n = pure (shake256F b 32) := by
  subst hb
  exact (shake256F_spec b 32).1

theorem onC_bind {x : C α} {f : α → C β} : onC (x >>= f) = (onC x >>= fun a => onC (f a)) := by
  funext h
  rw [K_bind_apply, onC_apply, onC_apply, toK_bind]
  simp only [bind_assoc, K_ok_bind, onC_apply]

theorem onC_pure {a : α} : onC (pure a : C α) = pure a := rfl

/-- C86, `gen_message_random`: one context, released; R is SHAKE256 of sk_prf, optrand and the message. -/
theorem ctx_gen_message_random (skPrf optrand m : Bytes) (h1 : skPrf.length = 32) (h2 : optrand.length = 32) :
    Single (genMessageRandomH skPrf optrand m) (.ok (genMessageRandom shake256F skPrf optrand m)) := by
  have := Single.of_body (body := fun p => do
      incAbsorbH p 136 skPrf 32
      incAbsorbH p 136 optrand 32
      incAbsorbH p 136 m m.length
      incFinalizeH p 136
      incSqueezeH (zeroBytes 32) 32 p 136)
    (fun p => RunAt.bind' RunAt.absorb fun _ st => RunAt.bind' RunAt.absorb fun _ st => RunAt.bind' RunAt.absorb fun _ st => RunAt.bind' RunAt.finalize fun _ st => RunAt.squeeze)
  intro h hw
  have := this h hw
  have e := absorb3 skPrf optrand m 32
  rw [h1, h2] at e
  simp only [bind_assoc, ok_bind, e] at this
  simp only [genMessageRandomH, genMessageRandom]
  exact this

example : (genMessageRandomH (List.replicate 32 1) (List.replicate 32 2) [9] demo).map (fun q => (q.1.length, q.2.next)) = .ok (32, 2) := by
  rw [ctx_gen_message_random _ _ _ List.length_replicate List.length_replicate demo demo_wf]
  exact congrArg (fun n => Except.ok (n, 2)) (length_shake256F _ _)

/-- C86, `hash_message`. -/
theorem ctx_hash_message (R pk m : Bytes) (h1 : R.length = 32) (h2 : pk.length = 64) :
    Single (hashMessageH R pk m) (hashMessage shake256F R pk m) := by
  have key := Single.of_body (body := fun p => do
      incAbsorbH p 136 R 32
      incAbsorbH p 136 pk 64
      incAbsorbH p 136 m m.length
      incFinalizeH p 136
      incSqueezeH (zeroBytes 49) 49 p 136)
    (fun p => RunAt.bind' RunAt.absorb fun _ st => RunAt.bind' RunAt.absorb fun _ st => RunAt.bind' RunAt.absorb fun _ st => RunAt.bind' RunAt.finalize fun _ st => RunAt.squeeze)
  have e := absorb3 R pk m 49
  rw [h1, h2] at e
  simp only [bind_assoc, ok_bind] at key
  have tl := Single.tail (Single.congr key e) (fun buf => do
    let digest ← copy (zeroBytes 40) 0 buf 0 40
    let tree ← bytesToUll buf 40 8
    let leaf ← bytesToUll buf 48 1
    pure (digest, tree &&& ((2 ^ 64 - 1) >>> (64 - 64)), (leaf % 2 ^ 32) &&& ((2 ^ 32 - 1) >>> (32 - 4))))
  intro h hw
  have := tl h hw
  simp only [ok_bind] at this
  rw [show hashMessage shake256F R pk m = (do
    let digest ← copy (zeroBytes 40) 0 (shake256F (R ++ pk ++ m) 49) 0 40
    let tree ← bytesToUll (shake256F (R ++ pk ++ m) 49) 40 8
    let leaf ← bytesToUll (shake256F (R ++ pk ++ m) 49) 48 1
    pure (digest, tree &&& ((2 ^ 64 - 1) >>> (64 - 64)), (leaf % 2 ^ 32) &&& ((2 ^ 32 - 1) >>> (32 - 4)))) from rfl, ← this]
  unfold hashMessageH
  simp only [bind_assoc, pure_bind, onC_bind, onC_pure]

example : hashMessageH (List.replicate 32 1) (List.replicate 64 2) [9] demo4 = .error (.exit 111) := by
  rw [ctx_hash_message _ _ _ List.length_replicate List.length_replicate demo4 demo4_wf]; rfl

theorem copy_run {dst src : Bytes} {d s n : Nat} (hs : s + n ≤ src.length) (hd : d + n ≤ dst.length) :
    ∃ b, copy dst d src s n = .ok b ∧ b.length = dst.length := by
  refine ⟨_, copy_ok hs hd, length_splice ?_⟩
  simp only [slice, List.length_take, List.length_drop]
  omega

theorem onC_ok_bind {a : α} {f : α → K β} : (onC (.ok a) >>= f) = f a := rfl

/-- C86, `prf_addr`. -/
theorem ctx_prf_addr (ctx : Ctx) (sk addr : Bytes) (h1 : ctx.pubSeed.length = 32) (h2 : ctx.skSeed = some sk) (h3 : sk.length = 32) (h4 : addr.length = 32) :
    Single (prfAddrH ctx addr) (prfAddr shake256F ctx addr) := by
  unfold prfAddrH prfAddr
  rw [h2]
  simp only
  have l0 : (zeroBytes 96).length = 96 := List.length_replicate
  obtain ⟨b1, e1, l1⟩ := copy_run (dst := zeroBytes 96) (src := ctx.pubSeed) (d := 0) (s := 0) (n := 32) (by omega) (by omega)
  obtain ⟨b2, e2, l2⟩ := copy_run (dst := b1) (src := addr) (d := 32) (s := 0) (n := 32) (by omega) (by omega)
  obtain ⟨b3, e3, l3⟩ := copy_run (dst := b2) (src := sk) (d := 64) (s := 0) (n := 32) (by omega) (by omega)
  rw [e1, ok_bind, onC_ok_bind, e2, ok_bind, onC_ok_bind, e3, ok_bind, onC_ok_bind]
  exact (ctx_shake _ _ _ _ _).congr (shake_at _ (by omega))

example : Single (prfAddrH ⟨List.replicate 32 1, some (List.replicate 32 2)⟩ (List.replicate 32 3)) (prfAddr shake256F ⟨List.replicate 32 1, some (List.replicate 32 2)⟩ (List.replicate 32 3)) :=
  ctx_prf_addr _ _ _ List.length_replicate rfl List.length_replicate List.length_replicate

/-- C86, `thash`. -/
theorem ctx_thash (inp : Bytes) (o inblocks : Nat) (ctx : Ctx) (addr : Bytes) (h1 : ctx.pubSeed.length = 32) (h2 : o + inblocks * 32 ≤ inp.length) (h4 : addr.length = 32) :
    Single (thashH inp o inblocks ctx addr) (thash shake256F inp o inblocks ctx addr) := by
  unfold thashH thash
  have l0 : (zeroBytes (64 + inblocks * 32)).length = (64 + inblocks * 32) := List.length_replicate
  obtain ⟨b1, e1, l1⟩ := copy_run (dst := zeroBytes (64 + inblocks * 32)) (src := ctx.pubSeed) (d := 0) (s := 0) (n := 32) (by omega) (by omega)
  obtain ⟨b2, e2, l2⟩ := copy_run (dst := b1) (src := addr) (d := 32) (s := 0) (n := 32) (by omega) (by omega)
  obtain ⟨b3, e3, l3⟩ := copy_run (dst := b2) (src := inp) (d := 64) (s := o) (n := (inblocks * 32)) (by omega) (by omega)
  rw [e1, ok_bind, onC_ok_bind, e2, ok_bind, onC_ok_bind, e3, ok_bind, onC_ok_bind]
  exact (ctx_shake _ _ _ _ _).congr (shake_at _ (by omega))

example : Single (thashH (List.replicate 70 7) 6 2 ⟨List.replicate 32 1, none⟩ (List.replicate 32 3)) (thash shake256F (List.replicate 70 7) 6 2 ⟨List.replicate 32 1, none⟩ (List.replicate 32 3)) :=
  ctx_thash _ _ _ _ _ List.length_replicate (by rw [List.length_replicate]) List.length_replicate

end Verif.Sphincs.Heap
