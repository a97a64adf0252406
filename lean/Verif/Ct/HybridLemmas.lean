import Verif.Ct.Hybrid
import Verif.Ct.NaclProps
import Verif.Ct.KeccakProps
import Verif.Ct.DilithiumProps
import Verif.Ct.SphincsProps
import Verif.Real.Props3

/-! Erasing the traces of the hybrid functions, and the traces of their pieces. -/

namespace Verif.Ct.Hybrid
open Verif Verif.Hybrid Verif.Ct.Keccak

variable {α β σ : Type}

theorem TM_bind (x : TM α) (f : α → TM β) (W : World) : (x >>= f) W = (x W >>= fun p => f p.1 p.2) := rfl

theorem bind_ok_res {x : T α} {f : α → T β} {a : α} (h : x.res = .ok a) : (x >>= f).res = (f a).res := by
  rw [bind_res (g := fun a => (f a).res) h fun _ => rfl, ok_bind]

/-! ### Erasing the trace -/

/-- Without its trace, `x` is `y`. -/
def Er (x : TM α) (y : M α) : Prop := ∀ W, (x W).res = y W

theorem Er.bind {x : TM α} {y : M α} {f : α → TM β} {g : α → M β} (h : Er x y) (hf : ∀ a, Er (f a) (g a)) : Er (x >>= f) (y >>= g) :=
  fun W => bind_res (h W) fun p => hf p.1 p.2

theorem Er.pure (a : α) : Er (Pure.pure a : TM α) (Pure.pure a) := fun _ => rfl

theorem Er.liftT {x : T α} {y : C α} (h : x.res = y) : Er (liftT x) (liftC y) := by
  intro W
  unfold Hybrid.liftT
  rw [bind_res (g := fun a => .ok (a, W)) h fun _ => rfl]
  cases y <;> rfl

theorem Er.note {x : TM α} {y : M α} (e : List Ev) (h : Er x y) : Er (do note e; x) y := fun W => h W

theorem Er.condM {c : Prop} [Decidable c] {t e : TM α} {t' e' : M α} (ht : Er t t') (he : Er e e') : Er (condM c t e) (if c then t' else e') := by
  intro W
  have := cond_res (c := c) (ht W) (he W)
  unfold Hybrid.condM
  rw [this]
  split <;> rfl

theorem Er.loopM {f : Nat → σ → TM σ} {g : Nat → σ → M σ} (h : ∀ k s, Er (f k s) (g k s)) (i n : Nat) (s : σ) : Er (loopM f i n s) (Verif.loopM g i n s) := by
  induction n generalizing i s with
  | zero => exact Er.note _ (Er.pure s)
  | succ n ih => exact Er.note _ ((h i s).bind fun s => ih (i + 1) s)

theorem Er.ub {y : M α} (h : y = fun _ => .error .ub) : Er (Hybrid.liftT Ct.ub) y := by
  subst h
  exact fun _ => rfl

theorem copyIn_res (dst : Bytes) (d : Nat) (p : Ptr) (o n : Nat) : Er (copyIn dst d p o n) (Verif.copyIn dst d p o n) :=
  Er.loopM (fun _ _ => Er.bind (fun _ => rfl) fun _ => Er.liftT rfl) _ _ _

theorem copyOut_res (p : Ptr) (o : Nat) (src : Bytes) (s n : Nat) : Er (copyOut p o src s n) (Verif.copyOut p o src s n) :=
  Er.loopM (fun _ _ => Er.bind (Er.liftT rfl) fun _ _ => rfl) _ _ _

theorem copyMem_res (p : Ptr) (o : Nat) (q : Ptr) (s n : Nat) : Er (copyMem p o q s n) (Verif.copyMem p o q s n) :=
  Er.loopM (fun _ _ => Er.bind (fun _ => rfl) fun _ _ => rfl) _ _ _

theorem when_res {c : Prop} [Decidable c] {x : T α} {y : C α} (h : x.res = y) : (when c x).res = Real.when c y := by
  unfold when Real.when
  split
  · exact h
  · rfl

theorem edKeypairSeed_res (fuel : Nat) (pk sk seed : Bytes) : Er (edKeypairSeed pk sk seed) (liftC ((Real.real fuel).edKeypairSeed pk sk seed)) :=
  Er.liftT (when_res (Ed25519.keypairSeed_res _ _ _))

theorem edSign_res (fuel : Nat) (sm : Bytes) (l : Nat) (m sk : Bytes) : Er (edSign sm l m sk) (liftC ((Real.real fuel).edSign sm l m sk)) :=
  Er.liftT (when_res (Ed25519.sign_res _ _ _ _))

theorem dilKeypairSeed_res (fuel : Nat) (pk sk seed : Bytes) : Er (dilKeypairSeed fuel pk sk seed) (liftC ((Real.real fuel).dilKeypairSeed pk sk seed)) :=
  Er.liftT (when_res (Dilithium.keypairSeed_res _ _ _ _))

theorem dilSign_res (fuel : Nat) (sig : Bytes) (l : Nat) (m sk : Bytes) : Er (dilSign fuel sig l m sk) (liftC ((Real.real fuel).dilSign sig l m sk)) :=
  Er.liftT (when_res (Dilithium.signature_res _ _ _ _ _))

theorem spxKeypairSeed_res (fuel : Nat) (pk sk seed : Bytes) : Er (spxKeypairSeed pk sk seed) (liftC ((Real.real fuel).spxKeypairSeed pk sk seed)) :=
  Er.liftT (when_res (Sphincs.seedKeypair_res _ _ _))

theorem spxSign_res (fuel : Nat) (sig : Bytes) (l : Nat) (m sk : Bytes) : Er (spxSign sig l m sk) (liftR ((Real.real fuel).spxSign sig l m sk)) := by
  intro W
  have e : (Real.real fuel).spxSign sig l m sk = fun R => Real.when (sig.length = 49856 ∧ sk.length = 128) (Verif.Sphincs.signature Verif.Sphincs.shake256F sig l m sk R) := rfl
  unfold spxSign liftR Real.when at *
  rw [e]
  by_cases c : sig.length = 49856 ∧ sk.length = 128
  · simp only [if_pos c]
    have e1 : (random 32 W).res = .ok (W.rng.draw W.rng.log.length 32, { W with rng := { W.rng with log := W.rng.log ++ [(32, W.rng.draw W.rng.log.length 32)] } }) := rfl
    rw [TM_bind, bind_ok_res e1]
    unfold Verif.Sphincs.signature
    rw [RandM_bind_apply]
    have e2 : randombytes 32 W.rng = .ok (W.rng.draw W.rng.log.length 32, { W.rng with log := W.rng.log ++ [(32, W.rng.draw W.rng.log.length 32)] }) := rfl
    rw [e2, ok_bind]
    cases W.rng.draw W.rng.log.length 32 with
    | none => rfl
    | some opt =>
      dsimp only
      rw [RandM_bind_apply]
      have e3 := fun W => Er.liftT (Sphincs.signBody_res sig m sk opt) W
      cases hb : Verif.Sphincs.signBody Verif.Sphincs.shake256F sig m sk opt with
      | error e =>
        rw [hb] at e3
        exact bind_res (g := fun _ => _) (e3 _) fun _ => rfl
      | ok s =>
        rw [hb] at e3
        exact bind_ok_res (e3 _)
  · simp only [if_neg c]
    rfl

theorem sha3_512_run (m : Bytes) : (Keccak.sha3_512 (List.replicate 64 0) m m.length).res = .ok ((Real.real 0).sha3_512 m) := by
  have e : (Keccak.sha3_512 (List.replicate 64 0) m m.length).res = Verif.Keccak.sha3_512 (List.replicate 64 0) m m.length := sha3_res ..
  obtain ⟨t256, t384, t512, h⟩ := ct_sha3
  obtain ⟨d, h, -⟩ := (h (List.replicate 64 0) m).2.2 (by rw [List.length_replicate])
  rw [h] at e
  show (Keccak.sha3_512 (List.replicate 64 0) m m.length).res = .ok (match Verif.Keccak.sha3_512 (List.replicate 64 0) m m.length with
    | .ok d => d
    | .error _ => [])
  rw [← e, h]

theorem Er.sha3 (fuel : Nat) (m : Bytes) {f : Bytes → TM β} {g : M β} (h : Er (f ((Real.real fuel).sha3_512 m)) g) : Er (sha3_512 m >>= f) g := by
  intro W
  have := bind_res (f := fun p : Bytes × World => f p.1 p.2) (g := fun p => (f p.1 p.2).res) (Er.liftT (sha3_512_run m) W) fun _ => rfl
  exact this.trans (h W)

theorem seedexpander_res (fuel : Nat) (seed : Bytes) (n : Nat) : Er (seedexpander seed n) (liftC ((Real.real fuel).seedexpander seed n)) := by
  intro W
  have e : (Real.real fuel).seedexpander seed n = Verif.Keccak.seedexpanderWrapper (some seed) seed.length (some (List.replicate n 0)) n >>= fun p => match p with
    | (r, some out) => .ok (r, out)
    | (_, none) => .error .ub := rfl
  unfold seedexpander
  rw [e, TM_bind, bind_res (g := fun p => (match p.1 with
    | (r, some out) => .ok ((r, out), p.2)
    | (_, none) => .error .ub)) (Er.liftT (seedexpanderWrapper_res _ _ _ _) W) fun p => by obtain ⟨⟨r, _ | out⟩, W'⟩ := p <;> rfl]
  cases Verif.Keccak.seedexpanderWrapper (some seed) seed.length (some (List.replicate n 0)) n with
  | error e => rfl
  | ok p => obtain ⟨r, _ | out⟩ := p <;> rfl

theorem withLocal_res (init : Bytes) {f : Ptr → TM α} {g : Ptr → M α} (h : ∀ p, Er (f p) (g p)) : Er (withLocal init f) (Verif.withLocal init g) := by
  intro W
  unfold withLocal Verif.withLocal
  rw [bind_res (g := fun p => .ok (p.1, { p.2 with mem := Function.update p.2.mem W.sp none, sp := W.sp })) (h _ _) fun _ => rfl]
  cases g ⟨W.sp, 0⟩ { W with mem := Function.update W.mem W.sp (some init), sp := W.sp + 1 } <;> rfl

theorem seedExpander_res (fuel : Nat) (seed ex : Option Ptr) : Er (seedExpander seed ex) (Verif.Hybrid.seedExpander (Real.real fuel) seed ex) := by
  cases seed with
  | none => exact Er.ub rfl
  | some seed =>
    refine Er.bind (Er.loopM (fun _ _ => Er.bind (fun _ => rfl) fun _ => Er.liftT rfl) _ _ _) fun t => Er.bind (seedexpander_res fuel _ _) fun ⟨r, tmp⟩ => Er.condM (Er.pure _) ?_
    cases ex with
    | none => exact Er.ub rfl
    | some ex => exact Er.bind (copyOut_res _ _ _ _ _) fun _ => Er.bind (copyMem_res _ _ _ _ _) fun _ => Er.bind (copyOut_res _ _ _ _ _) fun _ => Er.pure _

theorem keypairSeed_res (fuel : Nat) (pk sk seed : Option Ptr) : Er (keypairSeed fuel pk sk seed) (Verif.Hybrid.keypairSeed (Real.real fuel) pk sk seed) := by
  unfold keypairSeed Verif.Hybrid.keypairSeed
  split
  · exact Er.note _ (Er.bind (copyIn_res _ _ _ _ _) fun _ => Er.bind (copyIn_res _ _ _ _ _) fun _ => Er.bind (copyIn_res _ _ _ _ _) fun _ =>
      Er.bind (edKeypairSeed_res fuel _ _ _) fun ⟨_, _, _⟩ => Er.condM (Er.pure _) (Er.bind (copyOut_res _ _ _ _ _) fun _ => Er.bind (copyOut_res _ _ _ _ _) fun _ =>
      Er.bind (dilKeypairSeed_res fuel _ _ _) fun ⟨_, _, _⟩ => Er.condM (Er.pure _) (Er.bind (copyOut_res _ _ _ _ _) fun _ =>
      Er.bind (Er.loopM (fun _ _ => Er.bind (Er.liftT rfl) fun _ => Er.bind (fun _ => rfl) fun _ => Er.bind (Er.liftT rfl) fun _ _ => rfl) _ _ _) fun _ =>
      Er.bind (spxKeypairSeed_res fuel _ _ _) fun ⟨_, _, _⟩ => Er.condM (Er.pure _) (Er.bind (copyOut_res _ _ _ _ _) fun _ => Er.bind (copyOut_res _ _ _ _ _) fun _ => Er.pure _))))
  · rename_i h
    split
    · exact absurd rfl (h _ _ _ rfl rfl)
    · exact Er.note _ (Er.pure _)

theorem keypair_res (fuel : Nat) (pk sk : Option Ptr) : Er (keypair fuel pk sk) (Verif.Hybrid.keypair (Real.real fuel) pk sk) := by
  unfold keypair Verif.Hybrid.keypair
  split
  · refine Er.note _ (Er.bind (fun _ => rfl) fun o => ?_)
    cases o with
    | none => exact Er.note _ (Er.pure _)
    | some s => exact Er.note _ (withLocal_res _ fun _ => keypairSeed_res _ _ _ _)
  · rename_i h
    split
    · exact absurd rfl (h _ _ rfl)
    · exact Er.note _ (Er.pure _)

theorem signFull_res (fuel : Nat) (sm smlen m : Option Ptr) (mlen : Nat) (sk : Option Ptr) :
    Er (signFull fuel sm smlen m mlen sk) (Verif.Hybrid.signFull (Real.real fuel) sm smlen m mlen sk) := by
  unfold signFull Verif.Hybrid.signFull
  split
  · exact Er.condM (Er.pure _) (Er.bind (copyIn_res _ _ _ _ _) fun _ => Er.bind (copyIn_res _ _ _ _ _) fun _ => Er.bind (copyIn_res _ _ _ _ _) fun _ => Er.bind (fun _ => rfl) fun _ =>
      Er.bind (edSign_res fuel _ _ _ _) fun ⟨_, _, _⟩ => Er.bind (dilSign_res fuel _ _ _ _) fun ⟨_, _, _⟩ => Er.bind (spxSign_res fuel _ _ _ _) fun ⟨_, _, _⟩ =>
      Er.condM (Er.pure _) (Er.condM (Er.pure _) (Er.condM (Er.pure _) (Er.condM (Er.pure _) (Er.condM (Er.pure _) (Er.condM (Er.pure _)
      (Er.bind (fun _ => rfl) fun _ => Er.bind (fun _ => rfl) fun _ => Er.bind (copyOut_res _ _ _ _ _) fun _ => Er.bind (copyOut_res _ _ _ _ _) fun _ =>
        Er.bind (copyOut_res _ _ _ _ _) fun _ => Er.bind (fun _ => rfl) fun _ => Er.pure _)))))))
  · rename_i h
    split
    · exact absurd rfl (h _ _ _ _ rfl rfl rfl)
    · exact Er.note _ (Er.pure _)

theorem signCompact_res (fuel : Nat) (sm smlen m : Option Ptr) (mlen : Nat) (sk : Option Ptr) :
    Er (signCompact fuel sm smlen m mlen sk) (Verif.Hybrid.signCompact (Real.real fuel) sm smlen m mlen sk) := by
  unfold signCompact Verif.Hybrid.signCompact
  split
  · refine Er.condM (Er.pure _) (Er.bind (copyIn_res _ _ _ _ _) fun _ => Er.bind (copyIn_res _ _ _ _ _) fun _ => Er.bind (fun _ => rfl) fun o => ?_)
    cases o with
    | none => exact Er.note _ (Er.pure _)
    | some nonce =>
      refine Er.note _ (Er.bind (Er.liftT (copy_res _ _ _ _ _)) fun _ => Er.bind (copyIn_res _ _ _ _ _) fun _ => Er.bind (copyIn_res _ _ _ _ _) fun _ =>
        Er.bind (Er.liftT rfl) fun _ => Er.sha3 fuel _ ?_)
      exact Er.bind (edSign_res fuel _ _ _ _) fun ⟨_, _, _⟩ => Er.bind (dilSign_res fuel _ _ _ _) fun ⟨_, _, _⟩ =>
        Er.condM (Er.pure _) (Er.condM (Er.pure _) (Er.condM (Er.pure _) (Er.condM (Er.pure _)
        (Er.bind (fun _ => rfl) fun _ => Er.bind (fun _ => rfl) fun _ => Er.bind (copyOut_res _ _ _ _ _) fun _ => Er.bind (copyOut_res _ _ _ _ _) fun _ =>
          Er.bind (copyOut_res _ _ _ _ _) fun _ => Er.bind (copyMem_res _ _ _ _ _) fun _ => Er.bind (fun _ => rfl) fun _ => Er.pure _))))
  · rename_i h
    split
    · exact absurd rfl (h _ _ _ _ rfl rfl rfl)
    · exact Er.note _ (Er.pure _)

end Verif.Ct.Hybrid
