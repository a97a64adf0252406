import Verif.Conc.Model

/-!
The steps of a call without interruption do what Hybrid/Model.lean says.
-/

namespace Verif.Conc
open Verif
open Verif.Hybrid (Prims)

variable {α β : Type}

theorem bind_def (x : Prog α) (f : α → Prog β) : x >>= f = x.bind f := rfl
theorem pure_def (a : α) : (pure a : Prog α) = .ret a := rfl

theorem exec_bind (x : Prog α) (f : α → Prog β) : exec (x >>= f) = exec x >>= fun a => exec (f a) := by
  rw [bind_def]
  induction x with
  | ret a => rfl
  | fail e => rfl
  | load p i k ih =>
    simp only [Prog.bind, exec, ih]
    funext W; simp only [M_bind_apply]
    cases Verif.load p i W <;> rfl
  | store p i v k ih =>
    simp only [Prog.bind, exec, ih]
    funext W; simp only [M_bind_apply]
    cases Verif.store p i v W <;> rfl
  | draw n k ih =>
    simp only [Prog.bind, exec, ih]
    funext W; simp only [M_bind_apply]
    cases Verif.liftR (randombytes n) W <;> rfl
  | push init k ih => funext W; simp only [Prog.bind, exec, ih]; rfl
  | pop p k ih => funext W; simp only [Prog.bind, exec, ih]; rfl

theorem exec_pure (a : α) : exec (pure a : Prog α) = pure a := rfl

theorem exec_fail (e : Fault) : exec (.fail e : Prog α) = fun _ => .error e := rfl

theorem exec_liftC (x : C α) : exec (liftC x) = Verif.liftC x := by cases x <;> rfl

theorem bind_pure_M (x : M α) : (x >>= fun a W => Except.ok (a, W)) = x := by
  funext W; simp only [M_bind_apply]; cases x W <;> rfl

theorem exec_load (p : Ptr) (i : Nat) : exec (load p i) = Verif.load p i := bind_pure_M _

theorem exec_store (p : Ptr) (i : Nat) (v : Byte) : exec (store p i v) = Verif.store p i v := bind_pure_M _

theorem exec_draw (n : Nat) : exec (draw n) = Verif.liftR (randombytes n) := bind_pure_M _

theorem exec_loopM {σ : Type} (f : Nat → σ → Prog σ) (g : Nat → σ → M σ) (h : ∀ k s, exec (f k s) = g k s) (i n : Nat) (s : σ) :
    exec (loopM f i n s) = Verif.loopM g i n s := by
  induction n generalizing i s with
  | zero => rfl
  | succ n ih =>
    show exec (f i s >>= loopM f (i + 1) n) = g i s >>= Verif.loopM g (i + 1) n
    rw [exec_bind, h]
    congr 1; funext s'; exact ih _ _

theorem exec_copyIn (dst : Bytes) (d : Nat) (p : Ptr) (o n : Nat) : exec (copyIn dst d p o n) = Verif.copyIn dst d p o n :=
  exec_loopM _ _ (fun k s => by rw [exec_bind, exec_load]; simp only [exec_liftC]) _ _ _

theorem exec_copyOut (p : Ptr) (o : Nat) (src : Bytes) (s n : Nat) : exec (copyOut p o src s n) = Verif.copyOut p o src s n :=
  exec_loopM _ _ (fun k u => by rw [exec_bind, exec_liftC]; simp only [exec_store]) _ _ _

theorem exec_copyMem (p : Ptr) (o : Nat) (q : Ptr) (s n : Nat) : exec (copyMem p o q s n) = Verif.copyMem p o q s n :=
  exec_loopM _ _ (fun k u => by rw [exec_bind, exec_load]; simp only [exec_store]) _ _ _

theorem exec_readMem (p : Ptr) (n : Nat) : exec (readMem p n) = Verif.readMem p n := exec_copyIn _ _ _ _ _

theorem exec_storeU64 (p : Ptr) (v : Nat) : exec (storeU64 p v) = Verif.storeU64 p v := exec_copyOut _ _ _ _ _

theorem exec_loadU64 (p : Ptr) : exec (loadU64 p) = Verif.loadU64 p := by
  unfold loadU64 Verif.loadU64
  rw [exec_bind, exec_readMem]; rfl

theorem exec_withLocal (init : Bytes) (f : Ptr → Prog α) (g : Ptr → M α) (h : ∀ p, exec (f p) = g p) :
    exec (withLocal init f) = Verif.withLocal init g := by
  funext W
  have := exec_bind (f ⟨W.sp, 0⟩) (fun a => .pop ⟨W.sp, 0⟩ (.ret a))
  unfold withLocal Verif.withLocal
  show exec ((f ⟨W.sp, 0⟩).bind fun a => .pop ⟨W.sp, 0⟩ (.ret a)) _ = _
  rw [← bind_def, this, h, M_bind_apply]
  cases g ⟨W.sp, 0⟩ { W with mem := Function.update W.mem W.sp (some init), sp := W.sp + 1 } <;> rfl

theorem exec_cmpMem (b m : Ptr) (i n : Nat) : exec (cmpMem b m i n) = Verif.cmpMem b m i n := by
  induction n generalizing i with
  | zero => rfl
  | succ n ih =>
    unfold cmpMem Verif.cmpMem
    rw [exec_bind, exec_load]
    congr 1; funext x
    rw [exec_bind, exec_load]
    congr 1; funext y
    split
    · rfl
    · exact ih _

/-- `body` is what SPHINCS+ signing computes from its one draw of 32 bytes and the two readings of the message, if they agree (no line of its own). -/
def OneDraw (P : Prims) (body : Bytes → Nat → Bytes → Bytes → Bytes → Option Bytes → C (Int × Bytes × Nat)) : Prop :=
  ∀ sig n m sk, P.spxSign sig n m sk = (randombytes 32 >>= fun o => liftCR (match o with
    | none => body sig n [] [] sk none
    | some opt => body sig n m m sk (some opt)))

theorem bc {x : M α} {f g : α → M β} (h : ∀ a, f a = g a) : x >>= f = x >>= g := by rw [funext h]

theorem loadKeeps {p : Ptr} {i : Nat} {W W' : World} {v : Byte} (h : Verif.load p i W = .ok (v, W')) : W' = W := by
  unfold Verif.load at h
  repeat' split at h
  all_goals first | cases h; rfl | cases h

theorem readKeeps {p : Ptr} {n : Nat} {W W' : World} {a : Bytes} (h : Verif.readMem p n W = .ok (a, W')) : W' = W := by
  have key : ∀ n i b, Verif.loopM (fun i b => do let v ← Verif.load p (0 + i); Verif.liftC (wr b (0 + i) v)) i n b W = .ok (a, W') → W' = W := by
    intro n
    induction n with
    | zero => intro i b h; cases h; rfl
    | succ n ih =>
      intro i b h
      rw [Verif.loopM, M_bind_apply, M_bind_apply] at h
      obtain ⟨⟨v, W1⟩, h1, h⟩ := bind_eq_ok.1 h
      obtain ⟨⟨v', W2⟩, h2, h1⟩ := bind_eq_ok.1 h1
      cases loadKeeps h2
      cases hw : wr b (0 + i) v' with
      | error e => rw [hw] at h1; cases h1
      | ok b' => rw [hw] at h1; cases h1; exact ih _ _ h
  exact key _ _ _ h

theorem readRng {p : Ptr} {n : Nat} {W : World} {a : Bytes} (h : Verif.readMem p n W = .ok (a, W)) (R : Rng) : Verif.readMem p n { W with rng := R } = .ok (a, { W with rng := R }) := by
  have key : ∀ n i b, Verif.loopM (fun i b => do let v ← Verif.load p (0 + i); Verif.liftC (wr b (0 + i) v)) i n b W = .ok (a, W) →
      Verif.loopM (fun i b => do let v ← Verif.load p (0 + i); Verif.liftC (wr b (0 + i) v)) i n b { W with rng := R } = .ok (a, { W with rng := R }) := by
    intro n
    induction n with
    | zero => intro i b h; cases h; rfl
    | succ n ih =>
      intro i b h
      rw [Verif.loopM, M_bind_apply, M_bind_apply] at h ⊢
      obtain ⟨⟨v, W1⟩, h1, h⟩ := bind_eq_ok.1 h
      obtain ⟨⟨v', W2⟩, h2, h1⟩ := bind_eq_ok.1 h1
      cases loadKeeps h2
      have h2' : Verif.load p (0 + i) { W with rng := R } = .ok (v', { W with rng := R }) := by
        unfold Verif.load at h2 ⊢
        repeat' split at h2
        all_goals first | cases h2; simp_all | cases h2
      cases hw : wr b (0 + i) v' with
      | error e => rw [hw] at h1; cases h1
      | ok b' =>
        rw [hw] at h1; cases h1
        rw [h2', ok_bind]
        dsimp only
        rw [hw]
        exact ih _ _ h
  exact key _ _ _ h

theorem exec_spxSign {P : Prims} {body : Bytes → Nat → Bytes → Bytes → Bytes → Option Bytes → C (Int × Bytes × Nat)} (hb : OneDraw P body) (sig : Bytes) (n : Nat) (m : Ptr) (mlen : Nat) (sk : Bytes) {msg : Bytes} {W : World}
    (h : Verif.readMem m mlen W = .ok (msg, W)) : exec (spxSign body sig n m mlen sk) W = Verif.liftR (P.spxSign sig n msg sk) W := by
  unfold spxSign
  rw [exec_bind, exec_draw, hb, M_bind_apply]
  simp only [Verif.liftR, RandM_bind_apply, randombytes, ok_bind]
  cases W.rng.draw W.rng.log.length 32 with
  | none =>
    dsimp only
    rw [exec_liftC]
    cases body sig n [] [] sk none <;> rfl
  | some opt =>
    dsimp only
    rw [exec_bind, exec_readMem, M_bind_apply, readRng h, ok_bind]; dsimp only
    rw [exec_bind, exec_readMem, M_bind_apply, readRng h, ok_bind]; dsimp only
    rw [exec_liftC]
    cases body sig n msg msg sk (some opt) <;> rfl

theorem bc_read {p : Ptr} {n : Nat} {f g : Bytes → M α} (h : ∀ a W, Verif.readMem p n W = .ok (a, W) → f a W = g a W) : (Verif.readMem p n >>= f) = Verif.readMem p n >>= g := by
  funext W
  rw [M_bind_apply, M_bind_apply]
  cases hr : Verif.readMem p n W with
  | error e => rfl
  | ok x => obtain ⟨a, W'⟩ := x; cases readKeeps hr; exact h _ _ hr

theorem bc_at {x : C α} {f g : α → M β} {W : World} (h : ∀ t, f t W = g t W) : (Verif.liftC x >>= f) W = (Verif.liftC x >>= g) W := by
  rw [M_bind_apply, M_bind_apply]
  cases x with
  | error e => rfl
  | ok t => exact h t

theorem exec_ite {c : Prop} [Decidable c] {x y : Prog α} : exec (if c then x else y) = if c then exec x else exec y := by split <;> rfl

/-- One operation on both sides. -/
syntax "exec_step" : tactic
macro_rules
  | `(tactic| exec_step) => `(tactic| first
    | rfl
    | rw [exec_copyIn]
    | rw [exec_copyOut]
    | rw [exec_cmpMem]
    | (rw [exec_bind]; first
        | (rw [exec_copyIn]; refine bc fun _ => ?_)
        | (rw [exec_copyOut]; refine bc fun _ => ?_)
        | (rw [exec_copyMem]; refine bc fun _ => ?_)
        | (rw [exec_readMem]; refine bc fun _ => ?_)
        | (rw [exec_loadU64]; refine bc fun _ => ?_)
        | (rw [exec_storeU64]; refine bc fun _ => ?_)
        | (rw [exec_load]; refine bc fun _ => ?_)
        | (rw [exec_store]; refine bc fun _ => ?_)
        | (rw [exec_draw]; refine bc fun _ => ?_)
        | (rw [exec_liftC]; first
            | (refine bc fun (p : _ × _ × _) => ?_; obtain ⟨_, _, _⟩ := p; dsimp only)
            | (refine bc fun (p : _ × _) => ?_; obtain ⟨_, _⟩ := p; dsimp only)
            | refine bc fun _ => ?_))
    | refine exec_ite.trans (ite_congr rfl (fun _ => ?_) (fun _ => ?_))
    | split)

variable (P : Prims) {body : Bytes → Nat → Bytes → Bytes → Bytes → Option Bytes → C (Int × Bytes × Nat)}

theorem exec_expanderCopy (t : Bytes) (s : Ptr) : exec (expanderCopy t s) = Hybrid.expanderCopy t s :=
  exec_loopM _ _ (fun k s => by rw [exec_bind, exec_load]; simp only [exec_liftC]) _ _ _

theorem exec_seedExpander (seed ex : Option Ptr) : exec (seedExpander P seed ex) = Hybrid.seedExpander P seed ex := by
  unfold seedExpander Hybrid.seedExpander
  split
  · rfl
  · rw [exec_bind, exec_expanderCopy]; refine bc fun _ => ?_
    repeat' exec_step

theorem exec_keypairSeed (pk sk seed : Option Ptr) : exec (keypairSeed P pk sk seed) = Hybrid.keypairSeed P pk sk seed := by
  unfold keypairSeed Hybrid.keypairSeed
  split
  · repeat' exec_step
    rw [exec_bind, exec_loopM _ _ (fun k s => by simp only [exec_bind, exec_store, exec_liftC]; rfl)]
    refine bc fun _ => ?_
    repeat' exec_step
  · next h =>
    split
    · exact (h _ _ _ rfl rfl rfl).elim
    · rfl

theorem exec_keypair (pk sk : Option Ptr) : exec (keypair P pk sk) = Hybrid.keypair P pk sk := by
  unfold keypair Hybrid.keypair
  split
  · exec_step
    split
    · rfl
    · exact exec_withLocal _ _ _ fun p => exec_keypairSeed P _ _ _
  · next h =>
    split
    · exact (h _ _ rfl rfl).elim
    · rfl

theorem exec_signFull (hb : OneDraw P body) (sm smlen m : Option Ptr) (mlen : Nat) (sk : Option Ptr) :
    exec (signFull P body sm smlen m mlen sk) = Hybrid.signFull P sm smlen m mlen sk := by
  unfold signFull Hybrid.signFull
  split
  · split
    · rfl
    · iterate 3 exec_step
      rw [exec_bind, exec_readMem]; refine bc_read fun msg W h => ?_
      rw [exec_bind, exec_liftC]; refine bc_at fun p => ?_; obtain ⟨_, _, _⟩ := p; dsimp only
      rw [exec_bind, exec_readMem, M_bind_apply, h, ok_bind]; dsimp only
      rw [exec_bind, exec_liftC]; refine bc_at fun p => ?_; obtain ⟨_, _, _⟩ := p; dsimp only
      rw [exec_bind, M_bind_apply, exec_spxSign hb _ _ _ _ _ h, M_bind_apply]
      refine congrArg _ (funext fun ((p : Int × Bytes × Nat), W') => ?_)
      obtain ⟨_, _, _⟩ := p; dsimp only
      refine congrFun ?_ W'
      repeat' exec_step
  · next h =>
    split
    · exact (h _ _ _ _ rfl rfl rfl rfl).elim
    · rfl

theorem exec_openFull (m mlen sm : Option Ptr) (smlen : Nat) (pk : Option Ptr) : exec (openFull P m mlen sm smlen pk) = Hybrid.openFull P m mlen sm smlen pk := by
  unfold openFull Hybrid.openFull
  split
  · repeat' exec_step
  · next h =>
    split
    · exact (h _ _ _ _ rfl rfl rfl rfl).elim
    · rfl

theorem exec_verifyFull (m : Option Ptr) (mlen : Nat) (sm : Option Ptr) (smlen : Nat) (pk : Option Ptr) :
    exec (verifyFull P m mlen sm smlen pk) = Hybrid.verifyFull P m mlen sm smlen pk := by
  unfold verifyFull Hybrid.verifyFull
  split
  · split
    · rfl
    · refine exec_withLocal _ _ _ fun p => exec_withLocal _ _ _ fun q => ?_
      rw [exec_bind, exec_openFull]; refine bc fun _ => ?_
      repeat' exec_step
  · next h =>
    split
    · exact (h _ _ _ rfl rfl rfl).elim
    · rfl

theorem exec_signCompact (sm smlen m : Option Ptr) (mlen : Nat) (sk : Option Ptr) : exec (signCompact P sm smlen m mlen sk) = Hybrid.signCompact P sm smlen m mlen sk := by
  unfold signCompact Hybrid.signCompact
  split
  · repeat' exec_step
  · next h =>
    split
    · exact (h _ _ _ _ rfl rfl rfl rfl).elim
    · rfl

theorem exec_openCompact (m mlen sm : Option Ptr) (smlen : Nat) (pk : Option Ptr) : exec (openCompact P m mlen sm smlen pk) = Hybrid.openCompact P m mlen sm smlen pk := by
  unfold openCompact Hybrid.openCompact
  split
  · repeat' exec_step
  · next h =>
    split
    · exact (h _ _ _ _ rfl rfl rfl rfl).elim
    · rfl

theorem exec_verifyCompact (m : Option Ptr) (mlen : Nat) (sm : Option Ptr) (smlen : Nat) (pk : Option Ptr) :
    exec (verifyCompact P m mlen sm smlen pk) = Hybrid.verifyCompact P m mlen sm smlen pk := by
  unfold verifyCompact Hybrid.verifyCompact
  split
  · split
    · rfl
    · refine exec_withLocal _ _ _ fun p => exec_withLocal _ _ _ fun q => ?_
      rw [exec_bind, exec_openCompact]; refine bc fun _ => ?_
      repeat' exec_step
  · next h =>
    split
    · exact (h _ _ _ rfl rfl rfl).elim
    · rfl

theorem exec_verifyDilithium (m : Option Ptr) (mlen : Nat) (sm : Option Ptr) (smlen : Nat) (pk : Option Ptr) :
    exec (verifyDilithium P m mlen sm smlen pk) = Hybrid.verifyDilithium P m mlen sm smlen pk := by
  unfold verifyDilithium Hybrid.verifyDilithium
  split
  · repeat' exec_step
  · next h =>
    split
    · exact (h _ _ _ rfl rfl rfl).elim
    · rfl

/-- The steps of a call without interruption do what Hybrid/Model.lean says. -/
theorem exec_call (hb : OneDraw P body) (c : Call) : exec (c.prog P body) = c.whole P := by
  cases c with
  | seedExpander a b => exact exec_seedExpander P a b
  | keypairSeed a b c => exact exec_keypairSeed P a b c
  | keypair a b => exact exec_keypair P a b
  | signFull a b c d e => exact exec_signFull P hb a b c d e
  | openFull a b c d e => exact exec_openFull P a b c d e
  | verifyFull a b c d e => exact exec_verifyFull P a b c d e
  | signCompact a b c d e => exact exec_signCompact P a b c d e
  | openCompact a b c d e => exact exec_openCompact P a b c d e
  | verifyCompact a b c d e => exact exec_verifyCompact P a b c d e
  | verifyDilithium a b c d e => exact exec_verifyDilithium P a b c d e

end Verif.Conc
