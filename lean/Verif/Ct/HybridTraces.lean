import Verif.Ct.HybridLemmas

/-! The traces of the hybrid functions, computed. -/

namespace Verif.Ct.Hybrid
open Verif Verif.Hybrid Verif.Real Verif.Ct.Keccak
open Verif.Keccak.Spec (bits)
open Verif.Dilithium (IsShake128 IsShake256 dil_sign_spec dil_keygen_spec dil_deterministic S128 S256 isShake128_S128 isShake256_S256)
open Verif.Ct.Dilithium.Spec (Rejected shown)

variable {α β σ : Type}

/-! ### Traces of the pieces -/

/-- The trace of a loop whose pass `k` has the trace `g k`. -/
def loopTr (g : Nat → List Ev) : (i n : Nat) → List Ev
  | _, 0 => [.branch false]
  | i, n + 1 => .branch true :: (g i ++ loopTr g (i + 1) n)

/-- Whenever `x` ends, its trace is `t`. -/
def TrOf (x : TM α) (t : List Ev) : Prop := ∀ W r, (x W).res = .ok r → (x W).tr = t

theorem TrOf.bind {x : TM α} {f : α → TM β} {t u : List Ev} (h : TrOf x t) (hf : ∀ a, TrOf (f a) u) : TrOf (x >>= f) (t ++ u) := by
  intro W r hr
  rw [TM_bind] at hr ⊢
  obtain ⟨⟨a, W1⟩, e1, e2⟩ := bind_ok hr
  rw [bind_tr e1, h W _ e1, hf a W1 r e2]

theorem TrOf.pure (a : α) : TrOf (Pure.pure a : TM α) [] := fun _ _ _ => rfl

theorem liftT_tr {x : T α} {W : World} {r : α × World} (h : (liftT x W).res = .ok r) : ∃ a, x.res = .ok a ∧ r = (a, W) ∧ (liftT x W).tr = x.tr := by
  obtain ⟨a, e1, e2⟩ := bind_ok h
  refine ⟨a, e1, (Except.ok.inj e2).symm, ?_⟩
  have : (liftT x W).tr = x.tr ++ [] := bind_tr e1
  rw [this, List.append_nil]

theorem liftT_run {x : T α} {a : α} {t : List Ev} (h : x = ⟨.ok a, t⟩) (W : World) : liftT x W = ⟨.ok (a, W), t⟩ := by
  subst h
  show (⟨.ok (a, W), t ++ []⟩ : T _) = _
  rw [List.append_nil]

theorem TrOf.note {x : TM α} {t : List Ev} (e : List Ev) (h : TrOf x t) : TrOf (do note e; x) (e ++ t) := by
  intro W r hr
  have e1 : Hybrid.note e W = ⟨.ok ((), W), e⟩ := liftT_run rfl W
  rw [TM_bind] at hr ⊢
  rw [bind_ok_res (congrArg T.res e1)] at hr
  rw [bind_tr (congrArg T.res e1), e1, h _ _ hr]

theorem TrOf.loopM {f : Nat → σ → TM σ} {g : Nat → List Ev} (h : ∀ k s, TrOf (f k s) (g k)) (i n : Nat) (s : σ) : TrOf (loopM f i n s) (loopTr g i n) := by
  induction n generalizing i s with
  | zero => exact TrOf.note _ (TrOf.pure s)
  | succ n ih => exact TrOf.note _ ((h i s).bind fun s => ih (i + 1) s)

/-- The trace of `copyIn`. -/
def inTr (d o n : Nat) : List Ev := loopTr (fun i => [.read (o + i), .write (d + i)]) 0 n

theorem copyIn_tr (dst : Bytes) (d : Nat) (p : Ptr) (o n : Nat) : TrOf (copyIn dst d p o n) (inTr d o n) :=
  TrOf.loopM (fun k s => TrOf.bind (t := [.read (o + k)]) (u := [.write (d + k)]) (fun _ _ _ => rfl) fun _ _ _ hr => by
    obtain ⟨_, _, _, e⟩ := liftT_tr hr
    exact e) _ _ _

theorem copyOut_tr (p : Ptr) (o : Nat) (src : Bytes) (s n : Nat) : TrOf (copyOut p o src s n) (inTr o s n) :=
  TrOf.loopM (fun k _ => TrOf.bind (t := [.read (s + k)]) (u := [.write (o + k)]) (fun _ _ hr => by
    obtain ⟨_, _, _, e⟩ := liftT_tr hr
    exact e) fun _ _ _ _ => rfl) _ _ _

theorem copyMem_tr (p : Ptr) (o : Nat) (q : Ptr) (s n : Nat) : TrOf (copyMem p o q s n) (inTr o s n) :=
  TrOf.loopM (fun k _ => TrOf.bind (t := [.read (s + k)]) (u := [.write (o + k)]) (fun _ _ _ => rfl) fun _ _ _ _ => rfl) _ _ _

theorem bind_run {x : TM α} {f : α → TM β} {W W1 : World} {a : α} {t : List Ev} (h : x W = ⟨.ok (a, W1), t⟩) : (x >>= f) W = ⟨(f a W1).res, t ++ (f a W1).tr⟩ := by
  rw [TM_bind, h]
  rfl

theorem note_run (e : List Ev) (W : World) : note e W = ⟨.ok ((), W), e⟩ := liftT_run rfl W

/-- One step of a run whose result is known. -/
theorem step {x : TM α} {f : α → TM β} {W W1 : World} {a : α} {t u : List Ev} {r : β × World} (hx : (x W).res = .ok (a, W1)) (ht : (x W).tr = t)
    (hr : ((x >>= f) W).res = .ok r) (h : (f a W1).res = .ok r → (f a W1).tr = u) : ((x >>= f) W).tr = t ++ u := by
  rw [TM_bind] at hr ⊢
  rw [bind_ok_res hx] at hr
  rw [bind_tr hx, ht, h hr]

theorem step' {x : TM α} {f : α → TM β} {W W1 : World} {a : α} {t u : List Ev} {r : β × World} (hx : x W = ⟨.ok (a, W1), t⟩)
    (hr : ((x >>= f) W).res = .ok r) (h : (f a W1).res = .ok r → (f a W1).tr = u) : ((x >>= f) W).tr = t ++ u :=
  step (congrArg T.res hx) (congrArg T.tr hx) hr h

theorem condM_neg {c : Prop} [Decidable c] {t e : TM α} {W : World} (hc : ¬ c) : condM c t e W = ⟨(e W).res, .branch false :: (e W).tr⟩ := by
  unfold condM cond
  rw [if_neg hc]
  simp [hc]

theorem condM_pos {c : Prop} [Decidable c] {t e : TM α} {W : World} (hc : c) : condM c t e W = ⟨(t W).res, .branch true :: (t W).tr⟩ := by
  unfold condM cond
  rw [if_pos hc]
  simp [hc]

theorem cond_step {c : Prop} [Decidable c] {t e : TM α} {W : World} {u : List Ev} {r : α × World} (hc : ¬ c) (hr : (condM c t e W).res = .ok r)
    (h : (e W).res = .ok r → (e W).tr = u) : (condM c t e W).tr = .branch false :: u := by
  unfold condM at hr ⊢
  rw [cond_run_neg hc] at hr
  unfold cond
  rw [if_neg hc, h hr]
  simp [hc]

theorem cond_step_pos {c : Prop} [Decidable c] {t e : TM α} {W : World} {u : List Ev} {r : α × World} (hc : c) (hr : (condM c t e W).res = .ok r)
    (h : (t W).res = .ok r → (t W).tr = u) : (condM c t e W).tr = .branch true :: u := by
  unfold condM at hr ⊢
  rw [cond_run_pos hc] at hr
  unfold cond
  rw [if_pos hc, h hr]
  simp [hc]

theorem copyIn_step {dst : Bytes} {d : Nat} {p : Ptr} {o n : Nat} {W : World} {x : Bytes} (h : Verif.copyIn dst d p o n W = .ok (x, W)) :
    copyIn dst d p o n W = ⟨.ok (x, W), inTr d o n⟩ := by
  have e := (copyIn_res dst d p o n W).trans h
  have e2 := copyIn_tr dst d p o n W _ e
  cases hx : copyIn dst d p o n W with
  | mk a b => rw [hx] at e e2; dsimp only at e e2; rw [e, e2]

theorem T_ext {x : T α} {r : C α} {t : List Ev} (h1 : x.res = r) (h2 : x.tr = t) : x = ⟨r, t⟩ := by
  cases x; cases h1; cases h2; rfl

/-! ### The components -/

/-- Ed25519 signing into the 128 bytes that hybrid.c has for it. -/
theorem edSign_ct : ∃ t : Nat → List Ev, ∀ (m sk : Bytes) (W : World), sk.length = 64 → m.length ≤ 64 →
    ∃ s, edSign (zeros 128) 0 m sk W = ⟨.ok ((0, s, 64 + m.length), W), t m.length⟩ := by
  have hz : (zeros 128).length = 128 := List.length_replicate
  obtain ⟨t, ht⟩ := exists_trace_same (fun i : Bytes × Bytes => Ed25519.sign (zeros 128) 0 i.1 i.2)
    (fun i => (0, Verif.Ed25519.Spec.sign (i.2.take 32) (i.2.drop 32) i.1 ++ i.1 ++ (zeros 128).drop (64 + i.1.length), 64 + i.1.length)) (fun i => i.1.length)
    (fun i => i.2.length = 64 ∧ i.1.length ≤ 64)
    (fun i h => by rw [Ed25519.sign_res, Verif.Ed25519.sign_ok h.1 (by omega) (by omega)])
    (fun i j e => Ed25519.sign_same e)
  refine ⟨t, fun m sk W h1 h2 => ?_⟩
  have hw : when (sk.length = 64 ∧ m.length < 2 ^ 63 ∧ 64 + m.length ≤ (zeros 128).length) (Ed25519.sign (zeros 128) 0 m sk) = Ed25519.sign (zeros 128) 0 m sk :=
    if_pos ⟨h1, by omega, by omega⟩
  exact ⟨_, liftT_run (hw.trans (ht (m, sk) ⟨h1, h2⟩)) W⟩

theorem dilSign_ct : ∃ t : Bytes → Nat → Bytes → List (Bytes × List Nat) → List Ev, ∀ (fuel : Nat) (z m seed pk sk : Bytes) (W : World) (r : (Int × Bytes × Nat) × World),
    z.length = 2420 → Verif.Dilithium.Spec.KeyGen S128 S256 seed pk sk → (dilSign fuel z 0 m sk W).res = .ok r →
    ∃ dil k ls, r = ((0, dil, 2420), W) ∧ Verif.Dilithium.Spec.Signs S128 S256 sk m k dil ∧ Rejected sk m dil ls ∧ (dilSign fuel z 0 m sk W).tr = t pk m.length dil ls := by
  obtain ⟨t, ht⟩ := Dilithium.ct_dil_sign_rejected isShake128_S128 isShake256_S256
  refine ⟨t, fun fuel z m seed pk sk W r hz hk h => ?_⟩
  have l2 := (Verif.Dilithium.keygen_parts hk).2.1
  obtain ⟨⟨c, dil, n⟩, e, rfl, e'⟩ := liftT_tr h
  have hw : when (z.length = 2420 ∧ sk.length = 2560) (Dilithium.signature fuel z 0 m sk) = Dilithium.signature fuel z 0 m sk := if_pos ⟨hz, l2⟩
  rw [hw] at e
  obtain ⟨rfl, rfl, -, ls, hR, htr⟩ := ht fuel z 0 m seed pk sk c dil n hz hk e
  have e2 := e
  rw [Dilithium.signature_res] at e2
  obtain ⟨-, -, -, k, hs⟩ := (dil_sign_spec isShake128_S128 isShake256_S256 l2 hz).2.1 _ _ _ _ e2
  exact ⟨dil, k, ls, rfl, hs, hR, e'.trans ((congrArg T.tr hw).trans htr)⟩

theorem random_run (n : Nat) (W : World) : random n W = ⟨.ok (W.rng.draw W.rng.log.length n, { W with rng := Verif.Sphincs.drawn W.rng n }), []⟩ := rfl

theorem spxSign_ct : ∃ t : Bytes → Bytes → Bytes → List Ev, ∀ (z m sk : Bytes) (W : World), z.length = 49856 → sk.length = 128 →
    (W.rng.draw W.rng.log.length 32 = none → spxSign z 0 m sk W = ⟨.ok ((-1, z, 0), { W with rng := Verif.Sphincs.drawn W.rng 32 }), [.branch true]⟩) ∧
    ∀ opt, W.rng.draw W.rng.log.length 32 = some opt →
      ∃ spx, spx = Verif.Sphincs.Spec.sign S256 ⟨slice sk 64 32, sk.take 32⟩ (slice sk 32 32) (sk.drop 64) opt m ∧
      spxSign z 0 m sk W = ⟨.ok ((0, spx, 49856), { W with rng := Verif.Sphincs.drawn W.rng 32 }), .branch false :: t (sk.drop 64) m spx⟩ := by
  obtain ⟨t, ht⟩ := Sphincs.ct_spx_sign
  rw [shake256F_eq isShake256_S256] at ht
  refine ⟨t, fun z m sk W hz hk => ?_⟩
  have e0 : spxSign z 0 m sk = _ := if_pos ⟨hz, hk⟩
  rw [e0, TM_bind, random_run]
  constructor
  · intro hd
    rw [hd]
    rfl
  · intro opt hd
    refine ⟨_, rfl, ?_⟩
    have hb := ht z m sk opt (Nat.le_of_eq hz.symm) hk (W.rng.len_draw _ _ _ hd)
    rw [List.drop_of_length_le (Nat.le_of_eq hz), List.append_nil] at hb
    rw [hd]
    generalize hx : Verif.Sphincs.Spec.sign _ _ _ _ _ _ = spx at hb
    show ((note [.branch false] >>= fun _ => (Hybrid.liftT (Sphincs.signBody z m sk opt) >>= fun s => pure (0, s, 49856) : TM (Int × Bytes × Nat))) _ : T _) = _
    rw [bind_run (note_run _ _), bind_run (liftT_run hb _)]
    show (⟨_, .branch false :: (t (sk.drop 64) m spx ++ [])⟩ : T _) = _
    rw [List.append_nil]
    rfl

/-! ### Signing -/

theorem store_tr (p : Ptr) (i : Nat) (v : Byte) : TrOf (store p i v) [.write i] := fun _ _ _ => rfl

theorem storeU64_tr (p : Ptr) (v : Nat) : TrOf (storeU64 p v) [.write 0] := fun _ _ _ => rfl

theorem fullStores_tr (sm smlen : Ptr) (a b : Byte) (s1 s2 s3 : Bytes) (n1 n2 n3 v : Nat) :
    TrOf (do
      store sm 0 a
      store sm 1 b
      copyOut sm LEN_BYTES s1 0 n1
      copyOut sm (LEN_BYTES + n1) s2 0 n2
      copyOut sm (LEN_BYTES + n1 + n2) s3 0 n3
      storeU64 smlen v
      pure (0 : Int))
    ([.write 0] ++ ([.write 1] ++ (inTr LEN_BYTES 0 n1 ++ (inTr (LEN_BYTES + n1) 0 n2 ++ (inTr (LEN_BYTES + n1 + n2) 0 n3 ++ ([.write 0] ++ [])))))) :=
  TrOf.bind (store_tr _ _ _) fun _ => TrOf.bind (store_tr _ _ _) fun _ => TrOf.bind (copyOut_tr _ _ _ _ _) fun _ => TrOf.bind (copyOut_tr _ _ _ _ _) fun _ =>
    TrOf.bind (copyOut_tr _ _ _ _ _) fun _ => TrOf.bind (storeU64_tr _ _) fun _ => TrOf.pure _

/-- The trace of the end of full-mode signing after the three signatures are made. -/
def fullEnd (mlen : Nat) : List Ev :=
  .branch false :: .branch false :: .branch false :: .branch false :: .branch false :: .branch false ::
    ([.write 0] ++ ([.write 1] ++ (inTr LEN_BYTES 0 (64 + mlen) ++ (inTr (LEN_BYTES + (64 + mlen)) 0 2420 ++ (inTr (LEN_BYTES + (64 + mlen) + 2420) 0 49856 ++ ([.write 0] ++ []))))))

theorem signFull_tr : ∃ (t : Bytes → Bytes → Bytes → Bytes → List (Bytes × List Nat) → List Ev) (u : Bytes → Nat → Bytes → List (Bytes × List Nat) → List Ev),
    ∀ (fuel : Nat) (W W' : World) (sm smlen m sk : Ptr) (mlen : Nat) (seed pk2 skb msg : Bytes) (r : Int),
      Verif.Dilithium.Spec.KeyGen S128 S256 seed pk2 (skDil skb) → W.view m mlen = some msg → W.view sk 4064 = some skb → 1 ≤ mlen → mlen ≤ 64 →
      (signFull fuel (some sm) (some smlen) (some m) mlen (some sk) W).res = .ok (r, W') →
      ∃ dil k ls, Verif.Dilithium.Spec.Signs S128 S256 (skDil skb) msg k dil ∧ Rejected (skDil skb) msg dil ls ∧
        (W.rng.draw W.rng.log.length 32 = none → (signFull fuel (some sm) (some smlen) (some m) mlen (some sk) W).tr = u pk2 mlen dil ls) ∧
        (∀ opt, W.rng.draw W.rng.log.length 32 = some opt → ∃ spx, spx = Verif.Sphincs.Spec.sign S256 ⟨slice (skSpx skb) 64 32, (skSpx skb).take 32⟩ (slice (skSpx skb) 32 32) ((skSpx skb).drop 64) opt msg ∧
          (signFull fuel (some sm) (some smlen) (some m) mlen (some sk) W).tr = t (pk2 ++ (skSpx skb).drop 64) msg dil spx ls) := by
  obtain ⟨tE, hE⟩ := edSign_ct
  obtain ⟨tD, hD⟩ := dilSign_ct
  obtain ⟨tS, hS⟩ := spxSign_ct
  refine ⟨fun pk m dil spx ls => .branch false :: (inTr 0 0 ED_SK ++ (inTr 0 ED_SK DIL_SK ++ (inTr 0 (ED_SK + DIL_SK + DIL_PK) SPX_SK ++ ([] ++ (tE m.length ++ (tD (pk.take 1312) m.length dil ls ++
      ((.branch false :: tS (pk.drop 1312) m spx) ++ fullEnd m.length))))))),
    fun pk n dil ls => .branch false :: (inTr 0 0 ED_SK ++ (inTr 0 ED_SK DIL_SK ++ (inTr 0 (ED_SK + DIL_SK + DIL_PK) SPX_SK ++ ([] ++ (tE n ++ (tD pk n dil ls ++
      ([.branch true] ++ [.branch false, .branch false, .branch true]))))))),
    fun fuel W W' sm smlen m sk mlen seed pk2 skb msg r hk hm hsk h1 h2 h => ?_⟩
  have hmb := length_of_view hm
  have hkb := length_of_view hsk
  have l1 : (slice skb 0 64).length = 64 := length_slice (by omega)
  have l3 : (slice skb 3936 128).length = 128 := length_slice (by omega)
  obtain ⟨s1, e1⟩ := hE msg (slice skb 0 64) W l1 (by omega)
  have z2 : (zeros 2420).length = 2420 := List.length_replicate
  have z3 : (zeros 49856).length = 49856 := List.length_replicate
  have em : readMem m mlen W = ⟨.ok (msg, W), []⟩ := T_ext (readMem_ok hm) rfl
  generalize hy : signFull fuel (some sm) (some smlen) (some m) mlen (some sk) W = y at h ⊢
  unfold signFull at hy
  dsimp only at hy
  generalize zeros 2420 = b2 at hy z2
  generalize zeros 49856 = b3 at hy z3
  rw [condM_neg (by simp [MAX_MSG_LEN]; omega), bind_run (copyIn_step (copyIn_zeros hsk (by decide))), bind_run (copyIn_step (copyIn_zeros hsk (by decide))),
    bind_run (copyIn_step (copyIn_zeros hsk (by decide))), bind_run em, bind_run e1] at hy
  dsimp only at hy
  have hres := (congrArg T.res hy).trans h
  dsimp only at hres
  rw [TM_bind] at hres
  obtain ⟨r2, e2, -⟩ := bind_ok hres
  obtain ⟨dil, k, ls, rfl, hs, hR, htr⟩ := hD _ _ _ _ _ _ _ _ z2 hk e2
  rw [bind_run (T_ext e2 htr)] at hy
  dsimp only at hy
  obtain ⟨hn, ho⟩ := hS b3 msg (slice skb (ED_SK + DIL_SK + DIL_PK) 128) W z3 l3
  refine ⟨dil, k, ls, hs, hR, fun hd => ?_, fun opt hd => ?_⟩
  · rw [bind_run (hn hd)] at hy
    dsimp only at hy
    rw [condM_neg (by decide), condM_neg (by decide), condM_pos (by decide)] at hy
    rw [← hy, ← hmb]
    rfl
  · obtain ⟨spx, hx, ex⟩ := ho opt hd
    refine ⟨spx, hx, ?_⟩
    rw [bind_run ex] at hy
    dsimp only at hy
    rw [condM_neg (by decide), condM_neg (by decide), condM_neg (by decide), condM_neg (by simp [hmb]), condM_neg (by decide), condM_neg (by decide)] at hy
    dsimp only at hy
    have hres := (congrArg T.res hy).trans h
    dsimp only at hres
    have hlen : (pk2 ++ (skSpx skb).drop 64).take 1312 = pk2 ∧ (pk2 ++ (skSpx skb).drop 64).drop 1312 = (skSpx skb).drop 64 := by
      have := (Verif.Dilithium.keygen_parts hk).1
      exact ⟨List.take_left' this, List.drop_left' this⟩
    rw [← hy]
    dsimp only
    rw [fullStores_tr _ _ _ _ _ _ _ _ _ _ _ _ _ hres, hlen.1, hlen.2, hmb]
    rfl

theorem loop_tr {f : Nat → σ → T σ} {g : Nat → List Ev} (h : ∀ k s a, (f k s).res = .ok a → (f k s).tr = g k) (i n : Nat) (s a : σ) (ha : (loop f i n s).res = .ok a) :
    (loop f i n s).tr = loopTr g i n := by
  induction n generalizing i s with
  | zero => rfl
  | succ n ih =>
    obtain ⟨b, e1, e2⟩ := bind_ok ha
    show .branch true :: (f i s >>= loop f (i + 1) n).tr = _
    rw [bind_tr e1, h _ _ _ e1, ih _ _ e2]
    rfl

theorem copy_tr {dst src : Bytes} {d s n : Nat} (hs : s + n ≤ src.length) (hd : d + n ≤ dst.length) :
    copy dst d src s n = ⟨.ok (splice dst d (slice src s n)), inTr d s n⟩ :=
  T_ext ((copy_res ..).trans (copy_ok hs hd)) (loop_tr (fun k b a h => by
    obtain ⟨v, e1, e2⟩ := bind_ok h
    rw [bind_tr e1]
    rfl) _ _ _ _ ((copy_res ..).trans (copy_ok hs hd)))

theorem compactStores_tr (sm smlen m : Ptr) (a b : Byte) (s1 s2 s3 : Bytes) (mlen v : Nat) :
    TrOf (do
      store sm 0 a
      store sm 1 b
      copyOut sm 2 s1 0 64
      copyOut sm (66) s2 0 2420
      copyOut sm (2486) s3 0 40
      copyMem sm (2526) m 0 mlen
      storeU64 smlen v
      pure (0 : Int))
    ([.write 0] ++ ([.write 1] ++ (inTr 2 0 64 ++ (inTr (66) 0 2420 ++ (inTr (2486) 0 40 ++
      (inTr (2526) 0 mlen ++ ([.write 0] ++ []))))))) :=
  TrOf.bind (store_tr _ _ _) fun _ => TrOf.bind (store_tr _ _ _) fun _ => TrOf.bind (copyOut_tr _ _ _ _ _) fun _ => TrOf.bind (copyOut_tr _ _ _ _ _) fun _ =>
    TrOf.bind (copyOut_tr _ _ _ _ _) fun _ => TrOf.bind (copyMem_tr _ _ _ _ _) fun _ => TrOf.bind (storeU64_tr _ _) fun _ => TrOf.pure _

/-- The trace of the end of compact signing after the two signatures are made. -/
def compactEnd (mlen : Nat) : List Ev :=
  .branch false :: .branch false :: .branch false :: .branch false ::
    ([.write 0] ++ ([.write 1] ++ (inTr 2 0 64 ++ (inTr (66) 0 2420 ++ (inTr (2486) 0 40 ++
      (inTr (2526) 0 mlen ++ ([.write 0] ++ [])))))))

theorem sha3_ct : ∃ t : Nat → List Ev, ∀ (m : Bytes) (W : World), ∃ h, bits h = Verif.Keccak.Spec.SHA3_512 (bits m) ∧ h.length = 64 ∧ sha3_512 m W = ⟨.ok (h, W), t m.length⟩ := by
  obtain ⟨_, _, t, ht⟩ := ct_sha3
  refine ⟨t, fun m W => ?_⟩
  obtain ⟨d, hd, hb⟩ := (ht (List.replicate 64 0) m).2.2 (by rw [List.length_replicate])
  rw [List.drop_of_length_le (by rw [List.length_replicate]), List.append_nil] at hd
  refine ⟨d, hb, ?_, liftT_run hd W⟩
  have e := sha3_512_run m
  rw [hd] at e
  obtain rfl := Except.ok.inj e
  exact (sha3_real m).1

theorem signCompact_tr : ∃ t : Bytes → Nat → Bytes → List (Bytes × List Nat) → List Ev,
    ∀ (fuel : Nat) (W W' : World) (sm smlen m sk : Ptr) (mlen : Nat) (seed pk2 skb msg nonce : Bytes) (r : Int),
      Verif.Dilithium.Spec.KeyGen S128 S256 seed pk2 (skDil skb) → W.view m mlen = some msg → W.view sk 4064 = some skb → 1 ≤ mlen → mlen ≤ 64 →
      W.rng.draw W.rng.log.length 40 = some nonce → (signCompact fuel (some sm) (some smlen) (some m) mlen (some sk) W).res = .ok (r, W') →
      ∃ h dil k ls, IsCompactHash nonce msg (skSpxPk skb) h ∧ Verif.Dilithium.Spec.Signs S128 S256 (skDil skb) h k dil ∧ Rejected (skDil skb) h dil ls ∧
        (signCompact fuel (some sm) (some smlen) (some m) mlen (some sk) W).tr = t pk2 mlen dil ls := by
  obtain ⟨tE, hE⟩ := edSign_ct
  obtain ⟨tD, hD⟩ := dilSign_ct
  obtain ⟨tH, hH⟩ := sha3_ct
  refine ⟨fun pk n dil ls => .branch false :: (inTr 0 0 64 ++ (inTr 0 64 2560 ++ ([] ++ ([.branch false] ++ (inTr 0 0 40 ++ (inTr 40 0 n ++
      (inTr (40 + n) (4000) 64 ++ ([] ++ (tH (104 + n) ++ (tE 64 ++ (tD pk 64 dil ls ++ compactEnd n))))))))))),
    fun fuel W W' sm smlen m sk mlen seed pk2 skb msg nonce r hk hm hsk h1 h2 hd h => ?_⟩
  have hmb := length_of_view hm
  have hkb := length_of_view hsk
  have hnl := W.rng.len_draw _ _ _ hd
  have l1 : (slice skb 0 64).length = 64 := length_slice (by omega)
  have hspl : (slice skb 4000 64).length = 64 := length_slice (by omega)
  have z2 : (zeros 2420).length = 2420 := List.length_replicate
  generalize hW1 : ({ W with rng := Verif.Sphincs.drawn W.rng 40 } : World) = W1
  have hm1 : W1.view m mlen = some msg := by subst hW1; exact hm
  have hsk1 : W1.view sk 4064 = some skb := by subst hW1; exact hsk
  have e0 : random 40 W = ⟨.ok (some nonce, W1), []⟩ := by rw [random_run, hd, hW1]
  have ec1 : (Hybrid.liftT (copy (zeros 168) 0 nonce 0 40) : TM Bytes) W1 = ⟨.ok (splice (zeros 168) 0 nonce, W1), inTr 0 0 40⟩ := by
    refine liftT_run ?_ W1
    rw [copy_tr (by simp [hnl]) (by simp), slice_full hnl]
  have ec2 := copyIn_step (copyIn_ok (d := 40) (dst := splice (zeros 168) 0 nonce) (x := msg) (p := m) (o := 0) (by simpa [Ptr.add] using hm1) (by rw [length_splice (by simp; omega)]; simp; omega))
  rw [splice_append hnl (by simp; omega)] at ec2
  have ec3 := copyIn_step (copyIn_ok (d := 40 + mlen) (dst := splice (zeros 168) 0 (nonce ++ msg)) (view_sub hsk1 (show 4000 + 64 ≤ 4064 by decide)) (by rw [length_splice (by simp; omega)]; simp; omega))
  rw [splice_append (by simp; omega) (by simp; omega)] at ec3
  have ec4 : prefixOf (splice (zeros 168) 0 (nonce ++ msg ++ slice skb 4000 64)) (40 + mlen + 64) W1 = ⟨.ok (nonce ++ msg ++ slice skb 4000 64, W1), []⟩ := by
    refine liftT_run ?_ W1
    rw [prefixOf_ok (by rw [length_splice (by simp; omega)]; simp; omega), take_splice (by simp; omega)]
  obtain ⟨hh, hhb, hhl, ec5⟩ := hH (nonce ++ msg ++ slice skb 4000 64) W1
  obtain ⟨s1, e1⟩ := hE hh (slice skb 0 64) W1 l1 (by omega)
  generalize hy : signCompact fuel (some sm) (some smlen) (some m) mlen (some sk) W = y at h ⊢
  unfold signCompact at hy
  dsimp only at hy
  simp only [ED_SK, DIL_SK, DIL_PK, SPX_SK, ED_SIG, DIL_SIG, SPX_PK, LEN_BYTES, NONCE_BYTES, HASH_LENGTH, Nat.reduceAdd, Nat.reduceDiv] at hy
  generalize zeros 2420 = b2 at hy z2
  rw [condM_neg (by simp [MAX_MSG_LEN]; omega), bind_run (copyIn_step (copyIn_zeros hsk (by decide))), bind_run (copyIn_step (copyIn_zeros hsk (by decide))), bind_run e0] at hy
  dsimp only at hy
  rw [bind_run (note_run _ _), bind_run ec1, bind_run ec2, bind_run ec3, bind_run ec4, bind_run ec5, bind_run e1] at hy
  dsimp only at hy
  have hres := (congrArg T.res hy).trans h
  dsimp only at hres
  rw [TM_bind] at hres
  obtain ⟨r2, e2, -⟩ := bind_ok hres
  obtain ⟨dil, k, ls, rfl, hs, hR, htr⟩ := hD _ _ _ _ _ _ _ _ z2 hk e2
  rw [bind_run (T_ext e2 htr)] at hy
  dsimp only at hy
  rw [condM_neg (by decide), condM_neg (by decide), condM_neg (by simp [hhl]), condM_neg (by decide)] at hy
  dsimp only at hy
  have hres := (congrArg T.res hy).trans h
  dsimp only at hres
  refine ⟨hh, dil, k, ls, hhb, hs, hR, ?_⟩
  rw [← hy]
  dsimp only
  rw [compactStores_tr _ _ _ _ _ _ _ _ _ _ _ _ hres, hhl]
  have hL : (nonce ++ msg ++ slice skb 4000 64).length = 104 + mlen := by simp [hnl, hmb, hspl]; omega
  rw [hL]
  rfl

/-! ### Key generation -/

theorem TrOf.peel {x : TM α} {f : α → TM β} {t : List Ev} {W : World} {r : β × World} (h : TrOf x t) (hr : ((x >>= f) W).res = .ok r) :
    ∃ a W1, (x W).res = .ok (a, W1) ∧ (f a W1).res = .ok r ∧ (x >>= f) W = ⟨(f a W1).res, t ++ (f a W1).tr⟩ := by
  rw [TM_bind] at hr
  obtain ⟨⟨a, W1⟩, e1, e2⟩ := bind_ok hr
  exact ⟨a, W1, e1, e2, bind_run (T_ext e1 (h W _ e1))⟩

theorem rd_tr (b : Bytes) (i : Nat) : TrOf (Hybrid.liftT (rd b i)) [.read i] := fun _ _ hr => by
  obtain ⟨_, _, _, e⟩ := liftT_tr hr
  exact e

theorem keypairSeed_tr : ∃ t : Bytes → (Nat → Nat → Bool) → List Ev, ∀ (fuel : Nat) (W W' : World) (pk sk seed : Ptr) (seedb : Bytes) (r : Int),
      W.view seed 160 = some seedb → (keypairSeed fuel (some pk) (some sk) (some seed) W).res = .ok (r, W') →
      ∃ pk2 sk2, Verif.Dilithium.Spec.KeyGen S128 S256 (slice seedb 32 32) pk2 sk2 ∧
        (keypairSeed fuel (some pk) (some sk) (some seed) W).tr = t (pk2.take 32) (fun n i => decide (n < 8) && shown (slice (S256 (slice seedb 32 32) 128) 32 64) n i) := by
  obtain ⟨tE, hE⟩ := Nacl.ct_ed_keypair
  obtain ⟨tD, hD⟩ := Dilithium.ct_dil_keypair isShake128_S128 isShake256_S256
  obtain ⟨tS, hS⟩ := Sphincs.ct_spx_keypair
  let pass : Nat → List Ev := fun i => [.read i] ++ ([.write (ED_PK + i)] ++ ([.read i] ++ [.write (ED_SK + DIL_SK + i)]))
  refine ⟨fun rho p => [.branch false] ++ (inTr 0 0 32 ++ (inTr 0 32 32 ++ (inTr 0 64 96 ++ (tE ++ .branch false :: (inTr 0 0 32 ++ (inTr 0 0 64 ++ (tD rho p ++ .branch false :: (inTr 64 0 2560 ++
    (loopTr pass 0 1312 ++ (tS ++ .branch false :: (inTr 3936 0 128 ++ (inTr 1344 0 64 ++ [])))))))))))), fun fuel W W' pk sk seed seedb r hs h => ?_⟩
  have hsl := length_of_view hs
  have z1 : (zeros 32).length = 32 := List.length_replicate
  have z2 : (zeros 64).length = 64 := List.length_replicate
  have z3 : (zeros 1312).length = 1312 := List.length_replicate
  have z4 : (zeros 2560).length = 2560 := List.length_replicate
  have z5 : (zeros 128).length = 128 := List.length_replicate
  have l1 : (slice seedb 0 32).length = 32 := length_slice (by omega)
  have l2 : (slice seedb 32 32).length = 32 := length_slice (by omega)
  have l3 : (slice seedb 64 96).length = 96 := length_slice (by omega)
  generalize hy : keypairSeed fuel (some pk) (some sk) (some seed) W = y at h ⊢
  unfold keypairSeed at hy
  dsimp only at hy
  simp only [ED_SEED, DIL_SEED, SPX_SEED, ED_PK, ED_SK, DIL_SK, DIL_PK, SPX_SK, SPX_PK, Nat.reduceAdd] at hy
  rw [bind_run (note_run _ _), bind_run (copyIn_step (copyIn_zeros hs (by decide))), bind_run (copyIn_step (copyIn_zeros hs (by decide))), bind_run (copyIn_step (copyIn_zeros hs (by decide)))] at hy
  generalize zeros 1312 = b3 at hy z3
  generalize zeros 2560 = b4 at hy z4
  have e1 : edKeypairSeed (zeros 32) (zeros 64) (slice seedb 0 32) W = _ := liftT_run ((if_pos ⟨z1, z2, l1⟩).trans (hE _ _ _ z1 z2 l1)) W
  rw [bind_run e1] at hy
  dsimp only at hy
  rw [condM_neg (by decide)] at hy
  dsimp only at hy
  have hr := (congrArg T.res hy).trans h
  dsimp only at hr
  obtain ⟨_, W1, -, hr, e2⟩ := TrOf.peel (copyOut_tr _ _ _ _ _) hr
  rw [e2] at hy
  obtain ⟨_, W2, -, hr, e3⟩ := TrOf.peel (copyOut_tr _ _ _ _ _) hr
  rw [e3] at hy
  rw [TM_bind] at hr
  obtain ⟨⟨r4, W3⟩, e4, -⟩ := bind_ok hr
  obtain ⟨⟨c, pk2, sk2⟩, e5, e6, e7⟩ := liftT_tr e4
  have hw : when (b3.length = 1312 ∧ b4.length = 2560 ∧ (slice seedb 32 32).length = 32) (Dilithium.keypairSeed fuel b3 b4 (slice seedb 32 32)) =
    Dilithium.keypairSeed fuel b3 b4 (slice seedb 32 32) := if_pos ⟨z3, z4, l2⟩
  rw [hw] at e5
  cases e6
  obtain ⟨rfl, hk, htr⟩ := hD _ _ _ _ _ _ _ z3 z4 l2 e5
  have e8 := T_ext e4 (e7.trans ((congrArg T.tr hw).trans htr))
  rw [bind_run e8] at hy
  dsimp only at hy
  rw [condM_neg (by decide)] at hy
  dsimp only at hy
  have hr := (congrArg T.res hy).trans h
  dsimp only at hr
  obtain ⟨_, W3, -, hr, e9⟩ := TrOf.peel (copyOut_tr _ _ _ _ _) hr
  rw [e9] at hy
  have pass_tr : ∀ k (u : Unit), TrOf (do
      let v ← Hybrid.liftT (rd pk2 k)
      store pk (32 + k) v
      let v ← Hybrid.liftT (rd pk2 k)
      store sk (2624 + k) v) (pass k) := fun k u =>
    TrOf.bind (rd_tr _ _) fun _ => TrOf.bind (store_tr _ _ _) fun _ => TrOf.bind (rd_tr _ _) fun _ => store_tr _ _ _
  obtain ⟨_, W4, -, hr, e10⟩ := TrOf.peel (TrOf.loopM pass_tr _ _ _) hr
  rw [e10] at hy
  have e11 : spxKeypairSeed (zeros 64) (zeros 128) (slice seedb 64 96) W4 = _ := liftT_run ((if_pos ⟨z2, z5, l3⟩).trans (hS _ _ _ z2 z5 l3)) W4
  rw [bind_run e11] at hy
  dsimp only at hy
  rw [condM_neg (by decide)] at hy
  dsimp only at hy
  have hr := (congrArg T.res hy).trans h
  dsimp only at hr
  obtain ⟨_, W5, -, hr, e12⟩ := TrOf.peel (copyOut_tr _ _ _ _ _) hr
  rw [e12] at hy
  obtain ⟨_, W6, -, hr, e13⟩ := TrOf.peel (copyOut_tr _ _ _ _ _) hr
  rw [e13] at hy
  refine ⟨pk2, sk2, hk, ?_⟩
  rw [← hy]
  rfl

theorem withLocal_tr {init : Bytes} {f : Ptr → TM α} {W : World} {r : α × World} (h : (withLocal init f W).res = .ok r) :
    ∃ r1, (f ⟨W.sp, 0⟩ (push W init)).res = .ok r1 ∧ (withLocal init f W).tr = (f ⟨W.sp, 0⟩ (push W init)).tr := by
  obtain ⟨r1, e1, -⟩ := bind_ok h
  refine ⟨r1, e1, ?_⟩
  have : (withLocal init f W).tr = (f ⟨W.sp, 0⟩ (push W init)).tr ++ [] := bind_tr e1
  rw [this, List.append_nil]

/-! ### The seed expander -/

theorem expander_tr : ∃ t : List Ev, ∀ (W W' : World) (seed ex : Ptr) (seedb : Bytes) (r : Int), W.view seed 96 = some seedb →
    (seedExpander (some seed) (some ex) W).res = .ok (r, W') → (seedExpander (some seed) (some ex) W).tr = t := by
  obtain ⟨tX, hX⟩ := ct_seedexpander
  refine ⟨loopTr (fun k => [.read (2 * k)] ++ [.write (2 * k)]) 0 32 ++ ((tX 64 128 ++ []) ++ .branch false :: (inTr 0 0 32 ++ (inTr 32 64 32 ++ (inTr 64 32 96 ++ [])))), fun W W' seed ex seedb r hs h => ?_⟩
  have hl : (effectiveSeed seedb).length = 64 := by simp [effectiveSeed]
  have e0 : expanderCopy (zeros 64) seed W = ⟨.ok (effectiveSeed seedb, W), loopTr (fun k => [.read (2 * k)] ++ [.write (2 * k)]) 0 32⟩ := by
    have e : (expanderCopy (zeros 64) seed W).res = .ok (effectiveSeed seedb, W) :=
      (Er.loopM (fun _ _ => Er.bind (fun _ => rfl) fun _ => Er.liftT rfl) _ _ _ W).trans (expanderCopy_run hs)
    refine T_ext e (TrOf.loopM (fun k s => TrOf.bind (t := [.read (2 * k)]) (u := [.write (2 * k)]) (fun _ _ _ => rfl) fun _ _ _ hr => ?_) _ _ _ W _ e)
    obtain ⟨_, _, _, e⟩ := liftT_tr hr
    exact e
  obtain ⟨d, hd, -⟩ := hX (effectiveSeed seedb) (List.replicate 128 0) 128 (by omega) (by omega) (by rw [List.length_replicate])
  rw [hl] at hd
  have e1 : seedexpander (effectiveSeed seedb) 128 W = ⟨.ok ((0, d ++ (List.replicate 128 0).drop 128), W), tX 64 128 ++ []⟩ := by
    unfold seedexpander
    rw [hl, bind_run (liftT_run hd W)]
    rfl
  generalize hy : seedExpander (some seed) (some ex) W = y at h ⊢
  unfold seedExpander at hy
  dsimp only at hy
  rw [bind_run e0, bind_run e1] at hy
  dsimp only at hy
  rw [condM_neg (by decide)] at hy
  dsimp only at hy
  have hr := (congrArg T.res hy).trans h
  dsimp only at hr
  obtain ⟨_, W1, -, hr, e2⟩ := TrOf.peel (copyOut_tr _ _ _ _ _) hr
  rw [e2] at hy
  obtain ⟨_, W2, -, hr, e3⟩ := TrOf.peel (copyMem_tr _ _ _ _ _) hr
  rw [e3] at hy
  obtain ⟨_, W3, -, hr, e4⟩ := TrOf.peel (copyOut_tr _ _ _ _ _) hr
  rw [e4] at hy
  rw [← hy]
  rfl

end Verif.Ct.Hybrid
