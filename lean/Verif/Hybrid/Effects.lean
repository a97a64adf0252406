import Verif.Hybrid.Lemmas

/-!
Effect predicates: which memory a call can change and which draws it makes from the random source.
They make no assumption on the validity of the pointers.
-/

namespace Verif.Hybrid
open Verif

variable {P : Prims} {α β : Type}

/-! ### Writes -/

/-- The byte at offset `i` of block `b`. -/
def byteAt (W : World) (b i : Nat) : Option Byte := (W.mem b).bind (·[i]?)

/-- Address (b, i) belongs to one of the byte ranges. -/
def InRanges (R : List (Ptr × Nat)) (b i : Nat) : Prop := ∃ r ∈ R, r.1.blk = b ∧ r.1.off ≤ i ∧ i < r.1.off + r.2

/-- `W'` differs from `W` at most inside the ranges: same allocation, same bytes elsewhere. -/
def SameOutside (R : List (Ptr × Nat)) (W W' : World) : Prop :=
  W'.sp = W.sp ∧ ∀ b, (W'.mem b).map List.length = (W.mem b).map List.length ∧
    ∀ i, ¬ InRanges R b i → byteAt W' b i = byteAt W b i

theorem SameOutside.refl (R : List (Ptr × Nat)) (W : World) : SameOutside R W W := ⟨rfl, fun _ => ⟨rfl, fun _ _ => rfl⟩⟩

theorem SameOutside.trans {R : List (Ptr × Nat)} {W W1 W2 : World} (h : SameOutside R W W1) (h' : SameOutside R W1 W2) :
    SameOutside R W W2 :=
  ⟨h'.1.trans h.1, fun b => ⟨(h'.2 b).1.trans (h.2 b).1, fun i hi => ((h'.2 b).2 i hi).trans ((h.2 b).2 i hi)⟩⟩

/-- x changes caller memory only inside the given ranges. -/
def OnlyWrites (R : List (Ptr × Nat)) (x : M α) : Prop := ∀ W a W', x W = .ok (a, W') → SameOutside R W W'

theorem Keeps.onlyWrites {R : List (Ptr × Nat)} {x : M α} (h : Keeps x) : OnlyWrites R x := by
  intro W a W' e
  obtain ⟨h1, h2⟩ := h W a W' e
  refine ⟨h2, fun b => ⟨by rw [h1], fun i _ => by simp only [byteAt, h1]⟩⟩

theorem OnlyWrites.bind {R : List (Ptr × Nat)} {x : M α} {f : α → M β} (hx : OnlyWrites R x)
    (hf : ∀ a, OnlyWrites R (f a)) : OnlyWrites R (x >>= f) := by
  intro W b W' h
  rw [M_bind_apply] at h
  obtain ⟨⟨a, W1⟩, h1, h2⟩ := bind_eq_ok.1 h
  exact (hx _ _ _ h1).trans (hf _ _ _ _ h2)

theorem OnlyWrites.pure {R : List (Ptr × Nat)} (a : α) : OnlyWrites R (pure a : M α) := (Keeps.pure a).onlyWrites

theorem OnlyWrites.ite {R : List (Ptr × Nat)} {c : Prop} [Decidable c] {x y : M α} (hx : c → OnlyWrites R x)
    (hy : ¬c → OnlyWrites R y) : OnlyWrites R (if c then x else y) := by
  split
  · exact hx ‹_›
  · exact hy ‹_›

theorem OnlyWrites.store {R : List (Ptr × Nat)} {p : Ptr} {n i : Nat} {v : Byte} (hR : (p, n) ∈ R) (hi : i < n) :
    OnlyWrites R (Verif.store p i v) := by
  intro W a W' h
  unfold Verif.store at h
  split at h
  · simp at h
  rename_i c hc
  split at h
  · rename_i c' hc'
    simp only [Except.ok.injEq, Prod.mk.injEq, true_and] at h
    subst h
    have hlt : p.off + i < c.length ∧ c' = c.set (p.off + i) v := by
      unfold wr at hc'
      split at hc'
      · simp only [Except.ok.injEq] at hc'; exact ⟨‹_›, hc'.symm⟩
      · simp at hc'
    obtain ⟨hlt, rfl⟩ := hlt
    refine ⟨rfl, fun b => ?_⟩
    by_cases hb : b = p.blk
    · subst hb
      refine ⟨by simp [hc], fun j hj => ?_⟩
      simp only [byteAt, Function.update_self, hc, Option.bind_some]
      rw [List.getElem?_set_ne]
      intro e
      exact hj ⟨_, hR, rfl, by simp only; omega, by simp only; omega⟩
    · refine ⟨by simp [Function.update_of_ne hb], fun j _ => ?_⟩
      simp only [byteAt, Function.update_of_ne hb]
  · simp at h

theorem OnlyWrites.loopM {R : List (Ptr × Nat)} {σ : Type} {f : Nat → σ → M σ} {i n : Nat}
    (hf : ∀ k s, i ≤ k → k < i + n → OnlyWrites R (f k s)) (s : σ) : OnlyWrites R (Verif.loopM f i n s) := by
  induction n generalizing i s with
  | zero => exact OnlyWrites.pure _
  | succ n ih =>
    exact OnlyWrites.bind (hf _ _ (Nat.le_refl _) (by omega)) fun a => ih (fun k s h1 h2 => hf k s (by omega) (by omega)) _

theorem OnlyWrites.copyOut {R : List (Ptr × Nat)} {p : Ptr} {N o s n : Nat} {src : Bytes} (hR : (p, N) ∈ R) (h : o + n ≤ N) :
    OnlyWrites R (Verif.copyOut p o src s n) :=
  OnlyWrites.loopM (fun k _ _ hk => OnlyWrites.bind (Keeps.liftC _).onlyWrites fun _ => OnlyWrites.store hR (by omega)) _

theorem OnlyWrites.copyMem {R : List (Ptr × Nat)} {p q : Ptr} {N o s n : Nat} (hR : (p, N) ∈ R) (h : o + n ≤ N) :
    OnlyWrites R (Verif.copyMem p o q s n) :=
  OnlyWrites.loopM (fun k _ _ hk => OnlyWrites.bind (Keeps.load _ _).onlyWrites fun _ => OnlyWrites.store hR (by omega)) _

theorem OnlyWrites.storeU64 {R : List (Ptr × Nat)} {p : Ptr} {v : Nat} (hR : (p, 8) ∈ R) :
    OnlyWrites R (Verif.storeU64 p v) := OnlyWrites.copyOut hR (by omega)

theorem Keeps.cmpMem (b m : Ptr) (i n : Nat) : Keeps (Verif.cmpMem b m i n) := by
  induction n generalizing i with
  | zero => exact Keeps.pure _
  | succ n ih =>
    exact Keeps.bind (Keeps.load _ _) fun _ => Keeps.bind (Keeps.load _ _) fun _ => Keeps.ite (Keeps.pure _) (ih _)

theorem signFull_writes (sm smlen m : Ptr) (mlen : Nat) (sk : Ptr) :
    OnlyWrites [(sm, 52342 + mlen), (smlen, 8)] (signFull P (some sm) (some smlen) (some m) mlen (some sk)) := by
  unfold signFull
  refine .ite (fun _ => .pure _) fun _ => ?_
  refine .bind (Keeps.copyIn _ _ _ _ _).onlyWrites fun _ => ?_
  refine .bind (Keeps.copyIn _ _ _ _ _).onlyWrites fun _ => ?_
  refine .bind (Keeps.copyIn _ _ _ _ _).onlyWrites fun _ => ?_
  refine .bind (Keeps.readMem _ _).onlyWrites fun _ => ?_
  refine .bind (Keeps.liftC _).onlyWrites fun ⟨r1, s1, l1⟩ => ?_
  refine .bind (Keeps.liftC _).onlyWrites fun ⟨r2, s2, l2⟩ => ?_
  refine .bind (Keeps.liftR _).onlyWrites fun ⟨r3, s3, l3⟩ => ?_
  refine .ite (fun _ => .pure _) fun _ => ?_
  refine .ite (fun _ => .pure _) fun _ => ?_
  refine .ite (fun _ => .pure _) fun _ => ?_
  refine .ite (fun _ => .pure _) fun c1 => ?_
  refine .ite (fun _ => .pure _) fun c2 => ?_
  refine .ite (fun _ => .pure _) fun c3 => ?_
  simp only [not_not] at c1 c2 c3
  subst c1 c2 c3
  simp only [ED_SIG, DIL_SIG, SPX_SIG, LEN_BYTES]
  refine .bind (.store (n := 52342 + mlen) (by simp) (by omega)) fun _ => ?_
  refine .bind (.store (n := 52342 + mlen) (by simp) (by omega)) fun _ => ?_
  refine .bind (.copyOut (N := 52342 + mlen) (by simp) (by omega)) fun _ => ?_
  refine .bind (.copyOut (N := 52342 + mlen) (by simp) (by omega)) fun _ => ?_
  refine .bind (.copyOut (N := 52342 + mlen) (by simp) (by omega)) fun _ => ?_
  refine .bind (.storeU64 (by simp)) fun _ => .pure _

theorem signCompact_writes (sm smlen m : Ptr) (mlen : Nat) (sk : Ptr) :
    OnlyWrites [(sm, 2526 + mlen), (smlen, 8)] (signCompact P (some sm) (some smlen) (some m) mlen (some sk)) := by
  unfold signCompact
  refine .ite (fun _ => .pure _) fun _ => ?_
  refine .bind (Keeps.copyIn _ _ _ _ _).onlyWrites fun _ => ?_
  refine .bind (Keeps.copyIn _ _ _ _ _).onlyWrites fun _ => ?_
  refine .bind (Keeps.liftR _).onlyWrites fun o => ?_
  cases o with
  | none => exact .pure _
  | some nonce =>
    refine .bind (Keeps.liftC _).onlyWrites fun _ => ?_
    refine .bind (Keeps.copyIn _ _ _ _ _).onlyWrites fun _ => ?_
    refine .bind (Keeps.copyIn _ _ _ _ _).onlyWrites fun _ => ?_
    refine .bind (Keeps.liftC _).onlyWrites fun _ => ?_
    refine .bind (Keeps.liftC _).onlyWrites fun ⟨r1, s1, l1⟩ => ?_
    refine .bind (Keeps.liftC _).onlyWrites fun ⟨r2, s2, l2⟩ => ?_
    refine .ite (fun _ => .pure _) fun _ => ?_
    refine .ite (fun _ => .pure _) fun _ => ?_
    refine .ite (fun _ => .pure _) fun _ => ?_
    refine .ite (fun _ => .pure _) fun _ => ?_
    simp only [ED_SIG, DIL_SIG, LEN_BYTES, NONCE_BYTES]
    refine .bind (.store (n := 2526 + mlen) (by simp) (by omega)) fun _ => ?_
    refine .bind (.store (n := 2526 + mlen) (by simp) (by omega)) fun _ => ?_
    refine .bind (.copyOut (N := 2526 + mlen) (by simp) (by omega)) fun _ => ?_
    refine .bind (.copyOut (N := 2526 + mlen) (by simp) (by omega)) fun _ => ?_
    refine .bind (.copyOut (N := 2526 + mlen) (by simp) (by omega)) fun _ => ?_
    refine .bind (.copyMem (N := 2526 + mlen) (by simp) (by omega)) fun _ => ?_
    refine .bind (.storeU64 (by simp)) fun _ => .pure _

theorem openFull_writes (m mlen sm : Ptr) (smlen : Nat) (pk : Ptr) :
    OnlyWrites [(m, smlen - 52342), (mlen, 8)] (openFull P (some m) (some mlen) (some sm) smlen (some pk)) := by
  unfold openFull
  refine .ite (fun _ => .pure _) fun _ => ?_
  refine .bind (Keeps.load _ _).onlyWrites fun _ => ?_
  refine .ite (fun _ => .pure _) fun _ => ?_
  refine .bind (Keeps.load _ _).onlyWrites fun _ => ?_
  refine .ite (fun _ => .pure _) fun _ => ?_
  refine .ite (fun _ => .pure _) fun c => ?_
  simp only [not_not] at c
  subst c
  refine .bind (Keeps.copyIn _ _ _ _ _).onlyWrites fun _ => ?_
  refine .bind (Keeps.copyIn _ _ _ _ _).onlyWrites fun _ => ?_
  refine .bind (Keeps.liftC _).onlyWrites fun ⟨r1, s1, l1⟩ => ?_
  refine .ite (fun _ => .pure _) fun _ => ?_
  refine .ite (fun _ => .pure _) fun _ => ?_
  refine .bind (Keeps.copyIn _ _ _ _ _).onlyWrites fun _ => ?_
  refine .bind (Keeps.copyIn _ _ _ _ _).onlyWrites fun _ => ?_
  refine .bind (Keeps.liftC _).onlyWrites fun _ => ?_
  refine .bind (Keeps.liftC _).onlyWrites fun _ => ?_
  refine .ite (fun _ => .pure _) fun _ => ?_
  refine .bind (Keeps.copyIn _ _ _ _ _).onlyWrites fun _ => ?_
  refine .bind (Keeps.copyIn _ _ _ _ _).onlyWrites fun _ => ?_
  refine .bind (Keeps.liftC _).onlyWrites fun _ => ?_
  refine .ite (fun _ => .pure _) fun _ => ?_
  refine .bind (.copyOut (N := _) (List.mem_cons_self ..) (by simp only [LEN_BYTES, ED_SIG, DIL_SIG, SPX_SIG]; omega)) fun _ => ?_
  refine .bind (.storeU64 (by simp)) fun _ => .pure _

theorem openCompact_writes (m mlen sm : Ptr) (smlen : Nat) (pk : Ptr) :
    OnlyWrites [(m, smlen - 2526), (mlen, 8)] (openCompact P (some m) (some mlen) (some sm) smlen (some pk)) := by
  unfold openCompact
  refine .ite (fun _ => .pure _) fun _ => ?_
  refine .bind (Keeps.load _ _).onlyWrites fun _ => ?_
  refine .ite (fun _ => .pure _) fun _ => ?_
  refine .bind (Keeps.load _ _).onlyWrites fun _ => ?_
  refine .ite (fun _ => .pure _) fun _ => ?_
  refine .ite (fun _ => .pure _) fun c => ?_
  simp only [not_not] at c
  subst c
  refine .bind (Keeps.copyIn _ _ _ _ _).onlyWrites fun _ => ?_
  refine .bind (Keeps.copyIn _ _ _ _ _).onlyWrites fun _ => ?_
  refine .bind (Keeps.copyIn _ _ _ _ _).onlyWrites fun _ => ?_
  refine .bind (Keeps.liftC _).onlyWrites fun _ => ?_
  refine .bind (Keeps.copyIn _ _ _ _ _).onlyWrites fun _ => ?_
  refine .bind (Keeps.liftC _).onlyWrites fun _ => ?_
  refine .bind (Keeps.copyIn _ _ _ _ _).onlyWrites fun _ => ?_
  refine .bind (Keeps.liftC _).onlyWrites fun ⟨r1, s1, l1⟩ => ?_
  refine .ite (fun _ => .pure _) fun _ => ?_
  refine .ite (fun _ => .pure _) fun _ => ?_
  refine .bind (Keeps.liftC _).onlyWrites fun _ => ?_
  refine .bind (Keeps.liftC _).onlyWrites fun _ => ?_
  refine .ite (fun _ => .pure _) fun _ => ?_
  refine .bind (Keeps.copyIn _ _ _ _ _).onlyWrites fun _ => ?_
  refine .bind (Keeps.copyIn _ _ _ _ _).onlyWrites fun _ => ?_
  refine .bind (Keeps.liftC _).onlyWrites fun _ => ?_
  refine .ite (fun _ => .pure _) fun _ => ?_
  refine .bind (.copyMem (N := _) (List.mem_cons_self ..) (by simp only [LEN_BYTES, ED_SIG, DIL_SIG, NONCE_BYTES]; omega)) fun _ => ?_
  refine .bind (.storeU64 (by simp)) fun _ => .pure _

theorem keypairSeed_writes (pk sk seed : Ptr) :
    OnlyWrites [(pk, 1408), (sk, 4064)] (keypairSeed P (some pk) (some sk) (some seed)) := by
  unfold keypairSeed
  simp only [ED_SEED, DIL_SEED, SPX_SEED, ED_PK, ED_SK, DIL_SK, DIL_PK, SPX_SK, SPX_PK]
  refine .bind (Keeps.copyIn _ _ _ _ _).onlyWrites fun _ => ?_
  refine .bind (Keeps.copyIn _ _ _ _ _).onlyWrites fun _ => ?_
  refine .bind (Keeps.copyIn _ _ _ _ _).onlyWrites fun _ => ?_
  refine .bind (Keeps.liftC _).onlyWrites fun ⟨r1, s1, l1⟩ => ?_
  refine .ite (fun _ => .pure _) fun _ => ?_
  refine .bind (.copyOut (N := 1408) (by simp) (by omega)) fun _ => ?_
  refine .bind (.copyOut (N := 4064) (by simp) (by omega)) fun _ => ?_
  refine .bind (Keeps.liftC _).onlyWrites fun ⟨r2, s2, l2⟩ => ?_
  refine .ite (fun _ => .pure _) fun _ => ?_
  refine .bind (.copyOut (N := 4064) (by simp) (by omega)) fun _ => ?_
  refine .bind (.loopM (fun k _ _ hk => ?_) _) fun _ => ?_
  · refine .bind (Keeps.liftC _).onlyWrites fun _ => ?_
    refine .bind (.store (n := 1408) (by simp) (by omega)) fun _ => ?_
    refine .bind (Keeps.liftC _).onlyWrites fun _ => ?_
    exact .store (n := 4064) (by simp) (by omega)
  refine .bind (Keeps.liftC _).onlyWrites fun ⟨r3, s3, l3⟩ => ?_
  refine .ite (fun _ => .pure _) fun _ => ?_
  refine .bind (.copyOut (N := 4064) (by simp) (by omega)) fun _ => ?_
  refine .bind (.copyOut (N := 1408) (by simp) (by omega)) fun _ => .pure _

theorem seedExpander_writes (seed ex : Ptr) :
    OnlyWrites [(ex, 160)] (seedExpander P (some seed) (some ex)) := by
  unfold seedExpander
  refine .bind (Keeps.loopM (fun _ _ => Keeps.bind (Keeps.load _ _) fun _ => Keeps.liftC _) _ _ _).onlyWrites fun _ => ?_
  refine .bind (Keeps.liftC _).onlyWrites fun ⟨r1, s1⟩ => ?_
  refine .ite (fun _ => .pure _) fun _ => ?_
  refine .bind (.copyOut (N := 160) (by simp) (by omega)) fun _ => ?_
  refine .bind (.copyMem (N := 160) (by simp) (by omega)) fun _ => ?_
  refine .bind (.copyOut (N := 160) (by simp) (by omega)) fun _ => .pure _

theorem verifyDilithium_keeps (m : Ptr) (mlen : Nat) (sm : Ptr) (smlen : Nat) (pk : Ptr) :
    Keeps (verifyDilithium P (some m) mlen (some sm) smlen (some pk)) := by
  unfold verifyDilithium
  refine Keeps.ite (Keeps.pure _) (Keeps.ite (Keeps.pure _) ?_)
  refine .bind (Keeps.readMem _ _) fun _ => .bind (Keeps.readMem _ _) fun _ => .bind (Keeps.readMem _ _) fun _ =>
    .bind (Keeps.liftC _) fun _ => Keeps.ite (Keeps.pure _) (Keeps.pure _)

/-- Memory that is local to a call does not show afterwards. -/
theorem withLocal_writes {R : List (Ptr × Nat)} {init : Bytes} {f : Ptr → M α} {W W' : World} {a : α} (hW : W.WF)
    (hf : OnlyWrites ((⟨W.sp, 0⟩, init.length) :: R) (f ⟨W.sp, 0⟩))
    (h : withLocal init f W = .ok (a, W')) : SameOutside R W W' := by
  unfold withLocal at h
  split at h
  · simp at h
  rename_i a2 W2 e
  simp only [Except.ok.injEq, Prod.mk.injEq] at h
  obtain ⟨-, rfl⟩ := h
  have hs := hf _ _ _ e
  refine ⟨rfl, fun b => ?_⟩
  by_cases hb : b = W.sp
  · subst hb
    have := hW W.sp (Nat.le_refl _)
    exact ⟨by simp [this], fun i _ => by simp [byteAt, this]⟩
  · obtain ⟨h1, h2⟩ := hs.2 b
    simp only [Function.update_of_ne hb] at h1 h2 ⊢
    refine ⟨h1, fun i hi => ?_⟩
    have := h2 i (by
      rintro ⟨r, hr, hr1, hr2, hr3⟩
      simp only [List.mem_cons] at hr
      rcases hr with rfl | hr
      · exact hb hr1.symm
      · exact hi ⟨r, hr, hr1, hr2, hr3⟩)
    simpa [byteAt, Function.update_of_ne hb] using this

/-! ### Draws -/

/-- The log entries of draws of the given sizes, the first being draw number `k`. -/
def drawLog (draw : Nat → Nat → Option Bytes) : (k : Nat) → List Nat → List (Nat × Option Bytes)
  | _, [] => []
  | k, n :: ns => (n, draw k n) :: drawLog draw (k + 1) ns

theorem length_drawLog (draw : Nat → Nat → Option Bytes) (k : Nat) (ns : List Nat) : (drawLog draw k ns).length = ns.length := by
  induction ns generalizing k with
  | nil => rfl
  | cons n ns ih => simp [drawLog, ih]

theorem drawLog_append (draw : Nat → Nat → Option Bytes) (k : Nat) (a b : List Nat) :
    drawLog draw k (a ++ b) = drawLog draw k a ++ drawLog draw (k + a.length) b := by
  induction a generalizing k with
  | nil => rfl
  | cons n ns ih => simp [drawLog, ih, Nat.add_assoc, Nat.add_comm 1]

/-- `W'` comes from `W` by draws of exactly the given sizes. -/
def Drew (ns : List Nat) (W W' : World) : Prop :=
  W'.rng.draw = W.rng.draw ∧ W'.rng.log = W.rng.log ++ drawLog W.rng.draw W.rng.log.length ns

/-- The computation makes exactly draws of the given sizes. -/
def Draws (ns : List Nat) (x : M α) : Prop := ∀ W a W', x W = .ok (a, W') → Drew ns W W'

theorem Drew.refl (W : World) : Drew [] W W := ⟨rfl, by simp [drawLog]⟩

theorem Drew.trans {a b : List Nat} {W W1 W2 : World} (h : Drew a W W1) (h' : Drew b W1 W2) : Drew (a ++ b) W W2 := by
  refine ⟨h'.1.trans h.1, ?_⟩
  rw [h'.2, h.2, h.1, drawLog_append, List.append_assoc, List.length_append, length_drawLog]

theorem Draws.bind {a b : List Nat} {x : M α} {f : α → M β} (hx : Draws a x) (hf : ∀ v, Draws b (f v)) :
    Draws (a ++ b) (x >>= f) := by
  intro W v W' h
  rw [M_bind_apply] at h
  obtain ⟨⟨u, W1⟩, h1, h2⟩ := bind_eq_ok.1 h
  exact (hx _ _ _ h1).trans (hf _ _ _ _ h2)

theorem Draws.bind0 {b : List Nat} {x : M α} {f : α → M β} (hx : Draws [] x) (hf : ∀ v, Draws b (f v)) :
    Draws b (x >>= f) := by simpa using Draws.bind hx hf

theorem Draws.pure (v : α) : Draws [] (pure v : M α) := by
  intro W b W' h
  simp only [M_pure_apply, Except.ok.injEq, Prod.mk.injEq] at h
  rw [← h.2]; exact Drew.refl W

theorem Draws.ite {ns : List Nat} {c : Prop} [Decidable c] {x y : M α} (hx : Draws ns x) (hy : Draws ns y) :
    Draws ns (if c then x else y) := by split <;> assumption

theorem Draws.liftC (x : C α) : Draws [] (Verif.liftC x) := by
  intro W b W' h
  unfold Verif.liftC at h
  split at h
  · simp only [Except.ok.injEq, Prod.mk.injEq] at h; rw [← h.2]; exact Drew.refl W
  · simp at h

theorem Draws.load (p : Ptr) (i : Nat) : Draws [] (Verif.load p i) := by
  intro W b W' h
  unfold Verif.load at h
  split at h
  · simp at h
  · split at h
    · simp only [Except.ok.injEq, Prod.mk.injEq] at h; rw [← h.2]; exact Drew.refl W
    · simp at h

theorem Draws.store (p : Ptr) (i : Nat) (v : Byte) : Draws [] (Verif.store p i v) := by
  intro W b W' h
  unfold Verif.store at h
  split at h
  · simp at h
  · split at h
    · simp only [Except.ok.injEq, Prod.mk.injEq] at h; rw [← h.2]; exact ⟨rfl, by simp [drawLog]⟩
    · simp at h

theorem Draws.loopM {σ : Type} {f : Nat → σ → M σ} (hf : ∀ i s, Draws [] (f i s)) (i n : Nat) (s : σ) :
    Draws [] (Verif.loopM f i n s) := by
  induction n generalizing i s with
  | zero => exact Draws.pure _
  | succ n ih => exact Draws.bind0 (hf _ _) fun a => ih _ _

theorem Draws.copyIn (dst : Bytes) (d : Nat) (p : Ptr) (o n : Nat) : Draws [] (Verif.copyIn dst d p o n) :=
  Draws.loopM (fun _ _ => Draws.bind0 (Draws.load _ _) fun _ => Draws.liftC _) _ _ _
theorem Draws.copyOut (p : Ptr) (o : Nat) (src : Bytes) (s n : Nat) : Draws [] (Verif.copyOut p o src s n) :=
  Draws.loopM (fun _ _ => Draws.bind0 (Draws.liftC _) fun _ => Draws.store _ _ _) _ _ _
theorem Draws.copyMem (p : Ptr) (o : Nat) (q : Ptr) (s n : Nat) : Draws [] (Verif.copyMem p o q s n) :=
  Draws.loopM (fun _ _ => Draws.bind0 (Draws.load _ _) fun _ => Draws.store _ _ _) _ _ _
theorem Draws.readMem (p : Ptr) (n : Nat) : Draws [] (Verif.readMem p n) := Draws.copyIn _ _ _ _ _
theorem Draws.storeU64 (p : Ptr) (v : Nat) : Draws [] (Verif.storeU64 p v) := Draws.copyOut _ _ _ _ _
theorem Draws.loadU64 (p : Ptr) : Draws [] (Verif.loadU64 p) := Draws.bind0 (Draws.readMem _ _) fun _ => Draws.pure _

theorem Draws.cmpMem (b m : Ptr) (i n : Nat) : Draws [] (Verif.cmpMem b m i n) := by
  induction n generalizing i with
  | zero => exact Draws.pure _
  | succ n ih =>
    exact Draws.bind0 (Draws.load _ _) fun _ => Draws.bind0 (Draws.load _ _) fun _ => Draws.ite (Draws.pure _) (ih _)

theorem Draws.withLocal {ns : List Nat} {init : Bytes} {f : Ptr → M α} (hf : ∀ p, Draws ns (f p)) :
    Draws ns (Verif.withLocal init f) := by
  intro W a W' h
  unfold Verif.withLocal at h
  split at h
  · simp at h
  rename_i a2 W2 e
  simp only [Except.ok.injEq, Prod.mk.injEq] at h
  obtain ⟨-, rfl⟩ := h
  have := hf _ _ _ _ e
  exact this

theorem Draws.randombytes (n : Nat) : Draws [n] (Verif.liftR (Verif.randombytes n)) := by
  intro W a W' h
  simp only [Verif.liftR, Verif.randombytes, Except.ok.injEq, Prod.mk.injEq] at h
  obtain ⟨-, rfl⟩ := h
  exact ⟨rfl, rfl⟩

theorem Draws.spxSign (h : P.SpxDraw) (b : Bytes) (n : Nat) (m sk : Bytes) :
    Draws [32] (Verif.liftR (P.spxSign b n m sk)) := by
  intro W a W' e
  unfold Verif.liftR at e
  split at e
  · rename_i a R hR
    simp only [Except.ok.injEq, Prod.mk.injEq] at e
    obtain ⟨-, rfl⟩ := e
    exact h.log _ _ _ _ _ _ _ hR
  · simp at e

theorem signFull_draws (h : P.SpxDraw) (sm smlen m : Ptr) (mlen : Nat) (sk : Ptr) (h1 : 1 ≤ mlen) (h2 : mlen ≤ 64) :
    Draws [32] (signFull P (some sm) (some smlen) (some m) mlen (some sk)) := by
  unfold signFull
  simp only
  rw [if_neg (by simp only [MAX_MSG_LEN]; omega)]
  refine .bind0 (.copyIn _ _ _ _ _) fun _ => .bind0 (.copyIn _ _ _ _ _) fun _ => .bind0 (.copyIn _ _ _ _ _) fun _ =>
    .bind0 (.readMem _ _) fun _ => .bind0 (.liftC _) fun _ => .bind0 (.liftC _) fun _ => ?_
  refine Draws.bind (b := []) (Draws.spxSign h _ _ _ _) fun _ => ?_
  refine .ite (.pure _) (.ite (.pure _) (.ite (.pure _) (.ite (.pure _) (.ite (.pure _) (.ite (.pure _) ?_)))))
  exact .bind0 (.store _ _ _) fun _ => .bind0 (.store _ _ _) fun _ => .bind0 (.copyOut _ _ _ _ _) fun _ =>
    .bind0 (.copyOut _ _ _ _ _) fun _ => .bind0 (.copyOut _ _ _ _ _) fun _ => .bind0 (.storeU64 _ _) fun _ => .pure _

theorem signCompact_draws (sm smlen m : Ptr) (mlen : Nat) (sk : Ptr) (h1 : 1 ≤ mlen) (h2 : mlen ≤ 64) :
    Draws [40] (signCompact P (some sm) (some smlen) (some m) mlen (some sk)) := by
  unfold signCompact
  simp only
  rw [if_neg (by simp only [MAX_MSG_LEN]; omega)]
  refine .bind0 (.copyIn _ _ _ _ _) fun _ => .bind0 (.copyIn _ _ _ _ _) fun _ => ?_
  refine Draws.bind (b := []) (Draws.randombytes 40) fun o => ?_
  cases o with
  | none => exact .pure _
  | some nonce =>
    refine .bind0 (.liftC _) fun _ => .bind0 (.copyIn _ _ _ _ _) fun _ => .bind0 (.copyIn _ _ _ _ _) fun _ =>
      .bind0 (.liftC _) fun _ => .bind0 (.liftC _) fun _ => .bind0 (.liftC _) fun _ => ?_
    refine .ite (.pure _) (.ite (.pure _) (.ite (.pure _) (.ite (.pure _) ?_)))
    exact .bind0 (.store _ _ _) fun _ => .bind0 (.store _ _ _) fun _ => .bind0 (.copyOut _ _ _ _ _) fun _ =>
      .bind0 (.copyOut _ _ _ _ _) fun _ => .bind0 (.copyOut _ _ _ _ _) fun _ => .bind0 (.copyMem _ _ _ _ _) fun _ =>
      .bind0 (.storeU64 _ _) fun _ => .pure _

theorem openFull_draws (m mlen sm : Option Ptr) (smlen : Nat) (pk : Option Ptr) : Draws [] (openFull P m mlen sm smlen pk) := by
  unfold openFull
  split
  · refine .ite (.pure _) (.bind0 (.load _ _) fun _ => .ite (.pure _) (.bind0 (.load _ _) fun _ =>
      .ite (.pure _) (.ite (.pure _) ?_)))
    refine .bind0 (.copyIn _ _ _ _ _) fun _ => .bind0 (.copyIn _ _ _ _ _) fun _ => .bind0 (.liftC _) fun _ =>
      .ite (.pure _) (.ite (.pure _) ?_)
    refine .bind0 (.copyIn _ _ _ _ _) fun _ => .bind0 (.copyIn _ _ _ _ _) fun _ => .bind0 (.liftC _) fun _ =>
      .bind0 (.liftC _) fun _ => .ite (.pure _) ?_
    refine .bind0 (.copyIn _ _ _ _ _) fun _ => .bind0 (.copyIn _ _ _ _ _) fun _ => .bind0 (.liftC _) fun _ =>
      .ite (.pure _) ?_
    exact .bind0 (.copyOut _ _ _ _ _) fun _ => .bind0 (.storeU64 _ _) fun _ => .pure _
  · exact .pure _

theorem openCompact_draws (m mlen sm : Option Ptr) (smlen : Nat) (pk : Option Ptr) : Draws [] (openCompact P m mlen sm smlen pk) := by
  unfold openCompact
  split
  · refine .ite (.pure _) (.bind0 (.load _ _) fun _ => .ite (.pure _) (.bind0 (.load _ _) fun _ =>
      .ite (.pure _) (.ite (.pure _) ?_)))
    refine .bind0 (.copyIn _ _ _ _ _) fun _ => .bind0 (.copyIn _ _ _ _ _) fun _ => .bind0 (.copyIn _ _ _ _ _) fun _ =>
      .bind0 (.liftC _) fun _ => .bind0 (.copyIn _ _ _ _ _) fun _ => .bind0 (.liftC _) fun _ =>
      .bind0 (.copyIn _ _ _ _ _) fun _ => .bind0 (.liftC _) fun _ => .ite (.pure _) (.ite (.pure _) ?_)
    refine .bind0 (.liftC _) fun _ => .bind0 (.liftC _) fun _ => .ite (.pure _) ?_
    refine .bind0 (.copyIn _ _ _ _ _) fun _ => .bind0 (.copyIn _ _ _ _ _) fun _ => .bind0 (.liftC _) fun _ =>
      .ite (.pure _) ?_
    exact .bind0 (.copyMem _ _ _ _ _) fun _ => .bind0 (.storeU64 _ _) fun _ => .pure _
  · exact .pure _

theorem verifyFull_draws (m : Option Ptr) (mlen : Nat) (sm : Option Ptr) (smlen : Nat) (pk : Option Ptr) :
    Draws [] (verifyFull P m mlen sm smlen pk) := by
  unfold verifyFull
  split
  · refine .ite (.pure _) (.withLocal fun _ => .withLocal fun _ => .bind0 (openFull_draws _ _ _ _ _) fun _ =>
      .ite (.pure _) (.bind0 (.loadU64 _) fun _ => .ite (.pure _) (.cmpMem _ _ _ _)))
  · exact .pure _

theorem verifyCompact_draws (m : Option Ptr) (mlen : Nat) (sm : Option Ptr) (smlen : Nat) (pk : Option Ptr) :
    Draws [] (verifyCompact P m mlen sm smlen pk) := by
  unfold verifyCompact
  split
  · refine .ite (.pure _) (.withLocal fun _ => .withLocal fun _ => .bind0 (openCompact_draws _ _ _ _ _) fun _ =>
      .ite (.pure _) (.bind0 (.loadU64 _) fun _ => .ite (.pure _) (.cmpMem _ _ _ _)))
  · exact .pure _

theorem verifyDilithium_draws (m : Option Ptr) (mlen : Nat) (sm : Option Ptr) (smlen : Nat) (pk : Option Ptr) :
    Draws [] (verifyDilithium P m mlen sm smlen pk) := by
  unfold verifyDilithium
  split
  · refine .ite (.pure _) (.ite (.pure _) ?_)
    exact .bind0 (.readMem _ _) fun _ => .bind0 (.readMem _ _) fun _ => .bind0 (.readMem _ _) fun _ =>
      .bind0 (.liftC _) fun _ => .ite (.pure _) (.pure _)
  · exact .pure _

theorem keypairSeed_draws (pk sk seed : Option Ptr) : Draws [] (keypairSeed P pk sk seed) := by
  unfold keypairSeed
  split
  · refine .bind0 (.copyIn _ _ _ _ _) fun _ => .bind0 (.copyIn _ _ _ _ _) fun _ => .bind0 (.copyIn _ _ _ _ _) fun _ =>
      .bind0 (.liftC _) fun _ => .ite (.pure _) ?_
    refine .bind0 (.copyOut _ _ _ _ _) fun _ => .bind0 (.copyOut _ _ _ _ _) fun _ => .bind0 (.liftC _) fun _ =>
      .ite (.pure _) ?_
    refine .bind0 (.copyOut _ _ _ _ _) fun _ => .bind0 (.loopM (fun _ _ => .bind0 (.liftC _) fun _ =>
      .bind0 (.store _ _ _) fun _ => .bind0 (.liftC _) fun _ => .store _ _ _) _ _ _) fun _ => .bind0 (.liftC _) fun _ =>
      .ite (.pure _) ?_
    exact .bind0 (.copyOut _ _ _ _ _) fun _ => .bind0 (.copyOut _ _ _ _ _) fun _ => .pure _
  · exact .pure _

theorem seedExpander_draws (seed ex : Option Ptr) : Draws [] (seedExpander P seed ex) := by
  unfold seedExpander
  split
  · intro W a W' h; simp at h
  · refine .bind0 (.loopM (fun _ _ => .bind0 (.load _ _) fun _ => .liftC _) _ _ _) fun _ => .bind0 (.liftC _) fun _ =>
      .ite (.pure _) ?_
    split
    · intro W a W' h; simp at h
    · exact .bind0 (.copyOut _ _ _ _ _) fun _ => .bind0 (.copyMem _ _ _ _ _) fun _ => .bind0 (.copyOut _ _ _ _ _) fun _ =>
        .pure _

theorem keypair_draws (pk sk : Ptr) : Draws [160] (keypair P (some pk) (some sk)) := by
  unfold keypair
  refine Draws.bind (b := []) (Draws.randombytes 160) fun o => ?_
  cases o with
  | none => exact .pure _
  | some s => exact .withLocal fun _ => keypairSeed_draws _ _ _

end Verif.Hybrid
