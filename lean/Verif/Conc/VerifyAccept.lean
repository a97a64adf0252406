import Verif.Conc.VerifyRace
import Verif.Conc.RaceProps

/-!
What `crypto_verify_dilithium` accepts while other threads write to its buffers: helpers.
-/

namespace Verif.Conc
open Verif
open Verif.Dilithium (Poly Vec vecUnpack polyzUnpack unpackHints unpackSig unpackPk)
open Verif.Dilithium.Spec (Valid)

variable {α β ι : Type}

/-! ### A change of the memory on the way -/

/-- The program runs for a while in the first memory and then in the second one to the end (no line of its own). -/
def Sw (W W' : World) (x : Prog α) (r : α) : Prop := ∃ y, Leads (x, W) (y, W) ∧ exec y W' = .ok (r, W')

theorem Sw.bind {W W' : World} {x : Prog α} {f : α → Prog β} {a : α} {b : β} (h : Sw W W' x a) (hf : exec (f a) W' = .ok (b, W')) : Sw W W' (x >>= f) b := by
  obtain ⟨y, h1, h2⟩ := h
  exact ⟨y >>= f, h1.bind, by rw [exec_bind_ok h2, hf]⟩

theorem sw_step {W W' : World} {x : Prog α} {f : α → Prog β} {a : α} {b : β} (h : exec x W = .ok (a, W)) (hf : Sw W W' (f a) b) : Sw W W' (x >>= f) b := by
  obtain ⟨y, h1, h2⟩ := hf
  exact ⟨y, (leads_bind h).trans h1, h2⟩

theorem sw_now {W W' : World} {x : Prog α} {a : α} (h : exec x W' = .ok (a, W')) : Sw W W' x a := ⟨x, Leads.refl _, h⟩

/-- The last count of hints changes before it is read for the last time. -/
theorem sw_hints {W W' : World} {sig : Ptr} {x y : Bytes} (hv : W.view sig 2420 = some x) (hv' : W'.view sig 2420 = some y) (n i k : Nat) (hi : i + (n + 1) = 4) (hk : k ≤ 80) {hs : Vec} {k' : Nat}
    (h : unpackHints x 2336 i (n + 1) k = .ok (some (hs, k'))) : Sw W W' (hints sig (n + 1) i k) (some (hs, (y.getD 2419 0).toNat)) := by
  have hl := length_of_view hv
  induction n generalizing i k hs k' with
  | zero =>
    obtain rfl : i = 3 := by omega
    rw [unpackHints.eq_2, show 2336 + 80 + 3 = 2419 from rfl, rd_getD (by omega), ok_bind] at h
    split at h
    · cases h
    · rename_i hc
      obtain ⟨r, hr, h⟩ := bind_eq_ok.1 h
      cases r with
      | none => cases h
      | some p =>
        rw [unpackHints.eq_1] at h
        simp only [ok_bind] at h
        cases h
        unfold hints
        refine sw_step (exec_load_view hv (by omega)) ?_
        rw [if_neg fun h => hc (Or.inl h)]
        refine sw_step (exec_load_view hv (by omega)) ?_
        rw [if_neg fun h => hc (Or.inr h)]
        refine sw_step (by rw [exec_hintPoly hv (by omega) (by show (x.getD 2419 0).toNat ≤ 80; omega) _ _ _ (by show _ ≤ (x.getD 2419 0).toNat; omega) (by show (x.getD 2419 0).toNat < _; omega), hr]; rfl) ?_
        refine sw_now ?_
        simp only
        rw [exec_bind_ok (exec_load_view hv' (by omega))]
        rfl
  | succ n ih =>
    rw [unpackHints.eq_2, show 2336 + 80 + i = 2416 + i from rfl, rd_getD (by omega), ok_bind] at h
    split at h
    · cases h
    · rename_i hc
      obtain ⟨r, hr, h⟩ := bind_eq_ok.1 h
      cases r with
      | none => cases h
      | some p =>
        obtain ⟨r, hrest, h⟩ := bind_eq_ok.1 h
        rcases r with - | ⟨hs', k''⟩
        · cases h
        · cases h
          rw [hints.eq_2]
          refine sw_step (exec_load_view hv (by omega)) ?_
          rw [if_neg (by omega)]
          refine sw_step (exec_load_view hv (by omega)) ?_
          rw [if_neg (by omega)]
          refine sw_step (by rw [exec_hintPoly hv (by omega) (by omega) _ _ _ (by omega) (by omega), hr]; rfl) ?_
          refine sw_step (exec_load_view hv (by omega)) ?_
          exact (ih (i + 1) _ (by omega) (by omega) hrest).bind rfl

/-! ### What a signature that decodes looks like -/

theorem unpackHints_last {x : Bytes} (hl : x.length = 2420) (n i k : Nat) (hi : i + (n + 1) = 4) {hs : Vec} {k' : Nat} (h : unpackHints x 2336 i (n + 1) k = .ok (some (hs, k'))) : k' = (x.getD 2419 0).toNat := by
  induction n generalizing i k hs k' with
  | zero =>
    obtain rfl : i = 3 := by omega
    rw [unpackHints.eq_2, show 2336 + 80 + 3 = 2419 from rfl, rd_getD (by omega), ok_bind] at h
    split at h
    · cases h
    · obtain ⟨r, hr, h⟩ := bind_eq_ok.1 h
      cases r with
      | none => cases h
      | some p =>
        rw [unpackHints.eq_1] at h
        simp only [ok_bind] at h
        cases h; rfl
  | succ n ih =>
    rw [unpackHints.eq_2, show 2336 + 80 + i = 2416 + i from rfl, rd_getD (by omega), ok_bind] at h
    split at h
    · cases h
    · obtain ⟨r, hr, h⟩ := bind_eq_ok.1 h
      cases r with
      | none => cases h
      | some p =>
        obtain ⟨r, hrest, h⟩ := bind_eq_ok.1 h
        rcases r with - | ⟨hs', k''⟩
        · cases h
        · cases h
          exact ih (i + 1) _ (by omega) hrest

theorem unpackSig_parts {x c : Bytes} {z h : Vec} (hl : x.length = 2420) (hu : unpackSig x = .ok (some (c, z, h))) :
    c = slice x 0 32 ∧ vecUnpack polyzUnpack 576 x 32 = .ok z ∧ unpackHints x 2336 0 4 0 = .ok (some (h, (x.getD 2419 0).toNat)) ∧ (x.getD 2419 0).toNat ≤ 80 ∧
      ∀ j, (x.getD 2419 0).toNat ≤ j → j < 80 → x.getD (2336 + j) 0 = 0 := by
  unfold unpackSig at hu
  rw [Dilithium.copy_from (by omega), ok_bind] at hu
  obtain ⟨z', ez, hu⟩ := bind_eq_ok.1 hu
  obtain ⟨r, er, hu⟩ := bind_eq_ok.1 hu
  rcases r with - | ⟨h', k⟩
  · cases hu
  · have hk := unpackHints_last hl 3 0 0 rfl er
    have hk' := unpackHints_k (by omega) er
    subst hk
    obtain ⟨b, eb, hb⟩ := Dilithium.anyBad_ok (f := fun j => do
      let y ← rd x (2336 + j)
      .ok (decide (y ≠ 0))) (g := fun j => decide (x.getD (2336 + j) 0 ≠ 0)) (x.getD 2419 0).toNat (80 - (x.getD 2419 0).toNat) (fun j h1 h2 => by
        rw [rd_getD (by omega), ok_bind])
    simp only at hu
    rw [eb, ok_bind] at hu
    cases b with
    | true => cases hu
    | false =>
      cases hu
      refine ⟨rfl, ez, er, hk', fun j h1 h2 => ?_⟩
      by_contra hne
      have := hb.2 ⟨j, h1, by omega, decide_eq_true hne⟩
      cases this

/-- A valid signature has at most 80 hints and zeros in the positions that they do not use (dilithium2/packing.c:237, 252-257). -/
theorem valid_shape {pk m x : Bytes} (hl : x.length = 2420) (h : Valid Dilithium.S128 Dilithium.S256 pk m x) :
    (x.getD 2419 0).toNat ≤ 80 ∧ ∀ j, (x.getD 2419 0).toNat ≤ j → j < 80 → x.getD (2336 + j) 0 = 0 := by
  obtain ⟨ct, z, g, c, A, h1, h2, h3, h4, h5, e, -⟩ := h
  obtain ⟨r, hr, hu⟩ := Dilithium.unpackSig_iff hl
  obtain rfl := (hu _ _ _).2 ⟨⟨h1, h2, fun x hx => ⟨(h3 x hx).1, fun v hv => by have := (h3 x hx).2 v hv; omega⟩, h4, h5⟩, e⟩
  exact (unpackSig_parts hl hr).2.2.2

/-! ### A signature with something in the unused positions -/

theorem slice_congr {x y : Bytes} {o n : Nat} (hx : x.length = y.length) (h : ∀ i, o ≤ i → i < o + n → y.getD i 0 = x.getD i 0) : slice y o n = slice x o n := by
  apply List.ext_getElem?
  intro i
  rw [getElem?_slice, getElem?_slice]
  split
  · by_cases hi : o + i < x.length
    · have := h (o + i) (by omega) (by omega)
      rw [List.getD_eq_getElem?_getD, List.getD_eq_getElem?_getD, List.getElem?_eq_getElem (by omega), List.getElem?_eq_getElem hi] at this
      rw [List.getElem?_eq_getElem (by omega), List.getElem?_eq_getElem hi]
      exact congrArg some this
    · rw [List.getElem?_eq_none (by omega), List.getElem?_eq_none (by omega)]
  · rfl

/-- `y` is the signature `x` with other bytes in the hint positions that `x` does not use (compare dilithium2/packing.c:252-257). -/
def SameUsed (x y : Bytes) : Prop := x.length = 2420 ∧ y.length = 2420 ∧ ∀ i, i < 2420 → ¬ (2336 + (x.getD 2419 0).toNat ≤ i ∧ i < 2416) → y.getD i 0 = x.getD i 0

theorem sameUsed_hints {x y : Bytes} {h : Vec} (hs : SameUsed x y) (hu : unpackHints x 2336 0 4 0 = .ok (some (h, (x.getD 2419 0).toNat))) : unpackHints y 2336 0 4 0 = .ok (some (h, (x.getD 2419 0).toNat)) := by
  obtain ⟨lx, ly, hs⟩ := hs
  obtain ⟨r, e1, h1⟩ := Dilithium.unpackHints_iff (sig := x) (o := 2336) (by omega) 4 0 0 (by omega) (by omega)
  obtain ⟨r', e2, h2⟩ := Dilithium.unpackHints_iff (sig := y) (o := 2336) (by omega) 4 0 0 (by omega) (by omega)
  rw [hu] at e1
  injection e1 with e1
  obtain ⟨a1, a2, a3, a4, a5, a6⟩ := (h1 _ _).1 e1.symm
  rw [e2, (h2 h (x.getD 2419 0).toNat).2 ⟨a1, a2, a3, a4, ?_, ?_⟩]
  · rw [slice_congr (x := x) (by omega) fun i h1 h2 => hs i (by omega) (by omega)]; exact a5
  · rw [slice_congr (x := x) (by omega) fun i h1 h2 => hs i (by omega) (by omega)]; exact a6

theorem sw_unpackSig {W W' : World} {sig : Ptr} {x y y' c : Bytes} {z h : Vec} (hs : SameUsed x y) (hv : W.view sig 2420 = some y) (hv' : W'.view sig 2420 = some y') (h80 : 80 ≤ (y'.getD 2419 0).toNat)
    (hu : unpackSig x = .ok (some (c, z, h))) : Sw W W' (unpackSigSteps sig) (some (c, z, h)) := by
  obtain ⟨rfl, ez, eh, -, -⟩ := unpackSig_parts hs.1 hu
  have eh := sameUsed_hints hs eh
  obtain ⟨lx, ly, hs⟩ := hs
  unfold unpackSigSteps
  rw [Dilithium.vecUnpack_ok (g := fun i => Dilithium.Spec.unpackAt 18 131072 (slice x (32 + i * 576) 576)) (fun i hi => Dilithium.polyzUnpack_ok (by omega))] at ez
  injection ez with ez
  have ez : (Dilithium.Spec.vec fun i => Dilithium.Spec.unpackAt 18 131072 (slice y (32 + i * 576) 576)) = z := by
    rw [← ez]
    refine List.map_congr_left fun i hi => ?_
    have hi := List.mem_range.1 hi
    rw [slice_congr (x := x) (by omega) fun k h1 h2 => hs k (by omega) (by omega)]
  refine sw_step (exec_copyIn_zeros hv (by omega)) (sw_step (a := z) (by rw [← ez]; exact exec_readZ hv (by omega)) ?_)
  rw [slice_congr (x := x) (o := 0) (by omega) fun i h1 h2 => hs i (by omega) (by omega)]
  refine (sw_hints hv hv' 3 0 0 rfl (by omega) eh).bind ?_
  simp only
  rw [show 80 - (y'.getD 2419 0).toNat = 0 by omega]
  rfl

theorem sw_verify {fuel : Nat} {W W' : World} {sm m pk : Ptr} {mlen : Nat} {x y y' msg pkb : Bytes} (hs : SameUsed x y) (hv : W.view sm 2420 = some y) (hv' : W'.view sm 2420 = some y') (h80 : 80 ≤ (y'.getD 2419 0).toNat)
    (hp : W.view pk 1312 = some pkb) (hp' : W'.view pk 1312 = some pkb) (hm : W'.view m mlen = some msg) (h1 : 1 ≤ mlen) (h2 : mlen ≤ 64) (h : Dilithium.verify fuel x 2420 msg pkb = .ok 0) :
    Sw W W' (verifyDilithiumSteps fuel (some m) mlen (some sm) 2420 (some pk)) 0 := by
  have hlm := length_of_view hm
  have rdm : ∀ {W : World} {p : Ptr} {n : Nat} {y : Bytes}, W.view p n = some y → exec (readMem p n) W = .ok (y, W) := fun h => by rw [exec_readMem]; exact readMem_ok h
  simp only [verifyDilithiumSteps]
  rw [if_neg (by omega)]
  refine Sw.bind (a := 0) ?_ rfl
  unfold Dilithium.verify at h
  unfold dilVerifySteps
  rw [if_neg (by decide)] at h ⊢
  have hlp := length_of_view hp
  rw [Dilithium.unpackPk_ok hlp, ok_bind] at h
  refine sw_step (exec_copyIn_zeros hp (by omega)) (sw_step (exec_readT1 hp) ?_)
  generalize slice pkb 0 32 = rho at h ⊢
  generalize (Dilithium.Spec.vec fun i => Dilithium.Spec.unpackPos 10 (slice pkb (32 + i * 320) 320)) = t1 at h ⊢
  simp only at h
  obtain ⟨r, e2, h⟩ := bind_eq_ok.1 h
  rcases r with - | ⟨c, z, hh⟩
  · cases h
  · refine (sw_unpackSig hs hv hv' h80 e2).bind ?_
    simp only at h ⊢
    obtain ⟨b, e3, h⟩ := bind_eq_ok.1 h
    rw [exec_bind_ok (a := b) (W' := W') (by rw [exec_liftC_at, e3]; rfl)]
    cases b with
    | true => cases h
    | false =>
      rw [if_neg (by decide)] at h ⊢
      obtain ⟨mu, e4, h⟩ := bind_eq_ok.1 h
      rw [exec_bind_ok (rdm hp'), exec_bind_ok (a := mu) (W' := W') (by rw [exec_liftC_at, e4]; rfl)]
      obtain ⟨mu', e5, h⟩ := bind_eq_ok.1 h
      rw [hlm] at e5
      rw [exec_bind_ok (rdm hm), exec_bind_ok (a := mu') (W' := W') (by rw [exec_liftC_at, e5]; rfl), exec_liftC_at]
      have h : verifyRest fuel rho t1 c z hh mu' = .ok 0 := h
      rw [h]; rfl

/-! ### What is read while the signature and the key do not change -/

section
variable {F : Fault → Prop} {A : Addr → Prop} {V : Addr → Byte → Prop} {Q : α → Prop}

theorem reads_all {x : C α} (hF : ∀ e, F e) (h : ∀ a, x = .ok a → Q a) : ReadsIn F A V Q (liftC x) := by
  cases x with
  | ok a => exact h a rfl
  | error e => exact hF e

theorem ReadsIn.monoA {x : Prog α} {A' : Addr → Prop} (h : ReadsIn F A V Q x) (hA : ∀ a, A a → A' a) : ReadsIn F A' V Q x := by
  induction x with
  | ret a => exact h
  | fail e => exact h
  | load p i k ih => exact ⟨hA _ h.1, fun v hv => ih v (h.2 v hv)⟩
  | store p i v k ih => exact h.elim
  | draw n k ih => exact h.elim
  | push init k ih => exact h.elim
  | pop p k ih => exact h.elim

/-- What is read does not depend on the moment: the result is that without other threads. -/
theorem reads_exec {x : Prog α} {W W' : World} {r : α} (h : ReadsIn F A V Q x) (he : exec x W = .ok (r, W')) (hd : ∀ a v w, A a → byteAt W.mem a = some w → V a v → v = w) : ReadsIn F A V (fun a => a = r) x := by
  induction x with
  | ret a => cases he; rfl
  | fail e => cases he
  | load p i k ih =>
    refine ⟨h.1, fun v hv => ?_⟩
    have he : (Verif.load p i >>= fun v => exec (k v)) W = .ok (r, W') := he
    rw [M_bind_apply, load_byteAt] at he
    cases hw : byteAt W.mem (p.blk, p.off + i) with
    | none => rw [hw] at he; cases he
    | some w =>
      rw [hw] at he
      obtain rfl := hd _ _ _ h.1 hw hv
      exact ih v (h.2 v hv) he
  | store p i v k ih => exact h.elim
  | draw n k ih => exact h.elim
  | push init k ih => exact h.elim
  | pop p k ih => exact h.elim

/-- The bytes that are read are bytes with `V`. -/
theorem reads_bytes {p : Ptr} {n : Nat} (h : ∀ k, k < n → A (p.blk, p.off + k)) : ReadsIn F A V (fun b => b.length = n ∧ ∀ k v, b[k]? = some v → V (p.blk, p.off + k) v) (readMem p n) := by
  have key : ∀ l i (b : Bytes), i + l = n → b.length = n → (∀ k v, k < i → b[k]? = some v → V (p.blk, p.off + k) v) →
      ReadsIn F A V (fun b => b.length = n ∧ ∀ k v, b[k]? = some v → V (p.blk, p.off + k) v) (loopM (fun i b => do
        let v ← load p (0 + i)
        liftC (wr b (0 + i) v)) i l b) := by
    intro l
    induction l with
    | zero =>
      intro i b hi hb h
      refine ⟨hb, fun k v hk => h k v ?_ hk⟩
      have := (List.getElem?_eq_some_iff.1 hk).1
      omega
    | succ l ih =>
      intro i b hi hb hv
      unfold loopM
      refine ReadsIn.bind (Q := fun b' => b'.length = n ∧ ∀ k v, k < i + 1 → b'[k]? = some v → V (p.blk, p.off + k) v) ?_ fun b' hb' => ih _ _ (by omega) hb'.1 hb'.2
      simp only [Nat.zero_add]
      refine (reads_load (h i (by omega))).bind fun v hw => reads_ok (wr_ok (by omega)) ⟨by rw [List.length_set]; exact hb, fun k u hk hu => ?_⟩
      rw [List.getElem?_set] at hu
      split at hu
      · subst k
        rw [if_pos (by omega)] at hu
        cases hu; exact hw
      · exact hv k u (by omega) hu
  exact key n 0 _ (by omega) List.length_replicate fun k v hk => absurd hk (by omega)

theorem byteAt_view {W : World} {p : Ptr} {n k : Nat} {x : Bytes} (h : W.view p n = some x) (hk : k < n) : byteAt W.mem (p.blk, p.off + k) = x[k]? := by
  have lx := length_of_view h
  have e := Hybrid.load_getD h hk
  rw [load_byteAt] at e
  cases hw : byteAt W.mem (p.blk, p.off + k) with
  | none => rw [hw] at e; cases e
  | some w =>
    rw [hw] at e
    simp only [Except.ok.injEq, Prod.mk.injEq, and_true] at e
    rw [e, List.getD_eq_getElem?_getD, List.getElem?_eq_getElem (by omega)]; rfl

theorem eq_of_bytes {W : World} {p : Ptr} {n : Nat} {x b : Bytes} (hx : W.view p n = some x) (hl : b.length = n) (h : ∀ k v, b[k]? = some v → byteAt W.mem (p.blk, p.off + k) = some v) : b = x := by
  have lx := length_of_view hx
  apply List.ext_getElem?
  intro k
  by_cases hk : k < n
  · have e := h k _ (List.getElem?_eq_getElem (by omega))
    rw [byteAt_view hx hk] at e
    rw [List.getElem?_eq_getElem (by omega)]; exact e.symm
  · rw [List.getElem?_eq_none (by omega), List.getElem?_eq_none (by omega)]

theorem reads_accept {fuel : Nat} {W : World} {sm m pk : Ptr} {mlen smlen : Nat} {x pkb : Bytes} (hF : ∀ e, F e) (hx : W.view sm 2420 = some x) (hp : W.view pk 1312 = some pkb)
    (hA : ∀ o, o < 2420 → A (sm.blk, sm.off + o)) (hAm : ∀ o, o < mlen → A (m.blk, m.off + o)) (hAp : ∀ o, o < 1312 → A (pk.blk, pk.off + o))
    (hV : ∀ o v, o < 2420 → V (sm.blk, sm.off + o) v → byteAt W.mem (sm.blk, sm.off + o) = some v) (hVp : ∀ o v, o < 1312 → V (pk.blk, pk.off + o) v → byteAt W.mem (pk.blk, pk.off + o) = some v) :
    ReadsIn F A V (fun r => r = 0 → ∃ msg : Bytes, 1 ≤ mlen ∧ mlen ≤ 64 ∧ smlen = 2420 ∧ msg.length = mlen ∧ (∀ k v, msg[k]? = some v → V (m.blk, m.off + k) v) ∧ Valid Dilithium.S128 Dilithium.S256 pkb msg x)
      (verifyDilithiumSteps fuel (some m) mlen (some sm) smlen (some pk)) := by
  have lx := length_of_view hx
  have lp := length_of_view hp
  have rp : ReadsIn F A V (fun b => b = pkb) (readMem pk 1312) := (reads_bytes hAp).mono fun b hb => eq_of_bytes hp hb.1 fun k v hk => hVp k v (by have := (List.getElem?_eq_some_iff.1 hk).1; omega) (hb.2 k v hk)
  simp only [verifyDilithiumSteps]
  split
  · intro h; cases h
  · refine ReadsIn.bind (Q := fun r => r = 0 → smlen = 2420 ∧ ∃ msg : Bytes, msg.length = mlen ∧ (∀ k v, msg[k]? = some v → V (m.blk, m.off + k) v) ∧ Dilithium.verify fuel x 2420 msg pkb = .ok 0) ?_ fun r hr => ?_
    · unfold dilVerifySteps
      split
      · intro h; cases h
      · have fix : ∀ {α : Type} {x : Prog α} {r : α}, ReadsIn F (fun a => ∃ o, o < 1312 ∧ a = (pk.blk, pk.off + o)) V (fun _ => True) x → exec x W = .ok (r, W) → ReadsIn F A V (fun a => a = r) x := fun h he =>
          (reads_exec h he (by
            rintro a v w ⟨o, ho, rfl⟩ hw hv
            have := (hVp _ _ ho hv).symm.trans hw
            injection this)).monoA fun a ⟨o, ho, e⟩ => by rw [e]; exact hAp o ho
        refine (fix (r := slice pkb 0 32) ((reads_copyIn (by rw [List.length_replicate]) fun k hk => ⟨k, by omega, by rw [Nat.zero_add]⟩).mono fun _ _ => trivial) (exec_copyIn_zeros hp (by omega))).bind fun rho hrho => ?_
        refine (fix ((reads_t1 fun k hk => ⟨k, hk, rfl⟩).mono fun _ _ => trivial) (exec_readT1 hp)).bind fun t1 ht1 => ?_
        have e1 : unpackPk pkb = .ok (rho, t1) := by rw [hrho, ht1, Dilithium.unpackPk_ok lp]
        obtain ⟨r, e2, -⟩ := Dilithium.unpackSig_iff lx
        have hsub : ReadsIn F (fun a => ∃ o, o < 2420 ∧ a = (sm.blk, sm.off + o)) V (fun _ => True) (unpackSigSteps sm) :=
          (reads_unpackSig (N := 2420) (B := 80) (by omega) (fun o ho => ⟨o, ho, rfl⟩) (by omega) fun i hi v w hv hl hw => by
            have := (hV _ _ (by omega) hv).symm.trans (hV _ _ (by omega) hw)
            injection this with this
            rw [← this]; exact hl).mono fun _ _ => trivial
        have hsub := reads_exec hsub (W := W) (W' := W) (r := r) (by rw [exec_unpackSig hx, e2]; rfl) (by
          rintro a v w ⟨o, ho, rfl⟩ hw hv
          have := (hV _ _ ho hv).symm.trans hw
          injection this)
        refine (hsub.monoA fun a ⟨o, ho, e⟩ => by rw [e]; exact hA o ho).bind fun r' hr' => ?_
        subst hr'
        rcases r' with - | ⟨c, z, h⟩
        · intro h; cases h
        · simp only
          refine (reads_all (Q := fun r => Dilithium.vecChknorm z (Dilithium.GAMMA1 - Dilithium.BETA) = .ok r) hF fun _ h => h).bind fun b' e3 => ?_
          cases b' with
          | true => intro h; cases h
          | false =>
            rw [if_neg (by decide)]
            refine rp.bind fun b' hb' => ?_
            subst hb'
            refine (reads_all (Q := fun r => Keccak.shake256 (List.replicate 64 0) 64 b' 1312 = .ok r) hF fun _ h => h).bind fun mu e4 => ?_
            refine (reads_bytes hAm).bind fun msg hmsg => ?_
            refine (reads_all (Q := fun r => Dilithium.shake256Inc2 mu 64 msg mlen mu 64 = .ok r) hF fun _ h => h).bind fun mu' e5 => ?_
            refine reads_all hF fun r e6 h0 => ?_
            subst h0
            refine ⟨by omega, msg, hmsg.1, hmsg.2, ?_⟩
            unfold Dilithium.verify
            rw [if_neg (by decide), e1, ok_bind]
            simp only
            rw [e2, ok_bind]
            simp only
            rw [e3, ok_bind, if_neg (by decide), e4, ok_bind, hmsg.1, e5, ok_bind]
            exact e6
    · split
      · intro h; cases h
      · rename_i hr0
        obtain ⟨h1, msg, h2, h3, h4⟩ := hr (by omega)
        refine fun _ => ⟨msg, by omega, by omega, h1, h2, h3, ?_⟩
        rcases Dilithium.verify_sound lx lp h4 with h | h
        · exact h.2
        · exact absurd h.1 (by decide)
end

end Verif.Conc
