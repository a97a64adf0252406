import Verif.Conc.Attack
import Verif.Conc.Windows
import Verif.Real.Contracts
import Verif.Dilithium.Hint

/-!
`crypto_verify_dilithium` as a sequence of steps, with Dilithium verification itself in single steps: it works on the caller's signature buffer, and the decoding of the hints reads the same byte of it several times.
-/

namespace Verif.Conc
open Verif
open Verif.Dilithium (Poly Vec unpackPk vecUnpack polyzUnpack vecChknorm shake256Inc2 polyChallenge matrixExpand vecNtt matrixPointwise ntt vecShiftl vecPointwisePoly vecSub vecReduce vecInvntt vecCaddq
  vecUseHint vecPackW1 anyBad GAMMA1 BETA)
open Verif.Keccak (shake256)

variable {α β ι : Type}

/-- dilithium2/packing.c:241-247 `for (j = k; j < sig[OMEGA + i]; ++j)`: the bound is read again before every iteration (line 241), the position up to twice (lines 243 and 246).  The byte is below 256, so that the loop ends before
the counter `n` of iterations is used up. -/
def hintPoly (sig : Ptr) (i k : Nat) : (n j : Nat) → Poly → Prog (Option Poly)
  | 0, _, _ => .fail .diverge
  | n + 1, j, h => do
    let e ← load sig (2416 + i)
    if e.toNat ≤ j then pure (some h) else do
    let bad ← (if j > k then do
        let x ← load sig (2336 + j)
        let y ← load sig (2336 + j - 1)
        pure (decide (x.toNat ≤ y.toNat))
      else pure false : Prog Bool)
    if bad then pure none else do
    let x ← load sig (2336 + j)
    let h ← liftC (wr h x.toNat 1)
    hintPoly sig i k n (j + 1) h

/-- dilithium2/packing.c:232-250: the polynomials from number i on.  `sig[OMEGA + i]` is read for both comparisons in line 237, in the loop, and for the new `k` (line 249). -/
def hints (sig : Ptr) : (n i k : Nat) → Prog (Option (Vec × Nat))
  | 0, _, k => pure (some ([], k))
  | n + 1, i, k => do
    let e ← load sig (2416 + i)
    if e.toNat < k then pure none else do
    let e ← load sig (2416 + i)
    if e.toNat > 80 then pure none else do
    let r ← hintPoly sig i k (256 - k) k (List.replicate 256 0)
    match r with
    | none => pure none
    | some h => do
      let e ← load sig (2416 + i)
      let rest ← hints sig n (i + 1) e.toNat
      match rest with
      | none => pure none
      | some (hs, k) => pure (some (h :: hs, k))

/-- dilithium2/packing.c:253-257: the unused positions are zero. -/
def hintRest (sig : Ptr) : (n j : Nat) → Prog Bool
  | 0, _ => pure false
  | n + 1, j => do
    let x ← load sig (2336 + j)
    if x ≠ 0 then pure true else hintRest sig n (j + 1)

/-- dilithium2/packing.c:214-260 `unpack_sig`; z is decoded by `polyz_unpack` in line 227 (dilithium2/poly.c:790-822), which reads some bytes twice. -/
def unpackSigSteps (sig : Ptr) : Prog (Option (Bytes × Vec × Vec)) := do
  let c ← copyIn (List.replicate 32 0) 0 sig 0 32
  let z ← readVec sig 32 576 18 3 zCoef 4 0
  let r ← hints sig 4 0 0
  match r with
  | none => pure none
  | some (h, k) => do
    let bad ← hintRest sig (80 - k) k
    if bad then pure none else pure (some (c, z, h))

/-- dilithium2/sign.c:294-328: what `crypto_sign_verify` computes when it has read its inputs. -/
def verifyRest (fuel : Nat) (rho : Bytes) (t1 : Vec) (c : Bytes) (z h : Vec) (mu : Bytes) : C Int := do
  let cp ← polyChallenge fuel c
  let mat ← matrixExpand fuel rho
  let z ← vecNtt z
  let w1 ← matrixPointwise mat z
  let cp ← ntt cp
  let t1 ← vecShiftl t1
  let t1 ← vecNtt t1
  let t1 ← vecPointwisePoly cp t1
  let w1 ← vecSub w1 t1
  let w1 ← vecReduce w1
  let w1 ← vecInvntt w1
  let w1 ← vecCaddq w1
  let w1 ← vecUseHint w1 h
  let buf ← vecPackW1 (List.replicate 768 0) w1
  let c2 ← shake256Inc2 mu 64 buf 768 (List.replicate 32 0) 32
  let bad ← anyBad (fun i => do
    let x ← rd c i
    let y ← rd c2 i
    .ok (decide (x ≠ y))) 0 32
  if bad then .ok (-1) else .ok 0

/-- dilithium2/sign.c:257-328 `crypto_sign_verify`.  The public key is read for `unpack_pk` (line 277, dilithium2/packing.c:39-52; some bytes of t1 are read twice, dilithium2/poly.c:618-630) and again for its hash (line 286), the message once (line 289). -/
def dilVerifySteps (fuel : Nat) (sig : Ptr) (siglen : Nat) (m : Ptr) (mlen : Nat) (pk : Ptr) : Prog Int :=
  if siglen ≠ 2420 then pure (-1) else do
  let rho ← copyIn (List.replicate 32 0) 0 pk 0 32
  let t1 ← readVec pk 32 320 10 2 t1Coef 4 0
  let r ← unpackSigSteps sig
  match r with
  | none => pure (-1)
  | some (c, z, h) => do
    let bad ← liftC (vecChknorm z (GAMMA1 - BETA))
    if bad then pure (-1) else do
    let pkb ← readMem pk 1312
    let mu ← liftC (shake256 (List.replicate 64 0) 64 pkb 1312)
    let msg ← readMem m mlen
    let mu ← liftC (shake256Inc2 mu 64 msg mlen mu 64)
    liftC (verifyRest fuel rho t1 c z h mu)

/-- hybrid-dilithium-sphincs/hybrid.c:698-711 `crypto_verify_dilithium`: the caller's pointers go to Dilithium verification as they are. -/
def verifyDilithiumSteps (fuel : Nat) (m : Option Ptr) (mlen : Nat) (sm : Option Ptr) (smlen : Nat) (pk : Option Ptr) : Prog Int :=
  match m, sm, pk with
  | some m, some sm, some pk =>
    if mlen ≤ 0 ∨ mlen > 64 then pure (-1) else do
    let r ← dilVerifySteps fuel sm smlen m mlen pk
    if r ≠ 0 then pure (-2) else pure 0
  | _, _, _ => pure (-1)

/-! ### The steps without interruption -/

theorem exec_load_view {W : World} {p : Ptr} {n i : Nat} {x : Bytes} (h : W.view p n = some x) (hi : i < n) : exec (load p i) W = .ok (x.getD i 0, W) := by
  rw [exec_load]; exact Hybrid.load_getD h hi

theorem exec_bind_ok {x : Prog α} {f : α → Prog β} {W W' : World} {a : α} (h : exec x W = .ok (a, W')) : exec (x >>= f) W = exec (f a) W' := by
  rw [exec_bind, M_bind_apply, h]; rfl

theorem exec_bind_C {x : Prog α} {f : α → Prog β} {W : World} {y : C α} (h : exec x W = (y >>= fun a => .ok (a, W))) : exec (x >>= f) W = y >>= fun a => exec (f a) W := by
  rw [exec_bind, M_bind_apply, h]
  cases y <;> rfl

theorem exec_liftC_at (x : C α) (W : World) : exec (liftC x) W = (x >>= fun a => .ok (a, W)) := by
  cases x <;> rfl

theorem rd_getD {x : Bytes} {i : Nat} (h : i < x.length) : rd x i = .ok (x.getD i 0) := by
  rw [rd_ok h]; simp [h]

theorem exec_hintPoly {W : World} {sig : Ptr} {x : Bytes} {i k : Nat} (hv : W.view sig 2420 = some x) (hi : i < 4) (he : (x.getD (2416 + i) 0).toNat ≤ 80) (n j : Nat) (h : Poly) (hj : j ≤ (x.getD (2416 + i) 0).toNat)
    (hn : (x.getD (2416 + i) 0).toNat < j + n) :
    exec (hintPoly sig i k n j h) W = (Dilithium.unpackHintPoly x 2336 k j ((x.getD (2416 + i) 0).toNat - j) h >>= fun r => .ok (r, W)) := by
  have hl := length_of_view hv
  induction n generalizing j h with
  | zero => omega
  | succ n ih =>
    unfold hintPoly
    rw [exec_bind_ok (exec_load_view hv (by omega))]
    split
    · rename_i hc
      rw [show (x.getD (2416 + i) 0).toNat - j = 0 by omega]; rfl
    · rename_i hc
      obtain ⟨d, hd⟩ : ∃ d, (x.getD (2416 + i) 0).toNat - j = d + 1 := ⟨_, (Nat.succ_pred_eq_of_pos (by omega)).symm⟩
      have hd' : d = (x.getD (2416 + i) 0).toNat - (j + 1) := by omega
      rw [hd, Dilithium.unpackHintPoly.eq_2, rd_getD (by omega), ok_bind]
      have tail : exec (do let y ← load sig (2336 + j); let h ← liftC (wr h y.toNat 1); hintPoly sig i k n (j + 1) h) W =
          ((do let h ← wr h (x.getD (2336 + j) 0).toNat 1; Dilithium.unpackHintPoly x 2336 k (j + 1) d h) >>= fun r => .ok (r, W)) := by
        rw [exec_bind_ok (exec_load_view hv (by omega)), exec_bind_C (exec_liftC_at _ _)]
        cases wr h (x.getD (2336 + j) 0).toNat 1 with
        | error e => rfl
        | ok h' => rw [ok_bind, ok_bind, hd']; exact ih (j + 1) h' (by omega) (by omega)
      by_cases hk : j > k
      · rw [if_pos hk, if_pos hk, rd_getD (by omega), ok_bind, ok_bind]
        rw [exec_bind_ok (a := decide ((x.getD (2336 + j) 0).toNat ≤ (x.getD (2336 + j - 1) 0).toNat)) (W' := W) (by
          rw [exec_bind_ok (exec_load_view hv (by omega)), exec_bind_ok (exec_load_view hv (by omega))]; rfl)]
        split
        · rfl
        · exact tail
      · rw [if_neg hk, if_neg hk, ok_bind]
        exact tail

theorem exec_hints {W : World} {sig : Ptr} {x : Bytes} (hv : W.view sig 2420 = some x) (n i k : Nat) (hk : k ≤ 80) (hi : i + n ≤ 4) :
    exec (hints sig n i k) W = (Dilithium.unpackHints x 2336 i n k >>= fun r => .ok (r, W)) := by
  have hl := length_of_view hv
  induction n generalizing i k with
  | zero => rfl
  | succ n ih =>
    unfold hints Dilithium.unpackHints
    rw [exec_bind_ok (exec_load_view hv (by omega)), show 2336 + 80 + i = 2416 + i by omega, rd_getD (by omega), ok_bind]
    by_cases h1 : (x.getD (2416 + i) 0).toNat < k
    · rw [if_pos h1, if_pos (Or.inl h1)]; rfl
    · rw [if_neg h1, exec_bind_ok (exec_load_view hv (by omega))]
      by_cases h2 : (x.getD (2416 + i) 0).toNat > 80
      · rw [if_pos h2, if_pos (Or.inr h2)]; rfl
      · rw [if_neg h2, if_neg (by omega), exec_bind_C (exec_hintPoly hv (by omega) (by omega) _ _ _ (by omega) (by omega))]
        cases Dilithium.unpackHintPoly x 2336 k k ((x.getD (2416 + i) 0).toNat - k) (List.replicate 256 0) with
        | error e => rfl
        | ok r =>
          rw [ok_bind, ok_bind]
          cases r with
          | none => rfl
          | some h =>
            simp only
            rw [exec_bind_ok (exec_load_view hv (by omega)), exec_bind_C (ih (i + 1) _ (by omega) (by omega))]
            cases Dilithium.unpackHints x 2336 (i + 1) n (x.getD (2416 + i) 0).toNat with
            | error e => rfl
            | ok r =>
              rw [ok_bind, ok_bind]
              rcases r with - | ⟨hs, k'⟩ <;> rfl

theorem exec_hintRest {W : World} {sig : Ptr} {x : Bytes} (hv : W.view sig 2420 = some x) (n j : Nat) (hj : j + n ≤ 80) :
    exec (hintRest sig n j) W = (anyBad (fun j => do let y ← rd x (2336 + j); .ok (decide (y ≠ 0))) j n >>= fun r => .ok (r, W)) := by
  have hl := length_of_view hv
  induction n generalizing j with
  | zero => rfl
  | succ n ih =>
    unfold hintRest anyBad
    rw [exec_bind_ok (exec_load_view hv (by omega)), rd_getD (by omega), ok_bind, ok_bind]
    by_cases h : x.getD (2336 + j) 0 ≠ 0
    · rw [if_pos h, if_pos (by simpa using h)]; rfl
    · rw [if_neg h, if_neg (by simpa using h)]; exact ih _ (by omega)

theorem exec_copyIn_zeros {W : World} {p : Ptr} {N o n : Nat} {x : Bytes} (h : W.view p N = some x) (hn : o + n ≤ N) : exec (copyIn (List.replicate n 0) 0 p o n) W = .ok (slice x o n, W) := by
  rw [exec_copyIn]; exact Hybrid.copyIn_zeros h hn

theorem unpackHints_k {x : Bytes} {n i k : Nat} {hs : Vec} {k' : Nat} (hk : k ≤ 80) (h : Dilithium.unpackHints x 2336 i n k = .ok (some (hs, k'))) : k' ≤ 80 := by
  induction n generalizing i k hs with
  | zero => cases h; exact hk
  | succ n ih =>
    rw [Dilithium.unpackHints.eq_2] at h
    cases hr : rd x (2336 + 80 + i) with
    | error e => rw [hr] at h; cases h
    | ok e =>
      rw [hr, ok_bind] at h
      split at h
      · cases h
      · rename_i hc
        cases hp : Dilithium.unpackHintPoly x 2336 k k (e.toNat - k) (List.replicate 256 0) with
        | error e => rw [hp] at h; cases h
        | ok r =>
          rw [hp, ok_bind] at h
          rcases r with - | p
          · cases h
          · simp only at h
            cases hq : Dilithium.unpackHints x 2336 (i + 1) n e.toNat with
            | error e => rw [hq] at h; cases h
            | ok r =>
              rw [hq, ok_bind] at h
              rcases r with - | ⟨hs', k''⟩
              · cases h
              · cases h
                exact ih (by omega) hq

theorem exec_unpackSig {W : World} {sig : Ptr} {x : Bytes} (hv : W.view sig 2420 = some x) : exec (unpackSigSteps sig) W = (Dilithium.unpackSig x >>= fun r => .ok (r, W)) := by
  have hl := length_of_view hv
  unfold unpackSigSteps Dilithium.unpackSig
  rw [exec_bind_ok (exec_copyIn_zeros hv (by omega)), exec_bind_ok (exec_readZ hv (by omega)), Dilithium.copy_from (by omega), ok_bind,
    Dilithium.vecUnpack_ok (g := fun i => Dilithium.Spec.unpackAt 18 131072 (slice x (32 + i * 576) 576)) (fun i hi => Dilithium.polyzUnpack_ok (by omega)), ok_bind]
  generalize (Dilithium.Spec.vec fun i => Dilithium.Spec.unpackAt 18 131072 (slice x (32 + i * 576) 576)) = z
  · rw [exec_bind_C (exec_hints hv 4 0 0 (by omega) (by omega))]
    cases hr : Dilithium.unpackHints x 2336 0 4 0 with
    | error e => rfl
    | ok r =>
      rw [ok_bind, ok_bind]
      rcases r with - | ⟨h, k⟩
      · rfl
      · simp only
        have hk := unpackHints_k (by omega) hr
        rw [exec_bind_C (exec_hintRest hv _ _ (by omega))]
        cases anyBad (fun j => do let y ← rd x (2336 + j); .ok (decide (y ≠ 0))) k (80 - k) with
        | error e => rfl
        | ok b => rw [ok_bind, ok_bind]; cases b <;> rfl

theorem exec_dilVerify {fuel : Nat} {W : World} {sig m pk : Ptr} {mlen : Nat} {x msg pkb : Bytes} (hv : W.view sig 2420 = some x) (hm : W.view m mlen = some msg) (hp : W.view pk 1312 = some pkb) :
    exec (dilVerifySteps fuel sig 2420 m mlen pk) W = (Dilithium.verify fuel x 2420 msg pkb >>= fun r => .ok (r, W)) := by
  have hlm := length_of_view hm
  have rdm : ∀ {p : Ptr} {n : Nat} {y : Bytes}, W.view p n = some y → exec (readMem p n) W = .ok (y, W) := fun h => by rw [exec_readMem]; exact readMem_ok h
  unfold dilVerifySteps Dilithium.verify
  have hlp := length_of_view hp
  rw [if_neg (by decide), if_neg (by decide), exec_bind_ok (exec_copyIn_zeros hp (by omega)), exec_bind_ok (exec_readT1 hp), Dilithium.unpackPk_ok hlp, ok_bind]
  generalize (Dilithium.Spec.vec fun i => Dilithium.Spec.unpackPos 10 (slice pkb (32 + i * 320) 320)) = t1
  · simp only
    rw [exec_bind_C (exec_unpackSig hv)]
    cases Dilithium.unpackSig x with
    | error e => rfl
    | ok r =>
      rw [ok_bind, ok_bind]
      rcases r with - | ⟨c, z, h⟩
      · rfl
      · simp only
        rw [exec_bind_C (exec_liftC_at _ _)]
        cases vecChknorm z (GAMMA1 - BETA) with
        | error e => rfl
        | ok b =>
          rw [ok_bind, ok_bind]
          cases b with
          | true => rfl
          | false =>
            rw [if_neg (by decide), if_neg (by decide), exec_bind_ok (rdm hp), exec_bind_C (exec_liftC_at _ _)]
            cases shake256 (List.replicate 64 0) 64 pkb 1312 with
            | error e => rfl
            | ok mu =>
              rw [ok_bind, ok_bind, exec_bind_ok (rdm hm), exec_bind_C (exec_liftC_at _ _), hlm]
              cases shake256Inc2 mu 64 msg mlen mu 64 with
              | error e => rfl
              | ok mu => rw [ok_bind, ok_bind]; exact exec_liftC_at _ _

theorem exec_verifyDilithiumSteps {fuel : Nat} {W : World} {sm m pk : Ptr} {mlen : Nat} {x msg pkb : Bytes} (hv : W.view sm 2420 = some x) (hm : W.view m mlen = some msg) (hp : W.view pk 1312 = some pkb) :
    exec (verifyDilithiumSteps fuel (some m) mlen (some sm) 2420 (some pk)) W = Hybrid.verifyDilithium (Real.real fuel) (some m) mlen (some sm) 2420 (some pk) W := by
  by_cases h : mlen ≤ 0 ∨ mlen > 64
  · simp only [verifyDilithiumSteps, Hybrid.verifyDilithium]
    rw [if_pos h, if_pos h]; rfl
  · rw [Hybrid.verifyDilithium_run hv hp hm (by omega) (by omega), Real.dilVerify_eq, Real.when, if_pos (length_of_view hp), length_of_view hv]
    simp only [verifyDilithiumSteps]
    rw [if_neg h, exec_bind_C (exec_dilVerify hv hm hp)]
    cases Dilithium.verify fuel x 2420 msg pkb with
    | error e => rfl
    | ok r => rw [ok_bind, ok_bind]; split <;> rfl

end Verif.Conc
