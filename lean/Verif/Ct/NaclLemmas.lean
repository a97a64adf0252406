import Verif.Ct.Nacl
import Verif.Ct.Ed25519Lemmas

/-! For every function of Verif/Ct/Nacl.lean: without the trace it is the function of the model, and two runs have the same trace. -/

namespace Verif.Ct.Nacl
open Verif.Ct.Ed25519
open Verif.Ed25519 (Gf)
open Verif.Nacl (Ladder)

variable (w : Nat)

theorem ld32_res (x : Bytes) (o : Nat) : (ld32 w x o).res = Verif.Nacl.ld32 w x o := by
  unfold ld32 Verif.Nacl.ld32
  er [rfl]

theorem ld32_same (o : Nat) {x x' : Bytes} : Same (ld32 w x o) (ld32 w x' o) := by
  unfold ld32
  ct [Same.rd]

theorem st32_res (x : Bytes) (o : Nat) (u : BitVec w) : (st32 w x o u).res = Verif.Nacl.st32 w x o u := by
  unfold st32 Verif.Nacl.st32
  er [rfl]

theorem st32_same (o : Nat) {x x' : Bytes} {u u' : BitVec w} : Same (st32 w x o u) (st32 w x' o u') := by
  unfold st32
  ct [Same.rd]

theorem coreQuarter_res (x : List (BitVec w)) (j : Nat) (v : List (BitVec w)) : (coreQuarter w x j v).res = Verif.Nacl.coreQuarter w x j v := by
  unfold coreQuarter Verif.Nacl.coreQuarter
  er [rfl]

theorem coreQuarter_same (j : Nat) {x x' : List (BitVec w)} {v v' : List (BitVec w)} : Same (coreQuarter w x j v) (coreQuarter w x' j v') := by
  unfold coreQuarter
  ct [Same.rd]

theorem coreRound_res (x : List (BitVec w)) : (coreRound w x).res = Verif.Nacl.coreRound w x := by
  unfold coreRound Verif.Nacl.coreRound
  er [coreQuarter_res _ _ _ _]

theorem coreRound_same {x x' : List (BitVec w)} : Same (coreRound w x) (coreRound w x') := by
  unfold coreRound
  ct [coreQuarter_same _ _]

theorem coreLoad_res (inp : Bytes) (k : Bytes) (c : Bytes) : (coreLoad w inp k c).res = Verif.Nacl.coreLoad w inp k c := by
  unfold coreLoad Verif.Nacl.coreLoad
  er [ld32_res _ _ _]

theorem coreLoad_same {inp inp' : Bytes} {k k' : Bytes} {c c' : Bytes} : Same (coreLoad w inp k c) (coreLoad w inp' k' c') := by
  unfold coreLoad
  ct [ld32_same _ _]

theorem core_res (out : Bytes) (inp : Bytes) (k : Bytes) (c : Bytes) (h : Bool) : (core w out inp k c h).res = Verif.Nacl.core w out inp k c h := by
  unfold core Verif.Nacl.core
  er [ld32_res _ _ _, st32_res _ _ _ _, coreRound_res _ _, coreLoad_res _ _ _ _]

theorem core_same (h : Bool) {out out' : Bytes} {inp inp' : Bytes} {k k' : Bytes} {c c' : Bytes} : Same (core w out inp k c h) (core w out' inp' k' c' h) := by
  unfold core
  ct [ld32_same _ _, st32_same _ _, coreRound_same _, coreLoad_same _]

theorem coreSalsa20_res (out : Bytes) (inp : Bytes) (k : Bytes) (c : Bytes) : (coreSalsa20 w out inp k c).res = Verif.Nacl.coreSalsa20 w out inp k c := by
  unfold coreSalsa20 Verif.Nacl.coreSalsa20
  er [core_res _ _ _ _ _ _]

theorem coreSalsa20_same {out out' : Bytes} {inp inp' : Bytes} {k k' : Bytes} {c c' : Bytes} : Same (coreSalsa20 w out inp k c) (coreSalsa20 w out' inp' k' c') := by
  unfold coreSalsa20
  ct [core_same _ _]

theorem coreHsalsa20_res (out : Bytes) (inp : Bytes) (k : Bytes) (c : Bytes) : (coreHsalsa20 w out inp k c).res = Verif.Nacl.coreHsalsa20 w out inp k c := by
  unfold coreHsalsa20 Verif.Nacl.coreHsalsa20
  er [core_res _ _ _ _ _ _]

theorem coreHsalsa20_same {out out' : Bytes} {inp inp' : Bytes} {k k' : Bytes} {c c' : Bytes} : Same (coreHsalsa20 w out inp k c) (coreHsalsa20 w out' inp' k' c') := by
  unfold coreHsalsa20
  ct [core_same _ _]

theorem xorBlock_res (c : Bytes) (m : Option Bytes) (o : Nat) (x : Bytes) (n : Nat) : (xorBlock c m o x n).res = Verif.Nacl.xorBlock c m o x n := by
  unfold xorBlock Verif.Nacl.xorBlock
  er [rfl]
  · exact cond_res_pos (by simp) (rd_res _ _)
  · exact cond_res_neg (by simp) (pure_res _)

theorem xorBlock_same (o : Nat) (n : Nat) {c c' : Bytes} {m m' : Option Bytes} {x x' : Bytes} (hm : m ≠ none ↔ m' ≠ none) : Same (xorBlock c m o x n) (xorBlock c' m' o x' n) := by
  unfold xorBlock
  ct [Same.rd]
  exact Rel.cond hm (fun _ => Same.rd) (fun _ => Rel.pure trivial)

theorem incCounter_res (z : Bytes) : (incCounter w z).res = Verif.Nacl.incCounter w z := by
  unfold incCounter Verif.Nacl.incCounter
  er [rfl]

theorem incCounter_same {z z' : Bytes} : Same (incCounter w z) (incCounter w z') := by
  unfold incCounter
  ct [Same.rd]

theorem streamSalsa20Xor_res (c : Bytes) (m : Option Bytes) (b : Nat) (n : Bytes) (no : Nat) (k : Bytes) : (streamSalsa20Xor w c m b n no k).res = Verif.Nacl.streamSalsa20Xor w c m b n no k := by
  unfold streamSalsa20Xor Verif.Nacl.streamSalsa20Xor
  er [coreSalsa20_res _ _ _ _ _, xorBlock_res _ _ _ _ _, incCounter_res _ _]

theorem streamSalsa20Xor_same (b : Nat) (no : Nat) {c c' : Bytes} {m m' : Option Bytes} {n n' : Bytes} {k k' : Bytes} (hm : m ≠ none ↔ m' ≠ none) : Same (streamSalsa20Xor w c m b n no k) (streamSalsa20Xor w c' m' b n' no k') := by
  unfold streamSalsa20Xor
  ct [coreSalsa20_same _, xorBlock_same _ _ hm, incCounter_same _]

theorem streamSalsa20_res (c : Bytes) (d : Nat) (n : Bytes) (no : Nat) (k : Bytes) : (streamSalsa20 w c d n no k).res = Verif.Nacl.streamSalsa20 w c d n no k := by
  unfold streamSalsa20 Verif.Nacl.streamSalsa20
  er [streamSalsa20Xor_res _ _ _ _ _ _ _]

theorem streamSalsa20_same (d : Nat) (no : Nat) {c c' : Bytes} {n n' : Bytes} {k k' : Bytes} : Same (streamSalsa20 w c d n no k) (streamSalsa20 w c' d n' no k') := by
  unfold streamSalsa20
  exact streamSalsa20Xor_same _ _ _ Iff.rfl

theorem stream_res (c : Bytes) (d : Nat) (n : Bytes) (k : Bytes) : (stream w c d n k).res = Verif.Nacl.stream w c d n k := by
  unfold stream Verif.Nacl.stream
  er [coreHsalsa20_res _ _ _ _ _, streamSalsa20_res _ _ _ _ _ _]

theorem stream_same (d : Nat) {c c' : Bytes} {n n' : Bytes} {k k' : Bytes} : Same (stream w c d n k) (stream w c' d n' k') := by
  unfold stream
  ct [coreHsalsa20_same _, streamSalsa20_same _ _ _]

theorem streamXor_res (c : Bytes) (m : Bytes) (d : Nat) (n : Bytes) (k : Bytes) : (streamXor w c m d n k).res = Verif.Nacl.streamXor w c m d n k := by
  unfold streamXor Verif.Nacl.streamXor
  er [coreHsalsa20_res _ _ _ _ _, streamSalsa20Xor_res _ _ _ _ _ _ _]

theorem streamXor_same (d : Nat) {c c' : Bytes} {m m' : Bytes} {n n' : Bytes} {k k' : Bytes} : Same (streamXor w c m d n k) (streamXor w c' m' d n' k') := by
  unfold streamXor
  ct [coreHsalsa20_same _, streamSalsa20Xor_same _ _ _ (by simp)]

theorem add1305_res (h : List (BitVec w)) (c : List (BitVec w)) : (add1305 w h c).res = Verif.Nacl.add1305 w h c := by
  unfold add1305 Verif.Nacl.add1305
  er [rfl]

theorem add1305_same {h h' : List (BitVec w)} {c c' : List (BitVec w)} : Same (add1305 w h c) (add1305 w h' c') := by
  unfold add1305
  ct [Same.rd]

theorem polyR_res (k : Bytes) : (polyR w k).res = Verif.Nacl.polyR w k := by
  unfold polyR Verif.Nacl.polyR
  er [rfl]

theorem polyR_same {k k' : Bytes} : Same (polyR w k) (polyR w k') := by
  unfold polyR
  ct [Same.rd]

theorem polyBlock_res (m : Bytes) (o : Nat) (n : Nat) : (polyBlock w m o n).res = Verif.Nacl.polyBlock w m o n := by
  unfold polyBlock Verif.Nacl.polyBlock
  er [rfl]

theorem polyBlock_same (o : Nat) (n : Nat) {m m' : Bytes} : Same (polyBlock w m o n) (polyBlock w m' o n) := by
  unfold polyBlock
  ct [Same.rd]

theorem polyMul_res (h : List (BitVec w)) (r : List (BitVec w)) : (polyMul w h r).res = Verif.Nacl.polyMul w h r := by
  unfold polyMul Verif.Nacl.polyMul
  er [rfl]

theorem polyMul_same {h h' : List (BitVec w)} {r r' : List (BitVec w)} : Same (polyMul w h r) (polyMul w h' r') := by
  unfold polyMul
  ct [Same.rd]

theorem polyCarry_res (h : List (BitVec w)) (u : BitVec w) : (polyCarry w h u).res = Verif.Nacl.polyCarry w h u := by
  unfold polyCarry Verif.Nacl.polyCarry
  er [rfl]

theorem polyCarry_same {h h' : List (BitVec w)} {u u' : BitVec w} : Same (polyCarry w h u) (polyCarry w h' u') := by
  unfold polyCarry
  ct [Same.rd]

theorem polySqueeze_res (h : List (BitVec w)) : (polySqueeze w h).res = Verif.Nacl.polySqueeze w h := by
  unfold polySqueeze Verif.Nacl.polySqueeze
  er [polyCarry_res _ _ _]

theorem polySqueeze_same {h h' : List (BitVec w)} : Same (polySqueeze w h) (polySqueeze w h') := by
  unfold polySqueeze
  ct [polyCarry_same _]

theorem polyLoop_res (m : Bytes) (mo : Nat) (n : Nat) (r : List (BitVec w)) (h : List (BitVec w)) : (polyLoop w m mo n r h).res = Verif.Nacl.polyLoop w m mo n r h := by
  unfold polyLoop Verif.Nacl.polyLoop
  er [add1305_res _ _ _, polyBlock_res _ _ _ _, polyMul_res _ _ _, polySqueeze_res _ _]

theorem polyLoop_same (mo : Nat) (n : Nat) {m m' : Bytes} {r r' : List (BitVec w)} {h h' : List (BitVec w)} : Same (polyLoop w m mo n r h) (polyLoop w m' mo n r' h') := by
  unfold polyLoop
  ct [add1305_same _, polyBlock_same _ _ _, polyMul_same _, polySqueeze_same _]

theorem polyFreeze_res (h : List (BitVec w)) : (polyFreeze w h).res = Verif.Nacl.polyFreeze w h := by
  unfold polyFreeze Verif.Nacl.polyFreeze
  er [add1305_res _ _ _]

theorem polyFreeze_same {h h' : List (BitVec w)} : Same (polyFreeze w h) (polyFreeze w h') := by
  unfold polyFreeze
  ct [add1305_same _]

theorem onetimeauth_res (out : Bytes) (oo : Nat) (m : Bytes) (mo : Nat) (n : Nat) (k : Bytes) : (onetimeauth w out oo m mo n k).res = Verif.Nacl.onetimeauth w out oo m mo n k := by
  unfold onetimeauth Verif.Nacl.onetimeauth
  er [add1305_res _ _ _, polyR_res _ _, polyLoop_res _ _ _ _ _ _, polyFreeze_res _ _]

theorem onetimeauth_same (oo : Nat) (mo : Nat) (n : Nat) {out out' : Bytes} {m m' : Bytes} {k k' : Bytes} : Same (onetimeauth w out oo m mo n k) (onetimeauth w out' oo m' mo n k') := by
  unfold onetimeauth
  ct [add1305_same _, polyR_same _, polyLoop_same _ _ _, polyFreeze_same _]

theorem vnw_res (x : Bytes) (xo : Nat) (y : Bytes) (n : Nat) : (vnw w x xo y n).res = Verif.Nacl.vnw w x xo y n := by
  unfold vnw Verif.Nacl.vnw
  er [rfl]

theorem vnw_same (xo : Nat) (n : Nat) {x x' : Bytes} {y y' : Bytes} : Same (vnw w x xo y n) (vnw w x' xo y' n) := by
  unfold vnw
  ct [Same.rd]

theorem onetimeauthVerify_res (h : Bytes) (ho : Nat) (m : Bytes) (mo : Nat) (n : Nat) (k : Bytes) : (onetimeauthVerify w h ho m mo n k).res = Verif.Nacl.onetimeauthVerify w h ho m mo n k := by
  unfold onetimeauthVerify Verif.Nacl.onetimeauthVerify
  er [onetimeauth_res _ _ _ _ _ _ _, vnw_res _ _ _ _ _]

theorem onetimeauthVerify_same (ho : Nat) (mo : Nat) (n : Nat) {h h' : Bytes} {m m' : Bytes} {k k' : Bytes} : Same (onetimeauthVerify w h ho m mo n k) (onetimeauthVerify w h' ho m' mo n k') := by
  unfold onetimeauthVerify
  ct [onetimeauth_same _ _ _ _, vnw_same _ _ _]

theorem zero_res (c : Bytes) (n : Nat) : (zero c n).res = Verif.Nacl.zero c n := by
  unfold zero Verif.Nacl.zero
  er [rfl]

theorem zero_same (n : Nat) {c c' : Bytes} : Same (zero c n) (zero c' n) := by
  unfold zero
  ct [Same.rd]

theorem secretbox_res (c : Bytes) (m : Bytes) (d : Nat) (n : Bytes) (k : Bytes) : (secretbox w c m d n k).res = Verif.Nacl.secretbox w c m d n k := by
  unfold secretbox Verif.Nacl.secretbox
  er [streamXor_res _ _ _ _ _ _, onetimeauth_res _ _ _ _ _ _ _, zero_res _ _]

theorem secretbox_same (d : Nat) {c c' : Bytes} {m m' : Bytes} {n n' : Bytes} {k k' : Bytes} : Same (secretbox w c m d n k) (secretbox w c' m' d n' k') := by
  unfold secretbox
  ct [streamXor_same _ _, onetimeauth_same _ _ _ _, zero_same _]

theorem secretboxOpen_res (m : Bytes) (c : Bytes) (d : Nat) (n : Bytes) (k : Bytes) : (secretboxOpen w m c d n k).res = Verif.Nacl.secretboxOpen w m c d n k := by
  unfold secretboxOpen Verif.Nacl.secretboxOpen
  er [stream_res _ _ _ _ _, streamXor_res _ _ _ _ _ _, onetimeauthVerify_res _ _ _ _ _ _ _, zero_res _ _]

/-- Opening: the two runs have the same trace if they return the same code. -/
theorem secretboxOpen_same (d : Nat) {m m' : Bytes} {c c' : Bytes} {n n' : Bytes} {k k' : Bytes} : SameIf (fun a b => a.1 = b.1) (secretboxOpen w m c d n k) (secretboxOpen w m' c' d n' k') := by
  unfold secretboxOpen
  refine SameIf.cond Iff.rfl (fun _ => SameIf.of (Rel.pure trivial)) fun _ => ?_
  refine SameIf.bind (stream_same _ _) fun _ _ => SameIf.bind (onetimeauthVerify_same _ _ _ _) fun r r' => ?_
  have yes : ∀ {m c n k : Bytes} {a : Int × Bytes}, (do let m ← streamXor w m c d n k; let m ← zero m 32; pure (0, m) : T (Int × Bytes)).res = .ok a → a.1 = 0 := by
    intro m c n k a h
    obtain ⟨_, _, h⟩ := bind_ok h
    obtain ⟨_, _, h⟩ := bind_ok h
    cases h
    rfl
  have no : ∀ {m : Bytes} {a : Int × Bytes}, (pure (-1, m) : T (Int × Bytes)).res = .ok a → a.1 = -1 := by
    intro m a h
    cases h
    rfl
  by_cases h : r ≠ 0
  · by_cases h' : r' ≠ 0
    · exact SameIf.cond (by simp [h, h']) (fun _ => SameIf.of (Rel.pure trivial)) (fun k => absurd h k)
    · intro a b ha hb hab
      rw [cond_run_pos h] at ha
      rw [cond_run_neg h'] at hb
      rw [no ha, yes hb] at hab
      cases hab
  · by_cases h' : r' ≠ 0
    · intro a b ha hb hab
      rw [cond_run_neg h] at ha
      rw [cond_run_pos h'] at hb
      rw [yes ha, no hb] at hab
      cases hab
    · refine SameIf.cond (by simp [h, h']) (fun k => absurd k h) fun _ => SameIf.of ?_
      ct [streamXor_same _ _, zero_same _]

theorem clampX_res (n : Bytes) : (clampX n).res = Verif.Nacl.clampX n := by
  unfold clampX Verif.Nacl.clampX
  er [rfl]

theorem clampX_same {n n' : Bytes} : Same (clampX n) (clampX n') := by
  unfold clampX
  ct [Same.rd]

theorem ladderStep_res (x : Gf) (r : Int) (s : Ladder) : (ladderStep x r s).res = Verif.Nacl.ladderStep x r s := by
  unfold ladderStep Verif.Nacl.ladderStep
  er [sel25519_res _ _ _, fA_res _ _, fZ_res _ _, fM_res _ _, fS_res _]

theorem ladderStep_same {x x' : Gf} {r r' : Int} {s s' : Ladder} : Same (ladderStep x r s) (ladderStep x' r' s') := by
  unfold ladderStep
  ct [sel25519_same, fA_same, fZ_same, fM_same, fS_same]

theorem scalarmultX_res (n : Bytes) (p : Bytes) : (scalarmultX n p).res = Verif.Nacl.scalarmultX n p := by
  unfold scalarmultX Verif.Nacl.scalarmultX
  er [clampX_res _, ladderStep_res _ _ _, pack25519_res _, unpack25519_res _, fM_res _ _, inv25519_res _]

theorem scalarmultX_same {n n' : Bytes} {p p' : Bytes} : Same (scalarmultX n p) (scalarmultX n' p') := by
  unfold scalarmultX
  ct [clampX_same, ladderStep_same, pack25519_same, unpack25519_same, fM_same, inv25519_same]

theorem scalarmultBase_res (n : Bytes) : (scalarmultBase n).res = Verif.Nacl.scalarmultBase n := by
  unfold scalarmultBase Verif.Nacl.scalarmultBase
  er [scalarmultX_res _ _]

theorem scalarmultBase_same {n n' : Bytes} : Same (scalarmultBase n) (scalarmultBase n') := by
  unfold scalarmultBase
  ct [scalarmultX_same]

theorem boxBeforenm_res (k : Bytes) (y : Bytes) (x : Bytes) : (boxBeforenm w k y x).res = Verif.Nacl.boxBeforenm w k y x := by
  unfold boxBeforenm Verif.Nacl.boxBeforenm
  er [coreHsalsa20_res _ _ _ _ _, scalarmultX_res _ _]

theorem boxBeforenm_same {k k' : Bytes} {y y' : Bytes} {x x' : Bytes} : Same (boxBeforenm w k y x) (boxBeforenm w k' y' x') := by
  unfold boxBeforenm
  ct [coreHsalsa20_same _, scalarmultX_same]

theorem boxAfternm_res (c : Bytes) (m : Bytes) (d : Nat) (n : Bytes) (k : Bytes) : (boxAfternm w c m d n k).res = Verif.Nacl.boxAfternm w c m d n k := by
  unfold boxAfternm Verif.Nacl.boxAfternm
  er [secretbox_res _ _ _ _ _ _]

theorem boxAfternm_same (d : Nat) {c c' : Bytes} {m m' : Bytes} {n n' : Bytes} {k k' : Bytes} : Same (boxAfternm w c m d n k) (boxAfternm w c' m' d n' k') := by
  unfold boxAfternm
  ct [secretbox_same _ _]

theorem boxOpenAfternm_res (m : Bytes) (c : Bytes) (d : Nat) (n : Bytes) (k : Bytes) : (boxOpenAfternm w m c d n k).res = Verif.Nacl.boxOpenAfternm w m c d n k := by
  unfold boxOpenAfternm Verif.Nacl.boxOpenAfternm
  er [secretboxOpen_res _ _ _ _ _ _]

theorem boxOpenAfternm_same (d : Nat) {m m' : Bytes} {c c' : Bytes} {n n' : Bytes} {k k' : Bytes} : SameIf (fun a b => a.1 = b.1) (boxOpenAfternm w m c d n k) (boxOpenAfternm w m' c' d n' k') :=
  secretboxOpen_same _ _

theorem box_res (c : Bytes) (m : Bytes) (d : Nat) (n : Bytes) (y : Bytes) (x : Bytes) : (box w c m d n y x).res = Verif.Nacl.box w c m d n y x := by
  unfold box Verif.Nacl.box
  er [boxBeforenm_res _ _ _ _, boxAfternm_res _ _ _ _ _ _]

theorem box_same (d : Nat) {c c' : Bytes} {m m' : Bytes} {n n' : Bytes} {y y' : Bytes} {x x' : Bytes} : Same (box w c m d n y x) (box w c' m' d n' y' x') := by
  unfold box
  ct [boxBeforenm_same _, boxAfternm_same _ _]

theorem boxOpen_res (m : Bytes) (c : Bytes) (d : Nat) (n : Bytes) (y : Bytes) (x : Bytes) : (boxOpen w m c d n y x).res = Verif.Nacl.boxOpen w m c d n y x := by
  unfold boxOpen Verif.Nacl.boxOpen
  er [boxBeforenm_res _ _ _ _, boxOpenAfternm_res _ _ _ _ _ _]

theorem boxOpen_same (d : Nat) {m m' : Bytes} {c c' : Bytes} {n n' : Bytes} {y y' : Bytes} {x x' : Bytes} : SameIf (fun a b => a.1 = b.1) (boxOpen w m c d n y x) (boxOpen w m' c' d n' y' x') :=
  SameIf.bind (boxBeforenm_same _) fun _ _ => boxOpenAfternm_same _ _

end Verif.Ct.Nacl
