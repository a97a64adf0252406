import Verif.Ct.Ed25519

/-! For every function of Verif/Ct/Ed25519.lean: without the trace it is the function of the model, and two runs have the same trace. -/

namespace Verif.Ct.Ed25519
open Verif.Ed25519 (Gf Pt)

theorem i64_res (v : Int) : (i64 v).res = Verif.Ed25519.i64 v := rfl

theorem i64_same {v v' : Int} : Same (i64 v) (i64 v') := fun _ _ _ _ => ⟨rfl, trivial⟩

theorem dl64_res (x : Bytes) (o : Nat) : (dl64 x o).res = Verif.Ed25519.dl64 x o := by
  unfold dl64 Verif.Ed25519.dl64
  er [rfl]

theorem dl64_same (o : Nat) {x x' : Bytes} : Same (dl64 x o) (dl64 x' o) := by
  unfold dl64
  ct [Same.rd]

theorem ts64_res (x : Bytes) (o : Nat) (u : BitVec 64) : (ts64 x o u).res = Verif.Ed25519.ts64 x o u := by
  unfold ts64 Verif.Ed25519.ts64
  er [rfl]

theorem ts64_same (o : Nat) {x x' : Bytes} {u u' : BitVec 64} : Same (ts64 x o u) (ts64 x' o u') := by
  unfold ts64
  ct [Same.rd]

theorem vn_res (x : Bytes) (y : Bytes) (n : Nat) : (vn x y n).res = Verif.Ed25519.vn x y n := by
  unfold vn Verif.Ed25519.vn
  er [rfl]

theorem vn_same (n : Nat) {x x' : Bytes} {y y' : Bytes} : Same (vn x y n) (vn x' y' n) := by
  unfold vn
  ct [Same.rd]

theorem cryptoVerify16_res (x : Bytes) (y : Bytes) : (cryptoVerify16 x y).res = Verif.Ed25519.cryptoVerify16 x y := by
  unfold cryptoVerify16 Verif.Ed25519.cryptoVerify16
  er [vn_res _ _ _]

theorem cryptoVerify16_same {x x' : Bytes} {y y' : Bytes} : Same (cryptoVerify16 x y) (cryptoVerify16 x' y') := by
  unfold cryptoVerify16
  ct [vn_same _]

theorem cryptoVerify32_res (x : Bytes) (y : Bytes) : (cryptoVerify32 x y).res = Verif.Ed25519.cryptoVerify32 x y := by
  unfold cryptoVerify32 Verif.Ed25519.cryptoVerify32
  er [vn_res _ _ _]

theorem cryptoVerify32_same {x x' : Bytes} {y y' : Bytes} : Same (cryptoVerify32 x y) (cryptoVerify32 x' y') := by
  unfold cryptoVerify32
  ct [vn_same _]

theorem set25519_res (a : Gf) : (set25519 a).res = Verif.Ed25519.set25519 a := by
  unfold set25519 Verif.Ed25519.set25519
  er [rfl]

theorem set25519_same {a a' : Gf} : Same (set25519 a) (set25519 a') := by
  unfold set25519
  ct [Same.rd]

theorem car25519_res (o : Gf) : (car25519 o).res = Verif.Ed25519.car25519 o := by
  unfold car25519 Verif.Ed25519.car25519
  er [i64_res _]

theorem car25519_same {o o' : Gf} : Same (car25519 o) (car25519 o') := by
  unfold car25519
  ct [i64_same]

theorem sel25519_res (p : Gf) (q : Gf) (b : Int) : (sel25519 p q b).res = Verif.Ed25519.sel25519 p q b := by
  unfold sel25519 Verif.Ed25519.sel25519
  er [rfl]

theorem sel25519_same {p p' : Gf} {q q' : Gf} {b b' : Int} : Same (sel25519 p q b) (sel25519 p' q' b') := by
  unfold sel25519
  ct [Same.rd]

theorem packStep_res (t : Gf) (m : Gf) : (packStep t m).res = Verif.Ed25519.packStep t m := by
  unfold packStep Verif.Ed25519.packStep
  er [i64_res _, sel25519_res _ _ _]

theorem packStep_same {t t' : Gf} {m m' : Gf} : Same (packStep t m) (packStep t' m') := by
  unfold packStep
  ct [i64_same, sel25519_same]

theorem pack25519_res (n : Gf) : (pack25519 n).res = Verif.Ed25519.pack25519 n := by
  unfold pack25519 Verif.Ed25519.pack25519
  er [set25519_res _, car25519_res _, packStep_res _ _]

theorem pack25519_same {n n' : Gf} : Same (pack25519 n) (pack25519 n') := by
  unfold pack25519
  ct [set25519_same, car25519_same, packStep_same]

theorem par25519_res (a : Gf) : (par25519 a).res = Verif.Ed25519.par25519 a := by
  unfold par25519 Verif.Ed25519.par25519
  er [pack25519_res _]

theorem par25519_same {a a' : Gf} : Same (par25519 a) (par25519 a') := by
  unfold par25519
  ct [pack25519_same]

theorem unpack25519_res (n : Bytes) : (unpack25519 n).res = Verif.Ed25519.unpack25519 n := by
  unfold unpack25519 Verif.Ed25519.unpack25519
  er [rfl]

theorem unpack25519_same {n n' : Bytes} : Same (unpack25519 n) (unpack25519 n') := by
  unfold unpack25519
  ct [Same.rd]

theorem fA_res (a : Gf) (b : Gf) : (fA a b).res = Verif.Ed25519.fA a b := by
  unfold fA Verif.Ed25519.fA
  er [i64_res _]

theorem fA_same {a a' : Gf} {b b' : Gf} : Same (fA a b) (fA a' b') := by
  unfold fA
  ct [i64_same]

theorem fZ_res (a : Gf) (b : Gf) : (fZ a b).res = Verif.Ed25519.fZ a b := by
  unfold fZ Verif.Ed25519.fZ
  er [i64_res _]

theorem fZ_same {a a' : Gf} {b b' : Gf} : Same (fZ a b) (fZ a' b') := by
  unfold fZ
  ct [i64_same]

theorem fM_res (a : Gf) (b : Gf) : (fM a b).res = Verif.Ed25519.fM a b := by
  unfold fM Verif.Ed25519.fM
  er [i64_res _, car25519_res _]

theorem fM_same {a a' : Gf} {b b' : Gf} : Same (fM a b) (fM a' b') := by
  unfold fM
  ct [i64_same, car25519_same]

theorem fS_res (a : Gf) : (fS a).res = Verif.Ed25519.fS a := by
  unfold fS Verif.Ed25519.fS
  er [fM_res _ _]

theorem fS_same {a a' : Gf} : Same (fS a) (fS a') := by
  unfold fS
  ct [fM_same]

theorem inv25519_res (i : Gf) : (inv25519 i).res = Verif.Ed25519.inv25519 i := by
  unfold inv25519 Verif.Ed25519.inv25519
  er [set25519_res _, fM_res _ _, fS_res _]

theorem inv25519_same {i i' : Gf} : Same (inv25519 i) (inv25519 i') := by
  unfold inv25519
  ct [set25519_same, fM_same, fS_same]

theorem shaRound_res (i : Nat) (a : List (BitVec 64)) (w : List (BitVec 64)) : (shaRound i a w).res = Verif.Ed25519.shaRound i a w := by
  unfold shaRound Verif.Ed25519.shaRound
  er [rfl]

theorem shaRound_same (i : Nat) {a a' : List (BitVec 64)} {w w' : List (BitVec 64)} : Same (shaRound i a w) (shaRound i a' w') := by
  unfold shaRound
  ct [Same.rd]

theorem shaBlock_res (z : List (BitVec 64)) (m : Bytes) (o : Nat) : (shaBlock z m o).res = Verif.Ed25519.shaBlock z m o := by
  unfold shaBlock Verif.Ed25519.shaBlock
  er [dl64_res _ _, shaRound_res _ _ _]

theorem shaBlock_same (o : Nat) {z z' : List (BitVec 64)} {m m' : Bytes} : Same (shaBlock z m o) (shaBlock z' m' o) := by
  unfold shaBlock
  ct [dl64_same _, shaRound_same _]

theorem hashblocks_res (x : Bytes) (m : Bytes) (n : Nat) : (hashblocks x m n).res = Verif.Ed25519.hashblocks x m n := by
  unfold hashblocks Verif.Ed25519.hashblocks
  er [dl64_res _ _, ts64_res _ _ _, shaBlock_res _ _ _]

theorem hashblocks_same (n : Nat) {x x' : Bytes} {m m' : Bytes} : Same (hashblocks x m n) (hashblocks x' m' n) := by
  unfold hashblocks
  ct [dl64_same _, ts64_same _, shaBlock_same _]

theorem cryptoHash_res (m : Bytes) (n : Nat) : (cryptoHash m n).res = Verif.Ed25519.cryptoHash m n := by
  unfold cryptoHash Verif.Ed25519.cryptoHash
  er [ts64_res _ _ _, hashblocks_res _ _ _]

theorem cryptoHash_same (n : Nat) {m m' : Bytes} : Same (cryptoHash m n) (cryptoHash m' n) := by
  unfold cryptoHash
  ct [ts64_same _, hashblocks_same _]

theorem add_res (p : Pt) (q : Pt) : (add p q).res = Verif.Ed25519.add p q := by
  unfold add Verif.Ed25519.add
  er [fA_res _ _, fZ_res _ _, fM_res _ _]

theorem add_same {p p' : Pt} {q q' : Pt} : Same (add p q) (add p' q') := by
  unfold add
  ct [fA_same, fZ_same, fM_same]

theorem cswap_res (p : Pt) (q : Pt) (b : Byte) : (cswap p q b).res = Verif.Ed25519.cswap p q b := by
  unfold cswap Verif.Ed25519.cswap
  er [sel25519_res _ _ _]

theorem cswap_same {p p' : Pt} {q q' : Pt} {b b' : Byte} : Same (cswap p q b) (cswap p' q' b') := by
  unfold cswap
  ct [sel25519_same]

theorem pack_res (p : Pt) : (pack p).res = Verif.Ed25519.pack p := by
  unfold pack Verif.Ed25519.pack
  er [pack25519_res _, par25519_res _, fM_res _ _, inv25519_res _]

theorem pack_same {p p' : Pt} : Same (pack p) (pack p') := by
  unfold pack
  ct [pack25519_same, par25519_same, fM_same, inv25519_same]

theorem scalarmult_res (q : Pt) (s : Bytes) : (scalarmult q s).res = Verif.Ed25519.scalarmult q s := by
  unfold scalarmult Verif.Ed25519.scalarmult
  er [set25519_res _, add_res _ _, cswap_res _ _ _]

theorem scalarmult_same {q q' : Pt} {s s' : Bytes} : Same (scalarmult q s) (scalarmult q' s') := by
  unfold scalarmult
  ct [set25519_same, add_same, cswap_same]

theorem scalarbase_res (s : Bytes) : (scalarbase s).res = Verif.Ed25519.scalarbase s := by
  unfold scalarbase Verif.Ed25519.scalarbase
  er [set25519_res _, fM_res _ _, scalarmult_res _ _]

theorem scalarbase_same {s s' : Bytes} : Same (scalarbase s) (scalarbase s') := by
  unfold scalarbase
  ct [set25519_same, fM_same, scalarmult_same]

theorem clamp_res (d : Bytes) : (clamp d).res = Verif.Ed25519.clamp d := by
  unfold clamp Verif.Ed25519.clamp
  er [rfl]

theorem clamp_same {d d' : Bytes} : Same (clamp d) (clamp d') := by
  unfold clamp
  ct [Same.rd]

theorem keypairSeed_res (pk : Bytes) (sk : Bytes) (seed : Bytes) : (keypairSeed pk sk seed).res = Verif.Ed25519.keypairSeed pk sk seed := by
  unfold keypairSeed Verif.Ed25519.keypairSeed
  er [cryptoHash_res _ _, pack_res _, scalarbase_res _, clamp_res _]

theorem keypairSeed_same {pk pk' : Bytes} {sk sk' : Bytes} {seed seed' : Bytes} : Same (keypairSeed pk sk seed) (keypairSeed pk' sk' seed') := by
  unfold keypairSeed
  ct [cryptoHash_same _, pack_same, scalarbase_same, clamp_same]

theorem modLInner_res (i : Nat) (j : Nat) (s : List Int × Int) : (modLInner i j s).res = Verif.Ed25519.modLInner i j s := by
  unfold modLInner Verif.Ed25519.modLInner
  er [i64_res _]

theorem modLInner_same (i : Nat) (j : Nat) {s s' : List Int × Int} : Same (modLInner i j s) (modLInner i j s') := by
  unfold modLInner
  ct [i64_same]

theorem modLOuter_res (i : Nat) (x : List Int) : (modLOuter i x).res = Verif.Ed25519.modLOuter i x := by
  unfold modLOuter Verif.Ed25519.modLOuter
  er [i64_res _, modLInner_res _ _ _]

theorem modLOuter_same (i : Nat) {x x' : List Int} : Same (modLOuter i x) (modLOuter i x') := by
  unfold modLOuter
  ct [i64_same, modLInner_same _ _]

theorem modL_res (x : List Int) : (modL x).res = Verif.Ed25519.modL x := by
  unfold modL Verif.Ed25519.modL
  er [i64_res _, modLOuter_res _ _]

theorem modL_same {x x' : List Int} : Same (modL x) (modL x') := by
  unfold modL
  ct [i64_same, modLOuter_same _]

theorem reduce_res (r : Bytes) : (reduce r).res = Verif.Ed25519.reduce r := by
  unfold reduce Verif.Ed25519.reduce
  er [modL_res _]

theorem reduce_same {r r' : Bytes} : Same (reduce r) (reduce r') := by
  unfold reduce
  ct [modL_same]

theorem sign_res (sm : Bytes) (_smlen : Nat) (m : Bytes) (sk : Bytes) : (sign sm _smlen m sk).res = Verif.Ed25519.sign sm _smlen m sk := by
  unfold sign Verif.Ed25519.sign
  er [cryptoHash_res _ _, pack_res _, scalarbase_res _, clamp_res _, modL_res _, reduce_res _]

theorem sign_same {sm sm' m m' sk sk' : Bytes} {l l' : Nat} (h : m.length = m'.length) : Same (sign sm l m sk) (sign sm' l' m' sk') := by
  unfold sign
  rw [h]
  ct [cryptoHash_same _, pack_same, scalarbase_same, clamp_same, modL_same, reduce_same]

end Verif.Ct.Ed25519
