import Verif.Ct.Keccak

/-! For every function of Verif/Ct/Keccak.lean: without the trace it is the function of the model, and two runs on data of the same lengths have the same trace. -/

namespace Verif.Ct.Keccak
open Verif.Keccak (W64 Inc Lanes)

theorem touch_same {e : List Ev} : Same (touch e) (touch e) := fun _ _ _ _ => ⟨rfl, trivial⟩

theorem touch_res {α : Type} (e : List Ev) (f : Unit → T α) {y : C α} (h : (f ()).res = y) : (touch e >>= f).res = y := h

theorem load64_res (x : Bytes) (o : Nat) : (load64 x o).res = Verif.Keccak.load64 x o := by
  unfold load64 Verif.Keccak.load64
  er [rfl]

theorem load64_same (o : Nat) {x x' : Bytes} : Same (load64 x o) (load64 x' o) := by
  unfold load64
  ct [Same.rd]

theorem store64_res (x : Bytes) (o : Nat) (u : W64) : (store64 x o u).res = Verif.Keccak.store64 x o u := by
  unfold store64 Verif.Keccak.store64
  er [rfl]

theorem store64_same (o : Nat) {x x' : Bytes} {u u' : W64} : Same (store64 x o u) (store64 x' o u') := by
  unfold store64
  ct [Same.rd]

theorem permuteLanes_res (A : Lanes) : (permuteLanes A).res = Verif.Keccak.permuteLanes A := by
  unfold permuteLanes Verif.Keccak.permuteLanes
  er [rfl]

theorem permuteLanes_same {A B : Lanes} : Same (permuteLanes A) (permuteLanes B) := by
  unfold permuteLanes
  ct [Same.rd]

theorem permute_res (s : List W64) : (permute s).res = Verif.Keccak.permute s := by
  unfold permute Verif.Keccak.permute
  split
  · refine touch_res _ _ (bind_res (permuteLanes_res _) fun _ => ?_)
    rfl
  · rename_i h
    split
    · exact (h _ _ _ _ _ _ _ _ _ _ _ _ _ _ _ _ _ _ _ _ _ _ _ _ _ rfl).elim
    · rfl

theorem permute_same {s s' : List W64} : Same (permute s) (permute s') := by
  unfold permute
  ct [permuteLanes_same, touch_same]

theorem xorBlock_res (s : List W64) (r : Nat) (m : Bytes) (o : Nat) : (xorBlock s r m o).res = Verif.Keccak.xorBlock s r m o := by
  unfold xorBlock Verif.Keccak.xorBlock
  er [load64_res _ _]

theorem xorBlock_same (r o : Nat) {s s' : List W64} {m m' : Bytes} : Same (xorBlock s r m o) (xorBlock s' r m' o) := by
  unfold xorBlock
  ct [load64_same _]

theorem absorbLoop_res (r : Nat) (m : Bytes) (s : List W64) (o mlen : Nat) : (absorbLoop r m s o mlen).res = Verif.Keccak.absorbLoop r m s o mlen := by
  induction mlen using Nat.strongRecOn generalizing s o with
  | _ mlen ih =>
    rw [absorbLoop, Verif.Keccak.absorbLoop]
    split
    · split
      · rfl
      · refine touch_res _ _ (bind_res (xorBlock_res _ _ _ _) fun _ => bind_res (permute_res _) fun _ => ih _ (by omega) _ _)
    · rfl

theorem absorbLoop_same (r o mlen : Nat) {m m' : Bytes} {s s' : List W64} : Rel (fun a b => a.2 = b.2) (absorbLoop r m s o mlen) (absorbLoop r m' s' o mlen) := by
  induction mlen using Nat.strongRecOn generalizing s s' o with
  | _ mlen ih =>
    rw [absorbLoop, absorbLoop]
    split
    · split
      · intro a b ha
        cases ha
      · exact touch_same.bind fun _ _ _ => (xorBlock_same _ _).bind fun _ _ _ => permute_same.bind fun _ _ _ => ih _ (by omega) _
    · exact touch_same.bind fun _ _ _ => Rel.pure rfl

theorem absorb_res (r : Nat) (m : Bytes) (mlen : Nat) (p : Byte) : (absorb r m mlen p).res = Verif.Keccak.absorb r m mlen p := by
  unfold absorb Verif.Keccak.absorb
  er [absorbLoop_res _ _ _ _ _, xorBlock_res _ _ _ _]

theorem absorb_same (r mlen : Nat) {m m' : Bytes} {p p' : Byte} : Same (absorb r m mlen p) (absorb r m' mlen p') := by
  unfold absorb
  refine Rel.bind (absorbLoop_same _ _ _) ?_
  rintro ⟨s, o, n⟩ ⟨s', o', n'⟩ h
  cases h
  ct [xorBlock_same _ _]

theorem squeezeblocks_res (h : Bytes) (nblocks : Nat) (s : List W64) (r : Nat) : (squeezeblocks h nblocks s r).res = Verif.Keccak.squeezeblocks h nblocks s r := by
  unfold squeezeblocks Verif.Keccak.squeezeblocks
  er [permute_res _, store64_res _ _ _]

theorem squeezeblocks_same (nblocks r : Nat) {h h' : Bytes} {s s' : List W64} : Same (squeezeblocks h nblocks s r) (squeezeblocks h' nblocks s' r) := by
  unfold squeezeblocks
  ct [permute_same, store64_same _]

theorem xorByte_res (s : List W64) (pos : Nat) (b : Byte) : (xorByte s pos b).res = Verif.Keccak.xorByte s pos b := by
  unfold xorByte Verif.Keccak.xorByte
  er [rfl]

theorem xorByte_same (pos : Nat) {s s' : List W64} {b b' : Byte} : Same (xorByte s pos b) (xorByte s' pos b') := by
  unfold xorByte
  ct [Same.rd]

theorem incAbsorbLoop_res (r : Nat) (m : Bytes) (st : Inc) (o mlen : Nat) : (incAbsorbLoop r m st o mlen).res = Verif.Keccak.incAbsorbLoop r m st o mlen := by
  induction mlen using Nat.strongRecOn generalizing st o with
  | _ mlen ih =>
    rw [incAbsorbLoop, Verif.Keccak.incAbsorbLoop]
    split
    · split
      · rfl
      · refine touch_res _ _ (bind_res (loop_res (fun _ _ => bind_res (rd_res _ _) fun _ => xorByte_res _ _ _) _ _ _) fun _ => bind_res (permute_res _) fun _ => ih _ (by omega) _ _)
    · refine touch_res _ _ ?_
      er [xorByte_res _ _ _]

/-- Two contexts with the same counter. -/
abbrev Cnt (a b : Inc) : Prop := a.cnt = b.cnt

theorem incAbsorbLoop_same (r o mlen : Nat) {m m' : Bytes} {a b : Inc} (h : Cnt a b) : Rel Cnt (incAbsorbLoop r m a o mlen) (incAbsorbLoop r m' b o mlen) := by
  induction mlen using Nat.strongRecOn generalizing a b o with
  | _ mlen ih =>
    have h : a.cnt = b.cnt := h
    rw [incAbsorbLoop, incAbsorbLoop, h]
    split
    · split
      · exact Rel.ub
      · refine touch_same.bind fun _ _ _ => Rel.bind (R := fun _ _ => True) ?_ fun _ _ _ => permute_same.bind fun _ _ _ => ih _ (by omega) _ rfl
        ct [xorByte_same _]
    · refine touch_same.bind fun _ _ _ => Rel.bind (R := fun _ _ => True) ?_ fun _ _ _ => Rel.pure rfl
      ct [xorByte_same _]

theorem incAbsorb_res (st : Inc) (r : Nat) (m : Bytes) (mlen : Nat) : (incAbsorb st r m mlen).res = Verif.Keccak.incAbsorb st r m mlen := incAbsorbLoop_res _ _ _ _ _

theorem incAbsorb_same (r mlen : Nat) {a b : Inc} {m m' : Bytes} (h : Cnt a b) : Rel Cnt (incAbsorb a r m mlen) (incAbsorb b r m' mlen) := incAbsorbLoop_same _ _ _ h

theorem incFinalize_res (st : Inc) (r : Nat) (p : Byte) : (incFinalize st r p).res = Verif.Keccak.incFinalize st r p := by
  unfold incFinalize Verif.Keccak.incFinalize
  er [xorByte_res _ _ _]

theorem incFinalize_same (r : Nat) {a b : Inc} {p p' : Byte} (h : Cnt a b) : Rel Cnt (incFinalize a r p) (incFinalize b r p') := by
  have h : a.cnt = b.cnt := h
  unfold incFinalize
  rw [h]
  exact (xorByte_same _).bind fun _ _ _ => (xorByte_same _).bind fun _ _ _ => Rel.pure rfl

theorem getByte_res (s : List W64) (pos : Nat) : (getByte s pos).res = Verif.Keccak.getByte s pos := by
  unfold getByte Verif.Keccak.getByte
  er [rfl]

theorem getByte_same (pos : Nat) {s s' : List W64} : Same (getByte s pos) (getByte s' pos) := by
  unfold getByte
  ct [Same.rd]

theorem incSqueezeLoop_res (r : Nat) (h : Bytes) (st : Inc) (o outlen : Nat) : (incSqueezeLoop r h st o outlen).res = Verif.Keccak.incSqueezeLoop r h st o outlen := by
  induction outlen using Nat.strongRecOn generalizing h st o with
  | _ outlen ih =>
    rw [incSqueezeLoop, Verif.Keccak.incSqueezeLoop]
    split
    · split
      · rfl
      · refine touch_res _ _ (bind_res (permute_res _) fun _ => bind_res (loop_res (fun _ _ => bind_res (getByte_res _ _) fun _ => wr_res _ _ _) _ _ _) fun _ => ih _ (by omega) _ _ _)
    · rfl

theorem incSqueezeLoop_same (r o outlen : Nat) {h h' : Bytes} {a b : Inc} (hc : Cnt a b) : Rel (fun x y => Cnt x.2 y.2) (incSqueezeLoop r h a o outlen) (incSqueezeLoop r h' b o outlen) := by
  induction outlen using Nat.strongRecOn generalizing a b h h' o with
  | _ outlen ih =>
    rw [incSqueezeLoop, incSqueezeLoop]
    split
    · split
      · intro a b ha
        cases ha
      · refine touch_same.bind fun _ _ _ => permute_same.bind fun _ _ _ => Rel.bind (R := fun _ _ => True) ?_ fun _ _ _ => ih _ (by omega) _ rfl
        ct [getByte_same _]
    · exact touch_same.bind fun _ _ _ => Rel.pure hc

theorem incSqueeze_res (h : Bytes) (outlen : Nat) (st : Inc) (r : Nat) : (incSqueeze h outlen st r).res = Verif.Keccak.incSqueeze h outlen st r := by
  unfold incSqueeze Verif.Keccak.incSqueeze
  er [getByte_res _ _, incSqueezeLoop_res _ _ _ _ _]

theorem incSqueeze_same (outlen r : Nat) {h h' : Bytes} {a b : Inc} (hc : Cnt a b) : Rel (fun x y => Cnt x.2 y.2) (incSqueeze h outlen a r) (incSqueeze h' outlen b r) := by
  have hc : a.cnt = b.cnt := hc
  unfold incSqueeze
  rw [hc]
  split
  · exact Rel.ub
  · refine Rel.bind (R := fun _ _ => True) ?_ fun _ _ _ => incSqueezeLoop_same _ _ _ rfl
    ct [getByte_same _]

theorem shake_res (rate : Nat) (output : Bytes) (outlen : Nat) (input : Bytes) (inlen : Nat) : (shake rate output outlen input inlen).res = Verif.Keccak.shake rate output outlen input inlen := by
  unfold shake Verif.Keccak.shake
  er [absorb_res _ _ _ _, squeezeblocks_res _ _ _ _]

theorem shake_same (rate outlen inlen : Nat) {output output' input input' : Bytes} : Same (shake rate output outlen input inlen) (shake rate output' outlen input' inlen) := by
  unfold shake
  ct [absorb_same _ _, squeezeblocks_same _ _]

theorem sha3_res (rate n : Nat) (output : Bytes) (input : Bytes) (inlen : Nat) : (sha3 rate n output input inlen).res = Verif.Keccak.sha3 rate n output input inlen := by
  unfold sha3 Verif.Keccak.sha3
  er [absorb_res _ _ _ _, squeezeblocks_res _ _ _ _]

theorem sha3_same (rate n inlen : Nat) {output output' input input' : Bytes} : Same (sha3 rate n output input inlen) (sha3 rate n output' input' inlen) := by
  unfold sha3
  ct [absorb_same _ _, squeezeblocks_same _ _]

theorem sha3IncFinalize_res (rate n : Nat) (output : Bytes) (st : Inc) : (sha3IncFinalize rate n output st).res = Verif.Keccak.sha3IncFinalize rate n output st := by
  unfold sha3IncFinalize Verif.Keccak.sha3IncFinalize
  er [incFinalize_res _ _ _, squeezeblocks_res _ _ _ _]

theorem sha3IncFinalize_same (rate n : Nat) {output output' : Bytes} {a b : Inc} (hc : Cnt a b) : Same (sha3IncFinalize rate n output a) (sha3IncFinalize rate n output' b) := by
  unfold sha3IncFinalize
  refine (incFinalize_same _ hc).bind fun _ _ _ => ?_
  ct [squeezeblocks_same _ _]

theorem seedexpanderInit_res (seed : Bytes) (seedlen : Nat) : (seedexpanderInit seed seedlen).res = Verif.Keccak.seedexpanderInit seed seedlen := by
  unfold seedexpanderInit Verif.Keccak.seedexpanderInit
  er [incAbsorb_res _ _ _ _, incFinalize_res _ _ _]

theorem seedexpanderInit_same (seedlen : Nat) {seed seed' : Bytes} : Rel Cnt (seedexpanderInit seed seedlen) (seedexpanderInit seed' seedlen) :=
  (incAbsorb_same _ _ rfl).bind fun _ _ h => (incAbsorb_same _ _ h).bind fun _ _ h => incFinalize_same _ h

theorem seedexpander_res (st : Inc) (output : Bytes) (outlen : Nat) : (seedexpander st output outlen).res = Verif.Keccak.seedexpander st output outlen := by
  unfold seedexpander Verif.Keccak.seedexpander
  er [incSqueeze_res _ _ _ _]

theorem seedexpander_same (outlen : Nat) {a b : Inc} {output output' : Bytes} (hc : Cnt a b) : Rel (fun x y => Cnt x.2 y.2) (seedexpander a output outlen) (seedexpander b output' outlen) := by
  unfold seedexpander
  refine (incSqueeze_same _ _ hc).bind fun x y h => ?_
  refine Rel.cond Iff.rfl (fun _ => ?_) (fun _ => Rel.pure h)
  exact (incSqueeze_same _ _ h).bind fun _ _ h => Same.copy.bind fun _ _ _ => Rel.pure h

theorem seedexpanderWrapper_res (seed : Option Bytes) (seedlen : Nat) (output : Option Bytes) (outlen : Nat) :
    (seedexpanderWrapper seed seedlen output outlen).res = Verif.Keccak.seedexpanderWrapper seed seedlen output outlen := by
  cases seed with
  | none => rfl
  | some s =>
    cases output with
    | none => rfl
    | some o =>
      unfold seedexpanderWrapper Verif.Keccak.seedexpanderWrapper
      refine touch_res _ _ (cond_res (pure_res _) (cond_res (pure_res _) ?_))
      er [seedexpanderInit_res _ _, seedexpander_res _ _ _]

theorem seedexpanderWrapper_same (seedlen outlen : Nat) {seed seed' output output' : Bytes} :
    Same (seedexpanderWrapper (some seed) seedlen (some output) outlen) (seedexpanderWrapper (some seed') seedlen (some output') outlen) := by
  unfold seedexpanderWrapper
  refine touch_same.bind fun _ _ _ => Rel.cond Iff.rfl (fun _ => Rel.pure trivial) fun _ => Rel.cond Iff.rfl (fun _ => Rel.pure trivial) fun _ => ?_
  exact (seedexpanderInit_same _).bind fun _ _ h => (seedexpander_same _ h).bind fun _ _ _ => Rel.pure trivial

end Verif.Ct.Keccak
