import Verif.Ct.Sphincs
import Verif.Sphincs.Props

/-! For every function of Verif/Ct/Sphincs.lean: without the trace it is the function of the model, and two runs with the same public data have the same trace. -/

namespace Verif.Ct

theorem Rel.refl {α : Type} (x : T α) : Rel (· = ·) x x := by
  intro a b ha hb
  rw [ha] at hb
  cases hb
  exact ⟨rfl, rfl⟩

theorem Rel.of_eq {α : Type} {x y : T α} (h : x = y) : Rel (· = ·) x y := by
  subst h
  exact Rel.refl x

/-- Facts about the two results can be added. -/
theorem Rel.and {α β : Type} {R : α → β → Prop} {P : α → Prop} {Q : β → Prop} {x : T α} {y : T β} (h : Rel R x y) (hx : ∀ a, x.res = .ok a → P a) (hy : ∀ b, y.res = .ok b → Q b) :
    Rel (fun a b => R a b ∧ P a ∧ Q b) x y := fun a b ha hb => ⟨(h a b ha hb).1, (h a b ha hb).2, hx a ha, hy b hb⟩

theorem wr_length {α : Type} {a b : List α} {i : Nat} {x : α} (h : Verif.wr a i x = .ok b) : b.length = a.length := by
  unfold Verif.wr at h
  split at h
  · cases h
    exact List.length_set
  · cases h

theorem loop_length {α : Type} {f : Nat → List α → C (List α)} (hf : ∀ k s t, f k s = .ok t → t.length = s.length) (i n : Nat) {s t : List α} (h : Verif.loop f i n s = .ok t) :
    t.length = s.length := by
  induction n generalizing i s with
  | zero => cases h; rfl
  | succ n ih =>
    obtain ⟨u, h1, h2⟩ := bind_eq_ok.1 h
    rw [ih _ h2, hf _ _ _ h1]

theorem copy_length {α : Type} {dst src out : List α} {d s n : Nat} (h : Verif.copy dst d src s n = .ok out) : out.length = dst.length := by
  refine loop_length ?_ 0 n h
  intro k s t h
  obtain ⟨_, _, h⟩ := bind_eq_ok.1 h
  exact wr_length h

/-- Copying into arrays of the same length. -/
theorem Rel.copy {α : Type} {dst dst' src src' : List α} {d s n : Nat} (h : dst.length = dst'.length) : Rel (fun a b => a.length = b.length) (copy dst d src s n) (Ct.copy dst' d src' s n) :=
  (Same.copy.and (P := fun a => a.length = dst.length) (Q := fun a => a.length = dst'.length) (fun _ h => copy_length ((copy_res _ _ _ _ _).symm.trans h))
    (fun _ h => copy_length ((copy_res _ _ _ _ _).symm.trans h))).mono fun _ _ h' => by rw [h'.2.1, h'.2.2, h]

theorem bind_ok_res {α β : Type} {x : T α} {f : α → T β} {a : α} {y : C β} (h : x.res = .ok a) (hf : (f a).res = y) : (x >>= f).res = y := by
  rw [bind_res (y := .ok a) (g := fun a => (f a).res) h fun _ => rfl]
  exact hf

namespace Sphincs
open Verif.Sphincs (zeroBytes Ctx LeafInfo shake256F)

/-! ### Erasure -/

theorem hash_res (m : Bytes) (n : Nat) : (hash m n).res = .ok (shake256F m n) := (Keccak.shake_res _ _ _ _ _).trans (Verif.Sphincs.shake256F_spec m n).1

theorem hash_res' (m : Bytes) (n : Nat) : (hash m n).res = pure (shake256F m n) := hash_res m n

theorem hashInc_res (ms : List Bytes) (n : Nat) : (hashInc ms n).res = .ok (shake256F ms.flatten n) := by
  obtain ⟨t, ht⟩ := Keccak.ct_shake_incremental 136 (Or.inr rfl)
  obtain ⟨l, e, hl, h⟩ := ht 0 ms [n]
  have e2 := (Verif.Sphincs.shake256F_spec ms.flatten n).1
  rw [List.sum_singleton] at h
  have h3 : (.ok (shake256F ms.flatten n) : C Bytes) = .ok l.flatten := e2.symm.trans h
  injection h3 with h3
  unfold hashInc
  refine (bind_res (y := .ok l) (g := fun l => match l with | [d] => .ok d | _ => .error .ub) (by rw [e]) fun l => ?_).trans ?_
  · match l with
    | [] => rfl
    | [d] => rfl
    | _ :: _ :: _ => rfl
  · rw [ok_bind]
    match l, hl with
    | [d], _ => rw [h3]; simp

theorem ullToBytes_res (out : Bytes) (o n v : Nat) : (ullToBytes out o n v).res = Verif.Sphincs.ullToBytes out o n v := by
  unfold ullToBytes Verif.Sphincs.ullToBytes
  er [rfl]

theorem u32ToBytes_res (out : Bytes) (o v : Nat) : (u32ToBytes out o v).res = Verif.Sphincs.u32ToBytes out o v := by
  unfold u32ToBytes Verif.Sphincs.u32ToBytes
  er [rfl]

theorem bytesToUll_res (x : Bytes) (o n : Nat) : (bytesToUll x o n).res = Verif.Sphincs.bytesToUll x o n := by
  unfold bytesToUll Verif.Sphincs.bytesToUll
  er [rfl]

theorem setLayerAddr_res (a : Bytes) (v : Nat) : (setLayerAddr a v).res = Verif.Sphincs.setLayerAddr a v := rfl
theorem setTreeAddr_res (a : Bytes) (v : Nat) : (setTreeAddr a v).res = Verif.Sphincs.setTreeAddr a v := ullToBytes_res _ _ _ _
theorem setType_res (a : Bytes) (v : Nat) : (setType a v).res = Verif.Sphincs.setType a v := rfl
theorem copySubtreeAddr_res (a b : Bytes) : (copySubtreeAddr a b).res = Verif.Sphincs.copySubtreeAddr a b := copy_res _ _ _ _ _
theorem setKeypairAddr_res (a : Bytes) (v : Nat) : (setKeypairAddr a v).res = Verif.Sphincs.setKeypairAddr a v := rfl

theorem copyKeypairAddr_res (a b : Bytes) : (copyKeypairAddr a b).res = Verif.Sphincs.copyKeypairAddr a b := by
  unfold copyKeypairAddr Verif.Sphincs.copyKeypairAddr
  er [rfl]

theorem setChainAddr_res (a : Bytes) (v : Nat) : (setChainAddr a v).res = Verif.Sphincs.setChainAddr a v := rfl
theorem setHashAddr_res (a : Bytes) (v : Nat) : (setHashAddr a v).res = Verif.Sphincs.setHashAddr a v := rfl
theorem setTreeHeight_res (a : Bytes) (v : Nat) : (setTreeHeight a v).res = Verif.Sphincs.setTreeHeight a v := rfl
theorem setTreeIndex_res (a : Bytes) (v : Nat) : (setTreeIndex a v).res = Verif.Sphincs.setTreeIndex a v := u32ToBytes_res _ _ _

theorem prfAddr_res (ctx : Ctx) (addr : Bytes) : (prfAddr ctx addr).res = Verif.Sphincs.prfAddr shake256F ctx addr := by
  obtain ⟨pub, sk⟩ := ctx
  cases sk with
  | none => rfl
  | some sk =>
    unfold prfAddr Verif.Sphincs.prfAddr
    er [hash_res' _ _]

theorem thash_res (inp : Bytes) (o n : Nat) (ctx : Ctx) (addr : Bytes) : (thash inp o n ctx addr).res = Verif.Sphincs.thash shake256F inp o n ctx addr := by
  unfold thash Verif.Sphincs.thash
  er [hash_res' _ _]

theorem genMessageRandom_res (a b m : Bytes) : (genMessageRandom a b m).res = .ok (Verif.Sphincs.genMessageRandom shake256F a b m) := by
  unfold genMessageRandom Verif.Sphincs.genMessageRandom
  rw [hashInc_res]
  simp

theorem hashMessage_res (R pk m : Bytes) : (hashMessage R pk m).res = Verif.Sphincs.hashMessage shake256F R pk m := by
  unfold hashMessage Verif.Sphincs.hashMessage
  have e : shake256F (R ++ pk ++ m) 49 = shake256F [R, pk, m].flatten 49 := by simp
  rw [e]
  refine bind_ok_res (hashInc_res _ _) ?_
  er [bytesToUll_res _ _ _]

theorem treehashInner_res (ctx : Ctx) (n idx fuel h a b c : Nat) (auth stack cur addr : Bytes) :
    (treehashInner ctx n idx fuel h a b c auth stack cur addr).res = Verif.Sphincs.treehashInner shake256F ctx n idx fuel h a b c auth stack cur addr := by
  induction fuel generalizing h a b c auth stack cur addr with
  | zero => rfl
  | succ fuel ih =>
    unfold treehashInner Verif.Sphincs.treehashInner
    er [setTreeHeight_res _ _, setTreeIndex_res _ _, thash_res _ _ _ _ _, ih _ _ _ _ _ _ _ _]

theorem treehashOuter_res {ι : Type} (ctx : Ctx) (leafIdx off n : Nat) {g : Nat → ι → T (Bytes × ι)} {g' : Nat → ι → C (Bytes × ι)} (hg : ∀ i a, (g i a).res = g' i a)
    (fuel idx : Nat) (auth stack addr : Bytes) (info : ι) :
    (treehashOuter ctx leafIdx off n g fuel idx auth stack addr info).res = Verif.Sphincs.treehashOuter shake256F ctx leafIdx off n g' fuel idx auth stack addr info := by
  induction fuel generalizing idx auth stack addr info with
  | zero => rfl
  | succ fuel ih =>
    unfold treehashOuter Verif.Sphincs.treehashOuter
    er [hg _ _, treehashInner_res _ _ _ _ _ _ _ _ _ _ _ _, ih _ _ _ _ _]

theorem treehashx1_res {ι : Type} (ctx : Ctx) (leafIdx off n : Nat) {g : Nat → ι → T (Bytes × ι)} {g' : Nat → ι → C (Bytes × ι)} (hg : ∀ i a, (g i a).res = g' i a)
    (auth stack addr : Bytes) (info : ι) : (treehashx1 ctx leafIdx off n g auth stack addr info).res = Verif.Sphincs.treehashx1 shake256F ctx leafIdx off n g' auth stack addr info :=
  treehashOuter_res ctx leafIdx off n hg _ _ _ _ _ _

theorem baseW_res (output : List Nat) (o n : Nat) (input : Bytes) : (baseW output o n input).res = Verif.Sphincs.baseW output o n input := by
  unfold baseW Verif.Sphincs.baseW
  er [rfl]

theorem wotsChecksum_res (l : List Nat) : (wotsChecksum l).res = Verif.Sphincs.wotsChecksum l := by
  unfold wotsChecksum Verif.Sphincs.wotsChecksum
  er [ullToBytes_res _ _ _ _, baseW_res _ _ _ _]

theorem chainLengths_res (msg : Bytes) : (chainLengths msg).res = Verif.Sphincs.chainLengths msg := by
  unfold chainLengths Verif.Sphincs.chainLengths
  er [wotsChecksum_res _, baseW_res _ _ _ _]

theorem wotsChainLoop_res (ctx : Ctx) (i wk fuel k : Nat) (b w l : Bytes) : (wotsChainLoop ctx i wk fuel k b w l).res = Verif.Sphincs.wotsChainLoop shake256F ctx i wk fuel k b w l := by
  induction fuel generalizing k b w l with
  | zero => rfl
  | succ fuel ih =>
    unfold wotsChainLoop Verif.Sphincs.wotsChainLoop
    er [setHashAddr_res _ _, thash_res _ _ _ _ _, ih _ _ _ _]

theorem wotsGenLeaf_res (ctx : Ctx) (leafIdx : Nat) (info : LeafInfo) : (wotsGenLeaf ctx leafIdx info).res = Verif.Sphincs.wotsGenLeaf shake256F ctx leafIdx info := by
  unfold wotsGenLeaf Verif.Sphincs.wotsGenLeaf
  refine bind_ok_res (a := if leafIdx = info.wotsSignLeaf then 0 else 2 ^ 32 - 1) ?_ ?_
  · by_cases h : leafIdx = info.wotsSignLeaf
    · rw [cond_run_pos h, if_pos h]; rfl
    · rw [cond_run_neg h, if_neg h]; rfl
  · er [setKeypairAddr_res _ _, setChainAddr_res _ _, setHashAddr_res _ _, setType_res _ _, prfAddr_res _ _, thash_res _ _ _ _ _, wotsChainLoop_res _ _ _ _ _ _ _ _]

theorem merkleSign_res (sig : Bytes) (o : Nat) (root : Bytes) (ctx : Ctx) (w t : Bytes) (i : Nat) :
    (merkleSign sig o root ctx w t i).res = Verif.Sphincs.merkleSign shake256F sig o root ctx w t i := by
  unfold merkleSign Verif.Sphincs.merkleSign
  er [chainLengths_res _, setType_res _ _, copySubtreeAddr_res _ _, treehashx1_res _ _ _ _ (wotsGenLeaf_res _) _ _ _ _]

theorem merkleGenRoot_res (root : Bytes) (ctx : Ctx) : (merkleGenRoot root ctx).res = Verif.Sphincs.merkleGenRoot shake256F root ctx := by
  unfold merkleGenRoot Verif.Sphincs.merkleGenRoot
  er [setLayerAddr_res _ _, merkleSign_res _ _ _ _ _ _ _]

theorem forsGenLeaf_res (ctx : Ctx) (i : Nat) (a : Bytes) : (forsGenLeaf ctx i a).res = Verif.Sphincs.forsGenLeaf shake256F ctx i a := by
  unfold forsGenLeaf Verif.Sphincs.forsGenLeaf
  er [setTreeIndex_res _ _, setType_res _ _, prfAddr_res _ _, thash_res _ _ _ _ _]

theorem messageToIndices_res (m : Bytes) : (messageToIndices m).res = Verif.Sphincs.messageToIndices m := by
  unfold messageToIndices Verif.Sphincs.messageToIndices
  er [rfl]

theorem forsSign_res (sig : Bytes) (o : Nat) (m : Bytes) (ctx : Ctx) (a : Bytes) : (forsSign sig o m ctx a).res = Verif.Sphincs.forsSign shake256F sig o m ctx a := by
  unfold forsSign Verif.Sphincs.forsSign
  refine bind_res (copyKeypairAddr_res _ _) fun _ => bind_res (copyKeypairAddr_res _ _) fun _ => bind_res (copyKeypairAddr_res _ _) fun _ => bind_res (setType_res _ _) fun _ =>
    bind_res (messageToIndices_res _) fun ind => bind_res (loop_res (fun i s => ?_) _ _ _) fun s => ?_
  · obtain ⟨sig, roots, ta, la⟩ := s
    refine bind_res (rd_res _ _) fun idx => bind_res (setTreeHeight_res _ _) fun _ => bind_res (setTreeIndex_res _ _) fun _ => bind_res (setType_res _ _) fun _ =>
      bind_res (prfAddr_res _ _) fun _ => bind_res (copy_res _ _ _ _ _) fun _ => bind_res (setType_res _ _) fun _ => bind_res (copy_res _ _ _ _ _) fun _ =>
      bind_res (treehashx1_res ctx idx (i * 2 ^ 9) 9 (g := forsGenLeaf ctx) (g' := Verif.Sphincs.forsGenLeaf shake256F ctx) (forsGenLeaf_res ctx) _ _ _ _) fun x => ?_
    obtain ⟨root, auth, ta, la⟩ := x
    exact bind_res (copy_res _ _ _ _ _) fun _ => bind_res (copy_res _ _ _ _ _) fun _ => rfl
  · obtain ⟨sig, roots, ta, la⟩ := s
    exact bind_res (thash_res _ _ _ _ _) fun _ => rfl

/-- The body of `seedKeypair` with an arbitrary function in the place of `merkle_gen_root`; without this step the kernel would evaluate that function. -/
theorem seedKeypair_aux (G : Bytes → Ctx → T Bytes) (G' : Bytes → Ctx → C Bytes) (hG : ∀ r c, (G r c).res = G' r c) (pk sk seed : Bytes) : (do
    let sk ← copy sk 0 seed 0 96
    let pk ← copy pk 0 sk 64 32
    let pub ← copy (zeroBytes 32) 0 pk 0 32
    let sec ← copy (zeroBytes 32) 0 sk 0 32
    let old ← copy (zeroBytes 32) 0 sk 96 32
    let root ← G old ⟨pub, some sec⟩
    let sk ← copy sk 96 root 0 32
    let pk ← copy pk 32 sk 96 32
    pure (0, pk, sk) : T (Int × Bytes × Bytes)).res = (do
    let sk ← Verif.copy sk 0 seed 0 96
    let pk ← Verif.copy pk 0 sk 64 32
    let pub ← Verif.copy (zeroBytes 32) 0 pk 0 32
    let sec ← Verif.copy (zeroBytes 32) 0 sk 0 32
    let old ← Verif.copy (zeroBytes 32) 0 sk 96 32
    let root ← G' old ⟨pub, some sec⟩
    let sk ← Verif.copy sk 96 root 0 32
    let pk ← Verif.copy pk 32 sk 96 32
    pure (0, pk, sk) : C (Int × Bytes × Bytes)) := by
  er [hG _ _]

theorem seedKeypair_res (pk sk seed : Bytes) : (seedKeypair pk sk seed).res = Verif.Sphincs.seedKeypair shake256F pk sk seed := by
  unfold seedKeypair Verif.Sphincs.seedKeypair
  exact seedKeypair_aux merkleGenRoot (Verif.Sphincs.merkleGenRoot shake256F) merkleGenRoot_res pk sk seed

theorem signBody_res (sig m sk opt : Bytes) : (signBody sig m sk opt).res = Verif.Sphincs.signBody shake256F sig m sk opt := by
  unfold signBody signStep Verif.Sphincs.signBody
  refine bind_res (copy_res _ _ _ _ _) fun _ => bind_res (copy_res _ _ _ _ _) fun _ => bind_res (copy_res _ _ _ _ _) fun _ => bind_res (copy_res _ _ _ _ _) fun _ =>
    bind_res (setType_res _ _) fun _ => bind_res (setType_res _ _) fun _ => bind_ok_res (genMessageRandom_res _ _ _) ?_
  er [hashMessage_res _ _ _, setTreeAddr_res _ _, setKeypairAddr_res _ _, forsSign_res _ _ _ _ _, setLayerAddr_res _ _, copySubtreeAddr_res _ _, merkleSign_res _ _ _ _ _ _ _]

end Sphincs
end Verif.Ct
