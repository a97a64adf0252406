import Verif.Ct.SphincsLemmas

/-! Two runs of the functions of Verif/Ct/Sphincs.lean with the same public data have the same trace. -/

namespace Verif.Ct.Sphincs
open Verif.Sphincs (zeroBytes Ctx LeafInfo shake256F)

theorem hash_same (n : Nat) {m m' : Bytes} (h : m.length = m'.length) : Same (hash m n) (hash m' n) := by
  unfold hash
  rw [h]
  exact Keccak.shake_same _ _ _

theorem hashInc_same (n : Nat) {ms ms' : List Bytes} (h : ms.map List.length = ms'.map List.length) : Same (hashInc ms n) (hashInc ms' n) := by
  unfold hashInc
  refine Rel.bind (R := fun _ _ => True) ?_ fun _ _ _ => ?_
  · exact (Keccak.absorbPieces_same 136 rfl h).bind fun _ _ h => (Keccak.incFinalize_same _ h).bind fun _ _ h => Keccak.squeezePieces_same _ h _
  · ct [Same.rd]

theorem ullToBytes_same (o n : Nat) {out out' : Bytes} {v v' : Nat} : Same (ullToBytes out o n v) (ullToBytes out' o n v') := by
  unfold ullToBytes
  ct [Same.rd]

theorem u32ToBytes_same (o : Nat) {out out' : Bytes} {v v' : Nat} : Same (u32ToBytes out o v) (u32ToBytes out' o v') := by
  unfold u32ToBytes
  ct [Same.rd]

theorem bytesToUll_same (o n : Nat) {x x' : Bytes} : Same (bytesToUll x o n) (bytesToUll x' o n) := by
  unfold bytesToUll
  ct [Same.rd]

theorem setLayerAddr_same {a a' : Bytes} {v v' : Nat} : Same (setLayerAddr a v) (setLayerAddr a' v') := Same.wr
theorem setTreeAddr_same {a a' : Bytes} {v v' : Nat} : Same (setTreeAddr a v) (setTreeAddr a' v') := ullToBytes_same _ _
theorem setType_same {a a' : Bytes} {v v' : Nat} : Same (setType a v) (setType a' v') := Same.wr
theorem copySubtreeAddr_same {a a' b b' : Bytes} : Same (copySubtreeAddr a b) (copySubtreeAddr a' b') := Same.copy
theorem setKeypairAddr_same {a a' : Bytes} {v v' : Nat} : Same (setKeypairAddr a v) (setKeypairAddr a' v') := Same.wr
theorem copyKeypairAddr_same {a a' b b' : Bytes} : Same (copyKeypairAddr a b) (copyKeypairAddr a' b') := by
  unfold copyKeypairAddr
  ct [Same.rd]
theorem setChainAddr_same {a a' : Bytes} {v v' : Nat} : Same (setChainAddr a v) (setChainAddr a' v') := Same.wr
theorem setHashAddr_same {a a' : Bytes} {v v' : Nat} : Same (setHashAddr a v) (setHashAddr a' v') := Same.wr
theorem setTreeHeight_same {a a' : Bytes} {v v' : Nat} : Same (setTreeHeight a v) (setTreeHeight a' v') := Same.wr
theorem setTreeIndex_same {a a' : Bytes} {v v' : Nat} : Same (setTreeIndex a v) (setTreeIndex a' v') := u32ToBytes_same _

theorem prfAddr_same {ctx ctx' : Ctx} {a a' : Bytes} : Same (prfAddr ctx a) (prfAddr ctx' a') := by
  obtain ⟨p, s⟩ := ctx
  obtain ⟨p', s'⟩ := ctx'
  cases s with
  | none => exact Rel.ub
  | some s =>
    cases s' with
    | none => exact Rel.ub'
    | some s' =>
      unfold prfAddr
      exact (Rel.copy rfl).bind fun _ _ h => (Rel.copy h).bind fun _ _ h => (Rel.copy h).bind fun _ _ h => hash_same _ h

theorem thash_same (o n : Nat) {x x' : Bytes} {ctx ctx' : Ctx} {a a' : Bytes} : Same (thash x o n ctx a) (thash x' o n ctx' a') := by
  unfold thash
  exact (Rel.copy rfl).bind fun _ _ h => (Rel.copy h).bind fun _ _ h => (Rel.copy h).bind fun _ _ h => hash_same _ h

theorem genMessageRandom_same {a a' b b' m m' : Bytes} (ha : a.length = a'.length) (hb : b.length = b'.length) (hm : m.length = m'.length) :
    Same (genMessageRandom a b m) (genMessageRandom a' b' m') := hashInc_same _ (by simp [ha, hb, hm])

theorem hashMessage_same {R R' pk pk' m m' : Bytes} (hR : R.length = R'.length) (hpk : pk.length = pk'.length) (hm : m.length = m'.length) :
    Same (hashMessage R pk m) (hashMessage R' pk' m') := by
  unfold hashMessage
  refine (hashInc_same _ (by simp [hR, hpk, hm])).bind fun _ _ _ => ?_
  ct [bytesToUll_same _ _]

theorem treehashInner_same (n idx fuel h a b c : Nat) {ctx ctx' : Ctx} {auth auth' stack stack' cur cur' addr addr' : Bytes} :
    Rel (fun x y => x.1.isSome = y.1.isSome) (treehashInner ctx n idx fuel h a b c auth stack cur addr) (treehashInner ctx' n idx fuel h a b c auth' stack' cur' addr') := by
  induction fuel generalizing h a b c auth auth' stack stack' cur cur' addr addr' with
  | zero =>
    intro x y hx
    cases hx
  | succ fuel ih =>
    unfold treehashInner
    refine Rel.cond Iff.rfl (fun _ => Same.copy.bind fun _ _ _ => Rel.pure rfl) fun _ => ?_
    refine Rel.bind (R := fun _ _ => True) (Rel.cond Iff.rfl (fun _ => Same.copy) fun _ => Rel.pure trivial) fun _ _ _ => ?_
    refine Rel.cond Iff.rfl (fun _ => Same.copy.bind fun _ _ _ => Rel.pure rfl) fun _ => ?_
    exact setTreeHeight_same.bind fun _ _ _ => setTreeIndex_same.bind fun _ _ _ => Same.copy.bind fun _ _ _ => (thash_same _ _).bind fun _ _ _ => Same.copy.bind fun _ _ _ => ih _ _ _ _

theorem treehashOuter_same {ι : Type} {K : ι → ι → Prop} (leafIdx off n : Nat) {g g' : Nat → ι → T (Bytes × ι)} (fuel idx : Nat)
    (hg : ∀ j a b, j < idx + fuel → K a b → Rel (fun x y => K x.2 y.2) (g ((j + off) % 2 ^ 32) a) (g' ((j + off) % 2 ^ 32) b))
    {ctx ctx' : Ctx} {auth auth' stack stack' addr addr' : Bytes} {a b : ι} (h : K a b) :
    Rel (fun x y => K x.2.2.2 y.2.2.2) (treehashOuter ctx leafIdx off n g fuel idx auth stack addr a) (treehashOuter ctx' leafIdx off n g' fuel idx auth' stack' addr' b) := by
  induction fuel generalizing idx auth auth' stack stack' addr addr' a b with
  | zero =>
    intro x y hx
    cases hx
  | succ fuel ih =>
    unfold treehashOuter
    refine (hg idx a b (by omega) h).bind fun x y hk => ?_
    obtain ⟨x1, x2⟩ := x
    obtain ⟨y1, y2⟩ := y
    refine Same.copy.bind fun _ _ _ => (treehashInner_same _ _ _ _ _ _ _).bind fun x y hxy => ?_
    obtain ⟨r, xa, xs, xd⟩ := x
    obtain ⟨r', ya, ys, yd⟩ := y
    match r, r', hxy with
    | none, none, _ => exact ih (idx + 1) (fun j a b hj => hg j a b (by omega)) hk
    | some _, some _, _ => exact Rel.pure hk

theorem treehashx1_same {ι : Type} {K : ι → ι → Prop} (leafIdx off n : Nat) {g g' : Nat → ι → T (Bytes × ι)}
    (hg : ∀ j a b, j < 2 ^ n → K a b → Rel (fun x y => K x.2 y.2) (g ((j + off) % 2 ^ 32) a) (g' ((j + off) % 2 ^ 32) b))
    {ctx ctx' : Ctx} {auth auth' stack stack' addr addr' : Bytes} {a b : ι} (h : K a b) :
    Rel (fun x y => K x.2.2.2 y.2.2.2) (treehashx1 ctx leafIdx off n g auth stack addr a) (treehashx1 ctx' leafIdx off n g' auth' stack' addr' b) :=
  treehashOuter_same leafIdx off n _ _ (fun j a b hj => hg j a b (by omega)) h

theorem baseW_same (o n : Nat) {out out' : List Nat} {x x' : Bytes} : Same (baseW out o n x) (baseW out' o n x') := by
  unfold baseW
  refine Rel.bind (R := fun _ _ => True) (Rel.same (Rel.loop (R := fun _ s t => s.2.1 = t.2.1 ∧ s.2.2.2 = t.2.2.2) 0 n ⟨rfl, rfl⟩ ?_)) fun _ _ _ => Rel.pure trivial
  rintro k ⟨o1, i1, t1, b1⟩ ⟨o2, i2, t2, b2⟩ _ _ ⟨h1, h2⟩
  dsimp only at h1 h2
  cases h1
  cases h2
  refine Rel.bind (R := fun a b => a.1 = b.1 ∧ a.2.2 = b.2.2) (Rel.cond Iff.rfl (fun _ => Same.rd.bind fun _ _ _ => Rel.pure ⟨rfl, rfl⟩) fun _ => Rel.pure ⟨rfl, rfl⟩) ?_
  rintro ⟨i1, t1, b1⟩ ⟨i2, t2, b2⟩ ⟨h1, h2⟩
  dsimp only at h1 h2
  cases h1
  cases h2
  exact Same.wr.bind fun _ _ _ => Rel.pure ⟨rfl, rfl⟩

theorem wotsChecksum_same {l l' : List Nat} : Same (wotsChecksum l) (wotsChecksum l') := by
  unfold wotsChecksum
  ct [ullToBytes_same _ _, baseW_same _ _]

theorem chainLengths_same {m m' : Bytes} : Same (chainLengths m) (chainLengths m') := by
  unfold chainLengths
  ct [wotsChecksum_same, baseW_same _ _]

theorem wotsChainLoop_same (i fuel k : Nat) {w w' : Nat} (hf : fuel + k = 16) (hw : ∀ k, k < 16 → (k = w ↔ k = w')) {ctx ctx' : Ctx} {b b' s s' l l' : Bytes} :
    Same (wotsChainLoop ctx i w fuel k b s l) (wotsChainLoop ctx' i w' fuel k b' s' l') := by
  induction fuel generalizing k b b' s s' l l' with
  | zero =>
    intro x y hx
    cases hx
  | succ fuel ih =>
    unfold wotsChainLoop
    refine Rel.bind (R := fun _ _ => True) (Rel.cond (hw k (by omega)) (fun _ => Same.copy) fun _ => Rel.pure trivial) fun _ _ _ => ?_
    refine Rel.cond Iff.rfl (fun _ => Rel.pure trivial) fun _ => ?_
    exact setHashAddr_same.bind fun _ _ _ => (thash_same _ _).bind fun _ _ _ => ih _ (by omega)

/-- What the traces of `wots_gen_leafx1` show of its state: the leaf that signs, and if there is one, the digits signed. -/
def Leafs (a b : LeafInfo) : Prop := a.wotsSignLeaf = b.wotsSignLeaf ∧ (a.wotsSignLeaf < 2 ^ 32 - 1 → a.wotsSteps = b.wotsSteps)

theorem wotsGenLeaf_same (leafIdx : Nat) (hl : leafIdx < 2 ^ 32 - 1) {ctx ctx' : Ctx} {a b : LeafInfo} (h : Leafs a b) :
    Rel (fun x y => Leafs x.2 y.2) (wotsGenLeaf ctx leafIdx a) (wotsGenLeaf ctx' leafIdx b) := by
  obtain ⟨h1, h2⟩ := h
  unfold wotsGenLeaf
  refine Rel.bind (R := fun x y => x = y ∧ (x = 0 ∧ a.wotsSteps = b.wotsSteps ∨ x = 2 ^ 32 - 1)) ?_ ?_
  · refine Rel.cond (by rw [h1]) (fun e => Rel.pure ⟨rfl, .inl ⟨rfl, h2 (by omega)⟩⟩) fun _ => Rel.pure ⟨rfl, .inr rfl⟩
  rintro mask _ ⟨rfl, hm⟩
  refine setKeypairAddr_same.bind fun _ _ _ => setKeypairAddr_same.bind fun _ _ _ => ?_
  refine Rel.bind (R := fun _ _ => True) (Same.loop _ _ ?_) ?_
  · rintro k ⟨p, w, l⟩ ⟨p', w', l'⟩
    refine Rel.bind (R := fun x y => ∀ k, k < 16 → (k = x ||| mask ↔ k = y ||| mask)) (Rel.rd ?_) ?_
    · intro x y hx hy k hk
      rcases hm with ⟨-, e⟩ | e
      · rw [e, hy] at hx
        cases hx
        exact Iff.rfl
      · have hx : mask ≤ x ||| mask := Nat.right_le_or
        have hy : mask ≤ y ||| mask := Nat.right_le_or
        omega
    · intro x y hxy
      refine setChainAddr_same.bind fun _ _ _ => setHashAddr_same.bind fun _ _ _ => setType_same.bind fun _ _ _ => prfAddr_same.bind fun _ _ _ => setType_same.bind fun _ _ _ =>
        (wotsChainLoop_same k 16 0 rfl hxy).bind fun x y _ => ?_
      exact Same.copy.bind fun _ _ _ => Rel.pure trivial
  · rintro ⟨p, w, l⟩ ⟨p', w', l'⟩ _
    exact (thash_same _ _).bind fun _ _ _ => Rel.pure ⟨h1, h2⟩

/-- `merkle_sign` shows the leaf and the root signed; only the leaf if there is no such leaf, as in key generation. -/
theorem merkleSign_same (o i : Nat) {sig sig' root root' : Bytes} (hr : i < 2 ^ 32 - 1 → root = root') {ctx ctx' : Ctx} {w w' t t' : Bytes} :
    Same (merkleSign sig o root ctx w t i) (merkleSign sig' o root' ctx' w' t' i) := by
  unfold merkleSign
  refine Same.copy.bind fun _ _ _ => Same.copy.bind fun _ _ _ => ?_
  refine Rel.bind (R := fun x y => i < 2 ^ 32 - 1 → x = y) ?_ fun x y hxy => ?_
  · by_cases c : i < 2 ^ 32 - 1
    · rw [hr c]
      exact (Rel.refl _).mono fun _ _ h _ => h
    · exact chainLengths_same.mono fun _ _ _ h => absurd h c
  refine setType_same.bind fun _ _ _ => setType_same.bind fun _ _ _ => copySubtreeAddr_same.bind fun _ _ _ => copySubtreeAddr_same.bind fun _ _ _ => ?_
  refine Rel.bind (treehashx1_same (K := Leafs) _ _ _ (fun j a b hj h => wotsGenLeaf_same _ ?_ h) ⟨rfl, hxy⟩) ?_
  · rw [Nat.mod_eq_of_lt (by omega)]
    omega
  rintro ⟨r, a, t, info⟩ ⟨r', a', t', info'⟩ _
  exact Same.copy.bind fun _ _ _ => Same.copy.bind fun _ _ _ => Rel.pure trivial

theorem merkleGenRoot_same {root root' : Bytes} {ctx ctx' : Ctx} : Same (merkleGenRoot root ctx) (merkleGenRoot root' ctx') := by
  unfold merkleGenRoot
  exact setLayerAddr_same.bind fun _ _ _ => setLayerAddr_same.bind fun _ _ _ => (merkleSign_same _ _ fun h => absurd h (by decide)).bind fun _ _ _ => Rel.pure trivial

theorem forsGenLeaf_same (i : Nat) {ctx ctx' : Ctx} {a a' : Bytes} : Same (forsGenLeaf ctx i a) (forsGenLeaf ctx' i a') := by
  unfold forsGenLeaf
  ct [setTreeIndex_same, setType_same, prfAddr_same, thash_same _ _]

/-- `fors_sign` shows the digest. -/
theorem forsSign_same (o : Nat) (m : Bytes) {sig sig' : Bytes} {ctx ctx' : Ctx} {a a' : Bytes} : Same (forsSign sig o m ctx a) (forsSign sig' o m ctx' a') := by
  unfold forsSign
  refine copyKeypairAddr_same.bind fun _ _ _ => copyKeypairAddr_same.bind fun _ _ _ => copyKeypairAddr_same.bind fun _ _ _ => setType_same.bind fun _ _ _ =>
    (Rel.refl _).bind fun ind ind' e => ?_
  cases e
  refine Rel.bind (R := fun _ _ => True) (Same.loop _ _ ?_) ?_
  · rintro k ⟨s, r, t, l⟩ ⟨s', r', t', l'⟩
    refine Rel.bind (Rel.refl _) fun idx idx' e => ?_
    cases e
    refine setTreeHeight_same.bind fun _ _ _ => setTreeIndex_same.bind fun _ _ _ => setType_same.bind fun _ _ _ => prfAddr_same.bind fun _ _ _ => Same.copy.bind fun _ _ _ =>
      setType_same.bind fun _ _ _ => Same.copy.bind fun _ _ _ => (treehashx1_same (K := fun _ _ => True) _ _ _ (fun j a b _ _ => forsGenLeaf_same _) trivial).bind ?_
    rintro ⟨x1, x2, x3, x4⟩ ⟨y1, y2, y3, y4⟩ _
    exact Same.copy.bind fun _ _ _ => Same.copy.bind fun _ _ _ => Rel.pure trivial
  · rintro ⟨s, r, t, l⟩ ⟨s', r', t', l'⟩ _
    exact (thash_same _ _).bind fun _ _ _ => Rel.pure trivial

theorem seedKeypair_same {pk pk' sk sk' seed seed' : Bytes} : Same (seedKeypair pk sk seed) (seedKeypair pk' sk' seed') := by
  unfold seedKeypair
  exact Same.copy.bind fun _ _ _ => Same.copy.bind fun _ _ _ => Same.copy.bind fun _ _ _ => Same.copy.bind fun _ _ _ => Same.copy.bind fun _ _ _ => merkleGenRoot_same.bind fun _ _ _ =>
    Same.copy.bind fun _ _ _ => Same.copy.bind fun _ _ _ => Rel.pure trivial

end Verif.Ct.Sphincs
