import Verif.Keccak.HeapCount
import Verif.Sphincs.HeapAll
import Verif.Sphincs.HeapProps

/-! Lemmas for C114: how many contexts the functions of /repo/sphincs make. -/

namespace Verif.Sphincs.Heap
open Verif Verif.Keccak Verif.Keccak.Heap

variable {σ : Type}

theorem between_loop {lo hi : Nat} {f : Nat → σ → K σ} {g : Nat → σ → C σ} (hf : ∀ i s, Between lo hi (f i s) (g i s)) : ∀ (n i : Nat) (s : σ),
    Between (n * lo) (n * hi) (loopH f i n s) (loop g i n s) := by
  intro n
  induction n with
  | zero => intro i s; rw [Nat.zero_mul, Nat.zero_mul]; exact Between.pure
  | succ n ih =>
    intro i s
    unfold loopH loop
    have := Between.bind (hf i s) (fun a _ => ih (i + 1) a)
    exact this.mono (by rw [Nat.succ_mul]; omega) (by rw [Nat.succ_mul]; omega)

theorem wr_length {α : Type} {a b : List α} {i : Nat} {x : α} (h : wr a i x = .ok b) : b.length = a.length := by
  unfold wr at h
  split at h
  · cases h
    exact List.length_set
  · cases h

theorem loop_length {α : Type} {f : Nat → List α → C (List α)} (hf : ∀ k s t, f k s = .ok t → t.length = s.length) (i n : Nat) {s t : List α} (h : loop f i n s = .ok t) :
    t.length = s.length := by
  induction n generalizing i s with
  | zero => cases h; rfl
  | succ n ih =>
    obtain ⟨u, h1, h2⟩ := bind_eq_ok.1 h
    rw [ih _ h2, hf _ _ _ h1]

theorem copy_length {α : Type} {dst src out : List α} {d s n : Nat} (h : copy dst d src s n = .ok out) : out.length = dst.length := by
  refine loop_length ?_ 0 n h
  intro k s t h
  obtain ⟨_, _, h⟩ := bind_eq_ok.1 h
  exact wr_length h

theorem between_thash (inp : Bytes) (o inblocks : Nat) (ctx : Ctx) (addr : Bytes) : Between 1 1 (thashH inp o inblocks ctx addr) (thash shake256F inp o inblocks ctx addr) := by
  unfold thashH thash
  refine Between.bindC fun b1 e1 => Between.bindC fun b2 e2 => Between.bindC fun b3 e3 => ?_
  have l0 : (zeroBytes (64 + inblocks * 32)).length = (64 + inblocks * 32) := List.length_replicate
  have := copy_length e1
  have := copy_length e2
  have := copy_length e3
  exact single_between ((ctx_shake _ _ _ _ _).congr (shake_at _ (by omega)))

theorem between_prfAddr (ctx : Ctx) (addr : Bytes) : Between 1 1 (prfAddrH ctx addr) (prfAddr shake256F ctx addr) := by
  unfold prfAddrH prfAddr
  cases ctx.skSeed with
  | none => exact Between.fault
  | some sk =>
    simp only
    refine Between.bindC fun b1 e1 => Between.bindC fun b2 e2 => Between.bindC fun b3 e3 => ?_
    have l0 : (zeroBytes 96).length = 96 := List.length_replicate
    have := copy_length e1
    have := copy_length e2
    have := copy_length e3
    exact single_between ((ctx_shake _ _ _ _ _).congr (shake_at _ (by omega)))

theorem between_computeRoot (leaf : Bytes) (leafIdx idxOffset : Nat) (auth : Bytes) (o treeHeight : Nat) (ctx : Ctx) (addr : Bytes) :
    Between (treeHeight - 1 + 1) (treeHeight - 1 + 1) (computeRootH leaf leafIdx idxOffset auth o treeHeight ctx addr) (computeRoot shake256F leaf leafIdx idxOffset auth o treeHeight ctx addr) := by
  unfold computeRootH computeRoot
  refine Between.bind0 (Between.ite (fun _ => Between.bindC fun b _ => Between.onC) (fun _ => Between.bindC fun b _ => Between.onC)) fun buffer _ => ?_
  refine Between.bind ((between_loop (lo := 1) (hi := 1) ?_ (treeHeight - 1) 0 _).mono (Nat.mul_one _).ge (Nat.mul_one _).le) ?_
  · rintro i ⟨buffer, li, off, addr⟩
    refine Between.bindC fun _ _ => Between.bindC fun _ _ => ?_
    refine Between.bind1 (between_thash _ _ _ _ _) fun t _ => ?_
    exact Between.bind0 (Between.ite (fun _ => Between.bindC fun b _ => Between.onC) (fun _ => Between.bindC fun b _ => Between.onC)) fun _ _ => Between.pure
  · rintro ⟨buffer, li, off, addr⟩ -
    refine Between.bindC fun _ _ => Between.bindC fun _ _ => ?_
    exact Between.bind1 (between_thash _ _ _ _ _) fun _ _ => Between.pure

/-! ### treehashx1 -/

/-- Hashes made by the inner loop of sphincs/utilsx1.c:52-98 for leaf number `idx` (with current level `h` and node `i` on it), and whether it ends with the root. -/
def innerN (height idx : Nat) : (fuel h i : Nat) → Nat × Bool
  | 0, _, _ => (0, false)
  | fuel + 1, h, i => if h = height then (0, true) else if i &&& 1 = 0 ∧ idx < 2 ^ height - 1 then (0, false) else
      ((innerN height idx fuel (h + 1) (i >>> 1)).1 + 1, (innerN height idx fuel (h + 1) (i >>> 1)).2)

/-- Hashes made by sphincs/utilsx1.c:39-99 from leaf number `idx` on, with `c` for each leaf. -/
def outerN (height c : Nat) : (fuel idx : Nat) → Nat
  | 0, _ => 0
  | fuel + 1, idx => c + ((innerN height idx (height + 1) 0 idx).1 + if (innerN height idx (height + 1) 0 idx).2 then 0 else outerN height c fuel (idx + 1))

theorem inner_ends (ctx : Ctx) (height idx : Nat) : ∀ (fuel h i iLeaf iOff : Nat) (auth stack current addr : Bytes) (q : Option Bytes × Bytes × Bytes × Bytes),
    treehashInner shake256F ctx height idx fuel h i iLeaf iOff auth stack current addr = .ok q → q.1.isSome = (innerN height idx fuel h i).2 := by
  intro fuel
  induction fuel with
  | zero => intro h i iLeaf iOff auth stack current addr q e; cases e
  | succ n ih =>
    intro h i iLeaf iOff auth stack current addr q e
    unfold treehashInner at e
    unfold innerN
    split at e
    · rename_i c
      rw [if_pos c]
      obtain ⟨r, -, e⟩ := bind_eq_ok.1 e
      cases e; rfl
    · rename_i c
      rw [if_neg c]
      obtain ⟨r, -, e⟩ := bind_eq_ok.1 e
      split at e
      · rename_i d
        rw [if_pos d]
        obtain ⟨r, -, e⟩ := bind_eq_ok.1 e
        cases e; rfl
      · rename_i d
        rw [if_neg d]
        obtain ⟨_, -, e⟩ := bind_eq_ok.1 e
        obtain ⟨_, -, e⟩ := bind_eq_ok.1 e
        obtain ⟨_, -, e⟩ := bind_eq_ok.1 e
        obtain ⟨_, -, e⟩ := bind_eq_ok.1 e
        obtain ⟨_, -, e⟩ := bind_eq_ok.1 e
        exact ih _ _ _ _ _ _ _ _ _ e

theorem between_inner (ctx : Ctx) (height idx : Nat) : ∀ (fuel h i iLeaf iOff : Nat) (auth stack current addr : Bytes),
    Between (innerN height idx fuel h i).1 (innerN height idx fuel h i).1 (treehashInnerH ctx height idx fuel h i iLeaf iOff auth stack current addr)
      (treehashInner shake256F ctx height idx fuel h i iLeaf iOff auth stack current addr) := by
  intro fuel
  induction fuel with
  | zero => intro h i iLeaf iOff auth stack current addr; exact Between.fault
  | succ n ih =>
    intro h i iLeaf iOff auth stack current addr
    unfold treehashInner treehashInnerH innerN
    by_cases c : h = height
    · rw [if_pos c, if_pos c, if_pos c]
      exact Between.bindC fun _ _ => Between.pure
    · rw [if_neg c, if_neg c, if_neg c]
      refine Between.bind0 (Between.ite (fun _ => Between.onC) (fun _ => Between.pure)) fun auth _ => ?_
      by_cases d : i &&& 1 = 0 ∧ idx < 2 ^ height - 1
      · rw [if_pos d, if_pos d, if_pos d]
        exact Between.bindC fun _ _ => Between.pure
      · rw [if_neg d, if_neg d, if_neg d]
        refine Between.bindC fun _ _ => Between.bindC fun _ _ => Between.bindC fun _ _ => ?_
        rw [Nat.add_comm]
        exact Between.bind (between_thash _ _ _ _ _) fun _ _ => Between.bindC fun _ _ => ih _ _ _ _ _ _ _ _

theorem between_outer {ι : Type} (ctx : Ctx) (leafIdx idxOffset height c : Nat) {f : Nat → ι → K (Bytes × ι)} {g : Nat → ι → C (Bytes × ι)}
    (hf : ∀ i s, Between c c (f i s) (g i s)) : ∀ (fuel idx : Nat) (auth stack addr : Bytes) (info : ι),
    Between (outerN height c fuel idx) (outerN height c fuel idx) (treehashOuterH ctx leafIdx idxOffset height f fuel idx auth stack addr info)
      (treehashOuter shake256F ctx leafIdx idxOffset height g fuel idx auth stack addr info) := by
  intro fuel
  induction fuel with
  | zero => intro idx auth stack addr info; exact Between.fault
  | succ n ih =>
    intro idx auth stack addr info
    unfold treehashOuterH treehashOuter outerN
    refine Between.bind (hf _ _) ?_
    rintro ⟨leaf, info⟩ -
    refine Between.bindC fun current _ => Between.bind (between_inner _ _ _ _ _ _ _ _ _ _ _ _) ?_
    rintro ⟨r, auth, stack, addr⟩ e
    have := inner_ends _ _ _ _ _ _ _ _ _ _ _ _ _ e
    rw [← this]
    cases r with
    | some root => exact Between.pure
    | none => exact ih _ _ _ _ _

/-! ### The rest -/

theorem between_chainLoop (ctx : Ctx) (i wotsK : Nat) : ∀ (fuel k : Nat), k + fuel = 16 → ∀ (buffer wotsSig leafAddr : Bytes),
    Between (15 - k) (15 - k) (wotsChainLoopH ctx i wotsK fuel k buffer wotsSig leafAddr) (wotsChainLoop shake256F ctx i wotsK fuel k buffer wotsSig leafAddr) := by
  intro fuel
  induction fuel with
  | zero => intro k _ buffer wotsSig leafAddr; exact Between.fault
  | succ n ih =>
    intro k hk buffer wotsSig leafAddr
    unfold wotsChainLoopH wotsChainLoop
    refine Between.bind0 (Between.ite (fun _ => Between.onC) (fun _ => Between.pure)) fun wotsSig _ => ?_
    by_cases c : k = 15
    · rw [if_pos c, if_pos c, c]
      exact Between.pure
    · rw [if_neg c, if_neg c]
      refine Between.bindC fun _ _ => ?_
      rw [show 15 - k = 1 + (15 - (k + 1)) by omega]
      exact Between.bind (between_thash _ _ _ _ _) fun b _ => ih (k + 1) (by omega) _ _ _

theorem between_wotsGenLeaf (ctx : Ctx) (leafIdx : Nat) (info : LeafInfo) : Between 1073 1073 (wotsGenLeafH ctx leafIdx info) (wotsGenLeaf shake256F ctx leafIdx info) := by
  unfold wotsGenLeafH wotsGenLeaf
  refine Between.bindC fun _ _ => Between.bindC fun _ _ => ?_
  refine Between.bind (l1 := 67 * 16) (h1 := 67 * 16) (l2 := 1) (h2 := 1) (between_loop ?_ 67 0 _) ?_
  · rintro i ⟨pkBuffer, wotsSig, leafAddr⟩
    refine Between.bindC fun _ _ => Between.bindC fun _ _ => Between.bindC fun _ _ => Between.bindC fun _ _ => ?_
    refine Between.bind (l1 := 1) (h1 := 1) (l2 := 15) (h2 := 15) (between_prfAddr _ _) fun _ _ => Between.bindC fun _ _ => ?_
    refine Between.bind1 (between_chainLoop _ _ _ 16 0 rfl _ _ _) ?_
    rintro ⟨buffer, wotsSig, leafAddr⟩ -
    exact Between.bindC fun _ _ => Between.pure
  · rintro ⟨pkBuffer, wotsSig, leafAddr⟩ -
    exact Between.bind1 (between_thash _ _ _ _ _) fun _ _ => Between.pure

theorem outer4 : outerN 4 1073 16 0 = 17183 := by decide +kernel

theorem outer9 : outerN 9 2 512 0 = 1535 := by decide +kernel

theorem between_merkleSign (sig : Bytes) (o : Nat) (root : Bytes) (ctx : Ctx) (wotsAddr treeAddr : Bytes) (idxLeaf : Nat) :
    Between 17183 17183 (merkleSignH sig o root ctx wotsAddr treeAddr idxLeaf) (merkleSign shake256F sig o root ctx wotsAddr treeAddr idxLeaf) := by
  unfold merkleSignH merkleSign
  refine Between.bindC fun _ _ => Between.bindC fun _ _ => Between.bindC fun _ _ => Between.bindC fun _ _ => Between.bindC fun _ _ => Between.bindC fun _ _ => Between.bindC fun _ _ => ?_
  have := fun a b c d => between_outer ctx idxLeaf 0 4 1073 (fun i s => between_wotsGenLeaf ctx i s) 16 0 a b c d
  simp only [outer4] at this
  refine Between.bind1 (this _ _ _ _) ?_
  rintro ⟨root, authPart, treeAddr, info⟩ -
  exact Between.bindC fun _ _ => Between.bindC fun _ _ => Between.pure

theorem between_forsGenLeaf (ctx : Ctx) (addrIdx : Nat) (leafAddr : Bytes) : Between 2 2 (forsGenLeafH ctx addrIdx leafAddr) (forsGenLeaf shake256F ctx addrIdx leafAddr) := by
  unfold forsGenLeafH forsGenLeaf
  refine Between.bindC fun _ _ => Between.bindC fun _ _ => Between.bind (l1 := 1) (h1 := 1) (l2 := 1) (h2 := 1) (between_prfAddr _ _) fun _ _ => Between.bindC fun _ _ => ?_
  exact Between.bind1 (between_thash _ _ _ _ _) fun _ _ => Between.pure

theorem between_forsSign (sig : Bytes) (o : Nat) (m : Bytes) (ctx : Ctx) (forsAddr : Bytes) :
    Between 53761 53761 (forsSignH sig o m ctx forsAddr) (forsSign shake256F sig o m ctx forsAddr) := by
  unfold forsSignH forsSign
  refine Between.bindC fun _ _ => Between.bindC fun _ _ => Between.bindC fun _ _ => Between.bindC fun _ _ => Between.bindC fun _ _ => ?_
  refine Between.bind (l1 := 35 * 1536) (h1 := 35 * 1536) (l2 := 1) (h2 := 1) (between_loop ?_ 35 0 _) ?_
  · rintro i ⟨sig, roots, treeAddr, leafAddr⟩
    refine Between.bindC fun idx _ => Between.bindC fun _ _ => Between.bindC fun _ _ => Between.bindC fun _ _ => ?_
    refine Between.bind (l1 := 1) (h1 := 1) (l2 := 1535) (h2 := 1535) (between_prfAddr _ _) fun _ _ => Between.bindC fun _ _ => Between.bindC fun _ _ => Between.bindC fun _ _ => ?_
    have := fun a b c d => between_outer ctx idx (i * 2 ^ 9) 9 2 (fun i s => between_forsGenLeaf ctx i s) 512 0 a b c d
    simp only [outer9] at this
    refine Between.bind1 (this _ _ _ _) ?_
    rintro ⟨root, auth, treeAddr, leafAddr⟩ -
    exact Between.bindC fun _ _ => Between.bindC fun _ _ => Between.pure
  · rintro ⟨sig, roots, _, _⟩ -
    exact Between.bind1 (between_thash _ _ _ _ _) fun _ _ => Between.pure

theorem between_genChain (inp : Bytes) (o start steps : Nat) (ctx : Ctx) (addr : Bytes) :
    Between (min ((start + steps) % 2 ^ 32) 16 - start) (min ((start + steps) % 2 ^ 32) 16 - start) (genChainH inp o start steps ctx addr) (genChain shake256F inp o start steps ctx addr) := by
  unfold genChainH genChain
  refine Between.bindC fun _ _ => ?_
  have := between_loop (lo := 1) (hi := 1) (f := fun i (s : Bytes × Bytes) => do
    let addr ← onC (setHashAddr s.2 i)
    let out ← thashH s.1 0 1 ctx addr
    pure (out, addr)) (fun i s => Between.bindC fun _ _ => Between.bind1 (between_thash _ _ _ _ _) fun _ _ => Between.pure) (min ((start + steps) % 2 ^ 32) 16 - start) start
  rw [Nat.mul_one] at this
  exact this _

theorem between_loop_at {cost : Nat → Nat} {f : Nat → σ → K σ} {g : Nat → σ → C σ} : ∀ (n i : Nat) (s : σ),
    (∀ k s, i ≤ k → k < i + n → Between (cost k) (cost k) (f k s) (g k s)) →
    Between ((List.range n).map fun k => cost (i + k)).sum ((List.range n).map fun k => cost (i + k)).sum (loopH f i n s) (loop g i n s) := by
  intro n
  induction n with
  | zero => intro i s _; exact Between.pure
  | succ n ih =>
    intro i s hf
    unfold loopH loop
    have := Between.bind (hf i s (Nat.le_refl _) (by omega)) (fun a _ => ih (i + 1) a fun k s h1 h2 => hf k s (by omega) (by omega))
    have e : ((List.range (n + 1)).map fun k => cost (i + k)).sum = cost i + ((List.range n).map fun k => cost (i + 1 + k)).sum := by
      rw [List.range_succ_eq_map, List.map_cons, List.sum_cons, List.map_map]
      congr 3
      funext k
      show cost (i + (k + 1)) = cost (i + 1 + k)
      rw [show i + (k + 1) = i + 1 + k by omega]
    rw [e]
    exact this

/-- How many hash values it takes to complete the 67 chains of a one-time signature of the 32 bytes `m` (no line of its own). -/
def steps (m : Bytes) : Nat := ((List.range 67).map fun i => 15 - Spec.digit m i).sum

theorem between_wotsPkFromSig (sig : Bytes) (o : Nat) (msg : Bytes) (ctx : Ctx) (addr : Bytes) (hm : msg.length = 32) :
    Between (steps msg) (steps msg) (wotsPkFromSigH sig o msg ctx addr) (wotsPkFromSig shake256F sig o msg ctx addr) := by
  unfold wotsPkFromSigH wotsPkFromSig
  refine Between.bindC fun lengths hl => ?_
  obtain rfl := Except.ok.inj ((chainLengths_run hm).symm.trans hl)
  have := between_loop_at (cost := fun i => 15 - Spec.digit msg i) (f := fun i s => do
    let addr ← onC (setChainAddr s.2 i)
    let l ← onC (rd ((List.range 67).map (Spec.digit msg)) i)
    let (c, addr) ← genChainH sig (o + i * 32) l ((2 ^ 32 + 15 - l) % 2 ^ 32) ctx addr
    let pk ← onC (copy s.1 (i * 32) c 0 32)
    pure (pk, addr)) (g := fun i s => do
    let addr ← setChainAddr s.2 i
    let l ← rd ((List.range 67).map (Spec.digit msg)) i
    let (c, addr) ← genChain shake256F sig (o + i * 32) l ((2 ^ 32 + 15 - l) % 2 ^ 32) ctx addr
    let pk ← copy s.1 (i * 32) c 0 32
    pure (pk, addr)) 67 0 (zeroBytes 2144, addr) ?_
  · simp only [Nat.zero_add] at this
    exact this
  · rintro i ⟨pk, addr⟩ - hi
    refine Between.bindC fun _ _ => Between.bindC fun l h => ?_
    have hl : l = Spec.digit msg i := by
      rw [rd_eq_ok_iff, List.getElem?_map, List.getElem?_range (by omega)] at h
      exact (Option.some.inj h).symm
    have hd := digit_lt msg i
    subst hl
    refine Between.bind1 ((between_genChain _ _ _ _ _ _).mono ?_ ?_) ?_
    · omega
    · omega
    rintro ⟨c, addr⟩ -
    exact Between.bindC fun _ _ => Between.pure

theorem between_forsPkFromSig (sig : Bytes) (o : Nat) (m : Bytes) (ctx : Ctx) (forsAddr : Bytes) :
    Between 351 351 (forsPkFromSigH sig o m ctx forsAddr) (forsPkFromSig shake256F sig o m ctx forsAddr) := by
  unfold forsPkFromSigH forsPkFromSig
  refine Between.bindC fun _ _ => Between.bindC fun _ _ => Between.bindC fun _ _ => Between.bindC fun _ _ => Between.bindC fun _ _ => ?_
  refine Between.bind (l1 := 35 * 10) (h1 := 35 * 10) (l2 := 1) (h2 := 1) (between_loop ?_ 35 0 _) ?_
  · rintro i ⟨roots, treeAddr⟩
    refine Between.bindC fun idx _ => Between.bindC fun _ _ => Between.bindC fun _ _ => ?_
    refine Between.bind (l1 := 1) (h1 := 1) (l2 := 9) (h2 := 9) (between_thash _ _ _ _ _) fun _ _ => ?_
    refine Between.bind1 (between_computeRoot _ _ _ _ _ 9 _ _) ?_
    rintro ⟨root, treeAddr⟩ -
    exact Between.bindC fun _ _ => Between.pure
  · rintro ⟨roots, _⟩ -
    exact between_thash _ _ _ _ _

end Verif.Sphincs.Heap
