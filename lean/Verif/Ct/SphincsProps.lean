import Verif.Ct.SphincsSame

/-!
The property C94: what control flow and memory addresses of SPHINCS+ key generation and signing show about the secret key.
-/

namespace Verif.Ct.Sphincs
open Verif.Sphincs (zeroBytes Ctx LeafInfo shake256F length_shake256F drawn)
open Verif.Sphincs.Spec hiding T wotsPkFromSig forsSign

/-- C94, key generation: control flow and addresses show nothing about the seed. -/
theorem ct_spx_keypair : ∃ t : List Ev, ∀ pk sk seed : Bytes, pk.length = 64 → sk.length = 128 → seed.length = 96 →
    seedKeypair pk sk seed = ⟨.ok (0, publicKey shake256F ⟨seed.drop 64, seed.take 32⟩, seed ++ (publicKey shake256F ⟨seed.drop 64, seed.take 32⟩).drop 32), t⟩ := by
  obtain ⟨t, ht⟩ := exists_trace_same (fun i : Bytes × Bytes × Bytes => seedKeypair i.1 i.2.1 i.2.2)
    (fun i => (0, publicKey shake256F ⟨i.2.2.drop 64, i.2.2.take 32⟩, i.2.2 ++ (publicKey shake256F ⟨i.2.2.drop 64, i.2.2.take 32⟩).drop 32))
    (fun _ => ()) (fun i => i.1.length = 64 ∧ i.2.1.length = 128 ∧ i.2.2.length = 96)
    (fun i h => by rw [seedKeypair_res, Verif.Sphincs.spx_keygen_spec length_shake256F _ _ _ h.1 h.2.1 h.2.2]) (fun _ _ _ => seedKeypair_same)
  exact ⟨t (), fun pk sk seed h1 h2 h3 => ht (pk, sk, seed) ⟨h1, h2, h3⟩⟩

/-! ### The roots that signing goes through are determined by the signature -/

/-- The string signed on layer k (sphincs/sign.c:140-150): the FORS public key, then the root of the tree below. -/
def rootAt (s : Seeds) (tr lf : Nat) : Nat → Bytes
  | 0 => forsPk shake256F s ⟨0, tr, lf⟩
  | k + 1 => xmssRoot shake256F s k (tr / 16 ^ k)

/-- The leaf used on layer k (sphincs/sign.c:133-155). -/
def leafAt (tr lf : Nat) : Nat → Nat
  | 0 => lf
  | k + 1 => tr / 16 ^ k % 16

theorem ht_roots {s s' : Seeds} (hp : s.pub = s'.pub) : ∀ n la tr lf m, lf < 16 → htSign shake256F s n la tr lf m = htSign shake256F s' n la tr lf m →
    ∀ k, k < n → xmssRoot shake256F s (la + k) (tr / 16 ^ k) = xmssRoot shake256F s' (la + k) (tr / 16 ^ k) := by
  have hsh := length_shake256F
  intro n
  induction n with
  | zero => intro _ _ _ _ _ _ k hk; omega
  | succ n ih =>
    intro la tr lf m hlf h k hk
    rw [htSign, htSign] at h
    obtain ⟨h1, h2⟩ := List.append_inj h (by rw [Verif.Sphincs.length_xmssSign hsh, Verif.Sphincs.length_xmssSign hsh])
    have hr : xmssRoot shake256F s la tr = xmssRoot shake256F s' la tr := by
      rw [← Verif.Sphincs.xmss_roundtrip hsh hlf m, ← Verif.Sphincs.xmss_roundtrip hsh (s := s') hlf m, h1, hp]
    cases k with
    | zero => rw [Nat.add_zero, Nat.pow_zero, Nat.div_one, hr]
    | succ k =>
      rw [hr] at h2
      have := ih (la + 1) (tr / 16) (tr % 16) _ (Nat.mod_lt _ (by decide)) h2 k (by omega)
      rw [Nat.div_div_eq_div_mul, Nat.mul_comm 16, ← Nat.pow_succ] at this
      rw [show la + (k + 1) = la + 1 + k by omega]
      exact this

/-- Two secret keys with the same public seed that give the same signature have signed the same strings on all layers. -/
theorem sign_roots {s s' : Seeds} (hp : s.pub = s'.pub) {p p' pk opt opt' m : Bytes} (h : sign shake256F s p pk opt m = sign shake256F s' p' pk opt' m) :
    shake256F (p ++ opt ++ m) 32 = shake256F (p' ++ opt' ++ m) 32 ∧
    ∀ k, k < 18 → rootAt s (treeOf (digest shake256F (shake256F (p ++ opt ++ m) 32) pk m)) (leafOf (digest shake256F (shake256F (p ++ opt ++ m) 32) pk m)) k =
      rootAt s' (treeOf (digest shake256F (shake256F (p ++ opt ++ m) 32) pk m)) (leafOf (digest shake256F (shake256F (p ++ opt ++ m) 32) pk m)) k := by
  have hsh := length_shake256F
  rw [sign, sign] at h
  obtain ⟨hF, h⟩ := List.append_inj h (by rw [List.length_append, List.length_append, hsh, hsh, Verif.Sphincs.length_forsSign hsh, Verif.Sphincs.length_forsSign hsh])
  obtain ⟨hR, hF⟩ := List.append_inj hF (by rw [hsh, hsh])
  rw [← hR] at h hF
  refine ⟨hR, ?_⟩
  generalize digest shake256F (shake256F (p ++ opt ++ m) 32) pk m = d at hF h ⊢
  have h0 : forsPk shake256F s ⟨0, treeOf d, leafOf d⟩ = forsPk shake256F s' ⟨0, treeOf d, leafOf d⟩ := by
    rw [← Verif.Sphincs.fors_roundtrip hsh s _ (mdOf d), ← Verif.Sphincs.fors_roundtrip hsh s' _ (mdOf d), hF, hp]
  intro k hk
  cases k with
  | zero => exact h0
  | succ k =>
    rw [h0] at h
    have := ht_roots hp 17 0 _ _ _ (Verif.Sphincs.leafOf_lt d) h k (by omega)
    rw [Nat.zero_add] at this
    exact this

/-! ### Signing -/

theorem Rel.val {α β : Type} {x : T α} {y : T β} {a : α} {b : β} (h : Same x y) (hx : x.res = .ok a) (hy : y.res = .ok b) : Rel (fun u v => u = a ∧ v = b) x y := by
  intro u v hu hv
  rw [hx] at hu
  rw [hy] at hv
  cases hu
  cases hv
  exact ⟨(h a b hx hy).1, rfl, rfl⟩

/-- One layer: the leaf and the string signed are shown. -/
theorem signStep_same (i : Nat) {ctx ctx' : Ctx} {x y : Bytes × Bytes × Bytes × Bytes × Nat × Nat} (h1 : x.2.1 = y.2.1) (h2 : x.2.2.2.2.2 = y.2.2.2.2.2) :
    Same (signStep ctx i x) (signStep ctx' i y) := by
  obtain ⟨sig, root, w, t, tree, leaf⟩ := x
  obtain ⟨sig', root', w', t', tree', leaf'⟩ := y
  dsimp only at h1 h2
  cases h1
  cases h2
  unfold signStep
  exact setLayerAddr_same.bind fun _ _ _ => setTreeAddr_same.bind fun _ _ _ => copySubtreeAddr_same.bind fun _ _ _ => setKeypairAddr_same.bind fun _ _ _ =>
    (merkleSign_same _ _ fun _ => rfl).bind fun _ _ _ => Rel.pure trivial

/-- The state before layer i of the loop in sphincs/sign.c:143-156. -/
structure StepOk (s : Seeds) (tr lf i : Nat) (x : Bytes × Bytes × Bytes × Bytes × Nat × Nat) : Prop where
  len : 49856 ≤ x.1.length
  root : x.2.1 = rootAt s tr lf i
  tree : x.2.2.2.2.1 = tr / 16 ^ i
  leaf : x.2.2.2.2.2 = leafAt tr lf i
  wots : ∃ la tt x' y z, Verif.Sphincs.Small ⟨la, tt, 0, x', y, z⟩ ∧ x.2.2.1 = (⟨la, tt, 0, x', y, z⟩ : Adrs).bytes
  addr : ∃ la tt y z, Verif.Sphincs.Small ⟨la, tt, 2, 0, y, z⟩ ∧ x.2.2.2.1 = (⟨la, tt, 2, 0, y, z⟩ : Adrs).bytes

theorem length_rootAt (s : Seeds) (tr lf k : Nat) : (rootAt s tr lf k).length = 32 := by
  cases k with
  | zero => exact Verif.Sphincs.length_forsPk length_shake256F _ _
  | succ k => exact Verif.Sphincs.length_xmssRoot length_shake256F _ _ _

theorem leafAt_lt {tr lf : Nat} (h : lf < 16) (k : Nat) : leafAt tr lf k < 16 := by
  cases k with
  | zero => exact h
  | succ k => exact Nat.mod_lt _ (by decide)

theorem signStep_run {s : Seeds} (hpub : s.pub.length = 32) (hsec : s.sec.length = 32) {tr lf i : Nat} (htr : tr < 2 ^ 64) (hlf : lf < 16) (hi : i < 17)
    {x : Bytes × Bytes × Bytes × Bytes × Nat × Nat} (h : StepOk s tr lf i x) : ∃ y, (signStep ⟨s.pub, some s.sec⟩ i x).res = .ok y ∧ StepOk s tr lf (i + 1) y := by
  have hsh := length_shake256F
  obtain ⟨sg, rt, wa, ta, tree, lfi⟩ := x
  obtain ⟨h1, h2, h3, h4, ⟨la, tt, x, y, z, hs1, e4⟩, ⟨la2, tt2, y2, z2, hs2, e5⟩⟩ := h
  dsimp only at h1 h2 h3 h4 e4 e5
  have hlfi : lfi < 16 := by rw [h4]; exact leafAt_lt hlf i
  have htree : tree < 2 ^ 64 := by rw [h3]; exact Nat.lt_of_le_of_lt (Nat.div_le_self _ _) htr
  have g1 := Verif.Sphincs.setLayer' hs2 (v := i) (by omega)
  have g2 := Verif.Sphincs.setTree' g1.2 (v := tree) htree
  have g3 := Verif.Sphincs.copySubtree' hs1 g2.2
  have g4 := Verif.Sphincs.setKeypair' g3.2 (v := lfi) (by omega)
  obtain ⟨X, yy, zz, hXl, hsm, -, e⟩ := Verif.Sphincs.merkleSign_run hsh hpub hsec g4.2 g2.2 (lf := lfi) (sig := sg) (root := rt) (o := 11232 + i * 2272) (by omega)
    (by rw [h2]; exact length_rootAt _ _ _ _)
  subst e4 e5
  refine ⟨(splice sg (11232 + i * 2272) X, xmssRoot shake256F s i tree, (⟨i, tree, 0, lfi, y, z⟩ : Adrs).bytes, (⟨i, tree, 2, 0, yy, zz⟩ : Adrs).bytes, tree >>> 4, tree &&& (2 ^ 4 - 1)), ?_,
    ⟨?_, ?_, ?_, ?_, ⟨i, tree, lfi, y, z, g4.2, rfl⟩, ⟨i, tree, yy, zz, hsm, rfl⟩⟩⟩
  · unfold signStep
    exact bind_ok_res ((setLayerAddr_res _ _).trans g1.1) (bind_ok_res ((setTreeAddr_res _ _).trans g2.1) (bind_ok_res ((copySubtreeAddr_res _ _).trans g3.1)
      (bind_ok_res ((setKeypairAddr_res _ _).trans g4.1) (bind_ok_res ((merkleSign_res _ _ _ _ _ _ _).trans e) rfl))))
  · dsimp only
    rw [length_splice (by omega)]
    exact h1
  · dsimp only [rootAt]
    rw [h3]
  · dsimp only
    rw [h3, Nat.shiftRight_eq_div_pow, Nat.div_div_eq_div_mul, show (2 : Nat) ^ 4 = 16 from rfl, ← Nat.pow_succ]
  · dsimp only [leafAt]
    rw [h3, Nat.and_two_pow_sub_one_eq_mod]

/-- What a secret key consists of (sphincs/sign.c:47): SK_SEED at 0, PUB_SEED at 64. -/
abbrev seeds (sk : Bytes) : Seeds := ⟨slice sk 64 32, sk.take 32⟩

/-- The randomiser that signing computes (sphincs/sign.c:130): the hash of SK_PRF, the random bytes and the message. -/
abbrev rOf (sk opt m : Bytes) : Bytes := shake256F (slice sk 32 32 ++ opt ++ m) 32

/-- Two runs of signing with the same randomiser (which is public) that sign the same strings on all layers. -/
theorem signBody_same {sig sig' m sk sk' opt opt' : Bytes} (hs : 49856 ≤ sig.length) (hs' : 49856 ≤ sig'.length) (hk : sk.length = 128) (hk' : sk'.length = 128)
    (hpk : sk.drop 64 = sk'.drop 64) (ho : opt.length = opt'.length) (hR : rOf sk opt m = rOf sk' opt' m)
    (hr : ∀ k, k < 18 → rootAt (seeds sk) (treeOf (digest shake256F (rOf sk opt m) (sk.drop 64) m)) (leafOf (digest shake256F (rOf sk opt m) (sk.drop 64) m)) k =
      rootAt (seeds sk') (treeOf (digest shake256F (rOf sk opt m) (sk.drop 64) m)) (leafOf (digest shake256F (rOf sk opt m) (sk.drop 64) m)) k) :
    Same (signBody sig m sk opt) (signBody sig' m sk' opt') := by
  have hsh := length_shake256F
  have fresh : ∀ {src : Bytes} {o n : Nat}, o + n ≤ src.length → (copy (zeroBytes n) 0 src o n).res = .ok (slice src o n) := fun h => (copy_res _ _ _ _ _).trans (Verif.Sphincs.copy_fresh h)
  have tail : ∀ {k : Bytes}, k.length = 128 → slice k 64 64 = k.drop 64 := fun h => by
    rw [slice, List.take_of_length_le (by rw [List.length_drop]; omega)]
  have pub : ∀ {k : Bytes}, k.length = 128 → slice (slice k 64 64) 0 32 = slice k 64 32 := fun h => by
    rw [slice_slice (by omega)]
  have sec : ∀ {k : Bytes}, slice k 0 32 = k.take 32 := fun {k} => by rw [slice, List.drop_zero]
  have t1 := Verif.Sphincs.setType0 (v := 0) (by omega)
  have t2 := Verif.Sphincs.setType0 (v := 2) (by omega)
  have hRl : (rOf sk opt m).length = 32 := hsh _ _
  unfold signBody
  refine (Rel.val Same.copy (fresh (by omega)) (fresh (by omega))).bind ?_
  rintro _ _ ⟨rfl, rfl⟩
  refine (Rel.val Same.copy (fresh (by omega)) (fresh (by omega))).bind ?_
  rintro _ _ ⟨rfl, rfl⟩
  refine (Rel.val Same.copy (fresh (by omega)) (fresh (by omega))).bind ?_
  rintro _ _ ⟨rfl, rfl⟩
  refine (Rel.val Same.copy (fresh (by rw [length_slice (by omega)]; omega)) (fresh (by rw [length_slice (by omega)]; omega))).bind ?_
  rintro _ _ ⟨rfl, rfl⟩
  rw [pub hk, pub hk', sec (k := sk), sec (k := sk'), tail hk, tail hk']
  dsimp only
  refine (Rel.val setType_same ((setType_res _ _).trans t1.1) ((setType_res _ _).trans t1.1)).bind ?_
  rintro _ _ ⟨rfl, rfl⟩
  refine (Rel.val setType_same ((setType_res _ _).trans t2.1) ((setType_res _ _).trans t2.1)).bind ?_
  rintro _ _ ⟨rfl, rfl⟩
  refine (Rel.val (genMessageRandom_same (by rw [length_slice (by omega), length_slice (by omega)]) ho rfl) (genMessageRandom_res _ _ _) (genMessageRandom_res _ _ _)).bind ?_
  rintro _ _ ⟨rfl, rfl⟩
  rw [show Verif.Sphincs.genMessageRandom shake256F (slice sk 32 32) opt m = rOf sk opt m from rfl,
    show Verif.Sphincs.genMessageRandom shake256F (slice sk' 32 32) opt' m = rOf sk' opt' m from rfl, ← hR, ← hpk]
  generalize rOf sk opt m = R at hr hRl ⊢
  have l1 : ∀ {g : Bytes}, 49856 ≤ g.length → (splice g 0 R).length = g.length := fun h => length_splice (by omega)
  have c5 : ∀ {g : Bytes}, 49856 ≤ g.length → slice (splice g 0 R) 0 32 = R := fun h => by
    rw [Verif.Sphincs.slice_splice_in (by omega) (by omega), Nat.sub_zero]; exact Verif.Sphincs.slice_all hRl
  refine (Rel.val Same.copy ((copy_res _ _ _ _ _).trans (Verif.Sphincs.copy_all hRl (by omega))) ((copy_res _ _ _ _ _).trans (Verif.Sphincs.copy_all hRl (by omega)))).bind ?_
  rintro _ _ ⟨rfl, rfl⟩
  refine (Rel.val Same.copy (fresh (by rw [l1 hs]; omega)) (fresh (by rw [l1 hs']; omega))).bind ?_
  rintro _ _ ⟨rfl, rfl⟩
  rw [c5 hs, c5 hs']
  have hm := (hashMessage_res R (sk.drop 64) m).trans (Verif.Sphincs.hashMessage_run hsh R (sk.drop 64) m)
  have hd : (mdOf (digest shake256F R (sk.drop 64) m)).length = 40 := by rw [mdOf, List.length_take, digest, hsh]; rfl
  refine (Rel.val (hashMessage_same rfl rfl rfl) hm hm).bind ?_
  rintro _ _ ⟨rfl, rfl⟩
  generalize digest shake256F R (sk.drop 64) m = d at hr hd ⊢
  have htr := Verif.Sphincs.treeOf_lt d
  have hlf := Verif.Sphincs.leafOf_lt d
  generalize treeOf d = tr at *
  generalize leafOf d = lf at *
  dsimp only
  have t3 := Verif.Sphincs.setTree' t1.2 (v := tr) htr
  have t4 := Verif.Sphincs.setKeypair' t3.2 (v := lf) (by omega)
  refine (Rel.val setTreeAddr_same ((setTreeAddr_res _ _).trans t3.1) ((setTreeAddr_res _ _).trans t3.1)).bind ?_
  rintro _ _ ⟨rfl, rfl⟩
  refine (Rel.val setKeypairAddr_same ((setKeypairAddr_res _ _).trans t4.1) ((setKeypairAddr_res _ _).trans t4.1)).bind ?_
  rintro _ _ ⟨rfl, rfl⟩
  have hl : Verif.Sphincs.LocOk ⟨0, tr, lf⟩ := ⟨Nat.zero_lt_succ _, htr, by dsimp only; omega⟩
  have ps : ∀ {k : Bytes}, k.length = 128 → (seeds k).pub.length = 32 := fun h => length_slice (by omega)
  have ss : ∀ {k : Bytes}, k.length = 128 → (seeds k).sec.length = 32 := fun h => by dsimp only; rw [List.length_take]; omega
  have f : ∀ {k g : Bytes}, k.length = 128 → 49856 ≤ g.length → (forsSign (splice g 0 R) 32 (mdOf d) ⟨slice k 64 32, some (k.take 32)⟩ (⟨0, tr, 0, lf, 0, 0⟩ : Adrs).bytes).res =
      .ok (splice (splice g 0 R) 32 (Verif.Sphincs.Spec.forsSign shake256F (seeds k) ⟨0, tr, lf⟩ (mdOf d)), forsPk shake256F (seeds k) ⟨0, tr, lf⟩) := fun {k g} h1 h2 =>
    (forsSign_res _ _ _ _ _).trans (Verif.Sphincs.forsSign_run hsh (ps h1) (ss h1) hl t4.2 (by rw [l1 h2]; omega) hd)
  refine (Rel.val (forsSign_same _ _) (f hk hs) (f hk' hs')).bind ?_
  rintro _ _ ⟨rfl, rfl⟩
  dsimp only
  have l2 : ∀ {k g : Bytes}, 49856 ≤ g.length → 49856 ≤ (splice (splice g 0 R) 32 (Verif.Sphincs.Spec.forsSign shake256F (seeds k) ⟨0, tr, lf⟩ (mdOf d))).length := fun {k g} h => by
    rw [length_splice (by rw [Verif.Sphincs.length_forsSign hsh, l1 h]; omega), l1 h]; exact h
  have init : ∀ {k g : Bytes}, 49856 ≤ g.length → StepOk (seeds k) tr lf 0 (splice (splice g 0 R) 32 (Verif.Sphincs.Spec.forsSign shake256F (seeds k) ⟨0, tr, lf⟩ (mdOf d)),
      forsPk shake256F (seeds k) ⟨0, tr, lf⟩, (⟨0, tr, 0, lf, 0, 0⟩ : Adrs).bytes, (⟨0, 0, 2, 0, 0, 0⟩ : Adrs).bytes, tr, lf) := fun {k g} h =>
    ⟨l2 h, rfl, by dsimp only; rw [Nat.pow_zero, Nat.div_one], rfl, ⟨0, tr, lf, 0, 0, t4.2, rfl⟩, ⟨0, 0, 0, 0, t2.2, rfl⟩⟩
  refine Rel.bind (Rel.loop (R := fun i x y => StepOk (seeds sk) tr lf i x ∧ StepOk (seeds sk') tr lf i y) 0 17 ⟨init hs, init hs'⟩ ?_) fun _ _ _ => Rel.pure trivial
  rintro i x y _ hi ⟨hx, hy⟩
  refine ((signStep_same i ?_ ?_).and (P := StepOk (seeds sk) tr lf (i + 1)) (Q := StepOk (seeds sk') tr lf (i + 1)) ?_ ?_).mono fun _ _ h => h.2
  · rw [hx.root, hy.root, hr i (by omega)]
  · rw [hx.leaf, hy.leaf]
  · intro a ha
    obtain ⟨z, e, hz⟩ := signStep_run (ps hk) (ss hk) htr hlf (by omega) hx
    cases e.symm.trans ha
    exact hz
  · intro a ha
    obtain ⟨z, e, hz⟩ := signStep_run (ps hk') (ss hk') htr hlf (by omega) hy
    cases e.symm.trans ha
    exact hz

/-- C94, signing: everything that control flow and addresses show can be computed from the public key, the message and the signature itself.  (`opt` is what
the random source gave.) -/
theorem ct_spx_sign : ∃ t : Bytes → Bytes → Bytes → List Ev, ∀ sig m sk opt : Bytes, 49856 ≤ sig.length → sk.length = 128 → opt.length = 32 →
    signBody sig m sk opt = ⟨.ok (sign shake256F (seeds sk) (slice sk 32 32) (sk.drop 64) opt m ++ sig.drop 49856),
      t (sk.drop 64) m (sign shake256F (seeds sk) (slice sk 32 32) (sk.drop 64) opt m)⟩ := by
  have hsh := length_shake256F
  have run : ∀ sig m sk opt : Bytes, 49856 ≤ sig.length → sk.length = 128 →
      (signBody sig m sk opt).res = .ok (sign shake256F (seeds sk) (slice sk 32 32) (sk.drop 64) opt m ++ sig.drop 49856) := by
    intro sig m sk opt h1 h2
    have e : sk.drop 64 = slice sk 64 32 ++ sk.drop 96 := by
      rw [slice, show 96 = 64 + 32 from rfl, ← List.drop_drop, List.take_append_drop]
    have h := Verif.Sphincs.signBody_run' hsh (s := seeds sk) (length_slice (by omega)) (by dsimp only; rw [List.length_take]; omega) (prfKey := slice sk 32 32) (root := sk.drop 96)
      (length_slice (by omega)) (by rw [List.length_drop, h2]) h1 m opt
    dsimp only [seeds] at h
    rw [← e, ← Verif.Sphincs.split3] at h
    rw [signBody_res, h, splice, List.take_zero, List.nil_append, Nat.zero_add, Verif.Sphincs.length_sign hsh]
  obtain ⟨t, ht⟩ := exists_trace (fun i : Bytes × Bytes × Bytes × Bytes => signBody i.1 i.2.1 i.2.2.1 i.2.2.2)
    (fun i => .ok (sign shake256F (seeds i.2.2.1) (slice i.2.2.1 32 32) (i.2.2.1.drop 64) i.2.2.2 i.2.1 ++ i.1.drop 49856))
    (fun i => (i.2.2.1.drop 64, i.2.1, sign shake256F (seeds i.2.2.1) (slice i.2.2.1 32 32) (i.2.2.1.drop 64) i.2.2.2 i.2.1))
    (fun i => 49856 ≤ i.1.length ∧ i.2.2.1.length = 128 ∧ i.2.2.2.length = 32)
    (fun i h => run _ _ _ _ h.1 h.2.1)
    (fun i j hi hj e => by
      obtain ⟨sig, m, sk, opt⟩ := i
      obtain ⟨sig', m', sk', opt'⟩ := j
      dsimp only at hi hj e ⊢
      injection e with e1 e
      injection e with e2 e3
      subst e2
      have hp : (seeds sk).pub = (seeds sk').pub := by
        dsimp only
        rw [slice, slice, e1]
      rw [← e1] at e3
      obtain ⟨hR, hr⟩ := sign_roots hp e3
      exact (signBody_same hi.1 hj.1 hi.2.1 hj.2.1 e1 (by rw [hi.2.2, hj.2.2]) hR hr _ _ (run _ _ _ _ hi.1 hi.2.1) (run _ _ _ _ hj.1 hj.2.1)).1)
  exact ⟨fun a b c => t (a, b, c), fun sig m sk opt h1 h2 h3 => ht (sig, m, sk, opt) ⟨h1, h2, h3⟩⟩

/-- Different seeds, same trace. -/
example : (seedKeypair (List.replicate 64 0) (List.replicate 128 0) (List.replicate 96 1)).tr = (seedKeypair (List.replicate 64 5) (List.replicate 128 3) (List.replicate 96 200)).tr := by
  obtain ⟨t, ht⟩ := ct_spx_keypair
  rw [ht _ _ _ (by rw [List.length_replicate]) (by rw [List.length_replicate]) (by rw [List.length_replicate]), ht _ _ _ (by rw [List.length_replicate]) (by rw [List.length_replicate]) (by rw [List.length_replicate])]

/-- The hypotheses of `ct_spx_sign` are met by a key, a message and a buffer. -/
example : ∃ t : Bytes × List Ev, signBody (List.replicate 49856 0) [1, 2, 3] (List.replicate 128 7) (List.replicate 32 9) = ⟨.ok t.1, t.2⟩ := by
  obtain ⟨t, ht⟩ := ct_spx_sign
  exact ⟨(_, _), ht _ _ _ _ (by rw [List.length_replicate]) (by rw [List.length_replicate]) (by rw [List.length_replicate])⟩

end Verif.Ct.Sphincs
