import Verif.Sphincs.Forge

/-!
The property C96: what an accepted SPHINCS+ signature under a generated key contains.
-/

namespace Verif.Sphincs
open Verif Spec

variable (H : Bytes → Nat → Bytes)

/-- `sig` is the signature of `m` that a successful call of the signing code (sphincs/sign.c:100-160) gave. -/
def Made (sk m sig : Bytes) : Prop := ∃ (sig0 : Bytes) (n0 : Nat) (R R' : Rng), sig0.length = 49856 ∧ signature H sig0 n0 m sk R = .ok ((0, sig, 49856), R')

/-- Two digests select the same leaf of the same FORS tree number `t` (compare sphincs/fors.c:29-45, sphincs/hash_shake.c:50-82). -/
def SameFors (d d' : Bytes) (t : Nat) : Prop := treeOf d = treeOf d' ∧ leafOf d = leafOf d' ∧ forsIndex (mdOf d) t = forsIndex (mdOf d') t

/-- The 35 leaves that the digest `d` selects are all selected by digests of the given messages and signatures, and the 35 secret values in `sig` are those in these signatures
(compare sphincs/fors.c:29-45, sphincs/fors.c:66-109). -/
def Covered (pk : Bytes) (qs : List (Bytes × Bytes)) (d sig : Bytes) : Prop :=
  ∀ t, t < 35 → ∃ q ∈ qs, SameFors (digest H (q.2.take 32) pk q.1) d t ∧ slice sig (32 + 320 * t) 32 = slice q.2 (32 + 320 * t) 32

/-- The address of the secret value of the leaf that the digest selects in FORS tree number `t` (compare sphincs/fors.c:13-16, sphincs/fors.c:84-91). -/
def forsPrfAdrs (d : Bytes) (t : Nat) : Adrs := ⟨0, treeOf d, 6, leafOf d, 0, t * 512 + forsIndex (mdOf d) t⟩

/-- `sig` has, for some FORS tree, the secret value of the leaf that `d` selects, and none of the digests `ds` selects this leaf: the 32 address bytes that the secret value is made from are not
those of any secret value that a signature with a digest in `ds` gives out (compare sphincs/fors.c:66-109). -/
def RevealsFors (s : Seeds) (ds : List Bytes) (d sig : Bytes) : Prop :=
  ∃ t, t < 35 ∧ slice sig (32 + 320 * t) 32 = prf H s (forsPrfAdrs d t) ∧ ∀ d' ∈ ds, ∀ t', t' < 35 → (forsPrfAdrs d' t').bytes ≠ (forsPrfAdrs d t).bytes

/-- What an accepted signature contains when the messages and signatures in `qs` are known: a second preimage among the strings that verification of it hashes, a chain value before the one that the one-time key gives out, a
FORS secret value that was not given out, or only FORS secret values that were given out (compare sphincs/sign.c:169-240). -/
def Breaks (s : Seeds) (pk : Bytes) (qs : List (Bytes × Bytes)) (m sig : Bytes) : Prop :=
  SecondPreimage H s (verifyCalls H pk sig m) ∨ RevealsWots H s (digest H (sig.take 32) pk m) sig ∨
  (sig = signWith H s (sig.take 32) pk m ∧
    (RevealsFors H s (qs.map fun q => digest H (q.2.take 32) pk q.1) (digest H (sig.take 32) pk m) sig ∨ Covered H pk qs (digest H (sig.take 32) pk m) sig))

/-- C96: two FORS secret values are made from the same address bytes only if the digests select the same leaf in the same tree. -/
theorem forsPrfAdrs_iff {d d' : Bytes} {t t' : Nat} (ht : t < 35) (ht' : t' < 35) :
    (forsPrfAdrs d t).bytes = (forsPrfAdrs d' t').bytes ↔ t = t' ∧ SameFors d d' t' := by
  have i1 : forsIndex (mdOf d) t < 512 := Nat.mod_lt _ (by omega)
  have i2 : forsIndex (mdOf d') t' < 512 := Nat.mod_lt _ (by omega)
  have l1 : leafOf d < 16 := Nat.mod_lt _ (by omega)
  have l2 : leafOf d' < 16 := Nat.mod_lt _ (by omega)
  have t1 := treeOf_lt d
  have t2 := treeOf_lt d'
  constructor
  · intro e
    have e := address_injective (forsPrfAdrs d t) (forsPrfAdrs d' t') (by simp only [forsPrfAdrs]; omega) (by simp only [forsPrfAdrs]; omega) (by simp only [forsPrfAdrs]; omega)
      (by simp only [forsPrfAdrs]; omega) (by simp only [forsPrfAdrs]; omega) (by simp only [forsPrfAdrs]; omega) (by simp only [forsPrfAdrs]; omega) (by simp only [forsPrfAdrs]; omega)
      (by simp only [forsPrfAdrs]; omega) (by simp only [forsPrfAdrs]; omega) (by simp only [forsPrfAdrs]; omega) (by simp only [forsPrfAdrs]; omega) e
    simp only [forsPrfAdrs, Adrs.mk.injEq, true_and] at e
    obtain ⟨e1, e2, e3⟩ := e
    obtain rfl : t = t' := by omega
    exact ⟨rfl, e1, e2, by omega⟩
  · rintro ⟨rfl, e1, e2, e3⟩
    unfold forsPrfAdrs
    rw [e1, e2, e3]

section
variable {H} (hH : ∀ m n, (H m n).length = n)
include hH

omit hH in
theorem sign_eq_signWith (s : Seeds) (p pk opt m : Bytes) : sign H s p pk opt m = signWith H s (H (p ++ opt ++ m) 32) pk m := rfl

theorem fors_part (s : Seeds) {R pk m : Bytes} (hR : R.length = 32) {t : Nat} (ht : t < 35) : slice (signWith H s R pk m) (32 + 320 * t) 32 =
    forsSk H s ⟨0, treeOf (digest H R pk m), leafOf (digest H R pk m)⟩ t (forsIndex (mdOf (digest H R pk m)) t) := by
  unfold signWith
  generalize digest H R pk m = d
  have lf := length_forsSign hH s ⟨0, treeOf d, leafOf d⟩ (mdOf d)
  have lk : ∀ t, t < 35 → (forsSk H s ⟨0, treeOf d, leafOf d⟩ t (forsIndex (mdOf d) t) ++ authPath H s.pub (forsAdrs ⟨0, treeOf d, leafOf d⟩ t)
      (forsLeaf H s ⟨0, treeOf d, leafOf d⟩ t) 9 (forsIndex (mdOf d) t)).length = 320 := fun t _ => by
    rw [List.length_append, length_forsSk hH, length_authPath hH (fun _ => length_forsLeaf hH _ _ _ _)]
  rw [List.append_assoc, slice, ← List.drop_drop, List.drop_left' hR, List.drop_append_of_le_length (by omega), List.take_append_of_le_length (by rw [List.length_drop]; omega)]
  have e := slice_flatMap lk ht
  rw [← Spec.forsSign, slice] at e
  have e2 := congrArg (List.take 32) e
  rw [List.take_take, Nat.min_eq_left (by omega), List.take_left' (length_forsSk hH _ _ _ _), Nat.mul_comm t 320] at e2
  exact e2

theorem ht_part (s : Seeds) : ∀ (n la tr lf k i : Nat), k < n → i < 67 →
    slice (htSign H s n la tr lf (signed H s ⟨la, tr, lf⟩)) (2272 * k + 32 * i) 32 =
      chain H s.pub (wotsAdrs (Loc.way la tr lf k) i) (wotsSk H s (Loc.way la tr lf k) i) 0 (digit (signed H s (Loc.way la tr lf k)) i) := by
  intro n
  induction n with
  | zero => intro _ _ _ k _ hk; omega
  | succ n ih =>
    intro la tr lf k i hk hi
    rw [htSign]
    have lx := length_xmssSign hH s la tr lf (signed H s ⟨la, tr, lf⟩)
    cases k with
    | zero =>
      rw [way_zero, Nat.mul_zero, Nat.zero_add]
      have lw := length_wotsSig hH s ⟨la, tr, lf⟩ (signed H s ⟨la, tr, lf⟩)
      rw [xmssSign, List.append_assoc, slice, List.drop_append_of_le_length (by omega), List.take_append_of_le_length (by rw [List.length_drop]; omega)]
      have lk : ∀ i, i < 67 → (chain H s.pub (wotsAdrs ⟨la, tr, lf⟩ i) (wotsSk H s ⟨la, tr, lf⟩ i) 0 (digit (signed H s ⟨la, tr, lf⟩) i)).length = 32 :=
        fun i _ => length_chain hH (length_prf hH _ _) _ _
      have e := slice_flatMap lk hi
      rw [← wotsSig, slice, Nat.mul_comm] at e
      exact e
    | succ k =>
      have e := ih (la + 1) (tr / 16) (tr % 16) k i (by omega) hi
      have eM : signed H s ⟨la + 1, tr / 16, tr % 16⟩ = xmssRoot H s la tr := by
        show xmssRoot H s la (16 * (tr / 16) + tr % 16) = _
        rw [Nat.div_add_mod]
      rw [eM] at e
      rw [slice, show 2272 * (k + 1) + 32 * i = 2272 + (2272 * k + 32 * i) by omega, ← List.drop_drop, List.drop_left' lx, ← slice, e, way_succ]

/-- A successful call of the signing code under a generated key. -/
theorem made_eq {pk0 sk0 seed pk sk : Bytes} (hpk : pk0.length = 64) (hsk : sk0.length = 128) (hs : seed.length = 96) (hgen : seedKeypair H pk0 sk0 seed = .ok (0, pk, sk))
    {m sig : Bytes} (h : Made H sk m sig) : sig.length = 49856 ∧ sig = signWith H ⟨seed.drop 64, seed.take 32⟩ (sig.take 32) pk m := by
  rw [spx_keygen_spec hH pk0 sk0 seed hpk hsk hs] at hgen
  simp only [Except.ok.injEq, Prod.mk.injEq, true_and] at hgen
  obtain ⟨e1, e2⟩ := hgen
  have hpub : (seed.drop 64).length = 32 := by rw [List.length_drop, hs]
  have hpl : pk.length = 64 := by rw [← e1, publicKey, List.length_append, length_xmssRoot hH]; exact congrArg (· + 32) hpub
  rw [e1] at e2
  have hsl : sk.length = 128 := by rw [← e2, List.length_append, List.length_drop, hpl, hs]
  obtain ⟨sig0, n0, R, R', h0, h⟩ := h
  rw [spx_sign_spec hH sig0 m sk n0 R (by omega) hsl] at h
  cases hd : R.draw R.log.length 32 with
  | none => rw [hd] at h; simp at h
  | some opt =>
    rw [hd] at h
    simp only [Except.ok.injEq, Prod.mk.injEq, true_and, and_true] at h
    obtain ⟨h, -⟩ := h
    rw [List.drop_of_length_le (Nat.le_of_eq h0), List.append_nil] at h
    have g1 : slice sk 64 32 = seed.drop 64 := by rw [← e2, slice, List.drop_append_of_le_length (by omega), List.take_left' hpub]
    have g2 : sk.take 32 = seed.take 32 := by rw [← e2]; exact List.take_append_of_le_length (by omega)
    have g3 : sk.drop 64 = pk := by
      rw [← e2, List.drop_append_of_le_length (by omega), ← e1, publicKey]
      simp only
      rw [List.drop_left' hpub]
    rw [g1, g2, g3, sign_eq_signWith] at h
    have hl : (H (slice sk 32 32 ++ opt ++ m) 32).length = 32 := hH _ _
    have hlen : sig.length = 49856 := by rw [← h, ← sign_eq_signWith]; exact length_sign hH _ _ _ _ _
    refine ⟨hlen, ?_⟩
    have ht : sig.take 32 = H (slice sk 32 32 ++ opt ++ m) 32 := by rw [← h, signWith, List.append_assoc, List.take_left' hl]
    rw [ht]
    exact h.symm

/-- C96: what signatures give out.  A signature that the code makes has, for each of the 35 FORS trees, the secret value of the leaf that its digest selects and, for each of
the 17 one-time keys on the way from the leaf that its digest selects to the root, the chain values of the string that this one-time key always signs. -/
theorem spx_gives_out {pk0 sk0 seed pk sk : Bytes} (hpk : pk0.length = 64) (hsk : sk0.length = 128) (hs : seed.length = 96) (hgen : seedKeypair H pk0 sk0 seed = .ok (0, pk, sk))
    {m sig : Bytes} (h : Made H sk m sig) :
    sig.length = 49856 ∧
    (∀ t, t < 35 → slice sig (32 + 320 * t) 32 = forsSk H ⟨seed.drop 64, seed.take 32⟩
      ⟨0, treeOf (digest H (sig.take 32) pk m), leafOf (digest H (sig.take 32) pk m)⟩ t (forsIndex (mdOf (digest H (sig.take 32) pk m)) t)) ∧
    ∀ k, k < 17 → (Loc.used (digest H (sig.take 32) pk m) k).In ∧ ∀ i, i < 67 → slice sig (11232 + 2272 * k + 32 * i) 32 =
      chain H (seed.drop 64) (wotsAdrs (Loc.used (digest H (sig.take 32) pk m) k) i) (wotsSk H ⟨seed.drop 64, seed.take 32⟩ (Loc.used (digest H (sig.take 32) pk m) k) i) 0
        (digit (signed H ⟨seed.drop 64, seed.take 32⟩ (Loc.used (digest H (sig.take 32) pk m) k)) i) := by
  obtain ⟨hl, e⟩ := made_eq hH hpk hsk hs hgen h
  have hR : (sig.take 32).length = 32 := by rw [List.length_take, hl]; rfl
  refine ⟨hl, fun t ht => ?_, fun k hk => ?_⟩
  · rw [← fors_part hH _ hR ht, ← e]
  · generalize hd : digest H (sig.take 32) pk m = d
    have htree : treeOf d < 16 ^ 16 := by
      have := ofBe_lt (slice d 40 8)
      have hl : (slice d 40 8).length ≤ 8 := by unfold slice; exact List.length_take_le _ _
      exact Nat.lt_of_lt_of_le this (Nat.le_trans (Nat.pow_le_pow_right (by omega) hl) (by decide))
    refine ⟨⟨by show 0 + k < 17; omega, ?_, ?_⟩, fun i hi => ?_⟩
    · show treeOf d / 16 ^ k < 16 ^ (16 - (0 + k))
      rw [Nat.div_lt_iff_lt_mul (Nat.pow_pos (by omega)), ← Nat.pow_add, show 16 - (0 + k) + k = 16 by omega]
      exact htree
    · show (if k = 0 then leafOf d else treeOf d / 16 ^ (k - 1) % 16) < 16
      split
      · exact Nat.mod_lt _ (by omega)
      · exact Nat.mod_lt _ (by omega)
    · have := ht_part hH ⟨seed.drop 64, seed.take 32⟩ 17 0 (treeOf d) (leafOf d) k i hk hi
      refine Eq.trans ?_ this
      conv_lhs => rw [e]
      unfold signWith
      rw [hd, slice, slice, Nat.add_assoc, ← List.drop_drop, List.drop_left' (by rw [List.length_append, length_forsSign hH, hR])]
      rfl

/-- `Breaks` for the specification. -/
theorem breaks_of_valid {s : Seeds} (hp : s.pub.length = 32) {qs : List (Bytes × Bytes)}
    (hq : ∀ q ∈ qs, q.2.length = 49856 ∧ q.2 = signWith H s (q.2.take 32) (publicKey H s) q.1) {m sig : Bytes} (hV : Valid H (publicKey H s) sig m) :
    Breaks H s (publicKey H s) qs m sig := by
  have hl := hV.1
  rcases forge_inv hH hp hV with c | c | c
  · exact .inl c
  · exact .inr (.inl c)
  · refine .inr (.inr ⟨c, ?_⟩)
    have part : ∀ t, t < 35 → slice sig (32 + 320 * t) 32 = prf H s (forsPrfAdrs (digest H (sig.take 32) (publicKey H s) m) t) := fun t ht =>
      (congrArg (fun x => slice x (32 + 320 * t) 32) c).trans (fors_part hH _ (by rw [List.length_take, hl]; rfl) ht)
    by_cases hc : ∀ t, t < 35 → ∃ q ∈ qs, SameFors (digest H (q.2.take 32) (publicKey H s) q.1) (digest H (sig.take 32) (publicKey H s) m) t
    · refine .inr fun t ht => ?_
      obtain ⟨q, hqm, hq'⟩ := hc t ht
      obtain ⟨lq, eq⟩ := hq q hqm
      refine ⟨q, hqm, hq', (part t ht).trans (Eq.symm ?_)⟩
      refine (congrArg (fun x => slice x (32 + 320 * t) 32) eq).trans ((fors_part hH _ (by rw [List.length_take, lq]; rfl) ht).trans ?_)
      rw [hq'.1, hq'.2.1, hq'.2.2]
      rfl
    · simp only [not_forall, not_exists, not_and] at hc
      obtain ⟨t, ht, hn⟩ := hc
      refine .inl ⟨t, ht, part t ht, fun d' h' t' ht' e => ?_⟩
      obtain ⟨rfl, h⟩ := (forsPrfAdrs_iff ht' ht).1 e
      obtain ⟨q, hqm, rfl⟩ := List.mem_map.1 h'
      exact hn q hqm h

omit hH in
/-- Verification applies the tweakable hash function at most 17521 times, so that the first case of `Breaks` speaks of one of few explicit strings. -/
theorem verifyCalls_length (pk sig m : Bytes) : (verifyCalls H pk sig m).length ≤ 17521 := by
  have sum : ∀ (f : Nat → List Call) (n k : Nat), (∀ i, (f i).length ≤ k) → ((List.range n).flatMap f).length ≤ n * k := by
    intro f n k hf
    induction n with
    | zero => exact Nat.zero_le _
    | succ n ih =>
      rw [List.range_succ, List.flatMap_append, List.flatMap_singleton, List.length_append, Nat.succ_mul]
      exact Nat.add_le_add ih (hf n)
  have hc : ∀ pub a x k n, (chainCalls H pub a x k n).length = n := fun _ _ _ _ _ => by rw [chainCalls, List.length_map, List.length_range]
  have hd : ∀ pub adrs leaf auth i D, (climbCalls H pub adrs leaf auth i D).length = D := fun _ _ _ _ _ _ => by rw [climbCalls, List.length_map, List.length_range]
  have hx : ∀ pub la tr lf sig m, (xmssCalls H pub la tr lf sig m).length ≤ 1010 := fun pub la tr lf sig m => by
    rw [xmssCalls, wotsCalls, List.length_append, List.length_append, hd]
    have := sum (fun i => chainCalls H pub (wotsAdrs ⟨la, tr, lf⟩ i) (slice (sig.take 2144) (32 * i) 32) (digit m i) (15 - digit m i)) 67 15 (fun i => by rw [hc]; omega)
    show _ + 1 + 4 ≤ _
    omega
  have hh : ∀ n pub la tr lf sig m, (htCalls H pub n la tr lf sig m).length ≤ n * 1010 := fun n => by
    induction n with
    | zero => intro _ _ _ _ _ _; exact Nat.zero_le _
    | succ n ih =>
      intro pub la tr lf sig m
      rw [htCalls, List.length_append]
      have := hx pub la tr lf (sig.take 2272) m
      have := ih pub (la + 1) (tr / 16) (tr % 16) (sig.drop 2272) (xmssRootFromSig H pub la tr lf (sig.take 2272) m)
      omega
  have hf : ∀ pub l sig md, (forsCalls H pub l sig md).length ≤ 351 := fun pub l sig md => by
    rw [forsCalls, List.length_append]
    have := sum (fun t => (forsAdrs l t 0 (forsIndex md t), slice sig (320 * t) 32) ::
      climbCalls H pub (forsAdrs l t) (T H pub (forsAdrs l t 0 (forsIndex md t)) (slice sig (320 * t) 32)) (slice sig (320 * t + 32) 288) (forsIndex md t) 9) 35 10
      (fun t => by rw [List.length_cons, hd])
    show _ + 1 ≤ _
    omega
  unfold verifyCalls
  simp only
  rw [List.length_append]
  exact Nat.add_le_add (hf _ _ _ _) (hh 17 _ _ _ _ _ _)

/-- C96: an accepted signature.  Let `qs` be messages and signatures that the signing code made under a generated key, and let verification accept `sig` for `m`.  Then at
least one of these holds: one of the strings that this verification hashes is a second preimage for a hash value of the trees of the key pair; `sig` has, for a one-time key on the way that its digest selects, a chain value before the one that this one-time key gives
out; `sig` has the FORS secret value of a leaf that no digest of `qs` selects (`spx_gives_out` says which values signatures give out); or the leaves that the digest of `(m, sig)` selects are all selected by digests of `qs` and the 35 secret values are copies of those in these signatures.  In the last
two cases `sig` is what the signing code makes with the randomiser in its first 32 bytes. -/
theorem spx_forgery {pk0 sk0 seed pk sk : Bytes} (hpk : pk0.length = 64) (hsk : sk0.length = 128) (hs : seed.length = 96) (hgen : seedKeypair H pk0 sk0 seed = .ok (0, pk, sk))
    {qs : List (Bytes × Bytes)} (hq : ∀ q ∈ qs, Made H sk q.1 q.2) {m sig : Bytes} (hv : verify H sig sig.length m pk = .ok 0) :
    Breaks H ⟨seed.drop 64, seed.take 32⟩ pk qs m sig := by
  have hgen' := hgen
  rw [spx_keygen_spec hH pk0 sk0 seed hpk hsk hs] at hgen'
  simp only [Except.ok.injEq, Prod.mk.injEq, true_and] at hgen'
  obtain ⟨e1, -⟩ := hgen'
  have hpub : (seed.drop 64).length = 32 := by rw [List.length_drop, hs]
  have hpl : pk.length = 64 := by rw [← e1, publicKey, List.length_append, length_xmssRoot hH]; exact congrArg (· + 32) hpub
  have hV : Valid H pk sig m := by
    rcases spx_verify_spec hH sig m pk sig.length (Nat.le_refl _) hpl with ⟨-, hl, h⟩ | ⟨h, -⟩
    · rwa [List.take_of_length_le (by omega)] at h
    · rw [hv] at h; simp at h
  have hm : ∀ q ∈ qs, q.2.length = 49856 ∧ q.2 = signWith H ⟨seed.drop 64, seed.take 32⟩ (q.2.take 32) pk q.1 := fun q hqm => made_eq hH hpk hsk hs hgen (hq q hqm)
  subst e1
  exact breaks_of_valid hH (s := ⟨seed.drop 64, seed.take 32⟩) hpub hm hV

end

/-- The hypotheses of `spx_forgery` and `spx_gives_out` are met, for SHAKE256 and every seed: here by the signature of one message. -/
example (seed m : Bytes) (hs : seed.length = 96) : ∃ pk sk sig, seedKeypair shake256F (List.replicate 64 0) (List.replicate 128 0) seed = .ok (0, pk, sk) ∧
    (∀ q ∈ [(m, sig)], Made shake256F sk q.1 q.2) ∧ verify shake256F sig sig.length m pk = .ok 0 := by
  obtain ⟨pk, sk, hg, -, -, h⟩ := spx_roundtrip length_shake256F (List.replicate 64 0) (List.replicate 128 0) seed List.length_replicate List.length_replicate hs
  obtain ⟨code, sig, n, h1, h2, h3⟩ := h (List.replicate 49856 0) m 0 ⟨fun _ n => some (List.replicate n 0), fun _ n b hb => by cases hb; exact List.length_replicate, []⟩ List.length_replicate
  obtain rfl := h2.2 (by simp)
  obtain ⟨rfl, hl, hv⟩ := h3 rfl
  refine ⟨pk, sk, sig, hg, ?_, by rw [hl]; exact hv⟩
  intro q hq
  obtain rfl := List.mem_singleton.1 hq
  exact ⟨_, _, _, _, List.length_replicate, h1⟩

/-- The first case of `Breaks` does occur, for a hash function that is constant. -/
example (s : Seeds) (m : Bytes) : SecondPreimage (fun _ n => List.replicate n 0) s (verifyCalls (fun _ n => List.replicate n 0) (publicKey (fun _ n => List.replicate n 0) s) (List.replicate 49856 1) m) := by
  have e : slice (slice (List.replicate 49856 1) 32 11200) (320 * 0) 32 = (List.replicate 32 1 : Bytes) := by
    unfold slice
    rw [List.drop_replicate, List.take_replicate, List.drop_replicate, List.take_replicate]
    rfl
  generalize (List.replicate 49856 1 : Bytes) = sig at e ⊢
  refine ⟨forsAdrs ⟨0, 0, 0⟩ 0 0 0, _, List.replicate 32 1, .forsLeaf ⟨0, 0, 0⟩ 0 0 ⟨by decide, by decide, by decide⟩ rfl (by decide) (by decide), ?_, by
    show (List.replicate 32 1 : Bytes) ≠ List.replicate 32 0; decide, rfl, rfl⟩
  refine List.mem_append_left _ (List.mem_append_left _ (List.mem_flatMap.2 ⟨0, List.mem_range.2 (by decide), ?_⟩))
  have d0 : ∀ x, forsIndex (mdOf (digest (fun _ n => List.replicate n 0) (sig.take 32) x m)) 0 = 0 := fun _ => by
    unfold mdOf digest; beta_reduce; decide +kernel
  have d1 : ∀ x, treeOf (digest (fun _ n => List.replicate n 0) (sig.take 32) x m) = 0 := fun _ => by unfold treeOf digest; beta_reduce; decide +kernel
  have d2 : ∀ x, leafOf (digest (fun _ n => List.replicate n 0) (sig.take 32) x m) = 0 := fun _ => by unfold leafOf digest; beta_reduce; decide +kernel
  rw [d0, d1, d2, e]
  exact List.mem_cons_self

end Verif.Sphincs
