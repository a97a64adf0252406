import Verif.Real.Props3
import Verif.Witness.Hybrid
import Verif.Ed25519.BalanceProps

/-!
C113: key pairs from an expanded seed, that is the seed expander of hybrid-dilithium-sphincs/hybrid.c:122-172 followed by seeded key generation
(hybrid-dilithium-sphincs/hybrid.c:174-245) on its result, which is the use that the comments of hybrid.c and hybrid.h describe.
-/

namespace Verif.Real
open Verif Verif.Hybrid Dilithium

variable {fuel : Nat} {H128 H256 : Bytes → Nat → Bytes}

/-- The 96 bytes `seedb` are expanded to 160 bytes and the key pair of these is `pkb`, `skb`: hybrid-dilithium-sphincs/hybrid.c:122-172, 174-245, one after the other.  The buffers of the
keys may overlap with those of the seeds. -/
def MadeFrom (fuel : Nat) (seedb pkb skb : Bytes) : Prop :=
  ∃ (W W1 W2 : World) (seed ex pk sk : Ptr), W.view seed 96 = some seedb ∧ (W.view ex 160).isSome ∧ Disj ex 160 seed 96 ∧
    (W.view pk 1408).isSome ∧ (W.view sk 4064).isSome ∧ Disj pk 1408 sk 4064 ∧
    seedExpander (real fuel) (some seed) (some ex) W = .ok (0, W1) ∧ keypairSeed (real fuel) (some pk) (some sk) (some ex) W1 = .ok (0, W2) ∧
    W2.view pk 1408 = some pkb ∧ W2.view sk 4064 = some skb

/-- The 160 bytes that the expander makes of 96. -/
def IsExpansion (seedb exb : Bytes) : Prop :=
  ∃ s tmp, EffectiveSeed seedb s ∧ tmp.length = 128 ∧ Keccak.Spec.bits tmp = Keccak.Spec.SHAKE256 (Keccak.Spec.bits (s ++ [2])) 1024 ∧
    exb = tmp.take 32 ++ (seedb.drop 64).take 32 ++ tmp.drop 32

theorem length_expansion {seedb exb : Bytes} (hs : seedb.length = 96) (h : IsExpansion seedb exb) : exb.length = 160 := by
  obtain ⟨s, tmp, -, l, -, rfl⟩ := h
  simp only [List.length_append, List.length_take, List.length_drop]
  omega

theorem isExpansion_unique {seedb a b : Bytes} (h : IsExpansion seedb a) (h' : IsExpansion seedb b) : a = b := by
  obtain ⟨s, tmp, e, l, hb, rfl⟩ := h
  obtain ⟨s', tmp', e', l', hb', rfl⟩ := h'
  obtain rfl := e.unique e'
  rw [Keccak.bits_injective (hb.trans hb'.symm)]

/-- Both calls in any suitable world. -/
theorem run_both {W : World} {seed ex pk sk : Ptr} {seedb : Bytes} (hs : W.view seed 96 = some seedb) (hx : (W.view ex 160).isSome) (hd : Disj ex 160 seed 96)
    (hpk : (W.view pk 1408).isSome) (hsk : (W.view sk 4064).isSome) (hd2 : Disj pk 1408 sk 4064) :
    ∃ exb W1, IsExpansion seedb exb ∧ seedExpander (real fuel) (some seed) (some ex) W = .ok (0, W1) ∧
      keypairSeed (real fuel) (some pk) (some sk) (some ex) W1 = (keyBytes (real fuel) exb >>= fun r => .ok (r.1, (W1.write pk r.2.1).write sk r.2.2)) ∧
      (W1.view pk 1408).isSome ∧ (W1.view sk 4064).isSome := by
  obtain ⟨s, tmp, e, l, hb, he⟩ := real_expander (fuel := fuel) hs hx hd
  have hE : IsExpansion seedb (tmp.take 32 ++ (seedb.drop 64).take 32 ++ tmp.drop 32) := ⟨s, tmp, e, l, hb, rfl⟩
  have hL := length_expansion (length_of_view hs) hE
  refine ⟨_, _, hE, he, ?_, ?_, ?_⟩
  · exact keypairSeed_run real_sized (view_write_same' hx hL) (by rw [view_write_isSome]; exact hpk) (by rw [view_write_isSome]; exact hsk) hd2
  · rw [view_write_isSome]; exact hpk
  · rw [view_write_isSome]; exact hsk

theorem written {W : World} {pk sk : Ptr} {a b : Bytes} (hpk : (W.view pk 1408).isSome) (hsk : (W.view sk 4064).isSome) (hd : Disj pk 1408 sk 4064)
    (ha : a.length = 1408) (hb : b.length = 4064) :
    ((W.write pk a).write sk b).view pk 1408 = some a ∧ ((W.write pk a).write sk b).view sk 4064 = some b := by
  constructor
  · rw [view_write_disj (by rw [hb]; unfold Disj at hd ⊢; omega)]
    exact view_write_same' hpk ha
  · exact view_write_same' (by rw [view_write_isSome]; exact hsk) hb

theorem madeFrom_iff {seedb pkb skb : Bytes} (hl : seedb.length = 96) :
    MadeFrom fuel seedb pkb skb ↔ ∃ exb, IsExpansion seedb exb ∧ keyBytes (real fuel) exb = .ok (0, pkb, skb) := by
  constructor
  · rintro ⟨W, W1, W2, seed, ex, pk, sk, hs, hx, hd, hpk, hsk, hd2, h1, h2, h3, h4⟩
    obtain ⟨exb, V1, hE, e1, e2, hpk1, hsk1⟩ := run_both (fuel := fuel) hs hx hd hpk hsk hd2
    rw [e1] at h1
    obtain rfl : V1 = W1 := by have := Except.ok.inj h1; rw [Prod.mk.injEq] at this; exact this.2
    rw [e2] at h2
    obtain ⟨⟨c, a, b⟩, e, h⟩ := bind_eq_ok.1 h2
    have h := Except.ok.inj h
    rw [Prod.mk.injEq] at h
    obtain ⟨hc, rfl⟩ := h
    simp only [] at hc h3 h4
    subst hc
    obtain ⟨-, -, hlen⟩ := keyBytes_length real_sized e
    obtain ⟨la, lb⟩ := hlen rfl
    obtain ⟨w1, w2⟩ := written hpk1 hsk1 hd2 la lb
    rw [w1, Option.some.injEq] at h3
    rw [w2, Option.some.injEq] at h4
    exact ⟨exb, hE, by rw [e, h3, h4]⟩
  · rintro ⟨exb, hE, e⟩
    obtain ⟨W, hs, hx, hpk, hsk⟩ : ∃ W : World, W.view ⟨0, 0⟩ 96 = some seedb ∧ (W.view ⟨1, 0⟩ 160).isSome ∧ (W.view ⟨2, 0⟩ 1408).isSome ∧ (W.view ⟨3, 0⟩ 4064).isSome :=
      ⟨{ Toy.demo with mem := fun b => if b = 0 then some seedb else if b = 1 then some (zeros 160) else if b = 2 then some (zeros 1408) else some (zeros 4064) },
       view_block rfl hl, by rw [view_block (x := zeros 160) rfl List.length_replicate]; rfl, by rw [view_block (x := zeros 1408) rfl List.length_replicate]; rfl,
       by rw [view_block (x := zeros 4064) rfl List.length_replicate]; rfl⟩
    have hd : Disj ⟨1, 0⟩ 160 ⟨0, 0⟩ 96 := Or.inl (by decide)
    have hd2 : Disj ⟨2, 0⟩ 1408 ⟨3, 0⟩ 4064 := Or.inl (by decide)
    obtain ⟨exb', W1, hE', e1, e2, hpk1, hsk1⟩ := run_both (fuel := fuel) hs hx hd hpk hsk hd2
    obtain rfl := isExpansion_unique hE hE'
    obtain ⟨-, -, hlen⟩ := keyBytes_length real_sized e
    obtain ⟨la, lb⟩ := hlen rfl
    obtain ⟨w1, w2⟩ := written hpk1 hsk1 hd2 la lb
    rw [e, ok_bind] at e2
    exact ⟨W, W1, _, _, _, _, _, hs, hx, hd, hpk, hsk, hd2, e1, e2, w1, w2⟩

theorem madeFrom_length {seedb pkb skb : Bytes} (h : MadeFrom fuel seedb pkb skb) : seedb.length = 96 := by
  obtain ⟨W, W1, W2, seed, ex, pk, sk, hs, -⟩ := h
  exact length_of_view hs

/-- C113: what the two calls make.  Where `tmp` is the SHAKE256 output on the 64 hashed bytes followed by the byte 2: the Ed25519 key is that of `tmp[0..31]`; the Dilithium key pair is that of the
seed bytes 64 to 95 themselves, whatever the other 64 bytes are; the SPHINCS+ secret seed and PRF key are `tmp[32..95]`, and `tmp[96..127]` stands in clear in the public key. -/
theorem expanded_keys (h1 : IsShake128 H128) (h2 : IsShake256 H256) {seedb pkb skb : Bytes} (h : MadeFrom fuel seedb pkb skb) :
    ∃ s tmp, EffectiveSeed seedb s ∧ tmp.length = 128 ∧ Keccak.Spec.bits tmp = Keccak.Spec.SHAKE256 (Keccak.Spec.bits (s ++ [2])) 1024 ∧
      pkb.length = 1408 ∧ skb.length = 4064 ∧
      pkb.take 32 = Ed25519.Spec.publicKey (tmp.take 32) ∧ skb.take 64 = tmp.take 32 ++ pkb.take 32 ∧
      Dilithium.Spec.KeyGen H128 H256 (seedb.drop 64) ((pkb.drop 32).take 1312) ((skb.drop 64).take 2560) ∧ (skb.drop 2624).take 1312 = (pkb.drop 32).take 1312 ∧
      (pkb.drop 1344).take 32 = tmp.drop 96 ∧
      pkb.drop 1344 = Sphincs.Spec.publicKey H256 ⟨tmp.drop 96, (tmp.drop 32).take 32⟩ ∧
      skb.drop 3936 = (tmp.drop 32).take 64 ++ pkb.drop 1344 := by
  have hl := madeFrom_length h
  obtain ⟨exb, hE, e⟩ := (madeFrom_iff hl).1 h
  have hx := length_expansion hl hE
  obtain ⟨-, hk⟩ := (keyBytes_real h1 h2 hx).1 _ _ _ _ e
  have hp := keysOf_parts h1 h2 hx hk
  obtain ⟨dilPk, dilSk, hg, rfl, rfl⟩ := hk
  obtain ⟨s, tmp, he, l, hb, rfl⟩ := hE
  have lt : (tmp.take 32).length = 32 := by rw [List.length_take]; omega
  have ls : ((seedb.drop 64).take 32).length = 32 := by rw [List.length_take, List.length_drop]; omega
  have es : (seedb.drop 64).take 32 = seedb.drop 64 := List.take_of_length_le (by rw [List.length_drop]; omega)
  have x0 : (tmp.take 32 ++ (seedb.drop 64).take 32 ++ tmp.drop 32).take 32 = tmp.take 32 := by rw [List.append_assoc, List.take_left' lt]
  have x1 : ((tmp.take 32 ++ (seedb.drop 64).take 32 ++ tmp.drop 32).drop 32).take 32 = seedb.drop 64 := by
    rw [List.append_assoc, List.drop_left' lt, List.take_left' ls, es]
  have x2 : (tmp.take 32 ++ (seedb.drop 64).take 32 ++ tmp.drop 32).drop 64 = tmp.drop 32 := List.drop_left' (by rw [List.length_append]; omega)
  have x3 : (tmp.take 32 ++ (seedb.drop 64).take 32 ++ tmp.drop 32).drop 128 = tmp.drop 96 := by
    rw [show 128 = 64 + 64 from rfl, ← List.drop_drop, x2, List.drop_drop]
  rw [x0, x1, x2, x3] at hp
  rw [x1] at hg
  rw [x0, x2, x3]
  obtain ⟨p1, p2, p3, p4, p5, p6, p7, p8, p9, p10, p11⟩ := hp
  have g1 : dilPk.length = 1312 ∧ dilSk.length = 2560 := by
    have hl : (seedb.drop 64).length = 32 := by rw [List.length_drop]; omega
    obtain ⟨F, hF⟩ := (dil_keygen_spec (pk := zeros 1312) (sk := zeros 2560) h1 h2 List.length_replicate List.length_replicate hl).2.2 _ _ hg
    exact ((dil_keygen_spec (pk := zeros 1312) (sk := zeros 2560) h1 h2 List.length_replicate List.length_replicate hl).2.1 _ _ _ _ (hF F (Nat.le_refl _))).2.2
  have lE : (Ed25519.Spec.publicKey (tmp.take 32)).length = 32 := Ed25519.length_encode _
  have l96 : (tmp.drop 96).length = 32 := by rw [List.length_drop]; omega
  obtain ⟨S, hS⟩ : ∃ S, S = Sphincs.Spec.publicKey H256 ⟨tmp.drop 96, (tmp.drop 32).take 32⟩ := ⟨_, rfl⟩
  obtain ⟨E, hE⟩ : ∃ E, E = Ed25519.Spec.publicKey (tmp.take 32) := ⟨_, rfl⟩
  have S1 : S.take 32 = tmp.drop 96 := by rw [hS, Sphincs.Spec.publicKey]; exact List.take_left' l96
  have S2 : tmp.drop 32 ++ S.drop 32 = (tmp.drop 32).take 64 ++ S := by
    have : tmp.drop 32 = (tmp.drop 32).take 64 ++ tmp.drop 96 := by
      conv_lhs => rw [← List.take_append_drop 64 (tmp.drop 32), List.drop_drop]
    conv_lhs => rw [this]
    rw [← S1, List.append_assoc, List.take_append_drop]
  rw [← hS, ← hE] at p1 p2 ⊢
  rw [← hE] at lE
  have q1 : (E ++ dilPk ++ S).take 32 = E := by rw [List.append_assoc, List.take_left' lE]
  have q2 : ((E ++ dilPk ++ S).drop 32).take 1312 = dilPk := by rw [List.append_assoc, List.drop_left' lE, List.take_left' g1.1]
  have q3 : (E ++ dilPk ++ S).drop 1344 = S := List.drop_left' (by rw [List.length_append]; omega)
  have le : (tmp.take 32 ++ E).length = 64 := by rw [List.length_append]; omega
  refine ⟨s, tmp, he, l, hb, p1, p2, q1.trans hE, ?_, ?_, ?_, ?_, q3.trans hS, ?_⟩
  · rw [q1, List.append_assoc, List.append_assoc, List.take_left' le]
  · rw [q2, List.append_assoc, List.append_assoc, List.drop_left' le, List.take_left' g1.2]; exact hg
  · rw [q2, List.append_assoc _ dilPk, List.drop_left' (by rw [List.length_append, le]; omega), List.take_left' g1.1]
  · rw [q3, S1]
  · rw [q3, S2, List.drop_left' (by rw [List.length_append, List.length_append, le]; omega)]

/-- Two seeds agree at the positions that count. -/
def SameSeed (a b : Bytes) : Prop := (∀ i, i < 64 → i % 2 = 0 → a[i]? = b[i]?) ∧ a.drop 64 = b.drop 64

theorem expansion_same {a b exb : Bytes} (h : SameSeed a b) (hE : IsExpansion a exb) : IsExpansion b exb := by
  obtain ⟨s, tmp, ⟨l0, e⟩, l, hb, rfl⟩ := hE
  refine ⟨s, tmp, ⟨l0, fun i hi => ?_⟩, l, hb, by rw [h.2]⟩
  rw [e i hi]
  split
  · next h0 => rw [h.1 i hi h0]
  · rfl

theorem exists_expansion {a : Bytes} (hl : a.length = 96) : ∃ exb, IsExpansion a exb := by
  have h64 : (effectiveSeed a).length = 64 := (effectiveSeed_spec hl).1
  obtain ⟨tmp, -, l, hb⟩ := expander_real (fuel := 0) (s := effectiveSeed a) (n := 128) (by omega) (by omega)
  exact ⟨_, _, tmp, effectiveSeed_spec hl, l, hb, rfl⟩

/-- C113: the 32 seed bytes at the odd positions below 64 make no difference: any run on such another seed gives the same keys, and there is one. -/
theorem expanded_keys_same {a b pkb skb : Bytes} (hb : b.length = 96) (hs : SameSeed a b) (h : MadeFrom fuel a pkb skb) :
    MadeFrom fuel b pkb skb ∧ ∀ fuel' pkb' skb', MadeFrom fuel' b pkb' skb' → pkb' = pkb ∧ skb' = skb := by
  obtain ⟨exb, hE, e⟩ := (madeFrom_iff (madeFrom_length h)).1 h
  have hE' := expansion_same hs hE
  refine ⟨(madeFrom_iff hb).2 ⟨exb, hE', e⟩, fun fuel' pkb' skb' h' => ?_⟩
  obtain ⟨exb', hE2, e'⟩ := (madeFrom_iff hb).1 h'
  obtain rfl := isExpansion_unique hE' hE2
  have hK := keyBytes_real isShake128_S128 isShake256_S256 (length_expansion hb hE')
  obtain ⟨F, hF⟩ := hK.2 _ _ (hK.1 _ _ _ _ e).2
  obtain ⟨G, hG⟩ := hK.2 _ _ (hK.1 _ _ _ _ e').2
  have := (hF (max F G) (Nat.le_max_left _ _)).symm.trans (hG (max F G) (Nat.le_max_right _ _))
  simp only [Except.ok.injEq, Prod.mk.injEq] at this
  exact ⟨this.2.1.symm, this.2.2.symm⟩

/-! ### Counting -/

/-- `s` with the bytes `u` at the odd positions below 64 (no line of its own). -/
def weave (s u : Bytes) : Bytes := (List.range 96).map fun i => if i < 64 ∧ i % 2 = 1 then u.getD (i / 2) 0 else s.getD i 0

theorem length_weave (s u : Bytes) : (weave s u).length = 96 := by rw [weave, List.length_map, List.length_range]

theorem weave_get {s u : Bytes} {i : Nat} (hi : i < 96) : (weave s u)[i]? = some (if i < 64 ∧ i % 2 = 1 then u.getD (i / 2) 0 else s.getD i 0) := by
  rw [weave, List.getElem?_map, List.getElem?_range hi, Option.map_some]

theorem get_getD {s : Bytes} {i : Nat} (h : i < s.length) : s[i]? = some (s.getD i 0) := by
  rw [List.getD_eq_getElem?_getD, List.getElem?_eq_getElem h, Option.getD_some]

theorem weave_same {s : Bytes} (hs : s.length = 96) (u : Bytes) : SameSeed s (weave s u) := by
  constructor
  · intro i hi h0
    rw [weave_get (by omega), if_neg (by omega), get_getD (by omega)]
  · apply List.ext_getElem?
    intro i
    rw [List.getElem?_drop, List.getElem?_drop]
    by_cases hi : 64 + i < 96
    · rw [weave_get hi, if_neg (by omega), get_getD (by omega)]
    · rw [List.getElem?_eq_none (by omega), List.getElem?_eq_none (by rw [length_weave]; omega)]

theorem weave_injective {s u v : Bytes} (hu : u.length = 32) (hv : v.length = 32) (h : weave s u = weave s v) : u = v := by
  apply List.ext_getElem?
  intro i
  by_cases hi : i < 32
  · have : (weave s u)[2 * i + 1]? = (weave s v)[2 * i + 1]? := by rw [h]
    rw [weave_get (by omega), weave_get (by omega), if_pos (by omega), if_pos (by omega), show (2 * i + 1) / 2 = i by omega] at this
    rw [get_getD (by omega), get_getD (by omega)]
    exact this
  · rw [List.getElem?_eq_none (by omega), List.getElem?_eq_none (by omega)]

theorem ncard_length (n : Nat) : {r : Bytes | r.length = n}.ncard = 256 ^ n := by
  have h := Ed25519.ncard_bytes n (fun _ => True)
  simp only [and_true] at h
  rw [h, show {N : Nat | N < 256 ^ n} = ((Finset.range (256 ^ n) : Finset Nat) : Set Nat) by ext; simp, Set.ncard_coe_finset, Finset.card_range]

theorem finite_length (n : Nat) : {r : Bytes | r.length = n}.Finite := Set.finite_of_ncard_pos (by rw [ncard_length]; positivity)

/-- C113: every key pair that comes from an expanded seed comes from at least 2^256 of the 2^768 seeds. -/
theorem expanded_seed_count {seedb pkb skb : Bytes} (h : MadeFrom fuel seedb pkb skb) :
    2 ^ 256 ≤ {s : Bytes | MadeFrom fuel s pkb skb}.ncard ∧ {s : Bytes | MadeFrom fuel s pkb skb}.Finite := by
  have hfin : {s : Bytes | MadeFrom fuel s pkb skb}.Finite := (finite_length 96).subset fun s hs => madeFrom_length hs
  refine ⟨?_, hfin⟩
  have hl := madeFrom_length h
  have e : (weave seedb '' {u : Bytes | u.length = 32}).ncard = 2 ^ 256 := by
    have hi : Set.InjOn (weave seedb) {u : Bytes | u.length = 32} := fun u hu v hv e => weave_injective hu hv e
    rw [hi.ncard_image, ncard_length]
    exact (Nat.pow_mul 2 8 32).symm
  rw [← e]
  refine Set.ncard_le_ncard ?_ hfin
  rintro _ ⟨u, -, rfl⟩
  exact (expanded_keys_same (length_weave _ _) (weave_same hl u) h).1

/-- The seed with `t` at the positions that count and zeros elsewhere (no line of its own). -/
def spread (t : Bytes) : Bytes := (List.range 96).map fun i => if i < 64 then (if i % 2 = 0 then t.getD (i / 2) 0 else 0) else t.getD (i - 32) 0

/-- The bytes at the positions that count (no line of its own). -/
def gather (s : Bytes) : Bytes := (List.range 64).map fun i => if i < 32 then s.getD (2 * i) 0 else s.getD (i + 32) 0

theorem gather_getD {s : Bytes} {i : Nat} (hi : i < 64) : (gather s).getD i 0 = if i < 32 then s.getD (2 * i) 0 else s.getD (i + 32) 0 := by
  rw [List.getD_eq_getElem?_getD, gather, List.getElem?_map, List.getElem?_range hi, Option.map_some, Option.getD_some]

theorem length_spread (t : Bytes) : (spread t).length = 96 := by rw [spread, List.length_map, List.length_range]

theorem spread_gather {s : Bytes} (hs : s.length = 96) : SameSeed s (spread (gather s)) := by
  have hg : ∀ {i}, i < 96 → (spread (gather s))[i]? = some (if i < 64 then (if i % 2 = 0 then (gather s).getD (i / 2) 0 else 0) else (gather s).getD (i - 32) 0) := by
    intro i hi
    rw [spread, List.getElem?_map, List.getElem?_range hi, Option.map_some]
  constructor
  · intro i hi h0
    rw [hg (by omega), if_pos hi, if_pos h0, gather_getD (by omega), if_pos (by omega), show 2 * (i / 2) = i by omega, get_getD (by omega)]
  · apply List.ext_getElem?
    intro i
    rw [List.getElem?_drop, List.getElem?_drop]
    by_cases hi : 64 + i < 96
    · rw [hg hi, if_neg (by omega), gather_getD (by omega), if_neg (by omega), show 64 + i - 32 + 32 = 64 + i by omega, get_getD (by omega)]
    · rw [List.getElem?_eq_none (by omega), List.getElem?_eq_none (by rw [length_spread]; omega)]

/-- C113: at most 2^512 key pairs come from expanded seeds, although a seed has 768 bits. -/
theorem expanded_key_count : {k : Bytes × Bytes | ∃ fuel s, MadeFrom fuel s k.1 k.2}.ncard ≤ 2 ^ 512 ∧ {k : Bytes × Bytes | ∃ fuel s, MadeFrom fuel s k.1 k.2}.Finite := by
  classical
  let g : Bytes → Bytes × Bytes := fun t => if h : ∃ k : Bytes × Bytes, ∃ fuel, MadeFrom fuel (spread t) k.1 k.2 then h.choose else ([], [])
  have hsub : {k : Bytes × Bytes | ∃ fuel s, MadeFrom fuel s k.1 k.2} ⊆ g '' {t : Bytes | t.length = 64} := by
    rintro ⟨pkb, skb⟩ ⟨fuel, s, h⟩
    refine ⟨gather s, by rw [Set.mem_ofPred_eq, gather, List.length_map, List.length_range], ?_⟩
    have hs := expanded_keys_same (length_spread _) (spread_gather (madeFrom_length h)) h
    have hex : ∃ k : Bytes × Bytes, ∃ fuel, MadeFrom fuel (spread (gather s)) k.1 k.2 := ⟨(pkb, skb), fuel, hs.1⟩
    have hgs : g (gather s) = hex.choose := dif_pos hex
    rw [hgs]
    obtain ⟨f', hf'⟩ := hex.choose_spec
    obtain ⟨e1, e2⟩ := hs.2 _ _ _ hf'
    exact Prod.ext e1 e2
  have hf : (g '' {t : Bytes | t.length = 64}).Finite := (finite_length 64).image g
  refine ⟨?_, hf.subset hsub⟩
  refine (Set.ncard_le_ncard hsub hf).trans ((Set.ncard_image_le (finite_length 64)).trans ?_)
  rw [ncard_length, show 512 = 8 * 64 from rfl, Nat.pow_mul]

/-- A seed of which the two calls really make a key pair; bytes 64 to 95 are those of the run of Dilithium in `Verif/Witness/Data.lean`. -/
theorem madeFrom_witness : ∃ fuel pkb skb, MadeFrom fuel (List.replicate 64 5 ++ (7 :: List.replicate 31 0)) pkb skb := by
  have hl : (List.replicate 64 5 ++ (7 :: List.replicate 31 0) : Bytes).length = 96 := by rw [List.length_append, List.length_cons, List.length_replicate, List.length_replicate]
  obtain ⟨exb, hE⟩ := exists_expansion hl
  obtain ⟨dpk, dsk, dsig, hk, -⟩ := Witness.dilithium_run
  have hx := length_expansion hl hE
  have e : (exb.drop 32).take 32 = 7 :: List.replicate 31 0 := by
    obtain ⟨s, tmp, -, l, -, rfl⟩ := hE
    have lt : (tmp.take 32).length = 32 := by rw [List.length_take]; omega
    rw [List.drop_left' List.length_replicate, List.append_assoc, List.drop_left' lt, List.take_left' (by rw [List.length_take, List.length_cons, List.length_replicate]; rfl)]
    exact List.take_of_length_le (by rw [List.length_cons, List.length_replicate])
  obtain ⟨pk, sk, h⟩ : ∃ pk sk, KeysOf S128 S256 exb pk sk := by
    refine ⟨_, _, dpk, dsk, ?_, rfl, rfl⟩
    rw [e]; exact hk
  obtain ⟨F, hF⟩ := (keyBytes_real isShake128_S128 isShake256_S256 hx).2 _ _ h
  exact ⟨F, pk, sk, (madeFrom_iff hl).2 ⟨exb, hE, hF F (Nat.le_refl _)⟩⟩

example : ∃ fuel s pkb skb, MadeFrom fuel s pkb skb ∧ (∃ H, IsShake128 H) ∧ (∃ H, IsShake256 H) ∧ ∃ b : Bytes, b.length = 96 ∧ SameSeed s b ∧ b ≠ s := by
  obtain ⟨fuel, pkb, skb, h⟩ := madeFrom_witness
  refine ⟨fuel, _, pkb, skb, h, ⟨_, isShake128_S128⟩, ⟨_, isShake256_S256⟩, _, length_weave _ (List.replicate 32 9), weave_same (madeFrom_length h) _, ?_⟩
  intro e
  have := congrArg (fun l : Bytes => l.getD 1 0) e
  revert this
  decide

end Verif.Real
