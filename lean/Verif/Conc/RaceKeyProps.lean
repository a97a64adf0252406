import Verif.Conc.RaceKey
import Verif.Conc.SignAttack
import Verif.Conc.AttackProps
import Verif.Hybrid.Props2
import Verif.Witness.Hybrid

/-!
Property C127: key generation and the seed expander while other threads change the buffers.
-/

namespace Verif.Conc
open Verif
open Verif.Hybrid (Prims zeros EffectiveSeed)
open Verif.Real (real real_sized KeysOf)
open Verif.Dilithium (S128 S256 isShake128_S128 isShake256_S256)

variable {ι : Type} [DecidableEq ι]

/-- The byte `v` at `a` belongs to the bytes `x` written from `p` on (no line of its own). -/
def Placed (p : Ptr) (x : Bytes) (a : Addr) (v : Byte) : Prop := ∃ k, x[k]? = some v ∧ a = (p.blk, p.off + k)

/-- The byte `v` at `a` belongs to the public key `pkb` written at `pk` or to the secret key `skb` written at `sk` (no line of its own). -/
def KeyOutput (pk sk : Ptr) (pkb skb : Bytes) (a : Addr) (v : Byte) : Prop := Placed pk pkb a v ∨ Placed sk skb a v

/-- A byte that a call which has not ended may have written for the seed `seedb`: one of the Ed25519 keys of the seed, which are written before Dilithium is called (hybrid-dilithium-sphincs/hybrid.c:202-213), or one of
a whole key pair of it. -/
def KeyByte (pk sk : Ptr) (seedb : Bytes) (a : Addr) (v : Byte) : Prop :=
  KeyOutput pk sk (Ed25519.Spec.publicKey (seedb.take 32)) (seedb.take 32 ++ Ed25519.Spec.publicKey (seedb.take 32)) a v ∨
  ∃ pkb skb, KeysOf S128 S256 seedb pkb skb ∧ KeyOutput pk sk pkb skb a v

theorem keyOutput_iff {pk sk : Ptr} {pkb skb : Bytes} {a : Addr} {v : Byte} : KeyOutput pk sk pkb skb a v ↔ (a, v) ∈ At pk 0 pkb ∪ At sk 0 skb := by
  unfold KeyOutput Placed
  rw [Set.mem_union, at_mem, at_mem]

/-- C127: `crypto_sign_dilithium_ed25519_sphincs_keypair_seed` while other threads do anything at all to the memory.  Whatever they are and whatever the schedule: if it ends it returns 0, and what it has written is the
key pair of one seed of 160 bytes, every byte of which was in memory at some moment of the call; and before it ends it writes only bytes of the keys of such a seed (hybrid-dilithium-sphincs/hybrid.c:174-245). -/
theorem keypair_seed_under_writers (fuel : Nat) {W : World} {p : ι → Prog Int} {i : ι} {pk sk seed : Ptr} (hpk : pk.blk < W.sp) (hsk : sk.blk < W.sp) (hseed : seed.blk < W.sp)
    (hp : p i = Conc.keypairSeed (real fuel) (some pk) (some sk) (some seed)) (s : List ι) (c : Conf ι Int) (hc : c = start W p) :
    (∀ r, ((c.run s).thr i).prog = .ret r → r = 0 ∧ ∃ seedb pkb skb, seedb.length = 160 ∧ Shown c s seed seedb ∧ KeysOf S128 S256 seedb pkb skb ∧
      ∀ a v, Stored c i s a v ↔ KeyOutput pk sk pkb skb a v) ∧
    (∀ a v, Stored c i s a v → ∃ seedb, seedb.length = 160 ∧ Shown c s seed seedb ∧ KeyByte pk sk seedb a v) := by
  subst hc
  have safe : Safe W.sp (fun R a v => ∃ seedb : Bytes, seedb.length = 160 ∧ At seed 0 seedb ⊆ R ∧ KeyByte pk sk seedb a v)
      (fun _ _ R S r => r = 0 ∧ ∃ seedb pkb skb : Bytes, seedb.length = 160 ∧ At seed 0 seedb ⊆ R ∧ KeysOf S128 S256 seedb pkb skb ∧ ∀ a v, (a, v) ∈ S ↔ KeyOutput pk sk pkb skb a v)
      (p i) (fun _ => none) W.sp ∅ ∅ := by
    rw [hp]
    refine safe_keypairSeed hpk hsk hseed (fun seedb hl f hf => ⟨seedb, hl, Set.subset_union_right, Or.inl (keyOutput_iff.2 hf)⟩)
      (fun seedb pkb skb hl hk f hf => ⟨seedb, hl, Set.subset_union_right, Or.inr ⟨pkb, skb, hk, keyOutput_iff.2 hf⟩⟩)
      fun seedb pkb skb hl hk => ⟨rfl, seedb, pkb, skb, hl, Set.subset_union_right, hk, fun a v => ?_⟩
    rw [keyOutput_iff, Set.empty_union]
  obtain ⟨h1, st, R, S, -, -, hR, hS, hQ⟩ := safe_run safe s
  refine ⟨fun r h => ?_, fun a v h => ?_⟩
  · rw [h] at hQ
    obtain ⟨h0, seedb, pkb, skb, a1, a2, a3, a4⟩ := hQ
    exact ⟨h0, seedb, pkb, skb, a1, shown_of hR a2, a3, fun a v => (hS a v).symm.trans (a4 a v)⟩
  · obtain ⟨R', hR', seedb, a1, a2, a3⟩ := h1 a v h
    exact ⟨seedb, a1, shown_of hR' a2, a3⟩

/-- C127: `crypto_sign_dilithium_ed25519_sphincs_keypair` while other threads do anything at all to the memory and draw from the random source as well.  If it ends, it has drawn 160 bytes first; if that draw failed
it has returned -1 and written nothing, otherwise it has returned 0 and written the key pair of the bytes it drew; and before it ends it writes only bytes of the keys of what it drew
(hybrid-dilithium-sphincs/hybrid.c:247-257). -/
theorem keypair_under_writers (fuel : Nat) {W : World} {p : ι → Prog Int} {i : ι} {pk sk : Ptr} (hpk : pk.blk < W.sp) (hsk : sk.blk < W.sp)
    (hp : p i = Conc.keypair (real fuel) (some pk) (some sk)) (s : List ι) (c : Conf ι Int) (hc : c = start W p) :
    (∀ r, ((c.run s).thr i).prog = .ret r → ∃ j, [j] <+: ((c.run s).thr i).got ∧ ((r = -1 ∧ W.rng.draw j 160 = none ∧ ∀ a v, ¬ Stored c i s a v) ∨
      (r = 0 ∧ ∃ seedb pkb skb, W.rng.draw j 160 = some seedb ∧ KeysOf S128 S256 seedb pkb skb ∧ ∀ a v, Stored c i s a v ↔ KeyOutput pk sk pkb skb a v))) ∧
    (∀ a v, Stored c i s a v → ∃ j seedb, [j] <+: ((c.run s).thr i).got ∧ W.rng.draw j 160 = some seedb ∧ KeyByte pk sk seedb a v) := by
  subst hc
  have safe : ∀ o : Option Bytes, (∀ b, o = some b → b.length = 160) → Safe W.sp (fun _ a v => ∃ seedb : Bytes, o = some seedb ∧ KeyByte pk sk seedb a v)
      (fun _ _ _ S r => (r = -1 ∧ o = none ∧ S = ∅) ∨ (r = 0 ∧ ∃ seedb pkb skb : Bytes, o = some seedb ∧ KeysOf S128 S256 seedb pkb skb ∧ ∀ a v, (a, v) ∈ S ↔ KeyOutput pk sk pkb skb a v))
      ((match o with
        | none => pure (-1)
        | some seedb => withLocal seedb fun q => keypairSeed (real fuel) (some pk) (some sk) (some q) : Prog Int)) (fun _ => none) W.sp ∅ ∅ := by
    intro o ho
    cases o with
    | none => exact Or.inl ⟨rfl, rfl, rfl⟩
    | some seedb =>
      have hl := ho _ rfl
      refine safe_withLocal (Nat.le_refl _) ?_
      refine safe_keypairSeed_local hpk hsk (Nat.le_refl _) (Function.update_self _ _ _) hl (fun f hf => ⟨seedb, rfl, Or.inl (keyOutput_iff.2 hf)⟩)
        (fun pkb skb hk f hf => ⟨seedb, rfl, Or.inr ⟨pkb, skb, hk, keyOutput_iff.2 hf⟩⟩) fun pkb skb hk => Or.inr ⟨rfl, seedb, pkb, skb, rfl, hk, fun a v => ?_⟩
      rw [keyOutput_iff, Set.empty_union]
  have hp' : p i = .draw 160 _ := hp
  rcases safe_draw_run hp' safe s with ⟨h1, h2⟩ | ⟨j, hj, h1, st, R, S, -, hS, hQ⟩
  · refine ⟨fun r h => ?_, fun a v h => absurd h (h2 a v)⟩
    rw [h1] at h
    change p i = _ at h
    rw [hp'] at h
    cases h
  refine ⟨fun r h => ⟨j, hj, ?_⟩, fun a v h => ?_⟩
  · rw [h] at hQ
    rcases hQ with ⟨h0, h3, rfl⟩ | ⟨h0, seedb, pkb, skb, a1, a2, a3⟩
    · exact Or.inl ⟨h0, h3, fun a v hst => ((hS a v).2 hst).elim⟩
    · exact Or.inr ⟨h0, seedb, pkb, skb, a1, a2, fun a v => (hS a v).symm.trans (a3 a v)⟩
  · obtain ⟨R', -, seedb, h3, h4⟩ := h1 a v h
    exact ⟨j, seedb, hj, h3, h4⟩

/-- The expanded seed that belongs to the 96 bytes `seedb`: the hashed bytes come from the even positions below 64 only (hybrid-dilithium-sphincs/hybrid.c:145-148), the middle 32 are copied. -/
def Expands (seedb exb : Bytes) : Prop :=
  ∃ s d, EffectiveSeed seedb s ∧ d.length = 128 ∧ Keccak.Spec.bits d = Keccak.Spec.SHAKE256 (Keccak.Spec.bits (s ++ [2])) 1024 ∧ exb = d.take 32 ++ seedb.drop 64 ++ d.drop 32

/-- The bytes of a 96-byte seed that the expander uses were in memory at some moment of the run: those at the even positions below 64 and those from 64 on (no line of its own). -/
def ShownUsed {α : Type} (c : Conf ι α) (s : List ι) (p : Ptr) (x : Bytes) : Prop := ∀ k v, (64 ≤ k ∨ k % 2 = 0) → x[k]? = some v → Held c s (p.blk, p.off + k) v

/-- C127: the seed expander while other threads do anything at all to the memory.  If it ends it returns 0, and what it has written is the expansion of one seed of 96 bytes, of which every byte that the expander uses was in
memory at some moment of the call (hybrid-dilithium-sphincs/hybrid.c:140-172). -/
theorem expander_under_writers (fuel : Nat) {W : World} {p : ι → Prog Int} {i : ι} {seed ex : Ptr} (hseed : seed.blk < W.sp) (hex : ex.blk < W.sp)
    (hp : p i = Conc.seedExpander (real fuel) (some seed) (some ex)) (s : List ι) (c : Conf ι Int) (hc : c = start W p) :
    ∀ r, ((c.run s).thr i).prog = .ret r → r = 0 ∧ ∃ seedb exb, seedb.length = 96 ∧ ShownUsed c s seed seedb ∧ Expands seedb exb ∧ ∀ a v, Stored c i s a v ↔ Placed ex exb a v := by
  subst hc
  have safe : Safe W.sp (fun _ _ _ => True)
      (fun _ _ R S r => r = 0 ∧ ∃ x y exb : Bytes, x.length = 64 ∧ y.length = 32 ∧ EvenAt seed x ⊆ R ∧ At seed 64 y ⊆ R ∧ Expands (x ++ y) exb ∧ S = At ex 0 exb) (p i) (fun _ => none) W.sp ∅ ∅ := by
    rw [hp]
    refine Safe.bind (safe_expanderCopy hseed fun x hx ho => ?_)
    obtain ⟨d, hd, ld, hb⟩ := Real.expander_real (fuel := fuel) (s := x) (n := 128) (by omega) (by omega)
    rw [hd]
    refine Safe.bind (safe_liftC fun t ht => ?_)
    obtain rfl := Except.ok.inj ht
    show Safe W.sp _ _ (if (0 : Int) ≠ 0 then _ else _) _ _ _ _
    rw [if_neg (by simp)]
    refine Safe.bind (safe_copyOut hex (by omega) (fun _ _ => trivial) ?_)
    refine Safe.bind (safe_copyMem hex hseed (fun _ _ _ _ => trivial) fun y hy => ?_)
    refine Safe.bind (safe_copyOut hex (by omega) (fun _ _ => trivial) ?_)
    refine safe_pure ⟨rfl, x, y, d.take 32 ++ y ++ d.drop 32, hx, hy, ?_, Set.subset_union_right, ⟨x, d, ⟨hx, fun k hk => ?_⟩, ld, hb, ?_⟩, ?_⟩
    · exact Set.subset_union_right.trans Set.subset_union_left
    · by_cases h2 : k % 2 = 0
      · rw [if_pos h2, List.getElem?_append_left (by omega)]
      · rw [if_neg h2]
        have := ho (k / 2) (by omega)
        rwa [show 2 * (k / 2) + 1 = k by omega] at this
    · rw [List.drop_left' hx]
    · have e1 : slice d 0 32 = d.take 32 := by rw [slice, List.drop_zero]
      have e2 : slice d 32 96 = d.drop 32 := by rw [slice, List.take_of_length_le (by rw [List.length_drop]; omega)]
      rw [e1, e2, At_append, At_append, List.length_append, List.length_take, hy, Set.empty_union, show min 32 d.length = 32 by omega]
  obtain ⟨h1, st, R, S, -, -, hR, hS, hQ⟩ := safe_run safe s
  intro r h
  rw [h] at hQ
  obtain ⟨h0, x, y, exb, lx, ly, a1, a2, a3, rfl⟩ := hQ
  refine ⟨h0, x ++ y, exb, by rw [List.length_append]; omega, fun k v hk hv => ?_, a3, fun a v => (hS a v).symm.trans at_mem⟩
  by_cases hlt : k < 64
  · rw [List.getElem?_append_left (by omega)] at hv
    exact hR ((seed.blk, seed.off + k), v) (a1 ⟨k / 2, by omega, by rw [show 2 * (k / 2) = k by omega]; exact hv, by rw [show 2 * (k / 2) = k by omega]⟩)
  · rw [List.getElem?_append_right (by omega)] at hv
    refine hR ((seed.blk, seed.off + k), v) (a2 ⟨rfl, k - x.length, hv, ?_⟩)
    show seed.off + k = _
    omega

/-- C127: the bytes of the seed need not have been in memory at the same time.  For every two seeds there is a schedule of the call and of a thread that only overwrites the first seed with the second one, such that the call
returns 0 with the key pair of the seed made of the first 32 bytes of the one and the last 128 bytes of the other (hybrid-dilithium-sphincs/hybrid.c:190-200). -/
theorem keypair_seed_torn {W : World} (hW : W.WF) {pk sk seed : Ptr} {x y pkb skb : Bytes} (hx : W.view seed 160 = some x) (hy : y.length = 160) (hpk : (W.view pk 1408).isSome) (hsk : (W.view sk 4064).isSome)
    (hd : Disj pk 1408 sk 4064) (hk : KeysOf S128 S256 (x.take 32 ++ y.drop 32) pkb skb) :
    ∃ F, ∀ fuel, F ≤ fuel → ∃ s, ∃ c, c = (duo W (Conc.keypairSeed (real fuel) (some pk) (some sk) (some seed)) (overwrite seed y)).run s ∧
      (c.thr false).prog = .ret 0 ∧ c.common.view pk 1408 = some pkb ∧ c.common.view sk 4064 = some skb := by
  have lx := length_of_view hx
  have lm : (x.take 32 ++ y.drop 32).length = 160 := by rw [List.length_append, List.length_take, List.length_drop]; omega
  obtain ⟨lp, ls, -⟩ := Real.keysOf_parts isShake128_S128 isShake256_S256 lm hk
  obtain ⟨F, hF⟩ := (Real.keyBytes_real isShake128_S128 isShake256_S256 lm).2 pkb skb hk
  refine ⟨F, fun fuel hf => ?_⟩
  have hsp := blk_lt hW (p := seed) (n := 160) (by rw [hx]; rfl)
  have lead : Leads (Conc.keypairSeed (real fuel) (some pk) (some sk) (some seed), W)
      ((do
        let seed2 ← copyIn (zeros 32) 0 seed 32 32
        let seed3 ← copyIn (zeros 96) 0 seed 64 96
        keyTail (real fuel) pk sk (x.take 32) seed2 seed3), W) := by
    rw [keypairSeed_split]
    refine (leads_bind (a := x.take 32) (W' := W) ?_).trans (Leads.refl _)
    rw [exec_copyIn, Hybrid.copyIn_zeros hx (by omega), slice, List.drop_zero]
  have hy' : (W.write seed y).view seed 160 = some y := view_write_same hx hy
  have s2 : slice (x.take 32 ++ y.drop 32) 32 32 = slice y 32 32 := by
    rw [slice, List.drop_left' (by rw [List.length_take]; omega), slice]
  have s3 : slice (x.take 32 ++ y.drop 32) 64 96 = slice y 64 96 := by
    rw [slice, slice, List.drop_append, List.drop_of_length_le (by rw [List.length_take]; omega), List.nil_append, List.length_take, List.drop_drop, show 32 + (64 - min 32 x.length) = 64 by omega]
  have s1 : slice (x.take 32 ++ y.drop 32) 0 32 = x.take 32 := by
    rw [slice, List.drop_zero, List.take_left' (by rw [List.length_take]; omega)]
  have rest : exec (do
        let seed2 ← copyIn (zeros 32) 0 seed 32 32
        let seed3 ← copyIn (zeros 96) 0 seed 64 96
        keyTail (real fuel) pk sk (x.take 32) seed2 seed3) (W.write seed y) = .ok (0, ((W.write seed y).write pk pkb).write sk skb) := by
    rw [exec_bind, exec_copyIn, M_bind_apply, Hybrid.copyIn_zeros hy' (by omega), ok_bind]
    show exec (copyIn (zeros 96) 0 seed 64 96 >>= _) _ = _
    rw [exec_bind, exec_copyIn, M_bind_apply, Hybrid.copyIn_zeros hy' (by omega), ok_bind]
    show exec (keyTail (real fuel) pk sk (x.take 32) (slice y 32 32) (slice y 64 96)) _ = _
    rw [exec_keyTail, ← s1, ← s2, ← s3, keyTailM_run real_sized (by rw [view_write_isSome]; exact hpk) (by rw [view_write_isSome]; exact hsk) hd, hF fuel hf]
    rfl
  obtain ⟨s, r1, r2⟩ := duo_run hW (other := overwrite seed y) (q := seed) (y := y) (r' := 0) hsp lead (fun U hU => exec_overwrite (by
    rw [view_congr (hU _ hsp), hy, hx]; rfl)) rest
  have vp : ((W.write seed y).view pk 1408).isSome := by rw [view_write_isSome]; exact hpk
  have vs : (((W.write seed y).write pk pkb).view sk 4064).isSome := by rw [view_write_isSome, view_write_isSome]; exact hsk
  obtain ⟨op, hop⟩ := Option.isSome_iff_exists.1 vp
  obtain ⟨os, hos⟩ := Option.isSome_iff_exists.1 vs
  refine ⟨s, _, rfl, r1, ?_, ?_⟩
  · rw [view_congr (r2 pk.blk (blk_lt hW hpk)), view_write_disj (by
      rw [ls]
      rcases hd with hd | hd | hd
      · exact Or.inl (Ne.symm hd)
      · exact Or.inr (Or.inr hd)
      · exact Or.inr (Or.inl hd)), view_write_same hop lp]
  · rw [view_congr (r2 sk.blk (blk_lt hW hsk)), view_write_same hos ls]

/-- Blocks 0 and 1 for the keys and block 2 for the seed (no line of its own). -/
def keyWorld (x : Bytes) : World where
  mem b := if b = 0 then some (zeros 1408) else if b = 1 then some (zeros 4064) else if b = 2 then some x else none
  sp := 3
  rng := ⟨fun _ n => some (if n = 160 then Witness.seed160 else zeros n), fun _ n b h => by
    cases h
    split
    · next e => rw [e]; exact Witness.length_seed160
    · exact List.length_replicate, []⟩

theorem keyWorld_WF (x : Bytes) : (keyWorld x).WF := by
  intro b hb
  have hb : 3 ≤ b := hb
  show (if b = 0 then _ else _) = _
  rw [if_neg (by omega), if_neg (by omega), if_neg (by omega)]

/-- A run in which the other thread comes between the two parts of the copying: the seed whose keys the call writes is neither the one before nor the one after. -/
theorem torn_demo : ∃ (fuel : Nat) (x y pkb skb : Bytes) (s : List Bool) (c : Conf Bool Int),
    c = (duo (keyWorld x) (Conc.keypairSeed (real fuel) (some ⟨0, 0⟩) (some ⟨1, 0⟩) (some ⟨2, 0⟩)) (overwrite ⟨2, 0⟩ y)).run s ∧
    x.length = 160 ∧ y.length = 160 ∧ x ≠ Witness.seed160 ∧ y ≠ Witness.seed160 ∧ KeysOf S128 S256 Witness.seed160 pkb skb ∧ (c.thr false).prog = .ret 0 ∧
    c.common.view ⟨0, 0⟩ 1408 = some pkb ∧ c.common.view ⟨1, 0⟩ 4064 = some skb := by
  obtain ⟨pkb, skb, -, hk, -⟩ := Witness.keys_and_signature
  have l := Witness.length_seed160
  have hne : Witness.seed160.getD 0 0 ≠ 9 ∧ Witness.seed160.getD 159 0 ≠ 9 := by decide +kernel
  generalize Witness.seed160 = seed at *
  have lx : (seed.take 32 ++ List.replicate 128 9).length = 160 := by rw [List.length_append, List.length_take, List.length_replicate]; omega
  have ly : (List.replicate 32 9 ++ seed.drop 32).length = 160 := by rw [List.length_append, List.length_drop, List.length_replicate]; omega
  have view : ∀ (x : Bytes) (b n : Nat) (d : Bytes), (keyWorld x).mem b = some d → d.length = n → (keyWorld x).view ⟨b, 0⟩ n = some d := by
    rintro x b n d h rfl
    refine view_eq_some.2 ⟨d, h, by simp, ?_⟩
    simp [slice]
  have hk' : KeysOf S128 S256 ((seed.take 32 ++ List.replicate 128 9).take 32 ++ (List.replicate 32 9 ++ seed.drop 32).drop 32) pkb skb := by
    rwa [List.take_left' (by rw [List.length_take]; omega), List.drop_left' List.length_replicate, List.take_append_drop]
  obtain ⟨F, hF⟩ := keypair_seed_torn (keyWorld_WF _) (pk := ⟨0, 0⟩) (sk := ⟨1, 0⟩) (seed := ⟨2, 0⟩) (view _ 2 160 _ rfl lx) ly (by rw [view _ 0 1408 _ rfl List.length_replicate]; rfl)
    (by rw [view _ 1 4064 _ rfl List.length_replicate]; rfl) (Or.inl (by decide)) hk'
  obtain ⟨s, c, hc, h1, h2, h3⟩ := hF F (Nat.le_refl _)
  refine ⟨F, _, _, pkb, skb, s, c, hc, lx, ly, fun e => ?_, fun e => ?_, hk, h1, h2, h3⟩
  · rw [← e] at hne
    refine hne.2 ?_
    rw [List.getD_eq_getElem?_getD, List.getElem?_append_right (by rw [List.length_take]; omega), List.getElem?_replicate, if_pos (by rw [List.length_take]; omega)]
    rfl
  · rw [← e] at hne
    exact hne.1 rfl

/-- The hypotheses of `keypair_seed_under_writers` are met by that run, and the call ends. -/
example : ∃ (fuel : Nat) (W : World) (p : Bool → Prog Int) (pk sk seed : Ptr) (s : List Bool), pk.blk < W.sp ∧ sk.blk < W.sp ∧ seed.blk < W.sp ∧
    p false = Conc.keypairSeed (real fuel) (some pk) (some sk) (some seed) ∧ (((start W p).run s).thr false).prog = .ret 0 := by
  obtain ⟨fuel, x, y, pkb, skb, s, c, rfl, -, -, -, -, -, h, -⟩ := torn_demo
  exact ⟨fuel, keyWorld x, _, ⟨0, 0⟩, ⟨1, 0⟩, ⟨2, 0⟩, s, Nat.lt_of_sub_eq_succ rfl, Nat.lt_of_sub_eq_succ rfl, Nat.lt_of_sub_eq_succ rfl, rfl, h⟩

/-- A call that ends without interruption also ends in a schedule. -/
theorem ends_alone {W V : World} (hW : W.WF) {x : Prog Int} {r : Int} (h : exec x W = .ok (r, V)) : ∃ s : List Unit, (((start W fun _ => x).run s).thr ()).prog = .ret r := by
  obtain ⟨n, h1, -⟩ := leads_run (c := start W fun _ : Unit => x) (i := ()) (leads_exec (x := x) (W := W) h |> fun l => by rw [start_world hW]; exact l)
  exact ⟨_, h1⟩

/-- The hypotheses of `keypair_under_writers` are met by a call that ends with 0. -/
example : ∃ (fuel : Nat) (W : World) (pk sk : Ptr) (s : List Unit), pk.blk < W.sp ∧ sk.blk < W.sp ∧
    (((start W fun _ => Conc.keypair (real fuel) (some pk) (some sk)).run s).thr ()).prog = .ret 0 := by
  obtain ⟨pkb, skb, -, hk, -⟩ := Witness.keys_and_signature
  obtain ⟨F, hF⟩ := (Real.real_keypair_unseeded isShake128_S128 isShake256_S256 (keyWorld_WF []) (pk := ⟨0, 0⟩) (sk := ⟨1, 0⟩)
    (Option.isSome_iff_exists.2 ⟨zeros 1408, view_eq_some.2 ⟨zeros 1408, rfl, by simp, by simp [slice]⟩⟩)
    (Option.isSome_iff_exists.2 ⟨zeros 4064, view_eq_some.2 ⟨zeros 4064, rfl, by simp, by simp [slice]⟩⟩) (Or.inl (by decide))).2 _ pkb skb rfl hk
  obtain ⟨s, hs⟩ := ends_alone (keyWorld_WF []) (x := Conc.keypair (real F) (some ⟨0, 0⟩) (some ⟨1, 0⟩)) (by rw [exec_keypair]; exact hF F (Nat.le_refl _))
  exact ⟨F, keyWorld [], ⟨0, 0⟩, ⟨1, 0⟩, s, Nat.lt_of_sub_eq_succ rfl, Nat.lt_of_sub_eq_succ rfl, hs⟩

/-- The hypotheses of `expander_under_writers` are met by a call that ends with 0. -/
example : ∃ (fuel : Nat) (W : World) (seed ex : Ptr) (s : List Unit), seed.blk < W.sp ∧ ex.blk < W.sp ∧
    (((start W fun _ => Conc.seedExpander (real fuel) (some seed) (some ex)).run s).thr ()).prog = .ret 0 := by
  have hr := Hybrid.seedExpander_run (W := keyWorld (zeros 96)) (seed := ⟨2, 0⟩) (ex := ⟨0, 0⟩) (real_sized (fuel := 0)) (seedb := zeros 96)
    (view_eq_some.2 ⟨zeros 96, rfl, by simp, by simp [slice]⟩)
    (Option.isSome_iff_exists.2 ⟨_, view_eq_some.2 ⟨zeros 1408, rfl, by simp, rfl⟩⟩) (Or.inl (by decide))
  obtain ⟨d, hd, -⟩ := Real.expander_real (fuel := 0) (s := Hybrid.effectiveSeed (zeros 96)) (n := 128) (by simp [Hybrid.effectiveSeed]) (by simp [Hybrid.effectiveSeed])
  unfold Hybrid.expandBytes at hr
  rw [hd, ok_bind] at hr
  obtain ⟨s, hs⟩ := ends_alone (keyWorld_WF (zeros 96)) (x := Conc.seedExpander (real 0) (some ⟨2, 0⟩) (some ⟨0, 0⟩)) (by rw [exec_seedExpander]; exact hr)
  exact ⟨0, keyWorld (zeros 96), ⟨2, 0⟩, ⟨0, 0⟩, s, Nat.lt_of_sub_eq_succ rfl, Nat.lt_of_sub_eq_succ rfl, hs⟩

end Verif.Conc
