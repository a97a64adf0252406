import Verif.Real.HeapLemmas
import Verif.Real.KeyUseProps

/-!
The property C118: the functions of hybrid-dilithium-sphincs/hybrid.c release every Keccak context, how many they make, and when the process ends in them.
-/

namespace Verif.Real.Heap
open Verif Verif.Hybrid Verif.Hybrid.Toy Verif.Real Verif.Keccak.Heap
open Verif.Dilithium (S128 S256 isShake128_S128 isShake256_S256)

/-- The call `x` on the heap against the call `v` without: there is a number N of allocations, the same for every heap, such that the process ends with `exit(111)` if one of the next N calls of `malloc`
fails, and otherwise does what `v` does and leaves the heap as it was. If `v` returns, `T` says which N (common/fips202.c:525-904). -/
def OnHeap (x : K (Int × World)) (v : C (Int × World)) (T : Int → Nat → Prop) : Prop :=
  ∃ N, (∀ r W', v = .ok (r, W') → T r N) ∧ ∀ h : Ctxs, h.WF →
    ((∃ i < N, h.fails (h.next + i) = true) → x h = .error (.exit 111)) ∧
    ((∀ i < N, h.fails (h.next + i) = false) → x h = match v with
      | .ok p => .ok (p, { h with next := h.next + N })
      | .error .ub => .error .ub
      | .error .diverge => .error .diverge)

theorem CountsAt.onHeap {W : World} {T : Int → Nat → Prop} {x : MH Int} {y : M Int} (h : CountsAt W T x y) : OnHeap (x W) (y W) T := by
  obtain ⟨N, u, t⟩ := h
  refine ⟨N, t, fun h hw => ?_⟩
  have e : (List.range N).any (fun i => h.fails (h.next + i)) = true ↔ ∃ i < N, h.fails (h.next + i) = true := by
    simp only [List.any_eq_true, List.mem_range]
  rw [u h hw]
  refine ⟨fun c => if_pos (e.2 c), fun c => ?_⟩
  rw [if_neg (fun d => by obtain ⟨i, hi, hf⟩ := e.1 d; rw [c i hi] at hf; cases hf)]
  cases y W with
  | ok p => rfl
  | error f => cases f <;> rfl

theorem length_of_wr {b b' : Bytes} {i : Nat} {v : Byte} (h : wr b i v = .ok b') : b'.length = b.length := by
  unfold wr at h
  split at h
  · cases h; simp
  · cases h

theorem copyIn_length {W W' : World} {p : Ptr} {o d : Nat} : ∀ {n i : Nat} {dst b : Bytes},
    loopM (fun i b => do let v ← load p (o + i); liftC (wr b (d + i) v)) i n dst W = .ok (b, W') → b.length = dst.length := by
  intro n
  induction n generalizing W with
  | zero => intro i dst b h; cases h; rfl
  | succ n ih =>
    intro i dst b h
    rw [loopM, M_bind_apply] at h
    obtain ⟨q, h1, h2⟩ := bind_eq_ok.1 h
    rw [M_bind_apply] at h1
    obtain ⟨v, h3, h4⟩ := bind_eq_ok.1 h1
    obtain ⟨h5, -⟩ := liftC_world h4
    rw [ih h2, length_of_wr h5]

theorem CountsAt.cmp {W : World} {T : Int → Nat → Prop} {b m : Ptr} (h0 : T 0 0) (h4 : T (-4) 0) : ∀ {n i : Nat}, CountsAt W T (Heap.onM (cmpMem b m i n)) (cmpMem b m i n) := by
  intro n i
  refine ⟨0, Uses.onC, ?_⟩
  induction n generalizing i W with
  | zero => intro a W' h; cases h; exact h0
  | succ n ih =>
    intro a W' h
    rw [cmpMem, M_bind_apply] at h
    obtain ⟨x, h1, h2⟩ := bind_eq_ok.1 h
    rw [M_bind_apply] at h2
    obtain ⟨y, h3, h4'⟩ := bind_eq_ok.1 h2
    by_cases c : x.1 ≠ y.1
    · rw [if_pos c] at h4'; cases h4'; exact h4
    · rw [if_neg c] at h4'; exact ih _ _ h4'

theorem countsAt_keypairSeed (fuel : Nat) (pk sk seed : Option Ptr) (W : World) :
    CountsAt W (fun r N => r = -1 ∧ N = 0 ∨ r = 0 ∧ N = 17209) (keypairSeedH fuel pk sk seed) (keypairSeed (real fuel) pk sk seed) := by
  rcases pk with _ | pk <;> rcases sk with _ | sk <;> rcases seed with _ | seed
  iterate 7 exact CountsAt.pure (Or.inl ⟨rfl, rfl⟩)
  unfold keypairSeedH keypairSeed
  refine CountsAt.bindM fun s1 _ _ => CountsAt.bindM fun s2 _ _ => CountsAt.bindM fun s3 _ _ => CountsAt.bindM ?_
  rintro ⟨r1, pk1, sk1⟩ _ e1
  have h1 := (edKeypair_real (liftC_world e1).1).2.2.2.1
  refine CountsAt.ite (fun c => absurd h1 c) fun _ => CountsAt.bindM fun _ _ _ => CountsAt.bindM fun _ _ _ => ?_
  refine CountsAt.bindK (counts_dilKeypairSeed _ _ _ _) ?_
  rintro ⟨r2, pk2, sk2⟩ N - ⟨h2, rfl⟩
  refine CountsAt.ite (fun c => absurd h2 c) fun _ => CountsAt.bindM fun _ _ _ => CountsAt.bindM fun _ _ _ => ?_
  refine CountsAt.bindK (counts_spxKeypairSeed _ _ _ _) ?_
  rintro ⟨r3, pk3, sk3⟩ N - ⟨h3, rfl⟩
  exact CountsAt.ite (fun c => absurd h3 c) fun _ => CountsAt.bindM fun _ _ _ => CountsAt.bindM fun _ _ _ => CountsAt.pure (Or.inr ⟨rfl, rfl⟩)

/-- C118, seeded key generation: 17209 contexts. -/
theorem hybrid_keypair_seed_contexts (fuel : Nat) (pk sk seed : Option Ptr) (W : World) :
    OnHeap (keypairSeedH fuel pk sk seed W) (keypairSeed (real fuel) pk sk seed W) fun r N => r = -1 ∧ N = 0 ∨ r = 0 ∧ N = 17209 :=
  (countsAt_keypairSeed fuel pk sk seed W).onHeap

/-- C118, key generation: none if the random source fails. -/
theorem hybrid_keypair_contexts (fuel : Nat) (pk sk : Option Ptr) (W : World) :
    OnHeap (keypairH fuel pk sk W) (keypair (real fuel) pk sk W) fun r N => r = -1 ∧ N = 0 ∨ r = 0 ∧ N = 17209 := by
  refine CountsAt.onHeap ?_
  rcases pk with _ | pk <;> rcases sk with _ | sk
  iterate 3 exact CountsAt.pure (Or.inl ⟨rfl, rfl⟩)
  unfold keypairH keypair
  refine CountsAt.bindM fun s _ _ => ?_
  cases s with
  | none => exact CountsAt.pure (Or.inl ⟨rfl, rfl⟩)
  | some s => exact CountsAt.withLocal (countsAt_keypairSeed _ _ _ _ _)

theorem expanderCopy_length {W W' : World} {p : Ptr} : ∀ {n i : Nat} {dst b : Bytes},
    loopM (fun k b => do let v ← load p (2 * k); liftC (wr b (2 * k) v)) i n dst W = .ok (b, W') → b.length = dst.length := by
  intro n
  induction n generalizing W with
  | zero => intro i dst b h; cases h; rfl
  | succ n ih =>
    intro i dst b h
    rw [loopM, M_bind_apply] at h
    obtain ⟨q, h1, h2⟩ := bind_eq_ok.1 h
    rw [M_bind_apply] at h1
    obtain ⟨v, h3, h4⟩ := bind_eq_ok.1 h1
    obtain ⟨h5, -⟩ := liftC_world h4
    rw [ih h2, length_of_wr h5]

/-- C118, seed expander: one context. -/
theorem hybrid_seed_expander_contexts (fuel : Nat) (seed expandedSeed : Option Ptr) (W : World) :
    OnHeap (seedExpanderH seed expandedSeed W) (seedExpander (real fuel) seed expandedSeed W) fun _ N => N = 1 := by
  refine CountsAt.onHeap ?_
  unfold seedExpanderH seedExpander
  cases seed with
  | none => exact CountsAt.fail
  | some seed =>
    refine CountsAt.bindM fun t _ ht => ?_
    refine CountsAt.bindK (counts_seedexpander fuel _ _) ?_
    rintro ⟨r, tmp⟩ N - hN
    have hl : t.length = 64 := (expanderCopy_length ht).trans List.length_replicate
    rw [hl] at hN
    have hN : N = 1 := hN
    subst hN
    refine CountsAt.ite (fun _ => CountsAt.pure rfl) fun _ => ?_
    cases expandedSeed with
    | none => exact CountsAt.fail
    | some ex => exact CountsAt.bindM fun _ _ _ => CountsAt.bindM fun _ _ _ => CountsAt.bindM fun _ _ _ => CountsAt.pure rfl

/-- C118, full signing: 24 contexts and 6 per rejected attempt for Dilithium, 345874 for SPHINCS+; none of the latter if the random source fails (hybrid-dilithium-sphincs/hybrid.c:259-344). -/
theorem hybrid_sign_full_contexts (fuel : Nat) (sm smlen m sk : Option Ptr) (mlen : Nat) (W : World) {mb skb : Bytes}
    (hm : ∀ p, m = some p → W.view p mlen = some mb) (hsk : ∀ p, sk = some p → W.view p 4064 = some skb) :
    OnHeap (signFullH fuel sm smlen m mlen sk W) (signFull (real fuel) sm smlen m mlen sk W) fun r N =>
      r = -1 ∧ N = 0 ∨ ∃ k dil, Dilithium.Spec.Signs S128 S256 (skDil skb) mb k dil ∧
        (W.rng.draw W.rng.log.length 32 = none ∧ r = -4 ∧ N = 24 + 6 * k ∨ (W.rng.draw W.rng.log.length 32).isSome ∧ r = 0 ∧ N = 24 + 6 * k + 345874) := by
  refine CountsAt.onHeap ?_
  rcases sm with _ | sm <;> rcases smlen with _ | smlen <;> rcases m with _ | m <;> rcases sk with _ | sk
  iterate 15 exact CountsAt.pure (Or.inl ⟨rfl, rfl⟩)
  have hm := hm m rfl
  have hsk := hsk sk rfl
  unfold signFullH signFull
  refine CountsAt.ite (fun _ => CountsAt.pure (Or.inl ⟨rfl, rfl⟩)) fun _ => ?_
  refine CountsAt.bindM fun s1 W1 e1 => ?_
  obtain ⟨-, rfl⟩ : s1 = slice skb 0 64 ∧ W1 = W := by
    have := (copyIn_zeros hsk (o := 0) (n := 64) (by omega)).symm.trans e1
    cases this; exact ⟨rfl, rfl⟩
  refine CountsAt.bindM fun s2 W2 e2 => ?_
  obtain ⟨rfl, rfl⟩ : s2 = slice skb 64 2560 ∧ W2 = W1 := by
    have := (copyIn_zeros hsk (o := 64) (n := 2560) (by omega)).symm.trans e2
    cases this; exact ⟨rfl, rfl⟩
  refine CountsAt.bindM fun s3 W3 e3 => ?_
  obtain ⟨-, rfl⟩ : s3 = slice skb 3936 128 ∧ W3 = W2 := by
    have := (copyIn_zeros hsk (o := 3936) (n := 128) (by omega)).symm.trans e3
    cases this; exact ⟨rfl, rfl⟩
  refine CountsAt.bindM fun msg W4 e4 => ?_
  obtain ⟨rfl, rfl⟩ : msg = mb ∧ W4 = W3 := by
    have := (readMem_ok hm).symm.trans e4
    cases this; exact ⟨rfl, rfl⟩
  refine CountsAt.bindM ?_
  rintro ⟨r1, sig1, l1⟩ W5 e5
  obtain ⟨f5, rfl⟩ := liftC_world e5
  obtain ⟨-, -, h1, -, h1'⟩ := edSign_real f5
  rw [length_of_view hm] at h1'
  refine CountsAt.bindK (counts_dilSign _ _ _ _ _) ?_
  rintro ⟨r2, sig2, l2⟩ N2 - ⟨h2, h2', k, hs, rfl⟩
  refine CountsAt.bind (countsAt_spxSign fuel _ _ _ _) ?_
  rintro ⟨r3, sig3, l3⟩ _ N3 - h3
  refine CountsAt.ite (fun c => absurd h1 c) fun _ => ?_
  refine CountsAt.ite (fun c => absurd h2 c) fun _ => ?_
  rcases h3 with ⟨hd, h3, rfl⟩ | ⟨hd, h3, h3', rfl⟩
  · exact CountsAt.ite (fun c => CountsAt.pure (.inr ⟨k, sig2, hs, Or.inl ⟨hd, rfl, rfl⟩⟩)) fun c => absurd h3 (by simp at c; omega)
  · refine CountsAt.ite (fun c => absurd h3 c) fun _ => ?_
    refine CountsAt.ite (fun c => absurd h1' c) fun _ => CountsAt.ite (fun c => absurd h2' c) fun _ => CountsAt.ite (fun c => absurd h3' c) fun _ => ?_
    exact CountsAt.bindM fun _ _ _ => CountsAt.bindM fun _ _ _ => CountsAt.bindM fun _ _ _ => CountsAt.bindM fun _ _ _ => CountsAt.bindM fun _ _ _ => CountsAt.bindM fun _ _ _ =>
      CountsAt.pure (.inr ⟨k, sig2, hs, Or.inr ⟨hd, rfl, rfl⟩⟩)

/-- C118, opening in full mode: none before the Dilithium part is looked at, then none or 20 for Dilithium and, if that is accepted, 1202 to 17267 for SPHINCS+. -/
def openFullN (r : Int) (N : Nat) : Prop := -6 ≤ r ∧ r ≤ -1 ∧ N = 0 ∨ r = -7 ∧ (N = 0 ∨ N = 20) ∨ (r = -8 ∨ r = 0) ∧ 1222 ≤ N ∧ N ≤ 17287

theorem countsAt_openFull (fuel : Nat) (m mlen sm pk : Option Ptr) (smlen : Nat) (W : World) :
    CountsAt W openFullN (openFullH fuel m mlen sm smlen pk) (openFull (real fuel) m mlen sm smlen pk) := by
  rcases m with _ | m <;> rcases mlen with _ | mlen <;> rcases sm with _ | sm <;> rcases pk with _ | pk
  iterate 15 exact CountsAt.pure (Or.inl ⟨by decide, by decide, rfl⟩)
  unfold openFullH openFull
  · have early : ∀ {r : Int} {W : World}, -6 ≤ r → r ≤ -1 → CountsAt W openFullN (pure r) (pure r) := fun h1 h2 => CountsAt.pure (.inl ⟨h1, h2, rfl⟩)
    refine CountsAt.ite (fun _ => early (by decide) (by decide)) fun _ => CountsAt.bindM fun id _ _ => CountsAt.ite (fun _ => early (by decide) (by decide)) fun _ => CountsAt.bindM fun lb _ _ => ?_
    refine CountsAt.ite (fun _ => early (by decide) (by decide)) fun _ => CountsAt.ite (fun _ => early (by decide) (by decide)) fun _ => CountsAt.bindM fun _ _ _ => CountsAt.bindM fun _ _ _ => CountsAt.bindM ?_
    rintro ⟨r1, msg1, l1⟩ _ _
    refine CountsAt.ite (fun _ => early (by decide) (by decide)) fun _ => CountsAt.ite (fun _ => early (by decide) (by decide)) fun _ => ?_
    refine CountsAt.bindM fun sig2 _ _ => CountsAt.bindM fun pk2 _ _ => CountsAt.bindM fun msg _ _ => CountsAt.bindK (counts_dilVerify _ _ _ _) fun r2 N2 _ h2 => ?_
    refine CountsAt.ite (fun _ => CountsAt.pure (.inr (.inl ⟨rfl, by omega⟩))) fun c => ?_
    have h2 : N2 = 20 := by omega
    subst h2
    refine CountsAt.bindM fun sig3 _ e3 => CountsAt.bindM fun pk3 _ _ => CountsAt.bindK (counts_spxVerify _ _ _ _ ((copyIn_length e3).trans List.length_replicate)) fun r3 N3 _ h3 => ?_
    refine CountsAt.ite (fun _ => CountsAt.pure (.inr (.inr ⟨.inl rfl, by omega, by omega⟩))) fun c => CountsAt.bindM fun _ _ _ => CountsAt.bindM fun _ _ _ => ?_
    exact CountsAt.pure (.inr (.inr ⟨.inr rfl, by omega, by omega⟩))

theorem hybrid_open_full_contexts (fuel : Nat) (m mlen sm pk : Option Ptr) (smlen : Nat) (W : World) :
    OnHeap (openFullH fuel m mlen sm smlen pk W) (openFull (real fuel) m mlen sm smlen pk W) fun r N =>
      -6 ≤ r ∧ r ≤ -1 ∧ N = 0 ∨ r = -7 ∧ (N = 0 ∨ N = 20) ∨ (r = -8 ∨ r = 0) ∧ 1222 ≤ N ∧ N ≤ 17287 :=
  (countsAt_openFull fuel m mlen sm pk smlen W).onHeap

/-- C118, verification in full mode. -/
theorem hybrid_verify_full_contexts (fuel : Nat) (m sm pk : Option Ptr) (mlen smlen : Nat) (W : World) :
    OnHeap (verifyFullH fuel m mlen sm smlen pk W) (verifyFull (real fuel) m mlen sm smlen pk W) fun r N =>
      r = -1 ∧ N = 0 ∨ r = -2 ∧ (N = 0 ∨ N = 20 ∨ 1222 ≤ N ∧ N ≤ 17287) ∨ (r = -3 ∨ r = -4 ∨ r = 0) ∧ 1222 ≤ N ∧ N ≤ 17287 := by
  refine CountsAt.onHeap ?_
  rcases m with _ | m <;> rcases sm with _ | sm <;> rcases pk with _ | pk
  iterate 7 exact CountsAt.pure (Or.inl ⟨rfl, rfl⟩)
  unfold verifyFullH verifyFull
  refine CountsAt.ite (fun _ => CountsAt.pure (Or.inl ⟨rfl, rfl⟩)) fun _ => CountsAt.withLocal (CountsAt.withLocal ?_)
  refine CountsAt.bind (countsAt_openFull ..) fun r _ N _ h => ?_
  unfold openFullN at h
  refine CountsAt.ite (fun c => CountsAt.pure (.inr (.inl ⟨rfl, by omega⟩))) fun c => CountsAt.bindM fun l _ _ => ?_
  exact CountsAt.ite (fun _ => CountsAt.pure (.inr (.inr ⟨.inl rfl, by omega, by omega⟩))) fun _ =>
    CountsAt.cmp (.inr (.inr ⟨.inr (.inr rfl), by omega, by omega⟩)) (.inr (.inr ⟨.inr (.inl rfl), by omega, by omega⟩))

/-- C118, compact signing: 24 contexts and 6 per rejected attempt, none if the random source fails; the message that Dilithium signs is the hash of the nonce drawn, the message and the SPHINCS+ public
key (hybrid-dilithium-sphincs/hybrid.c:468-564). -/
theorem hybrid_sign_compact_contexts (fuel : Nat) (sm smlen m sk : Option Ptr) (mlen : Nat) (W : World) {mb skb : Bytes}
    (hm : ∀ p, m = some p → W.view p mlen = some mb) (hsk : ∀ p, sk = some p → W.view p 4064 = some skb) :
    OnHeap (signCompactH fuel sm smlen m mlen sk W) (signCompact (real fuel) sm smlen m mlen sk W) fun r N =>
      r = -1 ∧ N = 0 ∨ ∃ nonce k dil, W.rng.draw W.rng.log.length 40 = some nonce ∧
        Dilithium.Spec.Signs S128 S256 (skDil skb) ((real fuel).sha3_512 (nonce ++ mb ++ skSpxPk skb)) k dil ∧ r = 0 ∧ N = 24 + 6 * k := by
  refine CountsAt.onHeap ?_
  rcases sm with _ | sm <;> rcases smlen with _ | smlen <;> rcases m with _ | m <;> rcases sk with _ | sk
  iterate 15 exact CountsAt.pure (Or.inl ⟨rfl, rfl⟩)
  have hm := hm m rfl
  have hsk := hsk sk rfl
  have lm := length_of_view hm
  have lsk := length_of_view hsk
  unfold signCompactH signCompact
  refine CountsAt.ite (fun _ => CountsAt.pure (Or.inl ⟨rfl, rfl⟩)) fun hc => ?_
  have hc : mlen ≤ 64 := by simp only [MAX_MSG_LEN] at hc; omega
  refine CountsAt.bindM fun s1 W1 e1 => ?_
  obtain ⟨-, rfl⟩ : s1 = slice skb 0 64 ∧ W1 = W := by
    have := (copyIn_zeros hsk (o := 0) (n := 64) (by omega)).symm.trans e1
    cases this; exact ⟨rfl, rfl⟩
  refine CountsAt.bindM fun s2 W2 e2 => ?_
  obtain ⟨rfl, rfl⟩ : s2 = slice skb 64 2560 ∧ W2 = W1 := by
    have := (copyIn_zeros hsk (o := 64) (n := 2560) (by omega)).symm.trans e2
    cases this; exact ⟨rfl, rfl⟩
  refine CountsAt.bindM fun o W3 e3 => ?_
  obtain ⟨hd, rfl⟩ : W2.rng.draw W2.rng.log.length 40 = o ∧ { W2 with rng := Sphincs.drawn W2.rng 40 } = W3 := by
    cases e3; exact ⟨rfl, rfl⟩
  cases o with
  | none => exact CountsAt.pure (Or.inl ⟨rfl, rfl⟩)
  | some nonce =>
  have hnl := W2.rng.len_draw _ _ _ hd
  have hspl : (slice skb 4000 64).length = 64 := length_slice (by omega)
  have hm3 : ({ W2 with rng := Sphincs.drawn W2.rng 40 } : World).view m mlen = some mb := hm
  have hsk3 : ({ W2 with rng := Sphincs.drawn W2.rng 40 } : World).view sk 4064 = some skb := hsk
  generalize ({ W2 with rng := Sphincs.drawn W2.rng 40 } : World) = W3 at hm3 hsk3 ⊢
  refine CountsAt.bindM fun b1 W4 e4 => ?_
  obtain ⟨f4, rfl⟩ := liftC_world e4
  have f4 := Except.ok.inj ((copy_ok (dst := zeros 168) (d := 0) (src := nonce) (s := 0) (n := 40) (by omega) (by simp)).symm.trans f4)
  rw [slice_full hnl] at f4
  have l4 : b1.length = 168 := by rw [← f4, length_splice (by simp; omega)]; simp
  refine CountsAt.bindM fun b2 W5 e5 => ?_
  have g5 := Except.ok.inj ((copyIn_ok (dst := b1) (d := 40) (x := mb) (o := 0) (by simpa [Ptr.add] using hm3) (by omega)).symm.trans e5)
  obtain ⟨f5, rfl⟩ := Prod.mk.inj g5
  rw [← f4, splice_append hnl (by simp; omega)] at f5
  have l5 : b2.length = 168 := by rw [← f5, length_splice (by simp; omega)]; simp
  refine CountsAt.bindM fun b3 W6 e6 => ?_
  have g6 := Except.ok.inj ((copyIn_ok (dst := b2) (d := 40 + mlen) (view_sub hsk3 (o := 4000) (k := 64) (by omega)) (by omega)).symm.trans e6)
  obtain ⟨f6, rfl⟩ := Prod.mk.inj g6
  rw [← f5, splice_append (by simp; omega) (by simp; omega)] at f6
  refine CountsAt.bindM fun hin W7 e7 => ?_
  obtain ⟨f7, rfl⟩ := liftC_world e7
  have f7 := Except.ok.inj ((prefixOf_ok (b := b3) (n := 40 + mlen + 64) (by rw [← f6, length_splice (by simp; omega)]; simp; omega)).symm.trans f7)
  rw [← f6, take_splice (by simp; omega)] at f7
  subst f7
  refine CountsAt.bindM ?_
  rintro ⟨r1, sig1, l1⟩ W8 e8
  obtain ⟨f8, rfl⟩ := liftC_world e8
  obtain ⟨-, -, h1, -, h1'⟩ := edSign_real f8
  rw [(sha3_real (fuel := fuel) _).1] at h1'
  refine CountsAt.bindK (counts_dilSign _ _ _ _ _) ?_
  rintro ⟨r2, sig2, l2⟩ N2 - ⟨h2, h2', k, hs, rfl⟩
  refine CountsAt.ite (fun c => absurd h1 c) fun _ => CountsAt.ite (fun c => absurd h2 c) fun _ => CountsAt.ite (fun c => absurd h1' c) fun _ => CountsAt.ite (fun c => absurd h2' c) fun _ => ?_
  exact CountsAt.bindM fun _ _ _ => CountsAt.bindM fun _ _ _ => CountsAt.bindM fun _ _ _ => CountsAt.bindM fun _ _ _ => CountsAt.bindM fun _ _ _ => CountsAt.bindM fun _ _ _ =>
    CountsAt.bindM fun _ _ _ => CountsAt.pure (.inr ⟨nonce, k, sig2, hd, hs, rfl, rfl⟩)

theorem countsAt_openCompact (fuel : Nat) (m mlen sm pk : Option Ptr) (smlen : Nat) (W : World) :
    CountsAt W (fun r N => -7 ≤ r ∧ r ≤ -1 ∧ N = 0 ∨ r = -8 ∧ (N = 0 ∨ N = 20) ∨ r = 0 ∧ N = 20) (openCompactH fuel m mlen sm smlen pk) (openCompact (real fuel) m mlen sm smlen pk) := by
  rcases m with _ | m <;> rcases mlen with _ | mlen <;> rcases sm with _ | sm <;> rcases pk with _ | pk
  iterate 15 exact CountsAt.pure (Or.inl ⟨by decide, by decide, rfl⟩)
  unfold openCompactH openCompact
  have early : ∀ {r : Int} {W : World}, -7 ≤ r → r ≤ -1 → CountsAt W (fun r N => -7 ≤ r ∧ r ≤ -1 ∧ N = 0 ∨ r = -8 ∧ (N = 0 ∨ N = 20) ∨ r = 0 ∧ N = 20) (pure r) (pure r) :=
    fun h1 h2 => CountsAt.pure (.inl ⟨h1, h2, rfl⟩)
  refine CountsAt.ite (fun _ => early (by decide) (by decide)) fun _ => CountsAt.bindM fun id _ _ => CountsAt.ite (fun _ => early (by decide) (by decide)) fun _ => CountsAt.bindM fun lb _ _ => ?_
  refine CountsAt.ite (fun _ => early (by decide) (by decide)) fun _ => CountsAt.ite (fun _ => early (by decide) (by decide)) fun _ => CountsAt.bindM fun _ _ _ => CountsAt.bindM fun _ _ _ =>
    CountsAt.bindM fun _ _ _ => CountsAt.bindM fun _ _ _ => CountsAt.bindM fun _ _ _ => CountsAt.bindM fun _ _ _ => CountsAt.bindM fun _ _ _ => CountsAt.bindM ?_
  rintro ⟨r1, msg1, l1⟩ _ _
  refine CountsAt.ite (fun _ => early (by decide) (by decide)) fun _ => CountsAt.ite (fun _ => early (by decide) (by decide)) fun _ => CountsAt.bindM fun _ _ _ => CountsAt.bindM fun _ _ _ =>
    CountsAt.ite (fun _ => early (by decide) (by decide)) fun _ => ?_
  refine CountsAt.bindM fun sig2 _ _ => CountsAt.bindM fun pk2 _ _ => CountsAt.bindK (counts_dilVerify _ _ _ _) fun r2 N2 _ h2 => ?_
  refine CountsAt.ite (fun _ => CountsAt.pure (.inr (.inl ⟨rfl, by omega⟩))) fun c => ?_
  exact CountsAt.bindM fun _ _ _ => CountsAt.bindM fun _ _ _ => CountsAt.pure (.inr (.inr ⟨rfl, by omega⟩))

/-- C118, opening in compact mode: none before the Dilithium part is looked at, then none or 20; SPHINCS+ is never called (hybrid-dilithium-sphincs/hybrid.c:566-667). -/
theorem hybrid_open_compact_contexts (fuel : Nat) (m mlen sm pk : Option Ptr) (smlen : Nat) (W : World) :
    OnHeap (openCompactH fuel m mlen sm smlen pk W) (openCompact (real fuel) m mlen sm smlen pk W) fun r N =>
      -7 ≤ r ∧ r ≤ -1 ∧ N = 0 ∨ r = -8 ∧ (N = 0 ∨ N = 20) ∨ r = 0 ∧ N = 20 :=
  (countsAt_openCompact fuel m mlen sm pk smlen W).onHeap

/-- C118, verification in compact mode (hybrid-dilithium-sphincs/hybrid.c:669-696). -/
theorem hybrid_verify_compact_contexts (fuel : Nat) (m sm pk : Option Ptr) (mlen smlen : Nat) (W : World) :
    OnHeap (verifyCompactH fuel m mlen sm smlen pk W) (verifyCompact (real fuel) m mlen sm smlen pk W) fun r N =>
      r = -1 ∧ N = 0 ∨ r = -2 ∧ (N = 0 ∨ N = 20) ∨ (r = -3 ∨ r = -4 ∨ r = 0) ∧ N = 20 := by
  refine CountsAt.onHeap ?_
  rcases m with _ | m <;> rcases sm with _ | sm <;> rcases pk with _ | pk
  iterate 7 exact CountsAt.pure (Or.inl ⟨rfl, rfl⟩)
  unfold verifyCompactH verifyCompact
  refine CountsAt.ite (fun _ => CountsAt.pure (Or.inl ⟨rfl, rfl⟩)) fun _ => CountsAt.withLocal (CountsAt.withLocal ?_)
  refine CountsAt.bind (countsAt_openCompact ..) fun r _ N _ h => ?_
  refine CountsAt.ite (fun c => CountsAt.pure (.inr (.inl ⟨rfl, by omega⟩))) fun c => CountsAt.bindM fun l _ _ => ?_
  exact CountsAt.ite (fun _ => CountsAt.pure (.inr (.inr ⟨.inl rfl, by omega⟩))) fun _ =>
    CountsAt.cmp (.inr (.inr ⟨.inr (.inr rfl), by omega⟩)) (.inr (.inr ⟨.inr (.inl rfl), by omega⟩))

/-- C118, verification of a single Dilithium signature (hybrid-dilithium-sphincs/hybrid.c:698-711). -/
theorem hybrid_verify_dilithium_contexts (fuel : Nat) (m sm pk : Option Ptr) (mlen smlen : Nat) (W : World) :
    OnHeap (verifyDilithiumH fuel m mlen sm smlen pk W) (verifyDilithium (real fuel) m mlen sm smlen pk W) fun r N =>
      (r = -1 ∨ r = -2) ∧ N = 0 ∨ (r = -2 ∨ r = 0) ∧ N = 20 := by
  refine CountsAt.onHeap ?_
  rcases m with _ | m <;> rcases sm with _ | sm <;> rcases pk with _ | pk
  iterate 7 exact CountsAt.pure (Or.inl ⟨Or.inl rfl, rfl⟩)
  unfold verifyDilithiumH verifyDilithium
  refine CountsAt.ite (fun _ => CountsAt.pure (Or.inl ⟨Or.inl rfl, rfl⟩)) fun _ => CountsAt.ite (fun _ => CountsAt.pure (Or.inl ⟨Or.inr rfl, rfl⟩)) fun _ => ?_
  refine CountsAt.bindM fun _ _ _ => CountsAt.bindM fun _ _ _ => CountsAt.bindM fun _ _ _ => CountsAt.bindK (counts_dilVerify _ _ _ _) fun r N _ h => ?_
  exact CountsAt.ite (fun _ => CountsAt.pure (by omega)) fun c => CountsAt.pure (by omega)

/-- What `OnHeap` says about the two heaps of the examples: on one no allocation fails, on the other the fourth from now. -/
theorem OnHeap.demo {x : K (Int × World)} {v : C (Int × World)} {T : Int → Nat → Prop} (h : OnHeap x v T) {r : Int} {W' : World} (hv : v = .ok (r, W')) :
    ∃ N, T r N ∧ x Sphincs.Heap.calm = .ok ((r, W'), { Sphincs.Heap.calm with next := 1 + N }) ∧ (4 ≤ N → x Keccak.Heap.demo = .error (.exit 111)) := by
  obtain ⟨N, t, u⟩ := h
  refine ⟨N, t r W' hv, ?_, fun hN => (u _ Keccak.Heap.demo_wf).1 ⟨3, by omega, rfl⟩⟩
  rw [(u _ Sphincs.Heap.calm_wf).2 (fun _ _ => rfl), hv]
  rfl

/-- Key generation and full mode: a real run of each call, on a heap without and with a failing allocation. -/
example : ∃ (fuel : Nat) (W1 W1' : World) (pk1 sk1 seed1 : Ptr) (W2 W2' : World) (sm2 smlen2 m2 s2 : Ptr) (f2 k : Nat) (V : World) (m3 sm3 pk3 : Ptr) (n : Nat),
    keypairSeedH fuel (some pk1) (some sk1) (some seed1) W1 Sphincs.Heap.calm = .ok ((0, W1'), { Sphincs.Heap.calm with next := 17210 }) ∧
    keypairSeedH fuel (some pk1) (some sk1) (some seed1) W1 Keccak.Heap.demo = .error (.exit 111) ∧
    signFullH f2 (some sm2) (some smlen2) (some m2) 1 (some s2) W2 Sphincs.Heap.calm = .ok ((0, W2'), { Sphincs.Heap.calm with next := 345899 + 6 * k }) ∧
    signFullH f2 (some sm2) (some smlen2) (some m2) 1 (some s2) W2 Keccak.Heap.demo = .error (.exit 111) ∧
    verifyFullH fuel (some m3) 1 (some sm3) 52343 (some pk3) V Sphincs.Heap.calm = .ok ((0, V), { Sphincs.Heap.calm with next := n }) ∧ 1223 ≤ n ∧
    verifyFullH fuel (some m3) 1 (some sm3) 52343 (some pk3) V Keccak.Heap.demo = .error (.exit 111) := by
  obtain ⟨fuel, pkb, skb, sig, ⟨W1, W1', pk1, sk1, seed1, -, -, -, -, e1, -⟩, ⟨W, hs⟩, -, V, m3, sm3, pk3, -, -, -, -, e3⟩ := Witness.complete_run
  obtain ⟨N1, t1, a1, b1⟩ := (hybrid_keypair_seed_contexts fuel (some pk1) (some sk1) (some seed1) W1).demo e1
  obtain rfl : N1 = 17209 := by omega
  obtain ⟨N3, t3, a3, b3⟩ := (hybrid_verify_full_contexts fuel (some m3) (some sm3) (some pk3) 1 52343 V).demo e3
  obtain ⟨W2, W2', f2, sm2, smlen2, m2, s2, hm2, hs2, e2⟩ : ∃ (W2 W2' : World) (f2 : Nat) (sm2 smlen2 m2 s2 : Ptr), W2.view m2 1 = some [2] ∧ W2.view s2 4064 = some skb ∧
      signFull (real f2) (some sm2) (some smlen2) (some m2) 1 (some s2) W2 = .ok (0, W2') := by
    generalize hq : ([.full [2] sig] : List Query) = qs at hs
    induction hs with
    | start => cases hq
    | client _ _ ih => exact ih hq
    | compact => cases hq
    | full _ hm hs _ _ _ hr _ _ =>
      cases hq
      obtain rfl := (length_of_view hm).symm
      exact ⟨_, _, _, _, _, _, _, hm, hs, hr⟩
  obtain ⟨N2, t2, a2, b2⟩ := (hybrid_sign_full_contexts f2 (some sm2) (some smlen2) (some m2) (some s2) 1 W2 (fun p hp => by cases hp; exact hm2) (fun p hp => by cases hp; exact hs2)).demo e2
  obtain ⟨k, rfl⟩ : ∃ k, N2 = 24 + 6 * k + 345874 := by
    rcases t2 with t2 | ⟨k, -, -, t2⟩
    · omega
    · exact ⟨k, by omega⟩
  refine ⟨fuel, W1, W1', pk1, sk1, seed1, W2, W2', sm2, smlen2, m2, s2, f2, k, V, m3, sm3, pk3, 1 + N3, a1, b1 (by decide), ?_, b2 (by omega), a3, by omega, b3 (by omega)⟩
  rw [a2, show 1 + (24 + 6 * k + 345874) = 345899 + 6 * k by omega]

/-- Compact mode: the same. -/
example : ∃ (f1 : Nat) (W W' : World) (sm1 smlen1 m1 s1 : Ptr) (k f2 : Nat) (V : World) (m2 sm2 pk2 : Ptr),
    signCompactH f1 (some sm1) (some smlen1) (some m1) 1 (some s1) W Sphincs.Heap.calm = .ok ((0, W'), { Sphincs.Heap.calm with next := 25 + 6 * k }) ∧
    signCompactH f1 (some sm1) (some smlen1) (some m1) 1 (some s1) W Keccak.Heap.demo = .error (.exit 111) ∧
    verifyCompactH f2 (some m2) 1 (some sm2) 2527 (some pk2) V Sphincs.Heap.calm = .ok ((0, V), { Sphincs.Heap.calm with next := 21 }) ∧
    verifyCompactH f2 (some m2) 1 (some sm2) 2527 (some pk2) V Keccak.Heap.demo = .error (.exit 111) := by
  obtain ⟨f1, -, skb, W, W', sm1, smlen1, m1, s1, -, -, hm1, hs1, -, -, -, -, e1⟩ := compact_demo_run
  obtain ⟨f2, -, -, -, -, -, V, m2, sm2, pk2, -, -, -, -, e2⟩ := Witness.compact_run
  obtain ⟨N1, t1, a1, b1⟩ := (hybrid_sign_compact_contexts f1 (some sm1) (some smlen1) (some m1) (some s1) 1 W (fun p hp => by cases hp; exact hm1) (fun p hp => by cases hp; exact hs1)).demo e1
  obtain ⟨k, rfl⟩ : ∃ k, N1 = 24 + 6 * k := by
    rcases t1 with t1 | ⟨-, k, -, -, -, t1⟩
    · omega
    · exact ⟨k, by omega⟩
  obtain ⟨N2, t2, a2, b2⟩ := (hybrid_verify_compact_contexts f2 (some m2) (some sm2) (some pk2) 1 2527 V).demo e2
  obtain rfl : N2 = 20 := by omega
  refine ⟨f1, W, W', sm1, smlen1, m1, s1, k, f2, V, m2, sm2, pk2, ?_, b1 (by omega), a2, b2 (by decide)⟩
  rw [a1, show 1 + (24 + 6 * k) = 25 + 6 * k by omega]

/-- Calls that make no context do not end the process, whatever `malloc` does. -/
example (W : World) : keypairSeedH 9 none none none W Keccak.Heap.demo4 = .ok ((-1, W), Keccak.Heap.demo4) := rfl

end Verif.Real.Heap
