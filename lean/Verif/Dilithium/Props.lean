import Verif.Dilithium.Final

/-!
Properties C31 to C41: Dilithium.

`H128` and `H256` are any functions with `IsShake128 H128` and `IsShake256 H256`, that is SHAKE128 and SHAKE256 of FIPS 202 on bytes.  The
scheme they are plugged into is Dilithium/Spec.lean.  `fuel` bounds the loops without static bound (rejection sampling); a result `.ok` means that
they ended within the bound, and every theorem is for every fuel.
-/

namespace Verif.Dilithium
open Verif Spec

/-- `H m n` is the first `n` bytes of SHAKE128(m) of FIPS 202. -/
def IsShake128 (H : Bytes → Nat → Bytes) : Prop := ∀ m n, Keccak.Spec.bits (H m n) = Keccak.Spec.SHAKE128 (Keccak.Spec.bits m) (8 * n)
/-- `H m n` is the first `n` bytes of SHAKE256(m) of FIPS 202. -/
def IsShake256 (H : Bytes → Nat → Bytes) : Prop := ∀ m n, Keccak.Spec.bits (H m n) = Keccak.Spec.SHAKE256 (Keccak.Spec.bits m) (8 * n)

theorem isShake128_S128 : IsShake128 S128 := fun m n => Keccak.stream_spec (by omega) (by omega) Keccak.suffix_shake m n
theorem isShake256_S256 : IsShake256 S256 := fun m n => Keccak.stream_spec (by omega) (by omega) Keccak.suffix_shake m n

theorem IsShake128.eq {H : Bytes → Nat → Bytes} (h : IsShake128 H) : H = S128 :=
  funext fun m => funext fun n => Keccak.bits_injective ((h m n).trans (isShake128_S128 m n).symm)
theorem IsShake256.eq {H : Bytes → Nat → Bytes} (h : IsShake256 H) : H = S256 :=
  funext fun m => funext fun n => Keccak.bits_injective ((h m n).trans (isShake256_S256 m n).symm)

/-- The functions exist. -/
example : (∃ H, IsShake128 H) ∧ ∃ H, IsShake256 H := ⟨⟨_, isShake128_S128⟩, _, isShake256_S256⟩

section
variable {H128 H256 : Bytes → Nat → Bytes}

/-! ### C61: the three algorithms against the specification -/

/-- Seeded key generation computes `KeyGen`, and never faults. -/
theorem dil_keygen_spec (h1 : IsShake128 H128) (h2 : IsShake256 H256) {pk sk seed : Bytes} (hpk : pk.length = 1312) (hsk : sk.length = 2560) (hs : seed.length = 32) :
    (∀ fuel, keypairSeed fuel pk sk seed ≠ .error .ub) ∧
    (∀ fuel r pk' sk', keypairSeed fuel pk sk seed = .ok (r, pk', sk') → r = 0 ∧ KeyGen H128 H256 seed pk' sk' ∧ pk'.length = 1312 ∧ sk'.length = 2560) ∧
    (∀ pk' sk', KeyGen H128 H256 seed pk' sk' → ∃ F, ∀ fuel, F ≤ fuel → keypairSeed fuel pk sk seed = .ok (0, pk', sk')) := by
  obtain rfl := h1.eq
  obtain rfl := h2.eq
  refine ⟨fun fuel => keypairSeed_safe fuel hpk hsk hs, fun fuel r pk' sk' h => ?_, fun pk' sk' h => keypairSeed_complete hpk hsk hs h⟩
  obtain ⟨a, b⟩ := keypairSeed_sound hpk hsk hs h
  exact ⟨a, b, (keygen_parts b).1, (keygen_parts b).2.1⟩

/-- Signing under any 2560 bytes as secret key computes `Signs`, and never faults. -/
theorem dil_sign_spec (h1 : IsShake128 H128) (h2 : IsShake256 H256) {sk sig m : Bytes} {n : Nat} (hsk : sk.length = 2560) (hsig : sig.length = 2420) :
    (∀ fuel, signature fuel sig n m sk ≠ .error .ub) ∧
    (∀ fuel r sig' n', signature fuel sig n m sk = .ok (r, sig', n') → r = 0 ∧ n' = 2420 ∧ sig'.length = 2420 ∧ ∃ k, Signs H128 H256 sk m k sig') ∧
    (∀ k sig', Signs H128 H256 sk m k sig' → ∃ F, ∀ fuel, F ≤ fuel → signature fuel sig n m sk = .ok (0, sig', 2420)) := by
  obtain rfl := h1.eq
  obtain rfl := h2.eq
  refine ⟨fun fuel => signature_safe fuel n hsk hsig, fun fuel r sig' n' h => ?_, fun k sig' h => signature_complete n hsk hsig h⟩
  obtain ⟨a, b, k, c⟩ := signature_sound hsk hsig h
  exact ⟨a, b, signs_length c, k, c⟩

/-- Verification of any 2420 bytes under any 1312 bytes decides `Valid`, and never faults. -/
theorem dil_verify_spec (h1 : IsShake128 H128) (h2 : IsShake256 H256) {pk sig m : Bytes} (hpk : pk.length = 1312) (hsig : sig.length = 2420) :
    (∀ fuel, verify fuel sig 2420 m pk ≠ .error .ub) ∧
    (∀ fuel v, verify fuel sig 2420 m pk = .ok v → (v = 0 ∧ Valid H128 H256 pk m sig) ∨ (v = -1 ∧ ¬ Valid H128 H256 pk m sig)) ∧
    (Valid H128 H256 pk m sig → ∃ F, ∀ fuel, F ≤ fuel → verify fuel sig 2420 m pk = .ok 0) := by
  obtain rfl := h1.eq
  obtain rfl := h2.eq
  exact ⟨fun fuel => verify_safe fuel m hsig hpk, fun fuel v h => verify_sound hsig hpk h, fun h => verify_complete hsig hpk h⟩

example : (∃ pk sk seed : Bytes, pk.length = 1312 ∧ sk.length = 2560 ∧ seed.length = 32) ∧ ∃ sig : Bytes, sig.length = 2420 :=
  ⟨⟨List.replicate 1312 7, List.replicate 2560 7, List.replicate 32 7, List.length_replicate .., List.length_replicate .., List.length_replicate ..⟩,
    List.replicate 2420 7, List.length_replicate ..⟩

/-- C62: the outputs are determined: two key pairs for one seed, or two signatures for one key and message, are equal. -/
theorem dil_deterministic (h1 : IsShake128 H128) (h2 : IsShake256 H256) :
    (∀ seed pk sk pk' sk', seed.length = 32 → KeyGen H128 H256 seed pk sk → KeyGen H128 H256 seed pk' sk' → pk = pk' ∧ sk = sk') ∧
    (∀ sk m k sig k' sig', sk.length = 2560 → Signs H128 H256 sk m k sig → Signs H128 H256 sk m k' sig' → sig = sig') := by
  obtain rfl := h1.eq
  obtain rfl := h2.eq
  constructor
  · intro seed pk sk pk' sk' hs h h'
    obtain ⟨F, hF⟩ := keypairSeed_complete (pk := List.replicate 1312 0) (sk := List.replicate 2560 0) (List.length_replicate ..) (List.length_replicate ..) hs h
    obtain ⟨G, hG⟩ := keypairSeed_complete (pk := List.replicate 1312 0) (sk := List.replicate 2560 0) (List.length_replicate ..) (List.length_replicate ..) hs h'
    have := (hF (max F G) (by omega)).symm.trans (hG (max F G) (by omega))
    cases this; exact ⟨rfl, rfl⟩
  · intro sk m k sig k' sig' hs h h'
    obtain ⟨F, hF⟩ := signature_complete (sig := List.replicate 2420 0) 0 hs (List.length_replicate ..) h
    obtain ⟨G, hG⟩ := signature_complete (sig := List.replicate 2420 0) 0 hs (List.length_replicate ..) h'
    have := (hF (max F G) (by omega)).symm.trans (hG (max F G) (by omega))
    cases this; rfl

/-! ### C31 -/

/-- Mathematically: what `Signs` yields under a `KeyGen` key is `Valid`. -/
theorem dil_scheme_correct (h1 : IsShake128 H128) (h2 : IsShake256 H256) {seed pk sk m sig : Bytes} {k : Nat}
    (hk : KeyGen H128 H256 seed pk sk) (hs : Signs H128 H256 sk m k sig) : Valid H128 H256 pk m sig := by
  obtain rfl := h1.eq
  obtain rfl := h2.eq
  exact signs_valid hk hs

/-- C31: whenever key generation and signing end, verification accepts: it never returns anything but 0, it ends with the fuel of the signing run,
and with every large enough fuel. -/
theorem dil_round_trip {fk fs : Nat} {pk0 sk0 seed pk sk sig0 sig m : Bytes} {n0 n : Nat} {r r' : Int}
    (hpk : pk0.length = 1312) (hsk : sk0.length = 2560) (hseed : seed.length = 32) (hsig : sig0.length = 2420)
    (hk : keypairSeed fk pk0 sk0 seed = .ok (r, pk, sk)) (hs : signature fs sig0 n0 m sk = .ok (r', sig, n)) :
    r = 0 ∧ r' = 0 ∧ n = 2420 ∧ sig.length = 2420 ∧ verify fs sig n m pk = .ok 0 ∧
      (∀ fuel v, verify fuel sig n m pk = .ok v → v = 0) ∧ ∃ F, ∀ fuel, F ≤ fuel → verify fuel sig n m pk = .ok 0 := by
  obtain ⟨e1, hg⟩ := keypairSeed_sound hpk hsk hseed hk
  obtain ⟨lpk, lsk, erho⟩ := keygen_parts hg
  obtain ⟨e2, e3, k, hk⟩ := signature_sound lsk hsig hs
  have hv := signs_valid hg hk
  have ls := signs_length hk
  subst e3
  obtain ⟨hA, hc⟩ := signature_fuel lsk hsig hs
  rw [← erho] at hA
  refine ⟨e1, e2, rfl, ls, verify_same ls lpk hv hA hc, fun fuel v h => ?_, verify_complete ls lpk hv⟩
  rcases verify_sound ls lpk h with ⟨h, _⟩ | ⟨_, h⟩
  · exact h
  · exact absurd hv h

/-! ### C32 -/

/-- C32: the decoder accepts exactly the encodings, and gives back what was encoded. -/
theorem sig_decode_spec {sig : Bytes} (hs : sig.length = 2420) :
    (∃ r, unpackSig sig = .ok r) ∧ ∀ c z h, unpackSig sig = .ok (some (c, z, h)) ↔
      (c.length = 32 ∧ z.length = 4 ∧ (∀ x ∈ z, x.length = 256 ∧ ∀ v ∈ x, -131072 < v ∧ v ≤ 131072) ∧ IsHint h ∧ weight h ≤ 80 ∧ sig = encodeSig c z h) := by
  obtain ⟨r, e, hr⟩ := unpackSig_iff hs
  refine ⟨⟨r, e⟩, fun c z h => ?_⟩
  rw [e]
  constructor
  · intro h'
    cases h'
    obtain ⟨⟨a, b, c, d, e⟩, f⟩ := (hr c z h).1 rfl
    exact ⟨a, b, c, d, e, f⟩
  · rintro ⟨a, b, c', d, e, f⟩
    rw [(hr c z h).2 ⟨⟨a, b, c', d, e⟩, f⟩]

/-- C32: two different strings never decode to the same signature. -/
theorem sig_decode_injective {s s' : Bytes} (hs : s.length = 2420) (hs' : s'.length = 2420) {x : Bytes × Vec × Vec}
    (h : unpackSig s = .ok (some x)) (h' : unpackSig s' = .ok (some x)) : s = s' := by
  obtain ⟨c, z, hh⟩ := x
  have a := ((sig_decode_spec hs).2 c z hh).1 h
  have b := ((sig_decode_spec hs').2 c z hh).1 h'
  exact a.2.2.2.2.2.trans b.2.2.2.2.2.symm

/-- C32: encoding a signature whose parts are in range and decoding it gives the parts back. -/
theorem sig_encode_decode {sig0 c : Bytes} {z h : Vec} (h0 : sig0.length = 2420) (hc : c.length = 32) (hz : z.length = 4)
    (hzb : ∀ x ∈ z, x.length = 256 ∧ ∀ v ∈ x, -131072 < v ∧ v ≤ 131072) (hh : IsHint h) (hw : weight h ≤ 80) :
    ∃ sig, packSig sig0 c z h = .ok sig ∧ sig.length = 2420 ∧ unpackSig sig = .ok (some (c, z, h)) := by
  have hl : (encodeSig c z h).length = 2420 := length_encodeSig hc hz (fun x hx => (hzb x hx).1) hw
  exact ⟨_, packSig_ok h0 hc hz hzb hh.1 (fun x hx => (hh.2 x hx).1) hw, hl, ((sig_decode_spec hl).2 c z h).2 ⟨hc, hz, hzb, hh, hw, rfl⟩⟩

/-- C32: the 84 hint bytes of an accepted string: the totals increase up to at most 80, the positions of one polynomial increase strictly, and the
bytes between the last position and the totals are zero. -/
theorem sig_hint_bytes {sig : Bytes} (hs : sig.length = 2420) {c : Bytes} {z h : Vec} (hu : unpackSig sig = .ok (some (c, z, h))) :
    ∃ p0 p1 p2 p3 : Bytes,
      (∀ p ∈ [p0, p1, p2, p3], p.Pairwise fun a b => a.toNat < b.toNat) ∧
      p0.length + p1.length + p2.length + p3.length ≤ 80 ∧
      sig.drop 2336 = p0 ++ p1 ++ p2 ++ p3 ++ List.replicate (80 - (p0.length + p1.length + p2.length + p3.length)) 0 ++
        [BitVec.ofNat 8 p0.length, BitVec.ofNat 8 (p0.length + p1.length), BitVec.ofNat 8 (p0.length + p1.length + p2.length),
          BitVec.ofNat 8 (p0.length + p1.length + p2.length + p3.length)] ∧
      ∀ i, i < 4 → ∀ j, j < 256 → (co (at_ h i) j = if BitVec.ofNat 8 j ∈ ([p0, p1, p2, p3].getD i []) then 1 else 0) := by
  obtain ⟨hc, hz, hzb, hh, hw, hsig⟩ := ((sig_decode_spec hs).2 c z h).1 hu
  obtain ⟨lh, bh⟩ := hh
  match h, lh, bh, hw, hsig, hu with
  | [a, b, d, e], _, bh, hw, hsig, hu =>
    have ew : weight [a, b, d, e] = (positions a).length + (positions b).length + (positions d).length + (positions e).length := by
      simp [weight, List.flatMap_cons, Nat.add_assoc]
    refine ⟨positions a, positions b, positions d, positions e, ?_, by omega, ?_, ?_⟩
    · intro p hp
      have : ∃ x, p = positions x := by
        simp only [List.mem_cons, List.not_mem_nil, or_false] at hp
        rcases hp with rfl | rfl | rfl | rfl <;> exact ⟨_, rfl⟩
      obtain ⟨x, rfl⟩ := this
      exact List.isChain_iff_pairwise.1 (positions_chain x)
    · have l1 : (c ++ z.flatMap (packAt 18 131072)).length = 2336 := by
        rw [List.length_append, hc, length_flatMap_vec hz fun x hx => length_packAt (hzb x hx).1]
      rw [hsig, encodeSig, List.drop_left' l1]
      simp [packHint, vec, List.range_succ, List.flatMap_cons, Nat.add_assoc]
    · intro i hi j hj
      have key : ∀ x ∈ [a, b, d, e], co x j = if BitVec.ofNat 8 j ∈ positions x then 1 else 0 := by
        intro x hx
        have hb := bh x hx
        have hm := mem_positions x (BitVec.ofNat 8 j)
        rw [BitVec.toNat_ofNat, Nat.mod_eq_of_lt (by omega)] at hm
        have := hb.2 _ (co_mem (a := x) (i := j) (by omega))
        by_cases c : BitVec.ofNat 8 j ∈ positions x
        · rw [if_pos c]; have := hm.1 c; omega
        · rw [if_neg c]
          by_contra h0
          exact c (hm.2 h0)
      match i, hi with
      | 0, _ => exact key a (by simp)
      | 1, _ => exact key b (by simp)
      | 2, _ => exact key d (by simp)
      | 3, _ => exact key e (by simp)

theorem unpackSig_hints {sig : Bytes} (hs : sig.length = 2420) :
    ∃ c z, unpackSig sig = (unpackHints sig 2336 0 4 0 >>= fun r => match r with
      | none => .ok none
      | some (h, k) => do
        let bad ← anyBad (fun j => do
          let x ← rd sig (2336 + j)
          .ok (decide (x ≠ 0))) k (80 - k)
        if bad then .ok none else .ok (some (c, z, h))) := by
  refine ⟨slice sig 0 32, vec fun i => unpackAt 18 131072 (slice sig (32 + i * 576) 576), ?_⟩
  unfold unpackSig
  rw [copy_from (by omega), ok_bind, vecUnpack_ok (g := fun i => unpackAt 18 131072 (slice sig (32 + i * 576) 576)) (fun i hi => polyzUnpack_ok (by omega)), ok_bind]
  rfl

theorem rd_prefix {z t : Bytes} {o : Nat} (h : z.length = o) (j : Nat) : rd (z ++ t) (o + j) = rd t j := by
  unfold rd
  rw [List.getElem?_append_right (by omega), show o + j - z.length = j by omega]

theorem unpackHintPoly_prefix {z t : Bytes} {o : Nat} (hz : z.length = o) {k : Nat} : ∀ (n j : Nat) (h : Poly),
    unpackHintPoly (z ++ t) o k j n h = unpackHintPoly t 0 k j n h := by
  intro n
  induction n with
  | zero => intro j h; rfl
  | succ n ih =>
    intro j h
    unfold unpackHintPoly
    by_cases hj : j > k
    · simp only [hj, if_true, rd_prefix hz, ih, show o + j - 1 = o + (j - 1) by omega, Nat.zero_add]
    · simp only [hj, if_false, rd_prefix hz, ih, Nat.zero_add]

/-- The hints are read from the last 84 bytes only. -/
theorem unpackHints_prefix {z t : Bytes} {o : Nat} (hz : z.length = o) : ∀ (n i k : Nat),
    unpackHints (z ++ t) o i n k = unpackHints t 0 i n k := by
  intro n
  induction n with
  | zero => intro i k; rfl
  | succ n ih =>
    intro i k
    unfold unpackHints
    simp only [show o + 80 + i = o + (80 + i) by omega, rd_prefix hz, ih, unpackHintPoly_prefix hz, Nat.zero_add]

/-- A string with a hint is decoded, and its hint bytes are rejected when out of order. -/
example : (match unpackSig (List.replicate 2336 0 ++ [3, 9] ++ List.replicate 78 0 ++ [2, 2, 2, 2]) with | .ok (some _) => true | _ => false) = true ∧
    (match unpackSig (List.replicate 2336 0 ++ [9, 3] ++ List.replicate 78 0 ++ [2, 2, 2, 2]) with | .ok none => true | _ => false) = true ∧
    (match unpackSig (List.replicate 2336 0 ++ [3, 9] ++ List.replicate 77 0 ++ [1] ++ [2, 2, 2, 2]) with | .ok none => true | _ => false) = true := by
  have key : ∀ z0 t : Bytes, z0.length = 2336 → t.length = 84 → ∀ b, (match unpackHints t 0 0 4 0 with
      | .ok none => some false
      | .ok (some (_, k)) => (match anyBad (fun j => do
          let x ← rd t j
          .ok (decide (x ≠ 0))) k (80 - k) with
        | .ok bad => some (!bad)
        | .error _ => none)
      | .error _ => none) = some b →
      (match unpackSig (z0 ++ t) with | .ok (some _) => some true | .ok none => some false | .error _ => none) = some b := by
    intro z0 t hz ht b h
    obtain ⟨c, z, e⟩ := unpackSig_hints (sig := z0 ++ t) (by rw [List.length_append]; omega)
    rw [e]
    simp only [unpackHints_prefix hz, rd_prefix hz]
    revert h
    cases unpackHints t 0 0 4 0 with
    | error e => intro h; cases h
    | ok r =>
      cases r with
      | none => exact id
      | some r =>
        obtain ⟨h, k⟩ := r
        simp only [ok_bind]
        cases anyBad _ k (80 - k) with
        | error e => intro h; cases h
        | ok bad => cases bad <;> exact id
  have k1 := key _ ([3, 9] ++ (List.replicate 78 0 ++ [2, 2, 2, 2])) (List.length_replicate (n := 2336) (a := 0)) rfl true (by decide +kernel)
  have k2 := key _ ([9, 3] ++ (List.replicate 78 0 ++ [2, 2, 2, 2])) (List.length_replicate (n := 2336) (a := 0)) rfl false (by decide +kernel)
  have k3 := key _ ([3, 9] ++ (List.replicate 77 0 ++ ([1] ++ [2, 2, 2, 2]))) (List.length_replicate (n := 2336) (a := 0)) rfl false (by decide +kernel)
  simp only [← List.append_assoc] at k1 k2 k3
  revert k1 k2 k3
  generalize unpackSig _ = x1
  generalize unpackSig _ = x2
  generalize unpackSig _ = x3
  intro k1 k2 k3
  refine ⟨?_, ?_, ?_⟩
  · cases x1 with
    | error => cases k1
    | ok r => cases r <;> first | rfl | cases k1
  · cases x2 with
    | error => cases k2
    | ok r => cases r <;> first | rfl | cases k2
  · cases x3 with
    | error => cases k3
    | ok r => cases r <;> first | rfl | cases k3

/-! ### C33 -/

/-- C33: polynomials.  Each encoder writes its bytes at the given place of the buffer and the decoder reads the coefficients back. -/
theorem poly_encodings_round_trip {buf : Bytes} {base : Nat} {a : Poly} (ha : a.length = 256) :
    ((∀ x ∈ a, -2 ≤ x ∧ x ≤ 2) → base + 96 ≤ buf.length → ∃ b, polyetaPack buf base a = .ok b ∧ b.length = buf.length ∧ polyetaUnpack b base = .ok a) ∧
    ((∀ x ∈ a, 0 ≤ x ∧ x < 1024) → base + 320 ≤ buf.length → ∃ b, polyt1Pack buf base a = .ok b ∧ b.length = buf.length ∧ polyt1Unpack b base = .ok a) ∧
    ((∀ x ∈ a, -4096 < x ∧ x ≤ 4096) → base + 416 ≤ buf.length → ∃ b, polyt0Pack buf base a = .ok b ∧ b.length = buf.length ∧ polyt0Unpack b base = .ok a) ∧
    ((∀ x ∈ a, -131072 < x ∧ x ≤ 131072) → base + 576 ≤ buf.length → ∃ b, polyzPack buf base a = .ok b ∧ b.length = buf.length ∧ polyzUnpack b base = .ok a) := by
  refine ⟨fun h hb => ?_, fun h hb => ?_, fun h hb => ?_, fun h hb => ?_⟩
  · have hl := length_packAt (w := 3) (c := 2) ha
    have e := slice_splice_same (b := buf) (x := packAt 3 2 a) (o := base) (by omega)
    rw [hl] at e
    refine ⟨_, polyetaPack_ok ha (fun x hx => by have := h x hx; omega) hb, length_splice (by omega), ?_⟩
    rw [polyetaUnpack_ok (by rw [length_splice (by omega)]; exact hb), e, unpackAt_packAt ha fun x hx => by have := h x hx; omega]
  · have hl := length_packPos (w := 10) ha
    have e := slice_splice_same (b := buf) (x := packPos 10 a) (o := base) (by omega)
    rw [hl] at e
    refine ⟨_, polyt1Pack_ok ha h hb, length_splice (by omega), ?_⟩
    rw [polyt1Unpack_ok (by rw [length_splice (by omega)]; exact hb), e, unpackPos_packPos ha fun x hx => by have := h x hx; omega]
  · have hl := length_packAt (w := 13) (c := 4096) ha
    have e := slice_splice_same (b := buf) (x := packAt 13 4096 a) (o := base) (by omega)
    rw [hl] at e
    refine ⟨_, polyt0Pack_ok ha h hb, length_splice (by omega), ?_⟩
    rw [polyt0Unpack_ok (by rw [length_splice (by omega)]; exact hb), e, unpackAt_packAt ha fun x hx => by have := h x hx; omega]
  · have hl := length_packAt (w := 18) (c := 131072) ha
    have e := slice_splice_same (b := buf) (x := packAt 18 131072 a) (o := base) (by omega)
    rw [hl] at e
    refine ⟨_, polyzPack_ok ha h hb, length_splice (by omega), ?_⟩
    rw [polyzUnpack_ok (by rw [length_splice (by omega)]; exact hb), e, unpackAt_packAt ha fun x hx => by have := h x hx; omega]

/-- C33: keys.  -/
theorem key_encodings_round_trip {pk0 sk0 rho key tr : Bytes} {t1 t0 s1 s2 : Vec} (hpk : pk0.length = 1312) (hsk : sk0.length = 2560)
    (hr : rho.length = 32) (hk : key.length = 32) (ht : tr.length = 64)
    (l1 : t1.length = 4) (l0 : t0.length = 4) (ls1 : s1.length = 4) (ls2 : s2.length = 4)
    (b1 : ∀ x ∈ t1, x.length = 256 ∧ ∀ c ∈ x, 0 ≤ c ∧ c < 1024) (b0 : ∀ x ∈ t0, x.length = 256 ∧ ∀ c ∈ x, -4096 < c ∧ c ≤ 4096)
    (bs1 : ∀ x ∈ s1, x.length = 256 ∧ ∀ c ∈ x, -2 ≤ c ∧ c ≤ 2) (bs2 : ∀ x ∈ s2, x.length = 256 ∧ ∀ c ∈ x, -2 ≤ c ∧ c ≤ 2) :
    (∃ pk, packPk pk0 rho t1 = .ok pk ∧ pk.length = 1312 ∧ unpackPk pk = .ok (rho, t1)) ∧
    (∃ sk, packSk sk0 rho tr key t0 s1 s2 = .ok sk ∧ sk.length = 2560 ∧ unpackSk sk = .ok ⟨rho, tr, key, t0, s1, s2⟩) := by
  have bs1' : ∀ x ∈ s1, x.length = 256 ∧ ∀ c ∈ x, -6 < c ∧ c ≤ 2 := fun x hx => ⟨(bs1 x hx).1, fun c hc => by have := (bs1 x hx).2 c hc; omega⟩
  have bs2' : ∀ x ∈ s2, x.length = 256 ∧ ∀ c ∈ x, -6 < c ∧ c ≤ 2 := fun x hx => ⟨(bs2 x hx).1, fun c hc => by have := (bs2 x hx).2 c hc; omega⟩
  obtain ⟨a1, a2, a3⟩ := encodePk_parts hr l1 b1
  obtain ⟨c1, c2, c3, c4, c5, c6, c7⟩ := encodeSk_parts hr hk ht ls1 ls2 l0 bs1' bs2' b0
  refine ⟨⟨_, packPk_ok hpk hr l1 b1, a1, ?_⟩, _, packSk_ok hsk hr ht hk l0 ls1 ls2 b0 bs1' bs2', c1, ?_⟩
  · rw [unpackPk_ok a1, a2, a3]
  · rw [unpackSk_ok c1, c2, c3, c4, c5, c6, c7]

/-- C33, other direction: public keys and t0, t1 and z bytes are decoded without loss. -/
theorem pk_decode_encode {pk pk0 : Bytes} (hpk : pk.length = 1312) (h0 : pk0.length = 1312) :
    ∃ rho t1, unpackPk pk = .ok (rho, t1) ∧ packPk pk0 rho t1 = .ok pk := by
  have e : ∀ i, i < 4 → packPos 10 (unpackPos 10 (slice pk (32 + i * 320) 320)) = slice pk (32 + i * 320) 320 := fun i hi =>
    packPos_unpackPos (length_slice (by omega))
  refine ⟨_, _, unpackPk_ok hpk, ?_⟩
  rw [packPk_ok h0 (length_slice (by omega)) (length_vec _) (fun x hx => by
    obtain ⟨i, hi, rfl⟩ := mem_vec hx
    exact ⟨length_unpackPos, fun c hc => by have := unpackPos_bound c hc; omega⟩)]
  unfold encodePk
  rw [vec_encode pk 32 320 _ _ e]
  have := slice_add pk 0 32 (4 * 320)
  have e2 := slice_zero_length pk
  rw [hpk] at e2
  exact congrArg _ (this.symm.trans e2)

example : ∀ x ∈ (mk fun i => (i : Int) % 5 - 2), -2 ≤ x ∧ x ≤ 2 := by decide +kernel

/-! ### C34 -/

/-- C34, as documented except at the points of the two theorems below: on its domain each reduction ends without signed overflow and gives the documented
representative in the documented range. -/
theorem reductions_partial :
    (∀ a : Int, -(2 ^ 31 * 8380417) ≤ a → a < 2 ^ 31 * 8380417 →
      ∃ r, montgomeryReduce a = .ok r ∧ -8380417 < r ∧ r < 8380417 ∧ (r * 2 ^ 32 - a) % 8380417 = 0) ∧
    (∀ a : Int, -(2 ^ 31) ≤ a → a ≤ 2 ^ 31 - 2 ^ 22 - 1 →
      ∃ r, reduce32 a = .ok r ∧ -6283009 ≤ r ∧ r ≤ 6283008 ∧ (r - a) % 8380417 = 0) ∧
    (∀ a : Int, -(2 ^ 31) ≤ a → a ≤ 2 ^ 31 - 1 → caddq a = .ok (if a < 0 then a + 8380417 else a)) ∧
    (∀ a : Int, -(2 ^ 31) ≤ a → a ≤ 2 ^ 31 - 2 ^ 22 - 1 → freeze a = .ok (a % 8380417)) := by
  refine ⟨fun a h1 h2 => ?_, fun a h1 h2 => ?_, fun a h1 h2 => caddq_ok (by omega) (by omega), fun a h1 h2 => ?_⟩
  · obtain ⟨e, b1, b2⟩ := montgomeryReduce_ok (a := a) (by omega) (by omega)
    exact ⟨_, e, b1, b2, Int.emod_eq_zero_of_dvd (mont_dvd a)⟩
  · obtain ⟨r, e, b1, b2, h⟩ := reduce32_ok (a := a) (by omega) (by omega)
    exact ⟨r, e, b1, b2, by omega⟩
  · obtain ⟨r, e, b1, b2, h⟩ := reduce32_ok (a := a) (by omega) (by omega)
    unfold freeze
    rw [e, ok_bind, caddq_ok (by omega) (by omega)]
    congr 1
    split <;> omega

/-- C34 is false as documented: at the upper end of the documented domain `-2^31 Q <= a <= Q 2^31` the result of `montgomery_reduce` is Q itself, not below. -/
theorem montgomery_reduce_documented_range_false :
    ¬ ∀ a : Int, -(2 ^ 31 * 8380417) ≤ a → a ≤ 8380417 * 2 ^ 31 → ∃ r, montgomeryReduce a = .ok r ∧ -8380417 < r ∧ r < 8380417 := by
  intro h
  obtain ⟨r, e, _, h2⟩ := h (8380417 * 2 ^ 31) (by omega) (by omega)
  have : montgomeryReduce (8380417 * 2 ^ 31) = .ok 8380417 := by decide +kernel
  rw [this] at e
  cases e
  omega

/-- C34 is false as documented: `reduce32` can give 6283008, one above the documented bound. -/
theorem reduce32_documented_range_false :
    ¬ ∀ a : Int, -(2 ^ 31) ≤ a → a ≤ 2 ^ 31 - 2 ^ 22 - 1 → ∃ r, reduce32 a = .ok r ∧ -6283009 ≤ r ∧ r ≤ 6283007 := by
  intro h
  obtain ⟨r, e, _, h2⟩ := h (2 ^ 31 - 2 ^ 22 - 1) (by omega) (by omega)
  have : reduce32 (2 ^ 31 - 2 ^ 22 - 1) = .ok 6283008 := by decide +kernel
  rw [this] at e
  cases e
  omega

/-- C34: the domain of `reduce32` is not larger: one above it the addition overflows. -/
theorem reduce32_domain_sharp : reduce32 (2 ^ 31 - 2 ^ 22) = .error .ub := by decide +kernel

example : montgomeryReduce (-(2 ^ 31 * 8380417)) = .ok (-8380416) ∨ montgomeryReduce (-(2 ^ 31 * 8380417)) = .ok 0 ∨ ∃ r, montgomeryReduce (-(2 ^ 31 * 8380417)) = .ok r :=
  Or.inr (Or.inr ⟨_, rfl⟩)
example : montgomeryReduce 4294967296 = .ok 1 ∧ reduce32 2000000000 = .ok (5460754) ∧ freeze (-5) = .ok 8380412 := by decide +kernel

/-! ### C35 -/

/-- C35: transforming two polynomials, multiplying pointwise and transforming back ends without overflow and gives the negacyclic product modulo q. -/
theorem ntt_multiplication {a b : Poly} (ha : a.length = 256) (hb : b.length = 256)
    (ba : ∀ x ∈ a, -67000000 ≤ x ∧ x ≤ 67000000) (bb : ∀ x ∈ b, -67000000 ≤ x ∧ x ≤ 67000000) :
    ∃ ah bh c r, ntt a = .ok ah ∧ ntt b = .ok bh ∧ polyPointwise ah bh = .ok c ∧ invntt c = .ok r ∧ r.length = 256 ∧
      ∀ k, k < 256 → (-8380417 < co r k ∧ co r k < 8380417) ∧
        (co r k - ((List.range 256).map fun i => co a i * (if i ≤ k then co b (k - i) else -co b (256 + k - i))).sum) % 8380417 = 0 := by
  have pa : PB a 67000001 := PB_of_mem ha fun x hx => by have := ba x hx; omega
  have pb : PB b 67000001 := PB_of_mem hb fun x hx => by have := bb x hx; omega
  obtain ⟨ah, ea, la, va, ba'⟩ := ntt_ok (B := 67000001) ha (by omega) pa.2
  obtain ⟨bh, eb, lb, vb, bb'⟩ := ntt_ok (B := 67000001) hb (by omega) pb.2
  obtain ⟨c, ec, bc, vc⟩ := polyPointwise_ok (a := ah) (b := bh) ⟨la, ba'⟩ ⟨lb, bb'⟩ (by decide)
  obtain ⟨r, er, lr, vr, br⟩ := invntt_ok bc.1 bc.2
  refine ⟨ah, bh, c, r, ea, eb, ec, er, lr, fun k hk => ⟨by have := br k hk; omega, ?_⟩⟩
  have := mul_run va vb vc vr k hk
  have e2 := cf_eq_iff.1 this
  unfold Spec.mul at e2
  rw [co_mk _ hk] at e2
  unfold q at e2
  omega

/-- C35: the transform itself gives the values at the odd powers of the root of unity, in bit-reversed order. -/
theorem ntt_spec {a : Poly} (ha : a.length = 256) (ba : ∀ x ∈ a, -2000000000 ≤ x ∧ x ≤ 2000000000) :
    ∃ ah, ntt a = .ok ah ∧ ah.length = 256 ∧ ∀ j, j < 256 → co ah j % 8380417 = co (Spec.ntt a) j := by
  have pa : PB a 2000000001 := PB_of_mem ha fun x hx => by have := ba x hx; omega
  obtain ⟨ah, ea, la, va, _⟩ := ntt_ok (B := 2000000001) ha (by omega) pa.2
  refine ⟨ah, ea, la, fun j hj => ?_⟩
  have h1 := va j hj
  rw [← cf_ntt a hj] at h1
  have := cf_eq_iff.1 h1
  rw [this]
  unfold Spec.ntt
  rw [co_mk _ hj]
  unfold q
  omega

example : (mk fun i => if i = 255 then 67000000 else -3).length = 256 ∧ ∀ x ∈ (mk fun i => if i = 255 then 67000000 else -3), -67000000 ≤ x ∧ x ≤ 67000000 := by
  decide +kernel

/-! ### C36 -/

/-- C36: `power2round` and `decompose` split every residue as documented. -/
theorem rounding_spec {a : Int} (h1 : 0 ≤ a) (h2 : a < 8380417) :
    (∃ a1 a0, power2round a = .ok (a1, a0) ∧ a = a1 * 2 ^ 13 + a0 ∧ -(2 ^ 12) < a0 ∧ a0 ≤ 2 ^ 12 ∧ 0 ≤ a1 ∧ a1 < 2 ^ 10) ∧
    (∃ a1 a0, decompose a = .ok (a1, a0) ∧ 0 ≤ a1 ∧ a1 < 44 ∧
      ((a = a1 * 190464 + a0 ∧ -95232 < a0 ∧ a0 ≤ 95232) ∨ (a1 = 0 ∧ a0 = a - 8380417 ∧ -95232 ≤ a0 ∧ a0 < 0 ∧ 43 * 190464 + 95232 < a))) := by
  constructor
  · refine ⟨(power2Round a).1, (power2Round a).2, power2round_ok h1 h2, ?_⟩
    have h3 := power2Round_eq a
    have h4 := power2Round_range a
    generalize (power2Round a).1 = x at *
    generalize (power2Round a).2 = y at *
    omega
  · refine ⟨(Spec.decompose a).1, (Spec.decompose a).2, decompose_ok h1 h2, ?_⟩
    have h3 := decompose_spec a h1 h2
    unfold highBits lowBits at h3
    generalize (Spec.decompose a).1 = x at *
    generalize (Spec.decompose a).2 = y at *
    omega

/-- C36: `use_hint` with the bit that `make_hint` computes from the low part `e` of an approximation recovers the high part: for every residue w, if
v ≡ w1 * 190464 + e with w1 the high part of w and |e| < 190464, then UseHint(MakeHint(e, w1), v) = w1. -/
theorem use_hint_make_hint {w e v w1 w0 : Int} (hw : 0 ≤ w ∧ w < 8380417) (hd : decompose w = .ok (w1, w0)) (he : -190464 < e ∧ e ≤ 190464)
    (hv : 0 ≤ v ∧ v < 8380417) (hc : (v - (w1 * 190464 + e)) % 8380417 = 0) : useHint v (makeHint e w1) = .ok w1 := by
  rw [decompose_ok hw.1 hw.2] at hd
  have h := decompose_spec w hw.1 hw.2
  have e1 : highBits w = w1 := by unfold highBits; rw [Except.ok.inj hd]
  have hm : makeHint e w1 = hintBit e w1 := rfl
  have := hint_recovers (w := w) (e := e - lowBits w) (v := v) hw.1 hw.2 (by omega) hv.1 hv.2 (by rw [e1] at h; omega)
  rw [show lowBits w + (e - lowBits w) = e by omega, e1] at this
  rw [useHint_ok hv.1 hv.2 (by unfold makeHint; split <;> simp), hm, this]

/-- C36 in the form of FIPS 204: `use_hint` with the bit "adding z changes the high bits of r" recovers the high bits of r + z, for every |z| < 190464/2. -/
theorem use_hint_fips {r z : Int} (hr : 0 ≤ r ∧ r < 8380417) (hz : -95232 ≤ z ∧ z ≤ 95232) :
    useHint r (Spec.makeHint z r) = .ok (highBits ((r + z) % 8380417)) := by
  have hs : 0 ≤ (r + z) % 8380417 ∧ (r + z) % 8380417 < 8380417 := by omega
  have hh : highBits (r + z) = highBits ((r + z) % 8380417) := by unfold highBits Spec.decompose q; simp
  unfold Spec.makeHint
  rw [hh]
  generalize hu : (r + z) % 8380417 = u at *
  have d1 := decompose_spec r hr.1 hr.2
  have d2 := decompose_spec u hs.1 hs.2
  have hu' : u = r + z ∨ u = r + z - 8380417 ∨ u = r + z + 8380417 := by omega
  split
  · rename_i c
    rw [useHint_ok hr.1 hr.2 (Or.inl rfl)]
    unfold Spec.useHint
    rw [if_neg (by omega), c]
  · rename_i c
    rw [useHint_ok hr.1 hr.2 (Or.inr rfl)]
    unfold Spec.useHint
    rw [if_pos rfl]
    congr 1
    generalize highBits r = a at *
    generalize lowBits r = a0 at *
    generalize highBits u = b at *
    generalize lowBits u = b0 at *
    split <;> omega

/-- C36: the hint bits that signing writes are those of FIPS 204, MakeHint(-c t0, w - c s2 + c t0), whenever the norm checks pass. -/
theorem make_hint_fips {w r0 t w' v : Int} (hw : 0 ≤ w ∧ w < 8380417) (hw' : 0 ≤ w' ∧ w' < 8380417) (hv : 0 ≤ v ∧ v < 8380417)
    (b0 : -(95232 - 78) < r0 ∧ r0 < 95232 - 78) (bt : -95232 < t ∧ t < 95232)
    (e1 : (w' - (highBits w * 190464 + r0)) % 8380417 = 0) (e2 : (v - (w' + t)) % 8380417 = 0) :
    highBits w' = highBits w ∧ makeHint (r0 + t) (highBits w) = Spec.makeHint (-t) v := by
  obtain ⟨h, h'⟩ := hint_form hw.1 hw.2 hv.1 hv.2 hw'.1 hw'.2 (by omega) bt e1 e2
  refine ⟨h, ?_⟩
  change hintBit (r0 + t) (highBits w) = _
  rw [h']
  unfold Spec.makeHint
  have : highBits (v + -t) = highBits w' := by
    unfold highBits Spec.decompose q
    rw [show (v + -t) % 8380417 = w' % 8380417 by omega]
  rw [this]

example : decompose 8380416 = .ok (0, -1) ∧ useHint 95300 (makeHint 95300 0) = .ok 0 ∧ power2round 4097 = .ok (1, -4095) := by decide +kernel
example : useHint 8285184 (Spec.makeHint 200 8285184) = .ok (highBits ((8285184 + 200) % 8380417)) := use_hint_fips (by omega) (by omega)

/-! ### C37 -/

/-- C37: the ranges of the samplers. -/
theorem sampler_ranges :
    (∀ fuel (seed : Bytes) nonce a, seed.length = 32 → polyUniform fuel seed nonce = .ok a → a.length = 256 ∧ ∀ x ∈ a, 0 ≤ x ∧ x < 8380417) ∧
    (∀ fuel (seed : Bytes) nonce a, seed.length = 64 → polyUniformEta fuel seed nonce = .ok a → a.length = 256 ∧ ∀ x ∈ a, -2 ≤ x ∧ x ≤ 2) ∧
    (∀ (seed : Bytes) nonce, seed.length = 64 → ∃ a, polyUniformGamma1 seed nonce = .ok a ∧ a.length = 256 ∧ ∀ x ∈ a, -(2 ^ 17) < x ∧ x ≤ 2 ^ 17) ∧
    (∀ fuel (seed : Bytes) c, seed.length = 32 → polyChallenge fuel seed = .ok c →
      c.length = 256 ∧ (∀ x ∈ c, x = 0 ∨ x = 1 ∨ x = -1) ∧ (c.filter (· ≠ 0)).length = 39) := by
  refine ⟨fun fuel seed nonce a hs h => ?_, fun fuel seed nonce a hs h => eta_range (polyUniformEta_sound hs h), fun seed nonce hs => ?_, fun fuel seed c hs h => ?_⟩
  · have hr := uniform_res (polyUniform_sound hs h)
    refine ⟨hr.1, fun x hx => ?_⟩
    obtain ⟨i, hi, rfl⟩ := mem_co hx
    exact hr.2 i (by rw [← hr.1]; exact hi)
  · obtain ⟨h1, h2⟩ := mask_range seed nonce.toNat
    exact ⟨_, polyUniformGamma1_ok hs nonce, h1, fun x hx => by have := h2 x hx; omega⟩
  · have hb := polyChallenge_sound hs h
    refine ⟨(ball_range hb).1, (ball_range hb).2, ?_⟩
    have := ball_nz hb
    unfold nz at this
    rw [List.countP_eq_length_filter] at this
    exact this

example : ∃ seed : Bytes, seed.length = 32 ∧ ∃ seed : Bytes, seed.length = 64 :=
  ⟨List.replicate 32 1, List.length_replicate .., List.replicate 64 1, List.length_replicate ..⟩

/-! ### C38 -/

/-- C38: whatever secret key bytes are used, a released signature is the encoding of a response with all coefficients below gamma1 - beta = 130994 in absolute
value and of at most 80 hints. -/
theorem released_signature_bounds {fuel : Nat} {sk sig0 sig m : Bytes} {n0 n : Nat} {r : Int} (hsk : sk.length = 2560) (hsig : sig0.length = 2420)
    (h : signature fuel sig0 n0 m sk = .ok (r, sig, n)) :
    ∃ c z hh, sig = encodeSig c z hh ∧ unpackSig sig = .ok (some (c, z, hh)) ∧ c.length = 32 ∧ z.length = 4 ∧
      (∀ x ∈ z, x.length = 256 ∧ ∀ v ∈ x, |v| < 131072 - 78) ∧ IsHint hh ∧ weight hh ≤ 80 := by
  obtain ⟨_, _, k, x, _, _, c, hc, ⟨nz, _, _, hw⟩, hs⟩ := signature_sound hsk hsig h
  have hz : ∀ y ∈ zOf S256 x k c, y.length = 256 ∧ ∀ v ∈ y, |v| < 131072 - 78 := by
    intro y hy
    obtain ⟨i, hi, e⟩ := mem_vec hy
    refine ⟨by rw [e]; exact length_mk _, fun v hv => ?_⟩
    rw [e] at hv
    obtain ⟨j, hj, rfl⟩ := mem_mk hv
    have := nz i hi j hj
    have e' : at_ (zOf S256 x k c) i = mk fun j => cmod (co (Spec.mul c (at_ x.s1 i)) j + co (at_ (yOf S256 x k) i) j) q := at_vec _ hi
    rw [e', co_mk _ hj, cmod_cmod] at this
    exact abs_lt.2 this
  have hI : IsHint (hOf S256 x k c) := ⟨length_vec _, hOf_bits x k c⟩
  refine ⟨_, _, _, hs, ?_, cTilde_len _ _, length_vec _, hz, hI, hw⟩
  have hl : sig.length = 2420 := by
    rw [hs]; exact length_encodeSig (cTilde_len _ _) (length_vec _) (fun x hx => (hz x hx).1) hw
  refine ((sig_decode_spec hl).2 _ _ _).2 ⟨cTilde_len _ _, length_vec _, fun y hy => ⟨(hz y hy).1, fun v hv => ?_⟩, hI, hw, hs⟩
  have := abs_lt.1 ((hz y hy).2 v hv)
  omega

/-! ### C39 -/

/-- C39: verification of a signature array of any length under any 1312 public-key bytes never faults; it rejects unless the length is 2420. -/
theorem verify_safe_on_any_input (fuel : Nat) {sig pk : Bytes} (m : Bytes) (hpk : pk.length = 1312) :
    verify fuel sig sig.length m pk ≠ .error .ub ∧ (sig.length ≠ 2420 → verify fuel sig sig.length m pk = .ok (-1)) ∧
      ∀ v, verify fuel sig sig.length m pk = .ok v → v = 0 ∨ v = -1 := by
  by_cases c : sig.length = 2420
  · rw [c]
    refine ⟨verify_safe fuel m c hpk, fun h => absurd rfl h, fun v h => ?_⟩
    rcases verify_sound c hpk h with ⟨h, _⟩ | ⟨h, _⟩
    · exact Or.inl h
    · exact Or.inr h
  · have e : verify fuel sig sig.length m pk = .ok (-1) := by unfold verify; rw [if_pos c]
    rw [e]
    exact ⟨fun h => (nomatch h), fun _ => rfl, fun v h => by cases h; exact Or.inr rfl⟩

/-- A concrete hostile input. -/
theorem verify_all_ones (fuel : Nat) : verify fuel (List.replicate 2420 255) 2420 [] (List.replicate 1312 255) = .ok (-1) := by
  have hu : unpackSig (List.replicate 2420 255) = .ok none := by
    obtain ⟨c, z, h⟩ := unpackSig_hints (sig := List.replicate 2420 255) List.length_replicate
    have h0 : unpackHints (List.replicate 2420 255) 2336 0 4 0 = .ok none := by decide +kernel
    rw [h, h0, ok_bind]
  unfold verify
  rw [if_neg (by omega), unpackPk_ok (List.length_replicate ..), ok_bind]
  simp only
  rw [hu, ok_bind]

/-! ### C40 -/

/-- C40, first half: `crypto_sign` writes signature and message one after the other. -/
theorem dil_attached_sign (h1 : IsShake128 H128) (h2 : IsShake256 H256) {sm m sk : Bytes} {n : Nat} (hsm : sm.length = 2420 + m.length) (hsk : sk.length = 2560) :
    (∀ fuel, sign fuel sm n m sk ≠ .error .ub) ∧
    (∀ fuel r sm' n', sign fuel sm n m sk = .ok (r, sm', n') → r = 0 ∧ n' = 2420 + m.length ∧ ∃ sig k, Signs H128 H256 sk m k sig ∧ sig.length = 2420 ∧ sm' = sig ++ m) ∧
    (∀ k sig, Signs H128 H256 sk m k sig → ∃ F, ∀ fuel, F ≤ fuel → sign fuel sm n m sk = .ok (0, sig ++ m, 2420 + m.length)) := by
  obtain rfl := h1.eq
  obtain rfl := h2.eq
  have hd : sm.drop (2420 + m.length) = [] := List.drop_of_length_le (by omega)
  refine ⟨fun fuel => ?_, fun fuel r sm' n' h => ?_, fun k sig h => ?_⟩
  · obtain ⟨b, hb, e⟩ := sign_run fuel n sk (sm := sm) (m := m) (by omega)
    rw [e]
    exact (signature_safe fuel n hsk hb).bind fun _ _ => safe_ok _
  · obtain ⟨b, hb, e⟩ := sign_run fuel n sk (sm := sm) (m := m) (by omega)
    rw [e] at h
    obtain ⟨⟨r1, sig, n1⟩, e1, h⟩ := bind_eq_ok.1 h
    cases h
    obtain ⟨_, e3, k, hk⟩ := signature_sound hsk hb e1
    have hl := signs_length hk
    refine ⟨rfl, by rw [e3], sig, k, hk, hl, ?_⟩
    rw [sign_tail (by omega) hl, hd, List.append_nil]
  · have hl := signs_length h
    obtain ⟨F, hF⟩ := signature_complete (sig := (splice sm 2420 m).take 2420) n hsk (sign_head (by omega)).1 h
    refine ⟨F, fun fuel hf => ?_⟩
    unfold sign
    rw [back_copy (by omega), ok_bind, (sign_head (by omega)).2, hF fuel hf, ok_bind]
    simp only
    rw [sign_tail (by omega) hl, hd, List.append_nil]

/-- C40, what `crypto_sign_open` really does: too short gives -1 and nothing is written; a rejected signature gives -2, the message length is written and the
buffer is left as it was; an accepted one gives 0 and the message. -/
theorem dil_open_partial (h1 : IsShake128 H128) (h2 : IsShake256 H256) {m sm pk : Bytes} {mlen : Nat} (hpk : pk.length = 1312) (hm : sm.length ≤ m.length) :
    (sm.length < 2420 → ∀ fuel, open_ fuel m mlen sm sm.length pk = .ok (-1, m, mlen)) ∧
    (2420 ≤ sm.length →
      (∀ fuel, open_ fuel m mlen sm sm.length pk ≠ .error .ub) ∧
      (∀ fuel r m' mlen', open_ fuel m mlen sm sm.length pk = .ok (r, m', mlen') → mlen' = sm.length - 2420 ∧
        ((r = 0 ∧ Valid H128 H256 pk (sm.drop 2420) (sm.take 2420) ∧ m' = sm.drop 2420 ++ m.drop (sm.length - 2420)) ∨
         (r = -2 ∧ ¬ Valid H128 H256 pk (sm.drop 2420) (sm.take 2420) ∧ m' = m))) ∧
      (Valid H128 H256 pk (sm.drop 2420) (sm.take 2420) → ∃ F, ∀ fuel, F ≤ fuel →
        open_ fuel m mlen sm sm.length pk = .ok (0, sm.drop 2420 ++ m.drop (sm.length - 2420), sm.length - 2420))) := by
  obtain rfl := h1.eq
  obtain rfl := h2.eq
  refine ⟨fun h fuel => by unfold open_; rw [if_pos h], fun h => ?_⟩
  have e0 : slice sm 0 2420 = sm.take 2420 := by simp [slice]
  have e1 : slice sm 2420 (sm.length - 2420) = sm.drop 2420 := by
    unfold slice; rw [List.take_of_length_le (by rw [List.length_drop])]
  have hl : (sm.take 2420).length = 2420 := by rw [List.length_take]; omega
  have hc : copy m 0 sm 2420 (sm.length - 2420) = .ok (sm.drop 2420 ++ m.drop (sm.length - 2420)) := by
    rw [copy_ok (by omega) (by omega), e1, splice, List.take_zero, List.nil_append, Nat.zero_add, List.length_drop]
  have run : ∀ fuel, open_ fuel m mlen sm sm.length pk = (do
      let r ← verify fuel (sm.take 2420) 2420 (sm.drop 2420) pk
      if r ≠ 0 then .ok (-2, m, sm.length - 2420) else .ok (0, sm.drop 2420 ++ m.drop (sm.length - 2420), sm.length - 2420)) := by
    intro fuel
    unfold open_
    rw [if_neg (by omega)]
    simp only
    rw [if_neg (by omega), e0, e1, hc]
    rfl
  refine ⟨fun fuel => ?_, fun fuel r m' mlen' hr => ?_, fun hv => ?_⟩
  · rw [run fuel]
    refine (verify_safe fuel (sm.drop 2420) hl hpk).bind fun v _ => ?_
    split <;> exact safe_ok _
  · rw [run fuel] at hr
    obtain ⟨v, ev, hr⟩ := bind_eq_ok.1 hr
    rcases verify_sound hl hpk ev with ⟨rfl, hv⟩ | ⟨rfl, hv⟩
    · rw [if_neg (by omega)] at hr
      cases hr
      exact ⟨rfl, Or.inl ⟨rfl, hv, rfl⟩⟩
    · rw [if_pos (by omega)] at hr
      cases hr
      exact ⟨rfl, Or.inr ⟨rfl, hv, rfl⟩⟩
  · obtain ⟨F, hF⟩ := verify_complete hl hpk hv
    exact ⟨F, fun fuel hf => by rw [run fuel, hF fuel hf, ok_bind, if_neg (by omega)]⟩

/-- C40 is false as stated: there is a rejected signed message for which `crypto_sign_open` returns -2 instead of -1, sets the length to that of the message and
leaves the output buffer untouched. -/
theorem dil_open_failure_not_cleared :
    ¬ ∀ (fuel : Nat) (m sm pk m' : Bytes) (mlen mlen' : Nat) (r : Int), pk.length = 1312 → sm.length ≤ m.length →
      open_ fuel m mlen sm sm.length pk = .ok (r, m', mlen') → r ≠ 0 → r = -1 ∧ mlen' = 2 ^ 64 - 1 ∧ m' = List.replicate m.length 0 := by
  intro h
  have e : open_ 0 (List.replicate 2420 1) 5 (List.replicate 2420 255) 2420 (List.replicate 1312 255) = .ok (-2, List.replicate 2420 1, 0) := by
    unfold open_
    rw [if_neg (by omega)]
    simp only
    rw [if_neg (by rw [List.length_replicate]; omega)]
    have e0 : slice (List.replicate 2420 (255 : Byte)) 0 2420 = List.replicate 2420 255 := by decide +kernel
    have e1 : slice (List.replicate 2420 (255 : Byte)) 2420 0 = [] := by unfold slice; exact List.take_zero
    rw [e0, show (2420 - 2420 : Nat) = 0 from rfl, e1, verify_all_ones 0, ok_bind, if_pos (by omega)]
  have := h 0 (List.replicate 2420 1) (List.replicate 2420 255) (List.replicate 1312 255) _ 5 _ _ (List.length_replicate ..)
    (by rw [List.length_replicate, List.length_replicate]) (by rw [List.length_replicate]; exact e) (by omega)
  omega

/-- Attached round trip: what `crypto_sign` produces under a generated key is opened to the message. -/
theorem dil_attached_round_trip {fk fs : Nat} {pk0 sk0 seed pk sk sm0 sm m out : Bytes} {n0 n mlen : Nat} {r r' : Int}
    (hpk : pk0.length = 1312) (hsk : sk0.length = 2560) (hseed : seed.length = 32) (hsm : sm0.length = 2420 + m.length) (hout : sm0.length ≤ out.length)
    (hk : keypairSeed fk pk0 sk0 seed = .ok (r, pk, sk)) (hs : sign fs sm0 n0 m sk = .ok (r', sm, n)) :
    n = sm.length ∧ open_ fs out mlen sm n pk = .ok (0, m ++ out.drop m.length, m.length) := by
  obtain ⟨-, hg⟩ := keypairSeed_sound hpk hsk hseed hk
  obtain ⟨lpk, lsk, -⟩ := keygen_parts hg
  obtain ⟨b, hb, e⟩ := sign_run fs n0 sk (sm := sm0) (m := m) (by omega)
  rw [e] at hs
  obtain ⟨⟨r1, sig, n1⟩, e1, hs⟩ := bind_eq_ok.1 hs
  cases hs
  obtain ⟨-, -, e3, hl, hv, -⟩ := dil_round_trip hpk hsk hseed hb hk e1
  have ht : splice (splice sm0 2420 m) 0 sig = sig ++ m := by
    rw [sign_tail (by omega) hl, List.drop_of_length_le (by omega), List.append_nil]
  rw [ht, e3, List.length_append, hl]
  refine ⟨rfl, ?_⟩
  subst e3
  unfold open_
  rw [if_neg (by omega)]
  simp only
  rw [if_neg (by rw [List.length_append]; omega), show slice (sig ++ m) 0 2420 = sig by simp [slice, ← hl],
    show 2420 + m.length - 2420 = m.length by omega, show slice (sig ++ m) 2420 m.length = m by simp [slice, ← hl], hv, ok_bind, if_neg (by omega),
    copy_ok (by rw [List.length_append]; omega) (by omega), ok_bind]
  rw [show slice (sig ++ m) 2420 m.length = m by simp [slice, ← hl]]
  simp [splice]

/-- C63: `crypto_sign` with the message at the start of the output buffer gives the same as with separate buffers, and so does `crypto_sign_open`. -/
theorem dil_attached_in_place :
    (∀ fuel (b : Bytes) n mlen sk, 2420 + mlen ≤ b.length → signInPlace fuel b mlen n sk = sign fuel b n (b.take mlen) sk) ∧
    (∀ fuel (b pk : Bytes) mlen n, n ≤ b.length → openInPlace fuel b mlen n pk = open_ fuel b mlen b n pk) := by
  refine ⟨fun fuel b n mlen sk h => signInPlace_run fuel n mlen sk h, fun fuel b pk mlen n h => ?_⟩
  unfold openInPlace open_
  split
  · rfl
  · simp only
    rw [if_neg (by omega), if_neg (by omega), front_copy_inplace (by omega), copy_ok (by omega) (by omega)]

/-! ### C41 -/

/-- C41: a signing run that ends has made at most 16384 attempts, and the 16-bit nonces of all masking polynomials sampled in it are distinct.  (Attempt i uses for
its four polynomials SHAKE256(rho' || le16(4 i + j)), see `Spec.yOf` and `Spec.mask`.) -/
theorem masking_nonces_distinct (h1 : IsShake128 H128) (h2 : IsShake256 H256) {fuel : Nat} {sk sig0 sig m : Bytes} {n0 n : Nat} {r : Int}
    (hsk : sk.length = 2560) (hsig : sig0.length = 2420) (h : signature fuel sig0 n0 m sk = .ok (r, sig, n)) :
    ∃ k, Signs H128 H256 sk m k sig ∧ k < 16384 ∧
      ∀ i j i' j', i ≤ k → i' ≤ k → j < 4 → j' < 4 → le16 (4 * i + j) = le16 (4 * i' + j') → i = i' ∧ j = j' := by
  obtain rfl := h1.eq
  obtain rfl := h2.eq
  obtain ⟨_, _, k, hk⟩ := signature_sound hsk hsig h
  have hb := signs_bound hk
  refine ⟨k, hk, hb, fun i j i' j' hi hi' hj hj' e => ?_⟩
  have := le16_inj (by omega) (by omega) e
  omega

/-- C41: the counter does wrap: attempt k + 16384 repeats the masks of attempt k. -/
theorem masking_nonces_wrap (h2 : IsShake256 H256) (x : Ctx) (k : Nat) : yOf H256 x (k + 16384) = yOf H256 x k := by
  obtain rfl := h2.eq
  exact yOf_period x k

/-- C41: so a run whose first 16384 attempts are all rejected never ends. -/
theorem signing_ends_early_or_never (h1 : IsShake128 H128) (h2 : IsShake256 H256) {sk sig0 m : Bytes} {n0 : Nat} {x : Ctx}
    (hsk : sk.length = 2560) (hsig : sig0.length = 2420) (hx : IsCtx H128 H256 sk m x)
    (hr : ∀ k, k < 16384 → ∀ c, IsBall H256 (cTilde H256 x k) c → ¬ Accept H256 x k c) : ∀ fuel, signature fuel sig0 n0 m sk = .error .diverge := by
  obtain rfl := h1.eq
  obtain rfl := h2.eq
  intro fuel
  rcases (signature_safe fuel (m := m) n0 hsk hsig).cases with ⟨⟨r, sig, n⟩, e⟩ | e
  · obtain ⟨_, _, k, hk⟩ := signature_sound hsk hsig e
    have hb := signs_bound hk
    obtain ⟨y, hy, _, c, hc, ha, _⟩ := hk
    obtain ⟨A, hA, rfl⟩ := ctx_iff.1 hx
    obtain ⟨A', hA', rfl⟩ := ctx_iff.1 hy
    have := matrix_unique hA hA'
    subst this
    exact absurd ha (hr k hb c hc)
  · exact e

/-! ### C64: key generation with the random source -/

/-- `crypto_sign_keypair`: one draw of 32 bytes; if it fails, -1 and nothing is written; otherwise the key pair of the drawn seed. -/
theorem dil_keypair_spec (h1 : IsShake128 H128) (h2 : IsShake256 H256) {pk sk : Bytes} (hpk : pk.length = 1312) (hsk : sk.length = 2560) (R : Rng) (fuel : Nat) :
    (R.draw R.log.length 32 = none → keypair fuel pk sk R = .ok ((-1, pk, sk), { R with log := R.log ++ [(32, none)] })) ∧
    (∀ seed, R.draw R.log.length 32 = some seed →
      keypair fuel pk sk R ≠ .error .ub ∧
      ∀ r pk' sk' R', keypair fuel pk sk R = .ok ((r, pk', sk'), R') → r = 0 ∧ KeyGen H128 H256 seed pk' sk' ∧ R' = { R with log := R.log ++ [(32, some seed)] }) := by
  obtain rfl := h1.eq
  obtain rfl := h2.eq
  constructor
  · intro h
    simp only [keypair, RandM_bind_apply, randombytes, ok_bind, h, RandM_pure_apply]
  · intro seed h
    have hl := R.len_draw _ _ _ h
    have e : keypair fuel pk sk R = liftCR (keypairSeed fuel pk sk seed) { R with log := R.log ++ [(32, some seed)] } := by
      simp only [keypair, RandM_bind_apply, randombytes, ok_bind, h]
    rw [e]
    unfold liftCR
    rcases (keypairSeed_safe fuel hpk hsk hl).cases with ⟨⟨r0, pk0, sk0⟩, e⟩ | e
    · rw [e]
      refine ⟨fun h => (nomatch h), fun r pk' sk' R' h' => ?_⟩
      cases h'
      obtain ⟨a, b⟩ := keypairSeed_sound hpk hsk hl e
      exact ⟨a, b, rfl⟩
    · rw [e]
      exact ⟨fun h => (nomatch h), fun r pk' sk' R' h' => (nomatch h')⟩

example : ∃ R : Rng, ∃ seed, R.draw R.log.length 32 = some seed :=
  ⟨⟨fun _ n => some (List.replicate n 5), fun _ n b h => by cases h; exact List.length_replicate .., []⟩, _, rfl⟩

end

end Verif.Dilithium
