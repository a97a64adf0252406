import Verif.Ed25519.Top

/-!
The properties C21, C50 to C57 of tweetnacl.c.
-/

namespace Verif.Ed25519
open Verif Spec

/-! ### Connection with the specification of numbers in limbs -/

theorem bval_sum (b : Int) (l : List Int) : bval b l = ∑ k ∈ Finset.range l.length, l.getD k 0 * b ^ k := by
  induction l with
  | nil => simp [bval]
  | cons a l ih =>
    rw [bval, ih, List.length_cons, Finset.sum_range_succ', Finset.mul_sum]
    simp only [List.getD_cons_succ, List.getD_cons_zero, pow_zero, mul_one]
    rw [add_comm]
    congr 1
    apply Finset.sum_congr rfl
    intro k _
    rw [pow_succ]
    ring

theorem number_bval (l : List Int) : number l = bval 256 l := (bval_sum 256 l).symm

theorem residue_fe (a : List Int) : residue a = fe a := by
  unfold residue fe val
  rw [bval_sum]
  push_cast
  apply Finset.sum_congr rfl
  intro k _
  rw [pow_mul]
  norm_num

theorem inRange_bd {b : Int} {a : List Int} : InRange b a ↔ Bd b a := by
  constructor
  · rintro ⟨h1, h2⟩
    exact ⟨h1, fun k hk => by rw [g_eq (by omega)]; exact h2 _ (List.getElem_mem _)⟩
  · rintro ⟨h1, h2⟩
    refine ⟨h1, fun x hx => ?_⟩
    obtain ⟨k, hk, rfl⟩ := List.getElem_of_mem hx
    have := h2 k (by omega)
    rwa [g_eq hk] at this

theorem small_iff {a : List Int} : InRange (2 ^ 20) a ↔ Small a := by
  rw [inRange_bd]
  exact ⟨fun h => ⟨h.len, h.bound⟩, fun h => ⟨h.len, h.bound⟩⟩

theorem stands_rep {P : Point d} {q : Pt} : Stands P q.x q.y q.z q.t ↔ Rep P q := by
  unfold Stands
  rw [inRange_bd, inRange_bd, inRange_bd, inRange_bd, residue_fe, residue_fe, residue_fe, residue_fe]
  constructor
  · rintro ⟨h1, h2, h3, h4, h5, h6, h7, h8⟩
    exact ⟨h1, h2, h3, h4, h5, (div_eq_iff h5).1 h6, (div_eq_iff h5).1 h7, (div_eq_iff h5).1 h8⟩
  · rintro ⟨h1, h2, h3, h4, h5, h6, h7, h8⟩
    exact ⟨h1, h2, h3, h4, h5, (div_eq_iff h5).2 h6, (div_eq_iff h5).2 h7, (div_eq_iff h5).2 h8⟩

/-! ### C52: the field -/

/-- C52, addition and subtraction: for limbs whose bounds add up to at most 2^62 the result is the sum or difference and nothing overflows. -/
theorem field_add_sub {a b : List Int} {m n : Int} (ha : InRange m a) (hb : InRange n b) (h : m + n ≤ 2 ^ 62) :
    (∃ o, fA a b = .ok o ∧ InRange (m + n) o ∧ residue o = residue a + residue b) ∧
    (∃ o, fZ a b = .ok o ∧ InRange (m + n) o ∧ residue o = residue a - residue b) := by
  simp only [inRange_bd, residue_fe] at *
  exact ⟨fA_fe ha hb h, fZ_fe ha hb h⟩

example : InRange 65535 gfX ∧ InRange 65535 gfY ∧ (65535 + 65535 : Int) ≤ 2 ^ 62 := ⟨inRange_bd.2 bd_gfX, inRange_bd.2 bd_gfY, by norm_num⟩

/-- C52, multiplication, squaring, inversion and the (p-5)/8 power: for limbs of at most 2^20 the residue is right, nothing overflows, and the result is again in range. -/
theorem field_mul_pow {a b : List Int} (ha : InRange (2 ^ 20) a) (hb : InRange (2 ^ 20) b) :
    (∃ o, fM a b = .ok o ∧ InRange 65573 o ∧ residue o = residue a * residue b) ∧
    (∃ o, fS a = .ok o ∧ InRange 65573 o ∧ residue o = residue a ^ 2) ∧
    (∃ o, inv25519 a = .ok o ∧ InRange (2 ^ 20) o ∧ residue o = (residue a)⁻¹) ∧
    (∃ o, pow2523 a = .ok o ∧ InRange (2 ^ 20) o ∧ residue o = residue a ^ ((p - 5) / 8)) := by
  rw [small_iff] at ha hb
  refine ⟨?_, ?_, ?_, ?_⟩
  · obtain ⟨o, e, h, v⟩ := fM_fe ha hb
    exact ⟨o, e, inRange_bd.2 h.bd, by simp only [residue_fe, v]⟩
  · obtain ⟨o, e, h, v⟩ := fS_fe ha
    exact ⟨o, e, inRange_bd.2 h.bd, by simp only [residue_fe, v]; ring⟩
  · obtain ⟨o, e, h, v⟩ := inv25519_fe ha
    exact ⟨o, e, small_iff.2 h, by simp only [residue_fe, v]⟩
  · obtain ⟨o, e, h, v⟩ := pow2523_fe ha
    exact ⟨o, e, small_iff.2 h, by simp only [residue_fe, v]⟩

example : InRange (2 ^ 20) gfX ∧ InRange (2 ^ 20) gfD := ⟨inRange_bd.2 (bd_gfX.mono (by norm_num)), inRange_bd.2 (bd_gfD.mono (by norm_num))⟩

/-- C52, packing: for limbs of at most 2^62 the bytes are the little-endian representative below p; comparison and parity are those of that representative. -/
theorem field_pack {a b : List Int} (ha : InRange (2 ^ 62) a) (hb : InRange (2 ^ 62) b) :
    pack25519 a = .ok (leBytes 32 (residue a).val) ∧ (residue a).val < p ∧
    neq25519 a b = .ok (if residue a = residue b then 0 else -1) ∧
    par25519 a = .ok (BitVec.ofNat 8 ((residue a).val % 2)) := by
  simp only [inRange_bd, residue_fe] at *
  exact ⟨pack25519_fe ha (Int.le_refl _), fval_lt _, neq25519_fe ha hb (Int.le_refl _) (Int.le_refl _), par25519_fe ha (Int.le_refl _)⟩

example : InRange (2 ^ 62) gfX ∧ InRange (2 ^ 62) gfI := ⟨inRange_bd.2 (bd_gfX.mono (by norm_num)), inRange_bd.2 (bd_gfI.mono (by norm_num))⟩

/-- C52, unpacking: the low 255 bits. -/
theorem field_unpack {n : Bytes} (h : n.length = 32) :
    ∃ o, unpack25519 n = .ok o ∧ InRange 65535 o ∧ residue o = ((leVal n % 2 ^ 255 : Nat) : F) := by
  simp only [inRange_bd, residue_fe]
  exact unpack25519_fe h

example : (List.replicate 32 (255 : Byte)).length = 32 := by simp

/-! ### C53: scalars -/

/-- C53: for limbs of at most 2^22 in absolute value `modL` returns the fully reduced bytes, and no signed operation overflows. -/
theorem scalar_reduction {x : List Int} (hl : x.length = 64) (hx : ∀ v ∈ x, -2 ^ 22 ≤ v ∧ v ≤ 2 ^ 22) :
    ∃ v : Nat, v < L ∧ (v : Int) ≡ number x [ZMOD L] ∧ modL x = .ok (leBytes 32 v) ∧ leVal (leBytes 32 v) = v := by
  have hL : (0 : Int) < (L : Int) := by decide +kernel
  have h1 := Int.emod_nonneg (bval 256 x) (ne_of_gt hL)
  have h2 := Int.emod_lt_of_pos (bval 256 x) hL
  refine ⟨(bval 256 x % (L : Int)).toNat, by omega, ?_, ?_, ?_⟩
  · rw [Int.toNat_of_nonneg h1, number_bval]
    exact Int.mod_modEq _ _
  · exact modL_ok hl (fun k hk => by rw [g_eq (by omega)]; exact hx _ (List.getElem_mem _))
  · rw [leVal_leBytes, Nat.mod_eq_of_lt]
    have : L < 256 ^ 32 := by decide +kernel
    omega

example : (List.replicate 64 (-4194304 : Int)).length = 64 ∧ ∀ v ∈ List.replicate 64 (-4194304 : Int), -2 ^ 22 ≤ v ∧ v ≤ 2 ^ 22 :=
  ⟨by rw [List.length_replicate], by intro v hv; rw [List.eq_of_mem_replicate hv]; norm_num⟩

/-- C53: `reduce` leaves the value of its 64 bytes modulo L in the first 32 bytes and clears the others. -/
theorem scalar_reduce {r : Bytes} (h : r.length = 64) : reduce r = .ok (leBytes 32 (leVal r % L) ++ List.replicate 32 0) := reduce_ok h

example : (List.replicate 64 (255 : Byte)).length = 64 := by rw [List.length_replicate]

/-! ### C54: SHA-512 -/

/-- C54: the hash of the first `n` bytes is that of FIPS 180-4. -/
theorem sha512_spec {m : Bytes} {n : Nat} (hn : n ≤ m.length) (h64 : n < 2 ^ 64) : cryptoHash m n = .ok (sha512 (m.take n)) := cryptoHash_ok hn h64

example : 112 ≤ (List.replicate 200 (97 : Byte)).length ∧ 112 < 2 ^ 64 := by rw [List.length_replicate]; omega

/-! ### C55: comparison -/

/-- C55 -/
theorem verify_16_32 {x y : Bytes} :
    (x.length = 16 → y.length = 16 → cryptoVerify16 x y = .ok (if x = y then 0 else -1)) ∧
    (x.length = 32 → y.length = 32 → cryptoVerify32 x y = .ok (if x = y then 0 else -1)) := by
  constructor
  · intro hx hy
    unfold cryptoVerify16
    rw [vn_ok (by omega) (by omega), List.take_of_length_le (by omega), List.take_of_length_le (by omega)]
  · intro hx hy
    unfold cryptoVerify32
    rw [vn_ok (by omega) (by omega), List.take_of_length_le (by omega), List.take_of_length_le (by omega)]

example : (List.replicate 32 (1 : Byte)).length = 32 := by rw [List.length_replicate]

/-! ### C57: the group -/

/-- C57: addition is complete, and scalar multiplication is repeated addition, for every pair of points in every representation. -/
theorem curve_operations {P Q : Point d} {p q : Pt} (hp : Stands P p.x p.y p.z p.t) (hq : Stands Q q.x q.y q.z q.t) :
    (∃ r, add p q = .ok r ∧ Stands (P + Q) r.x r.y r.z r.t) ∧
    (∀ s : Bytes, s.length = 32 → ∃ r, scalarmult p s = .ok r ∧ Stands (leVal s • P) r.x r.y r.z r.t) ∧
    (∀ s : Bytes, s.length = 32 → ∃ r, scalarbase s = .ok r ∧ Stands (leVal s • B) r.x r.y r.z r.t) ∧
    pack p = .ok (encode P) := by
  simp only [stands_rep] at *
  refine ⟨add_rep hp hq, ?_, ?_, pack_rep hp⟩
  · intro s hs
    have := scalarmult_rep hp (s := s) (by omega)
    rwa [List.take_of_length_le (by omega)] at this
  · intro s hs
    have := scalarbase_rep (s := s) (by omega)
    rwa [List.take_of_length_le (by omega)] at this

/-- The coordinates in the specification of addition, for reference: the affine addition law with both denominators invertible. -/
theorem curve_addition_law (P Q : Point d) :
    (1 + d * P.x * Q.x * P.y * Q.y ≠ 0 ∧ 1 - d * P.x * Q.x * P.y * Q.y ≠ 0) ∧
    (P + Q).x = (P.x * Q.y + P.y * Q.x) / (1 + d * P.x * Q.x * P.y * Q.y) ∧
    (P + Q).y = (P.y * Q.y + P.x * Q.x) / (1 - d * P.x * Q.x * P.y * Q.y) :=
  ⟨⟨Point.one_add_ne P Q, Point.one_sub_ne P Q⟩, Point.add_x P Q, Point.add_y P Q⟩

example : ∃ q : Pt, Stands B q.x q.y q.z q.t := by
  obtain ⟨r, -, h⟩ := scalarbase_rep (s := leBytes 32 1) (by rw [length_leBytes])
  rw [List.take_of_length_le (by rw [length_leBytes]), leVal_leBytes, Nat.mod_eq_of_lt (by norm_num), one_smul] at h
  exact ⟨r, stands_rep.2 h⟩

/-! ### C51: acceptance -/

/-- C51: for lengths below 2^31 and buffers of at least that length, the answer is 0 exactly when the length is at least 64, the key decodes and the equation holds. -/
theorem ed_open_iff {m sm pk : Bytes} {l n : Nat} (hp : pk.length = 32) (hn : n < 2 ^ 31) (hm : n ≤ m.length) (hs : n ≤ sm.length) :
    ∃ c out len, signOpen m l sm n pk = .ok (c, out, len) ∧ (c = 0 ∨ c = -1) ∧
      (c = 0 ↔ 64 ≤ n ∧ ∃ A, Decodes pk A ∧
        sm.take 32 = encode (leVal ((sm.drop 32).take 32) • B - hashL (sm.take 32 ++ pk ++ (sm.drop 64).take (n - 64)) • A)) := by
  rw [signOpen_ok hp hn hm hs]
  have hv : Valid pk (msgOf sm n) (sm.take 64) ↔ ∃ A, Decodes pk A ∧
      sm.take 32 = encode (leVal ((sm.drop 32).take 32) • B - hashL (sm.take 32 ++ pk ++ (sm.drop 64).take (n - 64)) • A) := by
    unfold Valid msgOf
    rw [List.take_take, List.drop_take, List.drop_take]
    rfl
  by_cases h1 : n < 64 ∨ ¬ ∃ A, Decodes pk A
  · rw [if_pos h1]
    refine ⟨_, _, _, rfl, Or.inr rfl, ?_⟩
    constructor
    · intro h; simp at h
    · rintro ⟨h, A, hA, -⟩
      rcases h1 with h1 | h1
      · omega
      · exact absurd ⟨A, hA⟩ h1
  · rw [if_neg h1]
    by_cases h2 : Valid pk (msgOf sm n) (sm.take 64)
    · rw [if_pos h2]
      exact ⟨_, _, _, rfl, Or.inl rfl, fun _ => ⟨by omega, hv.1 h2⟩, fun _ => rfl⟩
    · rw [if_neg h2]
      refine ⟨_, _, _, rfl, Or.inr rfl, ?_⟩
      constructor
      · intro h; simp at h
      · rintro ⟨-, h⟩
        exact absurd (hv.2 h) h2

example : (publicKey (List.replicate 32 7)).length = 32 ∧ 100 < 2 ^ 31 ∧ 100 ≤ (List.replicate 128 (0 : Byte)).length := by
  rw [List.length_replicate]
  exact ⟨length_encode _, by omega, by omega⟩

/-! ### C50: round trip -/

theorem valid_sign (seed m : Bytes) : Valid (publicKey seed) m (Spec.sign seed (publicKey seed) m) := by
  refine ⟨scalar seed • B, decodes_encode _, ?_⟩
  unfold Spec.sign
  simp only []
  rw [List.take_left' (length_encode _), List.drop_left' (length_encode _), leVal_leBytes]
  generalize hashL _ = k
  generalize hashL _ = r
  rw [Nat.mod_eq_of_lt (Nat.lt_of_lt_of_le (Nat.mod_lt _ (by decide +kernel)) (by decide +kernel))]
  have h : ∀ n : Nat, (n % L) • B = n • B := by
    intro n
    conv => rhs; rw [← Nat.div_add_mod n L]
    rw [add_smul, mul_comm L, mul_smul, L_smul_B, smul_zero, zero_add]
  rw [h, add_smul, mul_smul, add_sub_cancel_right]

theorem length_specSign (seed pk m : Bytes) : (Spec.sign seed pk m).length = 64 := by
  unfold Spec.sign
  simp only []
  rw [List.length_append, length_encode, length_leBytes]

/-- C50: keys from any seed, any message below 2^31 - 64 bytes, any output buffers of the right size. -/
theorem ed_round_trip {seed m pk0 sk0 sm0 buf : Bytes} {l l' : Nat} (hseed : seed.length = 32) (hm : m.length < 2 ^ 31 - 64)
    (hpk : pk0.length = 32) (hsk : sk0.length = 64) (hsm : sm0.length = 64 + m.length) (hb : 64 + m.length ≤ buf.length) :
    ∃ pk sk sm out, keypairSeed pk0 sk0 seed = .ok (0, pk, sk) ∧ sign sm0 l m sk = .ok (0, sm, 64 + m.length) ∧ sm.drop 64 = m ∧
      signOpen buf l' sm (64 + m.length) pk = .ok (0, out, m.length) ∧ out.take m.length = m := by
  have lp : (publicKey seed).length = 32 := length_encode _
  have lsg := length_specSign seed (publicKey seed) m
  have e1 := keypairSeed_ok hpk hsk hseed
  have e2 := sign_ok (sm := sm0) (m := m) (sk := seed ++ publicKey seed) (l := l) (by rw [List.length_append]; omega) (by omega) (by omega)
  rw [List.take_left' hseed, List.drop_left' hseed, List.drop_of_length_le (by omega), List.append_nil] at e2
  have hmsg : msgOf (Spec.sign seed (publicKey seed) m ++ m) (64 + m.length) = m := by
    unfold msgOf
    rw [List.take_of_length_le (by rw [List.length_append]; omega), List.drop_left' lsg]
  have e3 := signOpen_ok (m := buf) (sm := Spec.sign seed (publicKey seed) m ++ m) (pk := publicKey seed) (l := l') (n := 64 + m.length) lp (by omega) hb
    (by rw [List.length_append]; omega)
  rw [if_neg (by
    rintro (h | h)
    · omega
    · exact h ⟨_, decodes_encode _⟩), hmsg, List.take_left' lsg, if_pos (valid_sign seed m), Nat.add_sub_cancel_left] at e3
  refine ⟨_, _, _, _, e1, e2, List.drop_left' lsg, e3, ?_⟩
  unfold openBuf
  rw [List.take_left' rfl]

example : (List.replicate 32 (9 : Byte)).length = 32 ∧ ([1, 2, 3] : Bytes).length < 2 ^ 31 - 64 := by
  rw [List.length_replicate]; exact ⟨rfl, by decide⟩

/-- C50: the signature is the one of RFC 8032, for every secret key and message. -/
theorem ed_sign_spec {sm m sk : Bytes} {l : Nat} (hk : sk.length = 64) (hm : m.length < 2 ^ 63) (hs : sm.length = 64 + m.length) :
    sign sm l m sk = .ok (0, Spec.sign (sk.take 32) (sk.drop 32) m ++ m, 64 + m.length) := by
  rw [sign_ok hk hm (by omega), List.drop_of_length_le (l := sm) (by omega), List.append_nil]

example : (List.replicate 64 (9 : Byte)).length = 64 := by rw [List.length_replicate]

/-- C50: the key pair is the one of RFC 8032. -/
theorem ed_keypair_spec {pk sk seed : Bytes} (hp : pk.length = 32) (hs : sk.length = 64) (hseed : seed.length = 32) :
    keypairSeed pk sk seed = .ok (0, publicKey seed, seed ++ publicKey seed) := keypairSeed_ok hp hs hseed

example : (List.replicate 32 (0 : Byte)).length = 32 ∧ (List.replicate 64 (0 : Byte)).length = 64 := by simp only [List.length_replicate]; trivial

/-- C50: unseeded key generation draws 32 bytes once; a failing source gives a nonzero code and leaves both buffers, otherwise the key pair is the one of the seed drawn. -/
theorem ed_keypair_random {pk sk : Bytes} (hp : pk.length = 32) (hs : sk.length = 64) (R : Rng) :
    (R.draw R.log.length 32 = none → keypair pk sk R = .ok ((-1, pk, sk), { R with log := R.log ++ [(32, none)] })) ∧
    ∀ seed, R.draw R.log.length 32 = some seed →
      keypair pk sk R = .ok ((0, publicKey seed, seed ++ publicKey seed), { R with log := R.log ++ [(32, some seed)] }) := by
  constructor
  · intro h
    simp only [keypair, RandM_bind_apply, randombytes, h]
    rfl
  · intro seed h
    simp only [keypair, RandM_bind_apply, randombytes, h]
    show liftCR (keypairSeed pk sk seed) _ = _
    rw [keypairSeed_ok hp hs (R.len_draw _ _ _ h), liftCR_ok]

example : ∃ R : Rng, R.draw R.log.length 32 = some (List.replicate 32 7) :=
  ⟨⟨fun _ n => some (List.replicate n 7), by intro i n b h; cases h; exact List.length_replicate .., []⟩, rfl⟩

example : ∃ R : Rng, R.draw R.log.length 32 = none := ⟨⟨fun _ _ => none, fun _ _ _ h => (nomatch h), []⟩, rfl⟩

/-! ### C56: failing opening -/

/-- C56 for lengths below 2^31: no undefined behaviour for any bytes; after a failure the length is 2^64 - 1 and the message area is zero, or the buffer is as it was.
Missing: lengths from 2^31 on, where the property is false (`ed_open_long_ub`). -/
theorem ed_open_failure_partial {m sm pk : Bytes} {l n : Nat} (hp : pk.length = 32) (hn : n < 2 ^ 31) (hm : n ≤ m.length) (hs : n ≤ sm.length) :
    ∃ c out len, signOpen m l sm n pk = .ok (c, out, len) ∧ out.length = m.length ∧ out.drop n = m.drop n ∧
      (c ≠ 0 → c = -1 ∧ len = 2 ^ 64 - 1 ∧ ((n < 64 ∨ ¬ ∃ A, Decodes pk A) → out = m) ∧ (64 ≤ n → (∃ A, Decodes pk A) → out.take (n - 64) = List.replicate (n - 64) 0)) ∧
      (c = 0 → 64 ≤ n ∧ len = n - 64 ∧ out.take len = (sm.drop 64).take len) := by
  rw [signOpen_ok hp hn hm hs]
  have hob : ∀ x : Bytes, x.length = n - 64 → 64 ≤ n → (openBuf x m sm pk n).length = m.length ∧ (openBuf x m sm pk n).drop n = m.drop n := by
    intro x hx h64
    have l1 : (sm.take 32 ++ pk ++ msgOf sm n).length = n := by
      unfold msgOf
      simp only [List.length_append, List.length_take, List.length_drop]; omega
    constructor
    · unfold openBuf
      rw [List.length_append, List.length_drop, List.length_append, l1, List.length_drop]; omega
    · unfold openBuf
      rw [List.drop_append, List.drop_of_length_le (by omega), List.nil_append, List.drop_drop, hx, show n - 64 + (n - (n - 64)) = n by omega, List.drop_left' l1]
  have hmsg : (msgOf sm n).length = n - 64 := by unfold msgOf; rw [List.length_drop, List.length_take]; omega
  by_cases h1 : n < 64 ∨ ¬ ∃ A, Decodes pk A
  · rw [if_pos h1]
    exact ⟨_, _, _, rfl, rfl, rfl, fun _ => ⟨rfl, rfl, fun _ => rfl, fun h2 h3 => by rcases h1 with h1 | h1; exacts [by omega, absurd h3 h1]⟩, fun h => by simp at h⟩
  · rw [if_neg h1]
    by_cases h2 : Valid pk (msgOf sm n) (sm.take 64)
    · rw [if_pos h2]
      refine ⟨_, _, _, rfl, (hob _ hmsg (by omega)).1, (hob _ hmsg (by omega)).2, fun h => absurd rfl h, fun _ => ⟨by omega, rfl, ?_⟩⟩
      unfold openBuf
      rw [List.take_left' hmsg]
      unfold msgOf
      rw [List.drop_take]
    · rw [if_neg h2]
      have hz : (List.replicate (n - 64) (0 : Byte)).length = n - 64 := List.length_replicate
      refine ⟨_, _, _, rfl, (hob _ hz (by omega)).1, (hob _ hz (by omega)).2, fun _ => ⟨rfl, rfl, fun h => absurd h h1, fun _ _ => ?_⟩, fun h => by simp at h⟩
      unfold openBuf
      rw [List.take_left' hz]

example : (List.replicate 32 (255 : Byte)).length = 32 ∧ 128 < 2 ^ 31 ∧ 128 ≤ (List.replicate 128 (0 : Byte)).length := by
  rw [List.length_replicate, List.length_replicate]; omega

/-- C56 is false from 2^31 on: the counter of type int overflows for every buffer and every key that decodes. -/
theorem ed_open_long_ub {m sm pk : Bytes} {l n : Nat} (hp : pk.length = 32) (hA : ∃ A, Decodes pk A) (hn : 2 ^ 31 ≤ n) :
    signOpen m l sm n pk = .error .ub := by
  unfold signOpen
  simp only []
  rw [if_neg (by omega)]
  rcases unpackneg_ok hp with ⟨eu, hno⟩ | ⟨A, q, eu, -, -⟩
  · obtain ⟨A, h⟩ := hA
    exact absurd h (hno A)
  · rw [eu, ok_bind]
    simp only []
    rw [if_pos hn]
    rfl

example : (encode B).length = 32 ∧ ∃ A, Decodes (encode B) A := ⟨length_encode _, B, decodes_encode B⟩

/-- C56, what a failure leaves behind: beyond the reported area the caller's buffer still holds the last 64 bytes of the rejected message. -/
theorem ed_open_tail_kept {m sm pk out : Bytes} {l n len : Nat} {c : Int} (hp : pk.length = 32) (hn : n < 2 ^ 31) (h128 : 128 ≤ n) (hm : n ≤ m.length) (hs : n ≤ sm.length)
    (hA : ∃ A, Decodes pk A) (h : signOpen m l sm n pk = .ok (c, out, len)) (hc : c ≠ 0) :
    (out.drop (n - 64)).take 64 = (sm.drop (n - 64)).take 64 := by
  rw [signOpen_ok hp hn hm hs, if_neg (by
    rintro (h | h)
    · omega
    · exact h hA)] at h
  have l1 : (sm.take 32 ++ pk).length = 64 := by
    simp only [List.length_append, List.length_take]; omega
  have key : (openBuf (List.replicate (n - 64) 0) m sm pk n).drop (n - 64) = (msgOf sm n ++ m.drop n).drop (n - 128) := by
    unfold openBuf
    rw [List.drop_left' List.length_replicate, List.append_assoc, List.drop_append, List.drop_of_length_le (by omega), List.nil_append, l1, show n - 64 - 64 = n - 128 by omega]
  by_cases h2 : Valid pk (msgOf sm n) (sm.take 64)
  · rw [if_pos h2] at h
    simp only [Except.ok.injEq, Prod.mk.injEq] at h
    exact absurd h.1.symm hc
  · rw [if_neg h2] at h
    simp only [Except.ok.injEq, Prod.mk.injEq] at h
    rw [← h.2.1, key]
    have lm : (msgOf sm n).length = n - 64 := by unfold msgOf; rw [List.length_drop, List.length_take]; omega
    rw [List.drop_append_of_le_length (by omega), List.take_append_of_le_length (by rw [List.length_drop]; omega)]
    unfold msgOf
    rw [List.drop_drop, List.drop_take, List.take_take]
    rw [show 64 + (n - 128) = n - 64 by omega, Nat.min_eq_left (by omega)]

example : (encode B).length = 32 ∧ 200 < 2 ^ 31 ∧ 128 ≤ 200 := ⟨length_encode _, by omega, by omega⟩

/-! ### C21: malleability -/

theorem valid_shift {pk m R S S' : Bytes} (hR : R.length = 32) (hS : leVal S' • B = leVal S • B) (h : Valid pk m (R ++ S)) : Valid pk m (R ++ S') := by
  obtain ⟨A, hA, he⟩ := h
  refine ⟨A, hA, ?_⟩
  rw [List.take_left' hR, List.drop_left' hR] at he ⊢
  rw [hS]
  exact he

/-- The scalar of another signature: S + L if that fits in 32 bytes, S - L otherwise. -/
def otherScalar (s : Nat) : Nat := if s + L < 2 ^ 256 then s + L else s - L

/-- C21 is false: every accepted signed message has another accepted one with the same message, found without the secret key. -/
theorem ed_malleable {m sm pk out : Bytes} {l n len : Nat} (hp : pk.length = 32) (hn : n < 2 ^ 31) (hm : n ≤ m.length) (hs : n ≤ sm.length)
    (h : signOpen m l sm n pk = .ok (0, out, len)) :
    ∃ S : Bytes, S = leBytes 32 (otherScalar (leVal ((sm.drop 32).take 32))) ∧ S ≠ (sm.drop 32).take 32 ∧
      ∃ out', signOpen m l (sm.take 32 ++ S ++ sm.drop 64) n pk = .ok (0, out', len) ∧ out'.take len = out.take len := by
  have hc := signOpen_ok (l := l) hp hn hm hs
  rw [h] at hc
  have hc := Except.ok.inj hc
  have h1 : ¬ (n < 64 ∨ ¬ ∃ A, Decodes pk A) := by
    intro h1
    rw [if_pos h1] at hc
    simp at hc
  rw [if_neg h1] at hc
  have h2 : Valid pk (msgOf sm n) (sm.take 64) := by
    by_contra h2
    rw [if_neg h2] at hc
    simp at hc
  rw [if_pos h2] at hc
  simp only [Prod.mk.injEq, true_and] at hc
  have h64 : 64 ≤ n := by omega
  obtain ⟨S0, hS0⟩ : ∃ S0, S0 = (sm.drop 32).take 32 := ⟨_, rfl⟩
  obtain ⟨s, hs'⟩ : ∃ s, s = leVal S0 := ⟨_, rfl⟩
  have l0 : S0.length = 32 := by rw [hS0, List.length_take, List.length_drop]; omega
  have lt0 : s < 2 ^ 256 := by
    have := leVal_lt S0
    rw [l0] at this
    rw [hs']
    norm_num at this ⊢
    exact this
  have hL1 : 0 < L := by decide +kernel
  have hL2 : 2 * L < 2 ^ 256 := by decide +kernel
  rw [← hS0, ← hs']
  have ho : otherScalar s < 2 ^ 256 ∧ otherScalar s ≠ s ∧ otherScalar s • B = s • B := by
    unfold otherScalar
    by_cases hf : s + L < 2 ^ 256
    · rw [if_pos hf]
      exact ⟨hf, by omega, by rw [add_smul, L_smul_B, add_zero]⟩
    · rw [if_neg hf]
      refine ⟨by omega, by omega, ?_⟩
      have : s = (s - L) + L := by omega
      conv => rhs; rw [this, add_smul, L_smul_B, add_zero]
  have hv : leVal (leBytes 32 (otherScalar s)) = otherScalar s := by
    rw [leVal_leBytes, Nat.mod_eq_of_lt (by have := ho.1; norm_num at this ⊢; exact this)]
  refine ⟨_, rfl, ?_, ?_⟩
  · intro he
    have := congrArg leVal he
    rw [hv, ← hs'] at this
    exact ho.2.1 this
  · have lR : (sm.take 32).length = 32 := by rw [List.length_take]; omega
    have lS := length_leBytes 32 (otherScalar s)
    have e64 : (sm.take 32 ++ leBytes 32 (otherScalar s) ++ sm.drop 64).take 64 = sm.take 32 ++ leBytes 32 (otherScalar s) := List.take_left' (by rw [List.length_append]; omega)
    have hmsg : msgOf (sm.take 32 ++ leBytes 32 (otherScalar s) ++ sm.drop 64) n = msgOf sm n := by
      unfold msgOf
      rw [List.drop_take, List.drop_left' (by rw [List.length_append]; omega), List.drop_take]
    have hv2 : Valid pk (msgOf sm n) (sm.take 32 ++ leBytes 32 (otherScalar s)) := by
      refine valid_shift (S := S0) lR (by rw [hv, ho.2.2, hs']) ?_
      rw [hS0, ← List.take_add]
      exact h2
    have hl : (sm.take 32 ++ leBytes 32 (otherScalar s) ++ sm.drop 64).length = sm.length := by
      rw [List.length_append, List.length_append, List.length_drop]; omega
    refine ⟨_, by rw [signOpen_ok hp hn hm (by omega), if_neg h1, hmsg, e64, if_pos hv2, ← hc.2], ?_⟩
    have lm : (msgOf sm n).length = len := by unfold msgOf; rw [List.length_drop, List.length_take, hc.2]; omega
    rw [hc.1]
    unfold openBuf
    rw [List.take_left' lm, List.take_left' lm]

/-- The hypotheses of `ed_malleable` hold for every honest signature. -/
example (seed m : Bytes) (hseed : seed.length = 32) (hm : m.length < 2 ^ 31 - 64) :
    ∃ pk sm out, signOpen (List.replicate (64 + m.length) 0) 0 sm (64 + m.length) pk = .ok (0, out, m.length) := by
  obtain ⟨pk, sk, sm, out, -, -, -, h, -⟩ := ed_round_trip (seed := seed) (m := m) (pk0 := List.replicate 32 0) (sk0 := List.replicate 64 0)
    (sm0 := List.replicate (64 + m.length) 0) (buf := List.replicate (64 + m.length) 0) (l := 0) (l' := 0) hseed hm
    List.length_replicate List.length_replicate List.length_replicate (by rw [List.length_replicate])
  exact ⟨pk, sm, out, h⟩

end Verif.Ed25519
