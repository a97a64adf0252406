import Verif.Nacl.Model
import Verif.Nacl.Ladder
import Verif.Ed25519.Top

/-! Supporting lemmas: `crypto_scalarmult` is X25519. -/

namespace Verif.Nacl
open Verif Verif.Ed25519 Verif.Nacl.Spec
open Verif.Ed25519.Spec (leVal leBytes F)

/-! ### The scalar -/

theorem clampX_ok {n : Bytes} (h : n.length = 32) : ∃ z, clampX n = .ok z ∧ z.length = 32 ∧ leVal z = scalar n := by
  obtain ⟨a, n1, rfl⟩ : ∃ a t, n = a :: t := by cases n with
    | nil => simp at h
    | cons a t => exact ⟨a, t, rfl⟩
  obtain ⟨m, b, rfl⟩ : ∃ m b, n1 = m ++ [b] := ⟨n1.dropLast, n1.getLast (by intro hc; rw [hc] at h; simp at h), (List.dropLast_append_getLast _).symm⟩
  have hm : m.length = 30 := by simp at h; omega
  refine ⟨(a &&& 248) :: (m ++ [(b &&& 127) ||| 64]), ?_, by simp [hm], ?_⟩
  · unfold clampX
    rw [copy_ok (by simp; omega) (by simp), ok_bind]
    have e1 : splice (List.replicate 32 (0 : Byte)) 0 (slice (a :: (m ++ [b])) 0 31) = a :: (m ++ [0]) := by
      unfold splice slice
      have : List.take 31 (a :: (m ++ [b])) = a :: m := by
        rw [List.take_succ_cons, List.take_left' hm]
      simp [hm, this]
    rw [e1]
    have r1 : rd (a :: (m ++ [b])) 31 = .ok b := by
      rw [rd_ok (by simp; omega)]
      simp [← hm]
    rw [r1, ok_bind]
    have w1 : wr (a :: (m ++ [0])) 31 ((b &&& 127) ||| 64) = .ok (a :: (m ++ [(b &&& 127) ||| 64])) := by
      rw [wr_ok (by simp; omega)]
      simp [← hm]
    rw [w1, ok_bind, rd_ok (by simp), ok_bind, wr_ok (by simp)]
    simp
  · unfold scalar
    simp only [leVal, leVal_append, hm, clamp_byte0, clamp_byte31]
    have h1 := leVal_lt m
    rw [hm] at h1
    have ha := a.isLt
    have hb := b.isLt
    norm_num at h1 ⊢
    generalize leVal m = v at h1 ⊢
    omega

/-! ### One step -/

theorem fe_121665 : fe gf121665 = 121665 := by
  rw [fe_nat (n := 121665) (by decide)]; norm_num

theorem bd_121665 : Bd 65535 gf121665 := bd_of _ (by decide) (by decide)

/-- The doubling of the ladder, on field elements. -/
def dX (X Z : F) : F := (X ^ 2 - Z ^ 2) ^ 2
/-- Denominator of the double. -/
def dZ (X Z : F) : F := 4 * X * Z * (X ^ 2 + 486662 * X * Z + Z ^ 2)
/-- The addition of the ladder. -/
def aX (X2 Z2 X3 Z3 : F) : F := 4 * (X2 * X3 - Z2 * Z3) ^ 2
/-- Denominator of the sum. -/
def aZ (u X2 Z2 X3 Z3 : F) : F := u * (4 * (X2 * Z3 - Z2 * X3) ^ 2)

/-- The limbs of the ladder's state are small. -/
structure LBd (s : Ladder) : Prop where
  a : Bd 65573 s.a
  b : Bd 65573 s.b
  c : Bd 65573 s.c
  d : Bd 65573 s.d

theorem sel_bd {p q : Gf} (hp : Bd 65573 p) (hq : Bd 65573 q) {b : Int} (hb : b = 0 ∨ b = 1) : sel25519 p q b = .ok (if b = 1 then (q, p) else (p, q)) :=
  sel25519_ok hp.len hq.len (hp.range (by norm_num)) (hq.range (by norm_num)) hb

theorem core_step {x : Gf} (hx : Bd 65573 x) {a b c d : Gf} (ha : Bd 65573 a) (hb : Bd 65573 b) (hc : Bd 65573 c) (hd : Bd 65573 d) :
    ∃ a' b' c' d', (∀ k : Gf → Gf → Gf → Gf → C Ladder, (do
      let e ← fA a c
      let a ← fZ a c
      let c ← fA b d
      let b ← fZ b d
      let d ← fS e
      let f ← fS a
      let a ← fM c a
      let c ← fM b e
      let e ← fA a c
      let a ← fZ a c
      let b ← fS a
      let c ← fZ d f
      let a ← fM c gf121665
      let a ← fA a d
      let c ← fM c a
      let a ← fM d f
      let d ← fM b x
      let b ← fS e
      k a b c d : C Ladder) = k a' b' c' d') ∧ Bd 65573 a' ∧ Bd 65573 b' ∧ Bd 65573 c' ∧ Bd 65573 d' ∧
      fe a' = dX (fe a) (fe c) ∧ fe c' = dZ (fe a) (fe c) ∧ fe b' = aX (fe a) (fe c) (fe b) (fe d) ∧ fe d' = aZ (fe x) (fe a) (fe c) (fe b) (fe d) := by
  obtain ⟨e, ee, be, ve⟩ := fA_fe ha hc (by norm_num)
  obtain ⟨a1, ea1, ba1, va1⟩ := fZ_fe ha hc (by norm_num)
  obtain ⟨c1, ec1, bc1, vc1⟩ := fA_fe hb hd (by norm_num)
  obtain ⟨b1, eb1, bb1, vb1⟩ := fZ_fe hb hd (by norm_num)
  obtain ⟨d1, ed1, bd1, vd1⟩ := fS_fe (be.small (by norm_num))
  obtain ⟨f, ef, bf, vf⟩ := fS_fe (ba1.small (by norm_num))
  obtain ⟨a2, ea2, ba2, va2⟩ := fM_fe (bc1.small (by norm_num)) (ba1.small (by norm_num))
  obtain ⟨c2, ec2, bc2, vc2⟩ := fM_fe (bb1.small (by norm_num)) (be.small (by norm_num))
  obtain ⟨e2, ee2, be2, ve2⟩ := fA_fe ba2.bd bc2.bd (by norm_num)
  obtain ⟨a3, ea3, ba3, va3⟩ := fZ_fe ba2.bd bc2.bd (by norm_num)
  obtain ⟨b2, eb2, bb2, vb2⟩ := fS_fe (ba3.small (by norm_num))
  obtain ⟨c3, ec3, bc3, vc3⟩ := fZ_fe bd1.bd bf.bd (by norm_num)
  obtain ⟨a4, ea4, ba4, va4⟩ := fM_fe (bc3.small (by norm_num)) (bd_121665.small (by norm_num))
  obtain ⟨a5, ea5, ba5, va5⟩ := fA_fe ba4.bd bd1.bd (by norm_num)
  obtain ⟨c4, ec4, bc4, vc4⟩ := fM_fe (bc3.small (by norm_num)) (ba5.small (by norm_num))
  obtain ⟨a6, ea6, ba6, va6⟩ := fM_fe bd1.small bf.small
  obtain ⟨d2, ed2, bd2, vd2⟩ := fM_fe bb2.small (hx.small (by norm_num))
  obtain ⟨b3, eb3, bb3, vb3⟩ := fS_fe (be2.small (by norm_num))
  refine ⟨a6, b3, c4, d2, ?_, ba6.bd, bb3.bd, bc4.bd, bd2.bd, ?_, ?_, ?_, ?_⟩
  · intro k
    rw [ee, ok_bind, ea1, ok_bind, ec1, ok_bind, eb1, ok_bind, ed1, ok_bind, ef, ok_bind, ea2, ok_bind, ec2, ok_bind, ee2, ok_bind, ea3, ok_bind, eb2, ok_bind,
      ec3, ok_bind, ea4, ok_bind, ea5, ok_bind, ec4, ok_bind, ea6, ok_bind, ed2, ok_bind, eb3, ok_bind]
  · rw [va6, vd1, vf, ve, va1]; unfold dX; ring
  · rw [vc4, va5, va4, vc3, vd1, vf, ve, va1, fe_121665]; unfold dZ; ring
  · rw [vb3, ve2, va2, vc2, vc1, va1, vb1, ve]; unfold aX; ring
  · rw [vd2, vb2, va3, va2, vc2, vc1, va1, vb1, ve]; unfold aZ; ring

theorem ladderStep_ok {x : Gf} (hx : Bd 65573 x) {s : Ladder} (hs : LBd s) {r : Int} (hr : r = 0 ∨ r = 1) :
    ∃ s', ladderStep x r s = .ok s' ∧ LBd s' ∧
      (r = 0 → fe s'.a = dX (fe s.a) (fe s.c) ∧ fe s'.c = dZ (fe s.a) (fe s.c) ∧ fe s'.b = aX (fe s.a) (fe s.c) (fe s.b) (fe s.d) ∧ fe s'.d = aZ (fe x) (fe s.a) (fe s.c) (fe s.b) (fe s.d)) ∧
      (r = 1 → fe s'.b = dX (fe s.b) (fe s.d) ∧ fe s'.d = dZ (fe s.b) (fe s.d) ∧ fe s'.a = aX (fe s.b) (fe s.d) (fe s.a) (fe s.c) ∧ fe s'.c = aZ (fe x) (fe s.b) (fe s.d) (fe s.a) (fe s.c)) := by
  unfold ladderStep
  rw [sel_bd hs.a hs.b hr, ok_bind, sel_bd hs.c hs.d hr]
  rcases hr with rfl | rfl
  · obtain ⟨a', b', c', d', e, ba, bb, bc, bd, va, vc, vb, vd⟩ := core_step hx hs.a hs.b hs.c hs.d
    refine ⟨⟨a', b', c', d'⟩, ?_, ⟨ba, bb, bc, bd⟩, fun _ => ⟨va, vc, vb, vd⟩, fun h => absurd h (by decide)⟩
    refine (e (fun a b c d => do
      let (a, b) ← sel25519 a b 0
      let (c, d) ← sel25519 c d 0
      .ok ⟨a, b, c, d⟩)).trans ?_
    rw [sel_bd ba bb (Or.inl rfl), ok_bind]
    simp only []
    rw [sel_bd bc bd (Or.inl rfl)]
    rfl
  · obtain ⟨a', b', c', d', e, ba, bb, bc, bd, va, vc, vb, vd⟩ := core_step hx hs.b hs.a hs.d hs.c
    refine ⟨⟨b', a', d', c'⟩, ?_, ⟨bb, ba, bd, bc⟩, fun h => absurd h (by decide), fun _ => ⟨va, vc, vb, vd⟩⟩
    refine (e (fun a b c d => do
      let (a, b) ← sel25519 a b 1
      let (c, d) ← sel25519 c d 1
      .ok ⟨a, b, c, d⟩)).trans ?_
    rw [sel_bd ba bb (Or.inr rfl), ok_bind]
    simp only []
    rw [sel_bd bc bd (Or.inr rfl)]
    rfl

/-! ### The ladder -/

/-- The scalar that the ladder has seen after k steps. -/
def pref (z k : Nat) : Nat := z / 2 ^ (255 - k)

theorem pref_succ (z : Nat) {k : Nat} (hk : k < 255) : pref z (k + 1) = 2 * pref z k + z / 2 ^ (254 - k) % 2 := by
  unfold pref
  rw [show 255 - (k + 1) = 254 - k by omega, show 255 - k = (254 - k) + 1 by omega, pow_succ, ← Nat.div_div_eq_div_mul]
  omega

/-- What holds in the ladder. -/
def LInv (u : F) (m : Nat) (a b c d : F) : Prop :=
  (u = 0 → a * c = 0 ∧ b * d = 0) ∧
  (u ≠ 0 → ∀ (K : Type) [Field K] [Algebra F K] [DecidableEq K] (Q : (mont K).Point), X0 Q = algebraMap F K u →
    XRep (algebraMap F K a) (algebraMap F K c) (m • Q) ∧ XRep (algebraMap F K b) (algebraMap F K d) ((m + 1) • Q))

theorem num_ne {K : Type} [Field K] [Algebra F K] {n : Nat} (hn : n % Ed25519.Spec.p ≠ 0) : (n : K) ≠ 0 := by
  rw [← map_natCast (algebraMap F K) n]
  intro h
  have h1 : ((n : Nat) : F) = 0 := (algebraMap F K).injective (by rw [h, map_zero])
  rw [ZMod.natCast_eq_zero_iff] at h1
  exact hn (Nat.mod_eq_zero_of_dvd h1)

theorem point_of_X0 {K : Type} [Field K] {u : K} (hu : u ≠ 0) {Q : (mont K).Point} (h : X0 Q = u) : XRep u 1 Q := by
  rcases Q with _ | ⟨x, y, hn⟩
  · exact absurd h.symm hu
  · have h : x = u := h
    subst h
    exact ⟨by ring, one_ne_zero⟩

theorem linv_zero (u : F) : LInv u 0 1 u 0 1 := by
  refine ⟨fun h => ⟨by ring, by rw [h]; ring⟩, ?_⟩
  intro hu K _ _ _ Q hQ
  rw [zero_smul, zero_add, one_smul, map_one, map_zero]
  exact ⟨⟨rfl, one_ne_zero⟩, point_of_X0 (by rw [ne_eq, map_eq_zero]; exact hu) hQ⟩

theorem map_dX {K : Type} [Field K] [Algebra F K] (X Z : F) : algebraMap F K (dX X Z) = ((algebraMap F K X) ^ 2 - (algebraMap F K Z) ^ 2) ^ 2 := by
  unfold dX; simp only [map_sub, map_pow]
theorem map_dZ {K : Type} [Field K] [Algebra F K] (X Z : F) : algebraMap F K (dZ X Z) =
    4 * algebraMap F K X * algebraMap F K Z * ((algebraMap F K X) ^ 2 + 486662 * algebraMap F K X * algebraMap F K Z + (algebraMap F K Z) ^ 2) := by
  unfold dZ; simp only [map_add, map_mul, map_pow, map_ofNat]
theorem map_aX {K : Type} [Field K] [Algebra F K] (X2 Z2 X3 Z3 : F) : algebraMap F K (aX X2 Z2 X3 Z3) =
    4 * (algebraMap F K X2 * algebraMap F K X3 - algebraMap F K Z2 * algebraMap F K Z3) ^ 2 := by
  unfold aX; simp only [map_sub, map_mul, map_pow, map_ofNat]
theorem map_aZ {K : Type} [Field K] [Algebra F K] (u X2 Z2 X3 Z3 : F) : algebraMap F K (aZ u X2 Z2 X3 Z3) =
    algebraMap F K u * (4 * (algebraMap F K X2 * algebraMap F K Z3 - algebraMap F K Z2 * algebraMap F K X3) ^ 2) := by
  unfold aZ; simp only [map_sub, map_mul, map_pow, map_ofNat]

theorem linv_step0 {u : F} {m : Nat} {a b c d : F} (h : LInv u m a b c d) : LInv u (2 * m) (dX a c) (aX a c b d) (dZ a c) (aZ u a c b d) := by
  refine ⟨fun hu => ?_, fun hu K _ _ _ Q hQ => ?_⟩
  · obtain ⟨h1, h2⟩ := h.1 hu
    constructor
    · unfold dX dZ
      linear_combination (a ^ 2 - c ^ 2) ^ 2 * 4 * (a ^ 2 + 486662 * a * c + c ^ 2) * h1
    · unfold aZ; rw [hu]; ring
  · obtain ⟨h1, h2⟩ := h.2 hu K Q hQ
    have n2 : (2 : K) ≠ 0 := by have := num_ne (K := K) (n := 2) (by decide +kernel); exact_mod_cast this
    have n3 : (486664 : K) ≠ 0 := by have := num_ne (K := K) (n := 486664) (by decide +kernel); exact_mod_cast this
    have n4 : (486660 : K) ≠ 0 := by have := num_ne (K := K) (n := 486660) (by decide +kernel); exact_mod_cast this
    have hu' : algebraMap F K u ≠ 0 := by rw [ne_eq, map_eq_zero]; exact hu
    rw [map_dX, map_dZ, map_aX, map_aZ]
    constructor
    · have := double_rep n2 n3 n4 h1
      rwa [← add_smul, ← two_mul] at this
    · have hD : XRep (algebraMap F K u) 1 (m • Q - (m + 1) • Q) := by
        rw [add_smul, one_smul, sub_add_cancel_left]
        exact xrep_neg (point_of_X0 hu' hQ)
      have := diff_rep n2 h1 h2 hD hu'
      rwa [← add_smul, show m + (m + 1) = 2 * m + 1 by omega] at this

theorem linv_step1 {u : F} {m : Nat} {a b c d : F} (h : LInv u m a b c d) : LInv u (2 * m + 1) (aX b d a c) (dX b d) (aZ u b d a c) (dZ b d) := by
  refine ⟨fun hu => ?_, fun hu K _ _ _ Q hQ => ?_⟩
  · obtain ⟨h1, h2⟩ := h.1 hu
    constructor
    · unfold aZ; rw [hu]; ring
    · unfold dX dZ
      linear_combination (b ^ 2 - d ^ 2) ^ 2 * 4 * (b ^ 2 + 486662 * b * d + d ^ 2) * h2
  · obtain ⟨h1, h2⟩ := h.2 hu K Q hQ
    have n2 : (2 : K) ≠ 0 := by have := num_ne (K := K) (n := 2) (by decide +kernel); exact_mod_cast this
    have n3 : (486664 : K) ≠ 0 := by have := num_ne (K := K) (n := 486664) (by decide +kernel); exact_mod_cast this
    have n4 : (486660 : K) ≠ 0 := by have := num_ne (K := K) (n := 486660) (by decide +kernel); exact_mod_cast this
    have hu' : algebraMap F K u ≠ 0 := by rw [ne_eq, map_eq_zero]; exact hu
    rw [map_dX, map_dZ, map_aX, map_aZ]
    constructor
    · have hD : XRep (algebraMap F K u) 1 ((m + 1) • Q - m • Q) := by
        rw [add_smul, one_smul, add_sub_cancel_left]
        exact point_of_X0 hu' hQ
      have := diff_rep n2 h2 h1 hD hu'
      rwa [← add_smul, show m + 1 + m = 2 * m + 1 by omega] at this
    · have := double_rep n2 n3 n4 h2
      rwa [← add_smul, show m + 1 + (m + 1) = 2 * m + 1 + 1 by omega] at this

theorem ladder_ok {x : Gf} (hx : Bd 65573 x) {z : Bytes} (hz : z.length = 32) (hlt : leVal z < 2 ^ 255) :
    ∃ s, loop (fun k s => do
      let i := 254 - k
      let zi ← rd z (i / 8)
      let r : Int := ((zi >>> (i % 8)) &&& 1).toNat
      ladderStep x r s) 0 255 ⟨gf1, x, gf0, gf1⟩ = .ok s ∧ LBd s ∧ LInv (fe x) (leVal z) (fe s.a) (fe s.b) (fe s.c) (fe s.d) := by
  obtain ⟨s, e, hb, hi⟩ := loop_inv (fun k (s : Ladder) => LBd s ∧ LInv (fe x) (pref (leVal z) k) (fe s.a) (fe s.b) (fe s.c) (fe s.d))
    (fun k s => do
      let i := 254 - k
      let zi ← rd z (i / 8)
      let r : Int := ((zi >>> (i % 8)) &&& 1).toNat
      ladderStep x r s) 0 255 ⟨gf1, x, gf0, gf1⟩
    ⟨⟨bd_gf1.mono (by norm_num), hx, bd_gf0.mono (by norm_num), bd_gf1.mono (by norm_num)⟩, by
      have : pref (leVal z) 0 = 0 := Nat.div_eq_of_lt hlt
      rw [this]
      simp only [fe_gf0, fe_gf1]
      exact linv_zero _⟩
    (by
      rintro k s - hk ⟨hb, hi⟩
      simp only []
      have hd : (254 - k) / 8 < z.length := by omega
      rw [rd_ok hd, ok_bind, leVal_bit z (254 - k) hd, pref_succ (leVal z) (show k < 255 by omega)]
      rcases (by omega : leVal z / 2 ^ (254 - k) % 2 = 0 ∨ leVal z / 2 ^ (254 - k) % 2 = 1) with h0 | h0
      · rw [h0]
        obtain ⟨s', e, hb', hv, -⟩ := ladderStep_ok hx hb (r := 0) (Or.inl rfl)
        obtain ⟨v1, v2, v3, v4⟩ := hv rfl
        refine ⟨s', e, hb', ?_⟩
        rw [v1, v2, v3, v4]
        exact linv_step0 hi
      · rw [h0]
        obtain ⟨s', e, hb', -, hv⟩ := ladderStep_ok hx hb (r := 1) (Or.inr rfl)
        obtain ⟨v1, v2, v3, v4⟩ := hv rfl
        refine ⟨s', e, hb', ?_⟩
        rw [v1, v2, v3, v4]
        exact linv_step1 hi)
  refine ⟨s, e, hb, ?_⟩
  have : pref (leVal z) (0 + 255) = leVal z := by simp [pref]
  rw [this] at hi
  exact hi

theorem scalar_lt (n : Bytes) : scalar n < 2 ^ 255 := by
  unfold scalar
  omega

/-- `crypto_scalarmult` is X25519. -/
theorem scalarmultX_ok {n q : Bytes} (hn : n.length = 32) (hq : q.length = 32) :
    ∃ v : F, scalarmultX n q = .ok (leBytes 32 v.val) ∧ IsX25519 (scalar n) (coordinate q) v := by
  obtain ⟨z, ez, lz, vz⟩ := clampX_ok hn
  obtain ⟨x, ex, bx, vx⟩ := unpack25519_fe hq
  obtain ⟨s, es, bs, hi⟩ := ladder_ok (bx.mono (by norm_num)) lz (by rw [vz]; exact scalar_lt n)
  obtain ⟨c', ec, bc, vc⟩ := inv25519_fe (bs.c.small (by norm_num))
  obtain ⟨o, eo, bo, vo⟩ := fM_fe (bs.a.small (by norm_num)) bc
  refine ⟨fe o, ?_, ?_⟩
  · unfold scalarmultX
    rw [ez, ok_bind, ex, ok_bind, es, ok_bind, ec, ok_bind, eo, ok_bind, pack25519_fe bo.bd (by norm_num)]
  · rw [vz, vx] at hi
    rw [vo, vc]
    intro K _ _ _ Q hQ
    have hQ : X0 Q = algebraMap F K ((leVal q % 2 ^ 255 : Nat) : F) := hQ
    generalize ((leVal q % 2 ^ 255 : Nat) : F) = u at hi hQ
    by_cases hu : u = 0
    · obtain ⟨h1, -⟩ := hi.1 hu
      have hz : fe s.a * (fe s.c)⁻¹ = 0 := by
        rcases mul_eq_zero.mp h1 with h | h
        · rw [h, zero_mul]
        · rw [h, inv_zero, mul_zero]
      have h2 : (2 : Nat) • Q = 0 := by
        rcases Q with _ | ⟨x, y, hn⟩
        · exact smul_zero 2
        · have hx : x = 0 := by rw [hu, map_zero] at hQ; exact hQ
          have := eqn hn
          rw [hx] at this
          have hy : y = 0 := by
            have : y ^ 2 = 0 := by rw [this]; ring
            exact pow_eq_zero_iff (by norm_num) |>.mp this
          rw [two_smul]
          exact WeierstrassCurve.Affine.Point.add_self_of_Y_eq (by rw [negY_eq, hy, neg_zero])
      have h3 : scalar n • Q = 0 := by
        rw [show scalar n = (2 ^ 253 + 4 * (leVal n % 2 ^ 254 / 8)) * 2 by unfold scalar; omega, mul_smul, h2, smul_zero]
      rw [hz, h3, map_zero]
      rfl
    · obtain ⟨h1, -⟩ := hi.2 hu K Q hQ
      rw [map_mul, map_inv₀]
      generalize scalar n • Q = R at h1
      rcases R with _ | ⟨x, y, hn⟩
      · rw [h1.1, inv_zero, mul_zero]; rfl
      · rw [h1.1, mul_assoc, mul_inv_cancel₀ h1.2, mul_one]; rfl

end Verif.Nacl
