import Verif.Ed25519.Scalar

/-!
Key generation, signing and opening against the specification.
-/

namespace Verif.Ed25519
open Verif Spec

theorem splice_mid {a b c b' : Bytes} {o : Nat} (ho : o = a.length) (h : b'.length = b.length) : splice (a ++ (b ++ c)) o b' = a ++ (b' ++ c) := by
  subst ho
  unfold splice
  rw [List.take_left, h, ← List.append_assoc, ← List.length_append, List.append_assoc a b, List.append_assoc, ← List.append_assoc a b, List.drop_left]

theorem copy_mid {a b c b' src : Bytes} {o s n : Nat} (ho : o = a.length) (hn : b.length = n) (hs : s + n ≤ src.length) (hb : b' = (src.drop s).take n) :
    copy (a ++ (b ++ c)) o src s n = .ok (a ++ (b' ++ c)) := by
  rw [copy_ok hs (by rw [List.length_append, List.length_append, ho]; omega)]
  have hl : (slice src s n).length = b.length := by rw [length_slice hs, hn]
  rw [splice_mid ho hl, hb]
  rfl

theorem clamp_byte0 : ∀ a : Byte, (a &&& 248).toNat = 8 * (a.toNat / 8) := by decide +kernel
theorem clamp_byte31 : ∀ b : Byte, ((b &&& 127) ||| 64).toNat = 64 + b.toNat % 64 := by decide +kernel

/-- tweetnacl/tweetnacl.c:669-671: the clamped scalar. -/
theorem clamp_ok {d : Bytes} (h : d.length = 64) :
    ∃ s, clamp d = .ok (s ++ d.drop 32) ∧ s.length = 32 ∧ leVal s = 2 ^ 254 + 8 * (leVal (d.take 32) / 8 % 2 ^ 251) := by
  obtain ⟨a, m, b, t, rfl, hm, ht⟩ : ∃ a m b t, d = a :: (m ++ b :: t) ∧ m.length = 30 ∧ t.length = 32 := by
    rcases d with _ | ⟨a, l⟩
    · simp at h
    · refine ⟨a, l.take 30, l[30]'(by simp at h; omega), l.drop 31, ?_, ?_, ?_⟩
      · rw [← List.drop_eq_getElem_cons, List.take_append_drop]
      · simp at h ⊢; omega
      · simp at h ⊢; omega
  refine ⟨(a &&& 248) :: (m ++ [((b &&& 127) ||| 64)]), ?_, ?_, ?_⟩
  · unfold clamp
    rw [rd_ok (by rw [h]; omega), ok_bind, wr_ok (by rw [h]; omega), ok_bind, List.getElem_cons_zero, List.set_cons_zero]
    have e31 : ∀ (u v : Byte), rd (u :: (m ++ v :: t)) 31 = .ok v := by
      intro u v
      rw [rd_eq_ok_iff, List.getElem?_cons_succ, List.getElem?_append_right (by omega), hm]
      rfl
    have s31 : ∀ (u v w : Byte), (u :: (m ++ v :: t)).set 31 w = u :: (m ++ w :: t) := by
      intro u v w
      rw [List.set_cons_succ, List.set_append_right _ _ (by omega), hm]
      rfl
    have l31 : ∀ (u v : Byte), 31 < (u :: (m ++ v :: t)).length := by
      intro u v
      simp [hm]
      omega
    rw [e31, ok_bind, wr_ok (l31 _ _), ok_bind, s31, e31, ok_bind, wr_ok (l31 _ _), s31]
    congr 1
    have : (a :: (m ++ b :: t)).drop 32 = t := by
      rw [List.drop_succ_cons, List.drop_append, List.drop_of_length_le (by omega), hm]
      rfl
    rw [this]
    simp
  · simp [hm]
  · have e : (a :: (m ++ b :: t)).take 32 = a :: (m ++ [b]) := by
      rw [List.take_succ_cons, List.take_append, List.take_of_length_le (by omega), hm]
      rfl
    rw [e]
    have hM := leVal_lt m
    rw [hm] at hM
    have hb := b.isLt
    have ha := a.isLt
    simp only [leVal, leVal_append, hm, clamp_byte0, clamp_byte31]
    generalize leVal m = M at *
    norm_num at hM ⊢
    omega

theorem length_scalar_hash (seed : Bytes) : ((sha512 seed).drop 32).length = 32 := by rw [List.length_drop, length_sha512]

/-- tweetnacl/tweetnacl.c:658-678 -/
theorem keypairSeed_ok {pk sk seed : Bytes} (hp : pk.length = 32) (hs : sk.length = 64) (hseed : seed.length = 32) :
    keypairSeed pk sk seed = .ok (0, publicKey seed, seed ++ publicKey seed) := by
  unfold keypairSeed
  have esk : sk = [] ++ (sk.take 32 ++ sk.drop 32) := by rw [List.nil_append, List.take_append_drop]
  have et : (seed.drop 0).take 32 = seed := by rw [List.drop_zero, List.take_of_length_le (by omega)]
  rw [esk, copy_mid (a := []) (o := 0) (b' := seed) rfl (by rw [List.length_take]; omega) (by omega) et.symm, ok_bind, List.nil_append,
    cryptoHash_ok (by rw [List.length_append]; omega) (by norm_num), ok_bind, List.take_append_of_le_length (by omega), List.take_of_length_le (by omega)]
  obtain ⟨s, ec, hl, hv⟩ := clamp_ok (length_sha512 seed)
  rw [ec, ok_bind]
  obtain ⟨p, ep, hr⟩ := scalarbase_rep (s := s ++ (sha512 seed).drop 32) (by rw [List.length_append]; omega)
  rw [List.take_append_of_le_length (by omega), List.take_of_length_le (by omega), hv] at hr
  rw [ep, ok_bind, pack_rep hr, ok_bind]
  have epk : pk = [] ++ (pk ++ []) := by simp
  have le : (encode ((2 ^ 254 + 8 * (leVal ((sha512 seed).take 32) / 8 % 2 ^ 251)) • B)).length = 32 := length_encode _
  rw [epk, copy_mid (a := []) (o := 0) (b' := publicKey seed) rfl hp (by rw [le]) (by rw [List.drop_zero, List.take_of_length_le (by rw [le])]; rfl), ok_bind, List.nil_append, List.append_nil]
  have lp : (publicKey seed).length = 32 := length_encode _
  have esk2 : seed ++ sk.drop 32 = seed ++ (sk.drop 32 ++ []) := by simp
  rw [esk2, copy_mid (b' := publicKey seed) hseed.symm (by rw [List.length_drop]; omega) (by omega) (by rw [List.drop_zero, List.take_of_length_le (by omega)]), ok_bind, List.append_nil]

/-! ### Signing -/

theorem hashL_lt (m : Bytes) : hashL m < 256 ^ 32 :=
  Nat.lt_of_lt_of_le (Nat.mod_lt _ (by decide +kernel)) (by decide +kernel)

/-- The product of two byte strings, tweetnacl/tweetnacl.c:751-752. -/
theorem mulAdd_ok {r h d : Bytes} (hr : 32 ≤ r.length) (hh : 32 ≤ h.length) (hd : 32 ≤ d.length) :
    ∃ x, (do
      let x ← loop (fun i x => do
        let v ← rd r i
        wr x i (v.toNat : Int)) 0 32 (List.replicate 64 (0 : Int))
      loop (fun i x =>
        loop (fun j x => do
          let hi ← rd h i
          let dj ← rd d j
          let v ← rd x (i + j)
          wr x (i + j) (toI64 (v + (hi.toNat : Int) * (dj.toNat : Int)))) 0 32 x) 0 32 x) = .ok x ∧
      x.length = 64 ∧ (∀ k < 64, -2 ^ 22 ≤ g x k ∧ g x k ≤ 2 ^ 22) ∧ bval 256 x = leVal (r.take 32) + leVal (h.take 32) * leVal (d.take 32) := by
  have lt : ∀ (b : Bytes) (i : Nat) (h : i < b.length), leVal (b.take (i + 1)) = leVal (b.take i) + 256 ^ i * (b[i]).toNat := by
    intro b i h
    rw [List.take_succ_eq_append_getElem h, leVal_append, List.length_take, Nat.min_eq_left (by omega)]
    simp [leVal]
  have byteB : ∀ b : Byte, (b.toNat : Int) ≤ 255 := by
    intro b
    have := b.isLt
    omega
  -- the first loop
  obtain ⟨x0, e0, l0, b0, v0⟩ := loop_inv (fun i (x : List Int) => x.length = 64 ∧ (∀ k < 64, 0 ≤ g x k ∧ g x k ≤ if k < i then 255 else 0) ∧ bval 256 x = (leVal (r.take i) : Nat))
    (fun i x => do
        let v ← rd r i
        wr x i (v.toNat : Int)) 0 32 (List.replicate 64 (0 : Int))
    ⟨by rw [List.length_replicate], by intro k hk; rw [g_replicate_zero]; simp, by rw [bval_replicate_zero, List.take_zero]; rfl⟩
    (by
      rintro i x - hi ⟨hl, hb, hv⟩
      refine ⟨x.set i ((r[i]'(by omega)).toNat : Int), ?_, by rw [List.length_set]; exact hl, ?_, ?_⟩
      · rw [rd_ok (by omega), ok_bind, wr_ok (by omega)]
      · intro k hk
        rw [g_set (by omega)]
        by_cases h : k = i
        · rw [if_pos h, if_pos (by omega)]
          exact ⟨Int.natCast_nonneg _, byteB _⟩
        · rw [if_neg h]
          have := hb k hk
          by_cases h' : k < i
          · rw [if_pos h'] at this; rw [if_pos (by omega)]; exact this
          · rw [if_neg h'] at this; rw [if_neg (by omega)]; exact this
      · have h0 := hb i (by omega)
        rw [if_neg (by omega)] at h0
        rw [bval_set 256 (by omega), hv, show g x i = 0 by omega, lt r i (by omega)]
        push_cast
        ring)
  rw [e0, ok_bind]
  rw [Nat.zero_add] at v0
  obtain ⟨x1, e1, l1, b1, v1⟩ := loop_inv (fun i (x : List Int) => x.length = 64 ∧ (∀ k < 64, 0 ≤ g x k ∧ g x k ≤ 255 + 65025 * (i : Int)) ∧
      bval 256 x = (leVal (r.take 32) : Nat) + (leVal (h.take i) : Nat) * (leVal (d.take 32) : Nat))
    (fun i x =>
        loop (fun j x => do
          let hi ← rd h i
          let dj ← rd d j
          let v ← rd x (i + j)
          wr x (i + j) (toI64 (v + (hi.toNat : Int) * (dj.toNat : Int)))) 0 32 x) 0 32 x0
    ⟨l0, by
      intro k hk
      have := b0 k hk
      refine ⟨this.1, ?_⟩
      have h2 := this.2
      by_cases h : k < 0 + 32
      · rw [if_pos h] at h2; push_cast; omega
      · rw [if_neg h] at h2; push_cast; omega, by rw [v0, List.take_zero]; simp [leVal]⟩
    (by
      rintro i x - hi ⟨hl, hb, hv⟩
      obtain ⟨y, ey, ly, by1, by2, vy⟩ := loop_inv (fun j (y : List Int) => y.length = 64 ∧ (∀ k < 64, 0 ≤ g y k ∧ g y k ≤ 255 + 65025 * ((i : Int) + 1)) ∧
          (∀ k < 64, i + j ≤ k → g y k = g x k) ∧
          bval 256 y = bval 256 x + ((h[i]'(by omega)).toNat : Int) * 256 ^ i * (leVal (d.take j) : Nat))
        (fun j x => do
          let hi ← rd h i
          let dj ← rd d j
          let v ← rd x (i + j)
          wr x (i + j) (toI64 (v + (hi.toNat : Int) * (dj.toNat : Int)))) 0 32 x
        ⟨hl, fun k hk => by have := hb k hk; omega, fun _ _ _ => rfl, by rw [List.take_zero]; simp [leVal]⟩
        (by
          rintro j y - hj ⟨ly, by1, by2, vy⟩
          have hx := hb (i + j) (by omega)
          have hh := byteB (h[i]'(by omega))
          have hd' := byteB (d[j]'(by omega))
          have h0 : (0 : Int) ≤ ((h[i]'(by omega)).toNat : Int) := Int.natCast_nonneg _
          have d0 : (0 : Int) ≤ ((d[j]'(by omega)).toNat : Int) := Int.natCast_nonneg _
          have hp : ((h[i]'(by omega)).toNat : Int) * ((d[j]'(by omega)).toNat : Int) ≤ 65025 := by nlinarith
          have hp0 : 0 ≤ ((h[i]'(by omega)).toNat : Int) * ((d[j]'(by omega)).toNat : Int) := mul_nonneg h0 d0
          refine ⟨y.set (i + j) (g x (i + j) + ((h[i]'(by omega)).toNat : Int) * ((d[j]'(by omega)).toNat : Int)), ?_, by rw [List.length_set]; exact ly, ?_, ?_, ?_⟩
          · rw [rd_ok (a := h) (by omega), ok_bind, rd_ok (a := d) (by omega), ok_bind, rd_g (by omega), ok_bind, by2 _ (by omega) (Nat.le_refl _), toI64_ok (by omega) (by omega), wr_ok (by omega)]
          · intro k hk
            rw [g_set (by omega)]
            by_cases h : k = i + j
            · rw [if_pos h]; constructor <;> omega
            · rw [if_neg h]; exact by1 k hk
          · intro k hk hk2
            rw [g_set (by omega), if_neg (by omega)]
            exact by2 k hk (by omega)
          · rw [bval_set 256 (by omega), vy, by2 _ (by omega) (Nat.le_refl _), lt d j (by omega), pow_add]
            push_cast
            ring)
      refine ⟨y, ey, ly, ?_, ?_⟩
      · intro k hk
        have := by1 k hk
        push_cast
        exact this
      · rw [vy, hv, lt h i (by omega)]
        push_cast
        ring)
  refine ⟨x1, e1, l1, ?_, ?_⟩
  · intro k hk
    have := b1 k hk
    push_cast at this
    constructor <;> omega
  · rw [v1]

/-- tweetnacl/tweetnacl.c:728-758: the signature followed by the message, for every output buffer that is long enough. -/
theorem sign_ok {sm m sk : Bytes} {l : Nat} (hk : sk.length = 64) (hm : m.length < 2 ^ 63) (hs : 64 + m.length ≤ sm.length) :
    sign sm l m sk = .ok (0, Spec.sign (sk.take 32) (sk.drop 32) m ++ m ++ sm.drop (64 + m.length), 64 + m.length) := by
  obtain ⟨a, b, c, t, rfl, ha, hb, hc⟩ : ∃ a b c t, sm = a ++ (b ++ (c ++ t)) ∧ a.length = 32 ∧ b.length = 32 ∧ c.length = m.length := by
    refine ⟨sm.take 32, (sm.drop 32).take 32, (sm.drop 64).take m.length, (sm.drop 64).drop m.length, ?_, ?_, ?_, ?_⟩
    · rw [List.take_append_drop, show sm.drop 64 = (sm.drop 32).drop 32 by rw [List.drop_drop], List.take_append_drop, List.take_append_drop]
    · rw [List.length_take]; omega
    · rw [List.length_take, List.length_drop]; omega
    · rw [List.length_take, List.length_drop]; omega
  have hdrop : (a ++ (b ++ (c ++ t))).drop (64 + m.length) = t := by
    rw [← List.append_assoc, ← List.append_assoc, List.drop_left' (by simp only [List.length_append, ha, hb, hc])]
  rw [hdrop]
  unfold sign
  simp only []
  rw [cryptoHash_ok (by omega) (by norm_num), ok_bind]
  obtain ⟨s, ec, hl, hv⟩ := clamp_ok (length_sha512 (sk.take 32))
  obtain ⟨dh, hdh⟩ : ∃ dh, dh = (sha512 (sk.take 32)).drop 32 := ⟨_, rfl⟩
  have ldh : dh.length = 32 := by rw [hdh]; exact length_scalar_hash _
  rw [ec, ok_bind, ← hdh, if_neg (by omega)]
  rw [← List.append_assoc a b, copy_mid (a := a ++ b) (b' := m) (by rw [List.length_append]; omega) hc (by omega) (by rw [List.drop_zero, List.take_of_length_le (Nat.le_refl _)]), ok_bind]
  rw [List.append_assoc a b, copy_mid (a := a) (b' := dh) ha.symm hb (by rw [List.length_append]; omega) (by
    rw [List.drop_left' hl, List.take_of_length_le (by omega)]), ok_bind]
  rw [List.drop_left' ha, cryptoHash_ok (by rw [List.length_append, List.length_append]; omega) (by omega), ok_bind]
  have ht : (dh ++ (m ++ t)).take (m.length + 32) = dh ++ m := by
    rw [← List.append_assoc, List.take_left' (by rw [List.length_append]; omega)]
  rw [ht, reduce_ok (length_sha512 _), ok_bind]
  obtain ⟨r, hr⟩ : ∃ r, r = hashL (dh ++ m) := ⟨_, rfl⟩
  have hr' : leVal (sha512 (dh ++ m)) % L = r := hr.symm
  have r32 : ∀ v, v < 256 ^ 32 → leVal ((leBytes 32 v ++ List.replicate 32 0).take 32) = v := by
    intro v hv
    rw [List.take_left' (length_leBytes _ _), leVal_leBytes, Nat.mod_eq_of_lt hv]
  have l64 : ∀ v, (leBytes 32 v ++ List.replicate 32 (0 : Byte)).length = 64 := by
    intro v
    rw [List.length_append, length_leBytes, List.length_replicate]
  obtain ⟨P, eP, hP⟩ := scalarbase_rep (s := leBytes 32 r ++ List.replicate 32 0) (by rw [l64]; omega)
  rw [r32 r (by rw [hr]; exact hashL_lt _)] at hP
  rw [hr', eP, ok_bind, pack_rep hP, ok_bind]
  have lR : (encode (r • B)).length = 32 := length_encode _
  obtain ⟨R, hR⟩ : ∃ R, R = encode (r • B) := ⟨_, rfl⟩
  rw [← hR] at lR ⊢
  have c1 := copy_mid (a := []) (b := a) (c := dh ++ (m ++ t)) (b' := R) (src := R) (o := 0) (s := 0) (n := 32) rfl ha (by omega) (by rw [List.drop_zero, List.take_of_length_le (by omega)])
  rw [List.nil_append, List.nil_append] at c1
  rw [c1, ok_bind, copy_mid (a := R) (b' := sk.drop 32) lR.symm ldh (by omega) (by rw [List.take_of_length_le (by rw [List.length_drop]; omega)]), ok_bind]
  have lpk : (sk.drop 32).length = 32 := by rw [List.length_drop]; omega
  rw [cryptoHash_ok (by rw [List.length_append, List.length_append, List.length_append]; omega) (by omega), ok_bind]
  have ht2 : (R ++ (sk.drop 32 ++ (m ++ t))).take (m.length + 64) = R ++ sk.drop 32 ++ m := by
    rw [← List.append_assoc, ← List.append_assoc, List.take_left' (by rw [List.length_append, List.length_append]; omega)]
  rw [ht2, reduce_ok (length_sha512 _), ok_bind]
  obtain ⟨k, hk'⟩ : ∃ k, k = hashL (R ++ sk.drop 32 ++ m) := ⟨_, rfl⟩
  have hk'' : leVal (sha512 (R ++ sk.drop 32 ++ m)) % L = k := hk'.symm
  rw [hk'']
  obtain ⟨x, ex, lx, bx, vx⟩ := mulAdd_ok (r := leBytes 32 r ++ List.replicate 32 0) (h := leBytes 32 k ++ List.replicate 32 0) (d := s ++ dh)
    (by rw [l64]; omega) (by rw [l64]; omega) (by rw [List.length_append]; omega)
  rw [r32 r (by rw [hr]; exact hashL_lt _), r32 k (by rw [hk']; exact hashL_lt _), List.take_left' hl, hv] at vx
  obtain ⟨x0, e0, e1⟩ := bind_eq_ok.1 ex
  rw [e0, ok_bind, e1, ok_bind, modL_ok lx bx, ok_bind]
  rw [copy_mid (a := R) (b' := leBytes 32 (bval 256 x % (L : Int)).toNat) lR.symm lpk (by rw [length_leBytes]) (by rw [List.drop_zero, List.take_of_length_le (by rw [length_leBytes])]), ok_bind]
  have hS : (bval 256 x % (L : Int)).toNat = (r + k * scalar (sk.take 32)) % L := by
    rw [vx]
    have : ((r : Int) + (k : Int) * ((2 ^ 254 + 8 * (leVal ((sha512 (sk.take 32)).take 32) / 8 % 2 ^ 251) : Nat) : Int)) = ((r + k * scalar (sk.take 32) : Nat) : Int) := by
      unfold scalar
      push_cast
      ring
    rw [this, ← Int.natCast_mod, Int.toNat_natCast]
  rw [hS]
  have hlen : (m.length + 64) % 2 ^ 64 = 64 + m.length := by omega
  have hO : Spec.sign (sk.take 32) (sk.drop 32) m = R ++ leBytes 32 ((r + k * scalar (sk.take 32)) % L) := by
    unfold Spec.sign
    simp only []
    rw [← hdh, ← hr, ← hR, ← hk']
  rw [hlen, hO]
  simp only [List.append_assoc]

/-! ### Opening -/

/-- The message of a signed message of length `n`. -/
abbrev msgOf (sm : Bytes) (n : Nat) : Bytes := (sm.take n).drop 64

/-- The buffer after opening: `x` in the place of the message, then what the working copy held there. -/
def openBuf (x m sm pk : Bytes) (n : Nat) : Bytes := x ++ (sm.take 32 ++ pk ++ msgOf sm n ++ m.drop n).drop (n - 64)

open Classical in
/-- tweetnacl/tweetnacl.c:796-826 -/
theorem signOpen_ok {m sm pk : Bytes} {l n : Nat} (hp : pk.length = 32) (hn : n < 2 ^ 31) (hm : n ≤ m.length) (hs : n ≤ sm.length) :
    signOpen m l sm n pk = .ok (
      if n < 64 ∨ ¬ ∃ A, Decodes pk A then (-1, m, 2 ^ 64 - 1)
      else if Valid pk (msgOf sm n) (sm.take 64) then (0, openBuf (msgOf sm n) m sm pk n, n - 64)
      else (-1, openBuf (List.replicate (n - 64) 0) m sm pk n, 2 ^ 64 - 1)) := by
  unfold signOpen
  simp only []
  by_cases h64 : n < 64
  · rw [if_pos h64, if_pos (Or.inl h64)]
  rw [if_neg h64]
  rcases unpackneg_ok hp with ⟨eu, hno⟩ | ⟨A, q, eu, hA, hq⟩
  · rw [eu, ok_bind, if_pos (Or.inr (fun ⟨A, h⟩ => hno A h))]
  rw [eu, ok_bind]
  simp only []
  rw [if_neg (by omega), if_neg (by rintro (h | h); exacts [h64 h, h ⟨A, hA⟩])]
  obtain ⟨R, hR⟩ : ∃ R, R = sm.take 32 := ⟨_, rfl⟩
  obtain ⟨S, hS⟩ : ∃ S, S = (sm.drop 32).take 32 := ⟨_, rfl⟩
  obtain ⟨M, hM⟩ : ∃ M, M = msgOf sm n := ⟨_, rfl⟩
  have lR : R.length = 32 := by rw [hR, List.length_take]; omega
  have lS : S.length = 32 := by rw [hS, List.length_take, List.length_drop]; omega
  have lM : M.length = n - 64 := by rw [hM, List.length_drop, List.length_take]; omega
  have esm : sm.take n = R ++ (S ++ M) := by
    have h1 : sm.take n = (sm.take n).take 32 ++ ((sm.take n).drop 32) := (List.take_append_drop _ _).symm
    have h2 : (sm.take n).drop 32 = ((sm.take n).drop 32).take 32 ++ ((sm.take n).drop 32).drop 32 := (List.take_append_drop _ _).symm
    rw [h1, h2, hR, hS, hM, List.take_take, Nat.min_eq_left (by omega), List.drop_drop, List.drop_take, List.take_take, Nat.min_eq_left (by omega)]
  have em : m = [] ++ (m.take n ++ m.drop n) := by rw [List.nil_append, List.take_append_drop]
  have c1 : copy m 0 sm 0 n = .ok (R ++ (S ++ (M ++ m.drop n))) := by
    conv => lhs; rw [em]
    rw [copy_mid (a := []) (o := 0) (b' := R ++ (S ++ M)) rfl (by rw [List.length_take]; omega) (by omega) (by rw [List.drop_zero, esm])]
    simp only [List.nil_append, List.append_assoc]
  rw [c1, ok_bind, copy_mid (a := R) (b' := pk) lR.symm lS (by omega) (by rw [List.drop_zero, List.take_of_length_le (by omega)]), ok_bind]
  obtain ⟨t, ht⟩ : ∃ t, t = m.drop n := ⟨_, rfl⟩
  rw [← ht]
  have htk : (R ++ (pk ++ (M ++ t))).take n = R ++ pk ++ M := by
    rw [← List.append_assoc, ← List.append_assoc, List.take_left' (by rw [List.length_append, List.length_append]; omega)]
  rw [cryptoHash_ok (by rw [List.length_append, List.length_append, List.length_append]; omega) (by omega), ok_bind, htk, reduce_ok (length_sha512 _), ok_bind]
  obtain ⟨k, hk⟩ : ∃ k, k = hashL (R ++ pk ++ M) := ⟨_, rfl⟩
  have hk' : leVal (sha512 (R ++ pk ++ M)) % L = k := hk.symm
  rw [hk']
  obtain ⟨P1, e1, r1⟩ := scalarmult_rep hq (s := leBytes 32 k ++ List.replicate 32 0) (by rw [List.length_append, length_leBytes]; omega)
  rw [List.take_left' (length_leBytes _ _), leVal_leBytes, Nat.mod_eq_of_lt (by rw [hk]; exact hashL_lt _)] at r1
  obtain ⟨P2, e2, r2⟩ := scalarbase_rep (s := sm.drop 32) (by rw [List.length_drop]; omega)
  rw [← hS] at r2
  obtain ⟨P3, e3, r3⟩ := add_rep r1 r2
  have hpt : k • -A + leVal S • B = leVal S • B - k • A := by
    rw [smul_neg, add_comm, sub_eq_add_neg]
  rw [hpt] at r3
  rw [e1, ok_bind, e2, ok_bind, e3, ok_bind, pack_rep r3, ok_bind]
  unfold cryptoVerify32
  rw [vn_ok (by omega) (by rw [length_encode]), ok_bind, ← hR, List.take_of_length_le (l := encode _) (by rw [length_encode])]
  have hV : Valid pk M (sm.take 64) ↔ R = encode (leVal S • B - k • A) := by
    have e1 : (sm.take 64).take 32 = R := by rw [List.take_take, hR]; rfl
    have e2 : (sm.take 64).drop 32 = S := by rw [List.drop_take, hS]
    unfold Valid
    rw [e1, e2, ← hk]
    constructor
    · rintro ⟨A', h1, h2⟩
      rw [decodes_unique hA h1]
      exact h2
    · intro h
      exact ⟨A, hA, h⟩
  rw [← hM]
  by_cases hval : R = encode (leVal S • B - k • A)
  · rw [if_pos hval, if_pos (hV.2 hval)]
    simp only [ne_eq, not_true_eq_false, if_false]
    have hsplit : R ++ (pk ++ (M ++ t)) = [] ++ ((R ++ (pk ++ (M ++ t))).take (n - 64) ++ (R ++ (pk ++ (M ++ t))).drop (n - 64)) := by
      rw [List.take_append_drop, List.nil_append]
    have hdl : (sm.drop 64).take (n - 64) = M := by rw [hM]; unfold msgOf; rw [List.drop_take]
    rw [hsplit, copy_mid (a := []) (o := 0) (b' := M) rfl (by simp only [List.length_take, List.length_append]; omega) (by omega) hdl.symm, ok_bind]
    have hO : openBuf M m sm pk n = M ++ (R ++ (pk ++ (M ++ t))).drop (n - 64) := by
      unfold openBuf
      rw [← hR, ← hM, ← ht]
      simp only [List.append_assoc]
    rw [hO, List.nil_append]
  · rw [if_neg hval, if_neg (fun h => hval (hV.1 h)), if_pos (by decide)]
    obtain ⟨W, hW⟩ : ∃ W, W = R ++ (pk ++ (M ++ t)) := ⟨_, rfl⟩
    have lW : n ≤ W.length := by rw [hW]; simp only [List.length_append]; omega
    rw [← hW]
    obtain ⟨z, ez, hz⟩ := loop_inv (fun i (z : Bytes) => z = List.replicate i 0 ++ W.drop i) (fun i m => wr m i (0 : Byte)) 0 (n - 64) W (by simp)
      (by
        rintro i z - hi rfl
        refine ⟨_, wr_ok (by rw [List.length_append, List.length_replicate, List.length_drop]; omega), ?_⟩
        rw [List.set_append_right _ _ (by simp), List.length_replicate, Nat.sub_self, List.drop_eq_getElem_cons (by omega), List.set_cons_zero, List.replicate_succ', List.append_assoc]
        rfl)
    rw [ez, ok_bind, hz, Nat.zero_add]
    have hO : openBuf (List.replicate (n - 64) 0) m sm pk n = List.replicate (n - 64) 0 ++ W.drop (n - 64) := by
      unfold openBuf
      rw [← hR, ← hM, ← ht, hW]
      simp only [List.append_assoc]
    rw [hO]

end Verif.Ed25519
