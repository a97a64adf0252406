import Verif.Nacl.Auth

/-! Supporting lemmas: secretbox. -/

namespace Verif.Nacl
open Verif Verif.Ed25519 Verif.Nacl.Spec
open Verif.Ed25519.Spec (leVal leBytes)

variable {w : Nat}

/-! ### The comparison of tags -/

theorem vnw_last (hw : 32 ≤ w) (v : Byte) :
    ((((1 : BitVec w) &&& ((v.setWidth w - 1) >>> 8)) - 1 : BitVec w).setWidth 32).toInt = if v = 0 then 0 else -1 := by
  have one : (1 : BitVec w).toNat = 1 := toNat_lit hw 1 (by omega)
  have hp : (2 : Nat) ^ w = 2 ^ (w - 9) * 512 := by
    conv_lhs => rw [show w = (w - 9) + 9 by omega, pow_add]
    norm_num
  have hp1 : 2 ^ 23 ≤ 2 ^ (w - 9) := Nat.pow_le_pow_right (by omega) (by omega)
  have hv : (v.setWidth w).toNat = v.toNat := by
    rw [BitVec.toNat_setWidth]
    have := v.isLt
    exact Nat.mod_eq_of_lt (by omega)
  have hd : (v.setWidth w - 1 : BitVec w).toNat = (2 ^ w - 1 + v.toNat) % 2 ^ w := by
    rw [BitVec.toNat_sub, one, hv]
  have ha : ((1 : BitVec w) &&& ((v.setWidth w - 1) >>> 8) : BitVec w).toNat = (2 ^ w - 1 + v.toNat) % 2 ^ w / 256 % 2 := by
    rw [BitVec.toNat_and, one, toNat_shr, hd, Nat.and_comm, Nat.and_one_is_mod, show (2 : Nat) ^ 8 = 256 from rfl]
  have hlt := v.isLt
  by_cases h0 : v = 0
  · subst h0
    have : ((1 : BitVec w) &&& (((0 : Byte).setWidth w - 1) >>> 8) : BitVec w).toNat = 1 := by
      rw [ha, hp]
      have : (0 : Byte).toNat = 0 := rfl
      rw [this, Nat.add_zero, Nat.mod_eq_of_lt (show 2 ^ (w - 9) * 512 - 1 < 2 ^ (w - 9) * 512 by omega)]
      omega
    rw [if_pos rfl, show ((1 : BitVec w) &&& (((0 : Byte).setWidth w - 1) >>> 8) : BitVec w) = 1 from BitVec.eq_of_toNat_eq (by rw [this, one]), BitVec.sub_self]
    simp
  · have hn : 0 < v.toNat := by
      rcases Nat.eq_zero_or_pos v.toNat with h | h
      · exact absurd (BitVec.eq_of_toNat_eq h) h0
      · exact h
    have : ((1 : BitVec w) &&& ((v.setWidth w - 1) >>> 8) : BitVec w).toNat = 0 := by
      rw [ha, show 2 ^ w - 1 + v.toNat = (v.toNat - 1) + 2 ^ w by omega, Nat.add_mod_right, Nat.mod_eq_of_lt (show v.toNat - 1 < 2 ^ w by omega)]
      omega
    rw [if_neg h0, show ((1 : BitVec w) &&& ((v.setWidth w - 1) >>> 8) : BitVec w) = 0 from BitVec.eq_of_toNat_eq (by rw [this]; simp)]
    have e : (0 - 1 : BitVec w).setWidth 32 = BitVec.allOnes 32 := by
      apply BitVec.eq_of_toNat_eq
      rw [BitVec.toNat_setWidth, BitVec.toNat_sub, one, BitVec.toNat_allOnes]
      have z : (0 : BitVec w).toNat = 0 := by simp
      have hq : (2 : Nat) ^ w = 2 ^ (w - 32) * 2 ^ 32 := by
        conv_lhs => rw [show w = (w - 32) + 32 by omega, pow_add]
      have hq1 : 0 < 2 ^ (w - 32) := Nat.two_pow_pos _
      rw [z, Nat.add_zero, Nat.mod_eq_of_lt (show 2 ^ w - 1 < 2 ^ w by omega), hq]
      omega
    rw [e]
    decide

theorem vnw_ok (hw : 32 ≤ w) {x y : Bytes} {xo n : Nat} (hx : xo + n ≤ x.length) (hy : n ≤ y.length) :
    vnw w x xo y n = .ok (if slice x xo n = y.take n then 0 else -1) := by
  unfold vnw
  obtain ⟨d, e, v, rfl, hv⟩ := loop_inv (fun k (d : BitVec w) => ∃ v : Byte, d = v.setWidth w ∧ (v = 0 ↔ slice x xo k = y.take k))
    (fun i (d : BitVec w) => do
      let a ← rd x (xo + i)
      let b ← rd y i
      .ok (d ||| (a ^^^ b).setWidth w)) 0 n 0 ⟨0, by simp, by simp [slice]⟩
    (by
      rintro k d - hk ⟨v, rfl, hv⟩
      have h1 : xo + k < x.length := by omega
      have h2 : k < y.length := by omega
      refine ⟨_, by rw [rd_ok h1, ok_bind, rd_ok h2, ok_bind], v ||| (x[xo + k] ^^^ y[k]), by rw [BitVec.setWidth_or], ?_⟩
      rw [slice_snoc h1, List.take_succ_eq_append_getElem h2]
      constructor
      · intro h
        have := BitVec.or_eq_zero_iff.mp h
        rw [hv.mp this.1, BitVec.xor_eq_zero_iff.mp this.2]
      · intro h
        have := List.append_inj' h rfl
        apply BitVec.or_eq_zero_iff.mpr
        refine ⟨hv.mpr this.1, BitVec.xor_eq_zero_iff.mpr (by simpa using this.2)⟩)
  rw [e, ok_bind, vnw_last hw]
  simp only [Nat.zero_add] at hv
  by_cases h : v = 0
  · rw [if_pos h, if_pos (hv.mp h)]
  · rw [if_neg h, if_neg (fun h2 => h (hv.mpr h2))]

theorem length_poly1305 (k m : Bytes) : (poly1305 k m).length = 16 := by
  unfold poly1305; exact length_leBytes _ _

theorem onetimeauthVerify_ok (hw : 32 ≤ w) {h : Bytes} {ho : Nat} {m : Bytes} {mo n : Nat} {k : Bytes} (hk : 32 ≤ k.length) (hm : mo + n ≤ m.length) (hh : ho + 16 ≤ h.length) :
    onetimeauthVerify w h ho m mo n k = .ok (if slice h ho 16 = poly1305 (k.take 32) (slice m mo n) then 0 else -1) := by
  unfold onetimeauthVerify
  have l := length_poly1305 (k.take 32) (slice m mo n)
  rw [onetimeauth_ok hw hk hm (by simp), ok_bind, splice_all (by rw [l, List.length_replicate]), vnw_ok hw hh (by omega), List.take_of_length_le (by omega)]

/-! ### secretbox -/

theorem zero_ok {c : Bytes} {n : Nat} (h : n ≤ c.length) : zero c n = .ok (splice c 0 (List.replicate n 0)) := by
  unfold zero
  rw [write_loop (out := c) (o := 0) (n := n) (fun _ => 0) _ (fun j s hj ls => by rw [wr_ok (by omega), Nat.zero_add]) (by omega)]
  congr 2
  apply List.ext_getElem <;> simp

theorem length_xsalsa20 (k n : Bytes) (d : Nat) : (xsalsa20 k n d).length = d := by simp [xsalsa20]

theorem take_xsalsa20 (k n : Bytes) {d e : Nat} (h : e ≤ d) : (xsalsa20 k n d).take e = xsalsa20 k n e := by
  unfold xsalsa20
  rw [← List.map_take, List.take_range, Nat.min_eq_left h]

theorem length_xorBytes (a b : Bytes) : (xorBytes a b).length = min a.length b.length := by simp [xorBytes]

theorem xorBytes_zeros {n : Nat} {b : Bytes} (h : b.length = n) : xorBytes (List.replicate n 0) b = b := by
  unfold xorBytes
  apply List.ext_getElem (by simp; omega)
  intro i h1 h2
  simp

theorem xorBytes_split {a b : Bytes} (n : Nat) : xorBytes a b = xorBytes (a.take n) (b.take n) ++ xorBytes (a.drop n) (b.drop n) := by
  unfold xorBytes
  rw [← List.take_zipWith, ← List.drop_zipWith, List.take_append_drop]

theorem xorBytes_twice {a b : Bytes} (h : a.length ≤ b.length) : xorBytes (xorBytes a b) b = a := by
  unfold xorBytes
  apply List.ext_getElem (by simp; omega)
  intro i h1 h2
  rw [List.getElem_zipWith, List.getElem_zipWith, BitVec.xor_assoc, BitVec.xor_self, BitVec.xor_zero]

theorem length_sealBox (k n m : Bytes) : (sealBox k n m).length = 16 + m.length := by
  unfold sealBox
  dsimp only
  rw [List.length_append, length_poly1305, length_xorBytes, List.length_drop, length_xsalsa20]
  omega

theorem splice_zero (c x : Bytes) : splice c 0 x = x ++ c.drop x.length := by simp [splice]

/-- What `crypto_secretbox` computes for a message after 32 zero bytes. -/
theorem secretbox_eq (hw : 32 ≤ w) {c m msg : Bytes} {n k : Bytes} (hm : m.take (32 + msg.length) = List.replicate 32 0 ++ msg) (hc : 32 + msg.length ≤ c.length)
    (hn : n.length = 24) (hk : k.length = 32) :
    secretbox w c m (32 + msg.length) n k = .ok (0, splice c 0 (List.replicate 16 0 ++ sealBox k n msg)) := by
  have hml : 32 + msg.length ≤ m.length := by
    have := congrArg List.length hm
    simp at this
    omega
  have lS := length_xsalsa20 k n (32 + msg.length)
  obtain ⟨S, eS⟩ : ∃ S, S = xsalsa20 k n (32 + msg.length) := ⟨_, rfl⟩
  rw [← eS] at lS
  obtain ⟨e, ee⟩ : ∃ e, e = xorBytes msg (S.drop 32) := ⟨_, rfl⟩
  have le : e.length = msg.length := by rw [ee, length_xorBytes, List.length_drop, lS]; omega
  have hz : xorBytes (m.take (32 + msg.length)) S = S.take 32 ++ e := by
    rw [hm, xorBytes_split 32, List.take_left' (by simp), List.drop_left' (by simp), xorBytes_zeros (by rw [List.length_take]; omega), ee]
  have l32 : (S.take 32).length = 32 := by rw [List.length_take]; omega
  unfold secretbox
  rw [if_neg (by omega), streamXor_ok hw hc hml hn hk, ok_bind, ← eS, hz]
  obtain ⟨c1, ec1⟩ : ∃ c1, c1 = splice c 0 (S.take 32 ++ e) := ⟨_, rfl⟩
  have hc1 : c1 = S.take 32 ++ (e ++ c.drop (32 + msg.length)) := by
    rw [ec1, splice_zero, List.length_append, l32, le, List.append_assoc]
  have lc1 : c1.length = c.length := by
    rw [hc1]; simp [l32, le]; omega
  rw [← ec1, onetimeauth_ok hw (by omega) (by omega) (by omega), ok_bind]
  have t1 : c1.take 32 = S.take 32 := by rw [hc1, List.take_left' l32]
  have t2 : slice c1 32 (32 + msg.length - 32) = e := by
    unfold slice
    rw [hc1, List.drop_left' l32, Nat.add_sub_cancel_left, List.take_left' le]
  rw [t1, t2]
  have lp := length_poly1305 (S.take 32) e
  obtain ⟨tag, et⟩ : ∃ t, t = poly1305 (S.take 32) e := ⟨_, rfl⟩
  rw [← et] at lp ⊢
  have hc2 : splice c1 16 tag = (S.take 32).take 16 ++ (tag ++ (e ++ c.drop (32 + msg.length))) := by
    unfold splice
    rw [lp, hc1, List.take_append_of_le_length (by omega), List.drop_left' l32, List.append_assoc]
  rw [zero_ok (by rw [length_splice (by omega)]; omega), ok_bind, hc2, splice_zero, List.length_replicate, List.drop_left' (by rw [List.length_take]; omega), splice_zero]
  unfold sealBox
  dsimp only
  rw [← eS, ← ee, ← et]
  congr 2
  rw [List.append_assoc, List.append_assoc]
  congr 3
  rw [List.length_append, List.length_append, List.length_replicate, lp, le]
  congr 1
  omega

/-- What `crypto_secretbox_open` computes. -/
theorem secretboxOpen_eq (hw : 32 ≤ w) {c m : Bytes} {d : Nat} {n k : Bytes} (hd : 32 ≤ d) (hm : d ≤ m.length) (hc : d ≤ c.length) (hn : n.length = 24) (hk : k.length = 32) :
    secretboxOpen w m c d n k = .ok (if slice c 16 16 = poly1305 (xsalsa20 k n 32) (slice c 32 (d - 32))
      then (0, splice m 0 (List.replicate 32 0 ++ xorBytes (slice c 32 (d - 32)) ((xsalsa20 k n d).drop 32))) else (-1, m)) := by
  unfold secretboxOpen
  rw [if_neg (by omega), stream_ok hw (by simp) hn hk, ok_bind, splice_all (by simp [length_xsalsa20]), onetimeauthVerify_ok hw (by rw [length_xsalsa20]) (by omega) (by omega), ok_bind,
    List.take_of_length_le (by rw [length_xsalsa20])]
  by_cases h : slice c 16 16 = poly1305 (xsalsa20 k n 32) (slice c 32 (d - 32))
  · rw [if_pos h, if_neg (by simp), if_pos h, streamXor_ok hw hm hc hn hk, ok_bind]
    have lS := length_xsalsa20 k n d
    have lx : (xorBytes (c.take d) (xsalsa20 k n d)).length = d := by rw [length_xorBytes, List.length_take, lS]; omega
    rw [zero_ok (by rw [length_splice (by omega)]; omega), ok_bind]
    congr 2
    have ly : (xorBytes (slice c 32 (d - 32)) ((xsalsa20 k n d).drop 32)).length = d - 32 := by
      rw [length_xorBytes, length_slice (by omega), List.length_drop, lS]; omega
    rw [splice_zero, splice_zero, splice_zero, List.length_replicate, List.length_append, List.length_replicate, ly, lx,
      xorBytes_split 32, List.append_assoc, List.drop_left' (by rw [length_xorBytes, List.length_take, List.length_take, List.length_take, lS]; omega), List.append_assoc]
    congr 2
    · unfold slice
      rw [List.drop_take]
    · congr 1
      omega
  · rw [if_neg h, if_pos (by simp), if_neg h]

end Verif.Nacl
