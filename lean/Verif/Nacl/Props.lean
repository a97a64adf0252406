import Verif.Nacl.Dh

/-! The properties C70 to C80: the encryption half of tweetnacl.c.
`w` is the width of `unsigned long`, the type `u32` of that file: 64 on the native targets, 32 in WebAssembly; every theorem holds for all widths from 32 on. -/

namespace Verif.Nacl
open Verif Verif.Ed25519 Verif.Nacl.Spec
open Verif.Ed25519.Spec (leVal leBytes F)

variable {w : Nat}

/-! ### C70: the Salsa20 core -/

/-- `crypto_core_salsa20` is the Salsa20 expansion function, whatever the width of `u32`. -/
theorem nacl_salsa20_core (hw : 32 ≤ w) {out inp k : Bytes} (ho : out.length = 64) (hi : inp.length = 16) (hk : k.length = 32) :
    coreSalsa20 w out inp k sigma = .ok (expansion k inp) := coreSalsa20_ok hw ho hi hk

/-- `crypto_core_hsalsa20` is HSalsa20. -/
theorem nacl_hsalsa20_core (hw : 32 ≤ w) {out inp k : Bytes} (ho : out.length = 32) (hi : inp.length = 16) (hk : k.length = 32) :
    coreHsalsa20 w out inp k sigma = .ok (hsalsa20 k inp) := by
  rw [coreHsalsa20_ok hw ho (by omega) hk, List.take_of_length_le (by omega)]

example : (List.replicate 64 (7 : Byte)).length = 64 ∧ (List.replicate 16 (1 : Byte)).length = 16 ∧ (List.replicate 32 (2 : Byte)).length = 32 := by decide

/-! ### C71: the stream cipher -/

/-- `crypto_stream` writes the first d bytes of the XSalsa20 key stream and nothing after them. -/
theorem nacl_stream (hw : 32 ≤ w) {c : Bytes} {d : Nat} {n k : Bytes} (hc : d ≤ c.length) (hn : n.length = 24) (hk : k.length = 32) :
    stream w c d n k = .ok (xsalsa20 k n d ++ c.drop d) := by
  rw [stream_ok hw hc hn hk, splice_zero, length_xsalsa20]

/-- `crypto_stream_xor` writes the message xored with the key stream, for a message of any length. -/
theorem nacl_stream_xor (hw : 32 ≤ w) {c m : Bytes} (hc : m.length ≤ c.length) {n k : Bytes} (hn : n.length = 24) (hk : k.length = 32) :
    streamXor w c m m.length n k = .ok (xorBytes m (xsalsa20 k n m.length) ++ c.drop m.length) := by
  rw [streamXor_ok hw hc (Nat.le_refl _) hn hk, splice_zero, List.take_length, length_xorBytes, length_xsalsa20, Nat.min_self]

/-- Encrypting twice gives the message back. -/
theorem nacl_stream_involution (hw : 32 ≤ w) {m : Bytes} {n k : Bytes} (hn : n.length = 24) (hk : k.length = 32) :
    ∃ c, streamXor w (List.replicate m.length 0) m m.length n k = .ok c ∧ streamXor w (List.replicate m.length 0) c m.length n k = .ok m := by
  refine ⟨xorBytes m (xsalsa20 k n m.length), ?_, ?_⟩
  · rw [nacl_stream_xor hw (by simp) hn hk]; simp
  · have l : (xorBytes m (xsalsa20 k n m.length)).length = m.length := by rw [length_xorBytes, length_xsalsa20, Nat.min_self]
    have h := nacl_stream_xor hw (c := List.replicate m.length 0) (m := xorBytes m (xsalsa20 k n m.length)) (by rw [l]; simp) hn hk
    rw [l] at h
    rw [h, xorBytes_twice (by rw [length_xsalsa20])]
    simp

example : (100 : Nat) ≤ (List.replicate 100 (0 : Byte)).length ∧ (List.replicate 24 (3 : Byte)).length = 24 ∧ (List.replicate 32 (4 : Byte)).length = 32 := by decide

/-! ### C72: Poly1305 -/

/-- `crypto_onetimeauth` is Poly1305: the polynomial is evaluated modulo 2^130 - 5 without an overflow of the products, and the result is fully reduced. -/
theorem nacl_poly1305 (hw : 32 ≤ w) {m k : Bytes} (hk : k.length = 32) :
    onetimeauth w (List.replicate 16 0) 0 m 0 m.length k = .ok (poly1305 k m) := by
  rw [onetimeauth_ok hw (by omega) (by omega) (by simp), splice_all (by rw [length_poly1305, List.length_replicate]), slice_zero_length, List.take_of_length_le (by omega)]

/-- `crypto_onetimeauth_verify` returns 0 for the right tag and -1 for every other one. -/
theorem nacl_poly1305_verify (hw : 32 ≤ w) {h m k : Bytes} (hh : h.length = 16) (hk : k.length = 32) :
    onetimeauthVerify w h 0 m 0 m.length k = .ok (if h = poly1305 k m then 0 else -1) := by
  rw [onetimeauthVerify_ok hw (by omega) (by omega) (by omega), List.take_of_length_le (l := k) (by omega), slice_zero_length, show slice h 0 16 = h by rw [← hh]; exact slice_zero_length h]

example : (poly1305 (List.replicate 32 9) [1, 2, 3]).length = 16 := by decide +kernel

/-! ### C73: secretbox -/

/-- `crypto_secretbox` of a message after 32 zero bytes: 16 zero bytes, the tag and the encrypted message; nothing after them is written. -/
theorem nacl_secretbox (hw : 32 ≤ w) {c msg : Bytes} (hc : 32 + msg.length ≤ c.length) {n k : Bytes} (hn : n.length = 24) (hk : k.length = 32) :
    secretbox w c (List.replicate 32 0 ++ msg) (32 + msg.length) n k = .ok (0, List.replicate 16 0 ++ sealBox k n msg ++ c.drop (32 + msg.length)) := by
  rw [secretbox_eq hw (by rw [List.take_of_length_le (by rw [List.length_append, List.length_replicate])]) hc hn hk, splice_zero, List.length_append, length_sealBox, List.length_replicate, ← Nat.add_assoc]

/-- A length below 32 is refused by both functions and nothing is written. -/
theorem nacl_secretbox_short {c m : Bytes} {d : Nat} {n k : Bytes} (hd : d < 32) :
    secretbox w c m d n k = .ok (-1, c) ∧ secretboxOpen w m c d n k = .ok (-1, m) := by
  unfold secretbox secretboxOpen
  rw [if_pos hd, if_pos hd]
  exact ⟨rfl, rfl⟩

example : 32 + ([104, 105] : Bytes).length ≤ (List.replicate 34 (0 : Byte)).length ∧ (List.replicate 24 (3 : Byte)).length = 24 ∧ (List.replicate 32 (4 : Byte)).length = 32 := by decide

/-! ### C74: opening a secretbox -/

/-- `crypto_secretbox_open` accepts exactly the boxes of `sealBox`, whatever the first 16 bytes are; it then returns 32 zero bytes and the message. On everything else it returns -1 and writes nothing. -/
theorem nacl_secretbox_open (hw : 32 ≤ w) {c m : Bytes} {d : Nat} {n k : Bytes} (hd : 32 ≤ d) (hm : d ≤ m.length) (hc : d ≤ c.length) (hn : n.length = 24) (hk : k.length = 32) :
    (∀ msg, slice c 16 (d - 16) = sealBox k n msg → secretboxOpen w m c d n k = .ok (0, List.replicate 32 0 ++ msg ++ m.drop d)) ∧
    ((∀ msg, slice c 16 (d - 16) ≠ sealBox k n msg) → secretboxOpen w m c d n k = .ok (-1, m)) := by
  have lS := length_xsalsa20 k n d
  have hs : slice c 16 (d - 16) = slice c 16 16 ++ slice c 32 (d - 32) := by
    unfold slice
    rw [show d - 16 = 16 + (d - 32) by omega, List.take_add, List.drop_drop]
  rw [secretboxOpen_eq hw hd hm hc hn hk, hs]
  constructor
  · intro msg h
    have hlen : msg.length = d - 32 := by
      have := congrArg List.length h
      rw [List.length_append, length_slice (by omega), length_slice (by omega), length_sealBox] at this
      omega
    unfold sealBox at h
    dsimp only at h
    rw [show 32 + msg.length = d by omega, take_xsalsa20 _ _ hd] at h
    obtain ⟨h1, h2⟩ := List.append_inj h (by rw [length_slice (by omega), length_poly1305])
    rw [h2, if_pos h1, xorBytes_twice (by rw [List.length_drop, lS]; omega), splice_zero, List.length_append, List.length_replicate, show 32 + msg.length = d by omega]
  · intro h
    rw [if_neg]
    intro ht
    have l2 : (slice c 32 (d - 32)).length = d - 32 := length_slice (by omega)
    have lm : (xorBytes (slice c 32 (d - 32)) ((xsalsa20 k n d).drop 32)).length = d - 32 := by
      rw [length_xorBytes, l2, List.length_drop, lS, Nat.min_self]
    apply h (xorBytes (slice c 32 (d - 32)) ((xsalsa20 k n d).drop 32))
    unfold sealBox
    dsimp only
    rw [lm, show 32 + (d - 32) = d by omega, take_xsalsa20 _ _ hd, xorBytes_twice (by rw [List.length_drop, lS, l2]), ← ht]

/-- A box is opened again, with the same key and nonce. -/
theorem nacl_secretbox_roundtrip (hw : 32 ≤ w) (msg : Bytes) {n k : Bytes} (hn : n.length = 24) (hk : k.length = 32) :
    ∃ c, secretbox w (List.replicate (32 + msg.length) 0) (List.replicate 32 0 ++ msg) (32 + msg.length) n k = .ok (0, c) ∧ c.length = 32 + msg.length ∧
      secretboxOpen w (List.replicate (32 + msg.length) 0) c (32 + msg.length) n k = .ok (0, List.replicate 32 0 ++ msg) := by
  have ls := length_sealBox k n msg
  refine ⟨List.replicate 16 0 ++ sealBox k n msg, ?_, by rw [List.length_append, ls, List.length_replicate]; omega, ?_⟩
  · rw [nacl_secretbox hw (by simp) hn hk]; simp
  · have h := (nacl_secretbox_open hw (c := List.replicate 16 0 ++ sealBox k n msg) (m := List.replicate (32 + msg.length) 0) (d := 32 + msg.length) (by omega) (by simp)
      (by rw [List.length_append, ls, List.length_replicate]; omega) hn hk).1 msg (by
        unfold slice
        rw [List.drop_left' (by simp), List.take_of_length_le (by omega)])
    rw [h]
    simp

example : ∃ c : Bytes, slice c 16 (34 - 16) = sealBox (List.replicate 32 4) (List.replicate 24 3) [104, 105] := ⟨List.replicate 16 0 ++ sealBox (List.replicate 32 4) (List.replicate 24 3) [104, 105], by
  unfold slice
  rw [List.drop_left' (by simp), List.take_of_length_le (by rw [length_sealBox]; decide)]⟩

/-! ### C75: X25519 -/

/-- `crypto_scalarmult(q, n, p)` is X25519: the result is the (fully reduced) x-coordinate of the clamped scalar times a point of Curve25519 with the given x-coordinate,
over any field that contains the integers modulo 2^255 - 19; that determines it. -/
theorem nacl_x25519 {n q : Bytes} (hn : n.length = 32) (hq : q.length = 32) :
    ∃ v : F, scalarmultX n q = .ok (leBytes 32 v.val) ∧ IsX25519 (scalar n) (coordinate q) v ∧ ∀ v', IsX25519 (scalar n) (coordinate q) v' → v' = v := by
  obtain ⟨v, h1, h2⟩ := scalarmultX_ok hn hq
  exact ⟨v, h1, h2, fun v' h => isX25519_unique h h2⟩

/-- There is such a point for every x-coordinate. -/
theorem nacl_x25519_point (u : F) : ∃ Q : (mont Kbar).Point, X0 Q = algebraMap F Kbar u := exists_point u

example : scalar (List.replicate 32 (255 : Byte)) = 2 ^ 255 - 8 ∧ (List.replicate 32 (255 : Byte)).length = 32 := by decide +kernel

/-! ### C76: the agreement -/

/-- X25519(a, X25519(b, q)) = X25519(b, X25519(a, q)), for all byte strings a, b and q of 32 bytes. -/
theorem nacl_dh_agreement {a b q : Bytes} (ha : a.length = 32) (hb : b.length = 32) (hq : q.length = 32) :
    ∃ ya yb s, scalarmultX a q = .ok ya ∧ scalarmultX b q = .ok yb ∧ scalarmultX a yb = .ok s ∧ scalarmultX b ya = .ok s := by
  obtain ⟨va, ea, ia⟩ := scalarmultX_ok ha hq
  obtain ⟨vb, eb, ib⟩ := scalarmultX_ok hb hq
  obtain ⟨vab, eab, iab⟩ := scalarmultX_ok ha (q := leBytes 32 vb.val) (length_leBytes _ _)
  obtain ⟨vba, eba, iba⟩ := scalarmultX_ok hb (q := leBytes 32 va.val) (length_leBytes _ _)
  rw [coordinate_leBytes] at iab iba
  refine ⟨_, _, _, ea, eb, eab, ?_⟩
  rw [eba, isX25519_comm ia iba ib iab]

example : (List.replicate 32 (1 : Byte)).length = 32 ∧ (List.replicate 32 (2 : Byte)).length = 32 ∧ nine.length = 32 := by decide

/-! ### C77: what X25519 ignores -/

/-- Only the clamped scalar and the coordinate modulo p matter: the bits 0, 1, 2, 254 and 255 of the secret key and the bit 255 of the public key are ignored, and public keys that are not reduced are accepted. -/
theorem nacl_x25519_ignores {n n' q q' : Bytes} (hn : n.length = 32) (hn' : n'.length = 32) (hq : q.length = 32) (hq' : q'.length = 32)
    (h1 : leVal n % 2 ^ 254 / 8 = leVal n' % 2 ^ 254 / 8) (h2 : leVal q % 2 ^ 255 % (2 ^ 255 - 19) = leVal q' % 2 ^ 255 % (2 ^ 255 - 19)) : scalarmultX n q = scalarmultX n' q' := by
  obtain ⟨v, e, i⟩ := scalarmultX_ok hn hq
  obtain ⟨v', e', i'⟩ := scalarmultX_ok hn' hq'
  have hs : scalar n = scalar n' := by unfold scalar; rw [h1]
  have hc : coordinate q = coordinate q' := (ZMod.natCast_eq_natCast_iff' _ _ _).2 h2
  rw [hs, hc] at i
  rw [e, e', isX25519_unique i i']

example : leVal (List.replicate 32 (255 : Byte)) % 2 ^ 255 % (2 ^ 255 - 19) = leVal ((18 : Byte) :: List.replicate 31 0) % 2 ^ 255 % (2 ^ 255 - 19) := by decide +kernel

/-! ### C78: public keys of low order -/

/-- For the five coordinates of the points of order 1, 2, 4 and 8 the result is zero for every secret key, and no error is reported: the shared secret is known to everybody. -/
theorem nacl_x25519_low_order {n q : Bytes} (hn : n.length = 32) (hq : q.length = 32)
    (hu : leVal q % 2 ^ 255 % (2 ^ 255 - 19) ∈ [0, 1, 2 ^ 255 - 20, 325606250916557431795983626356110631294008115727848805560023387167927233504,
      39382357235489614581723060781553021112529911719440698176882885853963445705823]) :
    scalarmultX n q = .ok (List.replicate 32 0) := by
  obtain ⟨v, e, i⟩ := scalarmultX_ok hn hq
  have hc : coordinate q = ((leVal q % 2 ^ 255 % (2 ^ 255 - 19) : Nat) : F) := (ZMod.natCast_eq_natCast_iff' _ _ _).2 (Nat.mod_mod _ _).symm
  rw [hc] at i
  generalize leVal q % 2 ^ 255 % (2 ^ 255 - 19) = u at hu i
  have hv : v = 0 := by
    apply low_result _ i
    simp only [List.mem_cons, List.not_mem_nil, or_false] at hu
    rcases hu with rfl | rfl | rfl | rfl | rfl <;> decide +kernel
  rw [e, hv, ZMod.val_zero]
  decide

/-- So `crypto_box_beforenm` with such a public key gives the same key for all secret keys. -/
theorem nacl_box_low_order (hw : 32 ≤ w) {k x y : Bytes} (hk : k.length = 32) (hx : x.length = 32) (hy : y.length = 32)
    (hu : leVal y % 2 ^ 255 % (2 ^ 255 - 19) ∈ [0, 1, 2 ^ 255 - 20, 325606250916557431795983626356110631294008115727848805560023387167927233504,
      39382357235489614581723060781553021112529911719440698176882885853963445705823]) :
    boxBeforenm w k y x = .ok (hsalsa20 (List.replicate 32 0) (List.replicate 16 0)) := by
  unfold boxBeforenm
  rw [nacl_x25519_low_order hx hy hu, ok_bind, nacl_hsalsa20_core hw hk (by simp) (by simp)]

example : leVal (leBytes 32 325606250916557431795983626356110631294008115727848805560023387167927233504) % 2 ^ 255 % (2 ^ 255 - 19) = 325606250916557431795983626356110631294008115727848805560023387167927233504 := by decide +kernel

/-! ### C79: box -/

/-- What `crypto_box` made for a receiver is opened by the receiver: with key pairs (xa, ya) and (xb, yb) made by `crypto_scalarmult_base`, `crypto_box_open` with ya and xb returns the message that
`crypto_box` encrypted with yb and xa. -/
theorem nacl_box_roundtrip (hw : 32 ≤ w) (msg : Bytes) {n xa xb : Bytes} (hn : n.length = 24) (ha : xa.length = 32) (hb : xb.length = 32) :
    ∃ ya yb c, scalarmultBase xa = .ok ya ∧ scalarmultBase xb = .ok yb ∧
      box w (List.replicate (32 + msg.length) 0) (List.replicate 32 0 ++ msg) (32 + msg.length) n yb xa = .ok (0, c) ∧
      boxOpen w (List.replicate (32 + msg.length) 0) c (32 + msg.length) n ya xb = .ok (0, List.replicate 32 0 ++ msg) := by
  obtain ⟨ya, yb, s, e1, e2, e3, e4⟩ := nacl_dh_agreement ha hb (q := nine) (by decide)
  have ls : s.length = 32 := by
    obtain ⟨v, e, -⟩ := scalarmultX_ok ha (q := yb) (by
      obtain ⟨v, e, -⟩ := scalarmultX_ok hb (q := nine) (by decide)
      rw [e2] at e
      cases e
      exact length_leBytes _ _)
    rw [e3] at e
    cases e
    exact length_leBytes _ _
  have k1 : boxBeforenm w (List.replicate 32 0) yb xa = .ok (hsalsa20 s (List.replicate 16 0)) := by
    unfold boxBeforenm
    rw [e3, ok_bind, nacl_hsalsa20_core hw (by simp) (by simp) ls]
  have k2 : boxBeforenm w (List.replicate 32 0) ya xb = .ok (hsalsa20 s (List.replicate 16 0)) := by
    unfold boxBeforenm
    rw [e4, ok_bind, nacl_hsalsa20_core hw (by simp) (by simp) ls]
  obtain ⟨c, h1, -, h2⟩ := nacl_secretbox_roundtrip hw msg (k := hsalsa20 s (List.replicate 16 0)) hn length_hsalsa20
  refine ⟨ya, yb, c, e1, e2, ?_, ?_⟩
  · unfold box
    rw [k1, ok_bind]
    exact h1
  · unfold boxOpen
    rw [k2, ok_bind]
    exact h2

example : (List.replicate 24 (3 : Byte)).length = 24 ∧ (List.replicate 32 (1 : Byte)).length = 32 ∧ (List.replicate 32 (2 : Byte)).length = 32 := by decide

/-! ### C80: the key pair -/

/-- `crypto_box_keypair`: one draw of 32 bytes; if it fails, -1 and the public key is not written (the secret key buffer holds `left`, whatever the failed source left there); otherwise 0, the secret key is what was drawn and the public key is X25519 of it and 9. -/
theorem nacl_box_keypair (left : Bytes) {x y : Bytes} (hx : x.length = 32) (hy : y.length = 32) (R : Rng) :
    (R.draw R.log.length 32 = none → boxKeypair left y x R = .ok ((-1, y, left), { R with log := R.log ++ [(32, none)] })) ∧
    (∀ b, R.draw R.log.length 32 = some b → ∃ v : F, IsX25519 (scalar b) 9 v ∧
      boxKeypair left y x R = .ok ((0, leBytes 32 v.val, b), { R with log := R.log ++ [(32, some b)] })) := by
  constructor
  · intro h
    simp only [boxKeypair, RandM_bind_apply, randombytes, ok_bind, h, RandM_pure_apply]
  · intro b h
    have hl := R.len_draw _ _ _ h
    obtain ⟨v, e, i⟩ := scalarmultX_ok hl (q := nine) (by decide)
    have h9 : coordinate nine = 9 := by
      unfold coordinate
      rw [show leVal nine % 2 ^ 255 = 9 by decide +kernel]
      norm_num
    rw [h9] at i
    refine ⟨v, i, ?_⟩
    simp only [boxKeypair, RandM_bind_apply, randombytes, ok_bind, h]
    have c1 : copy x 0 b 0 32 = .ok b := by
      rw [copy_ok (by omega) (by omega), show slice b 0 32 = b by rw [← hl]; exact slice_zero_length b, splice_all (by omega)]
    have c2 : copy y 0 (leBytes 32 v.val) 0 32 = .ok (leBytes 32 v.val) := by
      have l : (leBytes 32 v.val).length = 32 := length_leBytes _ _
      rw [copy_ok (by omega) (by omega), show slice (leBytes 32 v.val) 0 32 = leBytes 32 v.val by
        unfold slice
        rw [List.drop_zero, List.take_of_length_le (by omega)], splice_all (by omega)]
    unfold scalarmultBase
    rw [c1, ok_bind, e, ok_bind, c2, ok_bind]
    rfl

example : ∃ R : Rng, ∃ b, R.draw R.log.length 32 = some b :=
  ⟨⟨fun _ n => some (List.replicate n 5), fun _ n b h => by cases h; exact List.length_replicate .., []⟩, _, rfl⟩

end Verif.Nacl
