import Verif.Ct.NaclLemmas
import Verif.Ed25519.Top
import Verif.Nacl.Props

/-!
The properties C91 and C92: what control flow and memory addresses of tweetnacl.c show about secret data.  Each theorem says that the function with
traces has the result that the specification gives, together with a trace that depends on the named public data only.
-/

namespace Verif.Ct

theorem T.ext' {α : Type} {x : T α} {r : C α} {t : List Ev} (h1 : x.res = r) (h2 : x.tr = t) : x = ⟨r, t⟩ := by
  cases x
  cases h1
  cases h2
  rfl

/-- A trace that is the same for all inputs with the same public part is a function of the public part. -/
theorem exists_trace {ι π α : Type} (F : ι → T α) (r : ι → C α) (pub : ι → π) (good : ι → Prop) (hr : ∀ i, good i → (F i).res = r i)
    (h : ∀ i j, good i → good j → pub i = pub j → (F i).tr = (F j).tr) : ∃ t : π → List Ev, ∀ i, good i → F i = ⟨r i, t (pub i)⟩ := by
  classical
  refine ⟨fun q => if e : ∃ i, good i ∧ pub i = q then (F e.choose).tr else [], fun i hi => T.ext' (hr i hi) ?_⟩
  have e : ∃ j, good j ∧ pub j = pub i := ⟨i, hi, rfl⟩
  dsimp only
  rw [dif_pos e]
  exact h i e.choose hi e.choose_spec.1 e.choose_spec.2.symm

/-- The same when the traces are compared by `Same`. -/
theorem exists_trace_same {ι π α : Type} (F : ι → T α) (r : ι → α) (pub : ι → π) (good : ι → Prop) (hr : ∀ i, good i → (F i).res = .ok (r i))
    (h : ∀ i j, pub i = pub j → Same (F i) (F j)) : ∃ t : π → List Ev, ∀ i, good i → F i = ⟨.ok (r i), t (pub i)⟩ :=
  exists_trace F (fun i => .ok (r i)) pub good hr fun i j hi hj e => (h i j e _ _ (hr i hi) (hr j hj)).1

namespace Nacl
open Verif.Ed25519.Spec (publicKey sha512 leBytes F)
open Verif.Nacl.Spec

/-! ### C91: Ed25519 -/

/-- C91: key generation from a seed shows nothing. -/
theorem ct_ed_keypair : ∃ t : List Ev, ∀ pk sk seed : Bytes, pk.length = 32 → sk.length = 64 → seed.length = 32 →
    Ed25519.keypairSeed pk sk seed = ⟨.ok (0, publicKey seed, seed ++ publicKey seed), t⟩ := by
  obtain ⟨t, ht⟩ := exists_trace_same (fun i : Bytes × Bytes × Bytes => Ed25519.keypairSeed i.1 i.2.1 i.2.2) (fun i => (0, publicKey i.2.2, i.2.2 ++ publicKey i.2.2))
    (fun _ => ()) (fun i => i.1.length = 32 ∧ i.2.1.length = 64 ∧ i.2.2.length = 32)
    (fun i h => by rw [Ed25519.keypairSeed_res, Verif.Ed25519.keypairSeed_ok h.1 h.2.1 h.2.2]) (fun _ _ _ => Ed25519.keypairSeed_same)
  exact ⟨t (), fun pk sk seed h1 h2 h3 => ht (pk, sk, seed) ⟨h1, h2, h3⟩⟩

/-- C91: signing shows the length of the message and nothing else: not the key, not the nonce, not the message. -/
theorem ct_ed_sign : ∃ t : Nat → List Ev, ∀ (sm : Bytes) (l : Nat) (m sk : Bytes), sk.length = 64 → m.length < 2 ^ 63 → sm.length = 64 + m.length →
    Ed25519.sign sm l m sk = ⟨.ok (0, Verif.Ed25519.Spec.sign (sk.take 32) (sk.drop 32) m ++ m, 64 + m.length), t m.length⟩ := by
  obtain ⟨t, ht⟩ := exists_trace_same (fun i : Bytes × Nat × Bytes × Bytes => Ed25519.sign i.1 i.2.1 i.2.2.1 i.2.2.2)
    (fun i => (0, Verif.Ed25519.Spec.sign (i.2.2.2.take 32) (i.2.2.2.drop 32) i.2.2.1 ++ i.2.2.1, 64 + i.2.2.1.length)) (fun i => i.2.2.1.length)
    (fun i => i.2.2.2.length = 64 ∧ i.2.2.1.length < 2 ^ 63 ∧ i.1.length = 64 + i.2.2.1.length)
    (fun i h => by rw [Ed25519.sign_res, Verif.Ed25519.sign_ok h.1 h.2.1 (by omega), List.drop_of_length_le (l := i.1) (by omega), List.append_nil])
    (fun i j e => Ed25519.sign_same e)
  exact ⟨t, fun sm l m sk h1 h2 h3 => ht (sm, l, m, sk) ⟨h1, h2, h3⟩⟩

/-- C91: SHA-512, of which the key is an input, shows the length of its input. -/
theorem ct_sha512 : ∃ t : Nat → List Ev, ∀ (m : Bytes) (n : Nat), n ≤ m.length → n < 2 ^ 64 → Ed25519.cryptoHash m n = ⟨.ok (sha512 (m.take n)), t n⟩ := by
  obtain ⟨t, ht⟩ := exists_trace_same (fun i : Bytes × Nat => Ed25519.cryptoHash i.1 i.2) (fun i => sha512 (i.1.take i.2)) (fun i => i.2)
    (fun i => i.2 ≤ i.1.length ∧ i.2 < 2 ^ 64) (fun i h => by rw [Ed25519.cryptoHash_res, Verif.Ed25519.cryptoHash_ok h.1 h.2])
    (fun i j e => by
      obtain ⟨m, n⟩ := i
      obtain ⟨m', n'⟩ := j
      cases e
      exact Ed25519.cryptoHash_same n)
  exact ⟨t, fun m n h1 h2 => ht (m, n) ⟨h1, h2⟩⟩

/-- The hypotheses are met by different secrets, for which the theorem gives equal traces. -/
example : (Ed25519.sign (List.replicate 67 0) 0 [1, 2, 3] (List.replicate 64 5)).tr = (Ed25519.sign (List.replicate 67 9) 4 [7, 7, 7] (List.replicate 64 200)).tr := by
  obtain ⟨t, ht⟩ := ct_ed_sign
  rw [ht _ _ _ _ (by rw [List.length_replicate]) (by decide) (by rw [List.length_replicate]; rfl), ht _ _ _ _ (by rw [List.length_replicate]) (by decide) (by rw [List.length_replicate]; rfl)]
  rfl

example : (Ed25519.keypairSeed (List.replicate 32 0) (List.replicate 64 0) (List.replicate 32 1)).tr = (Ed25519.keypairSeed (List.replicate 32 3) (List.replicate 64 0) (List.replicate 32 255)).tr := by
  obtain ⟨t, ht⟩ := ct_ed_keypair
  rw [ht _ _ _ (by rw [List.length_replicate]) (by rw [List.length_replicate]) (by rw [List.length_replicate]), ht _ _ _ (by rw [List.length_replicate]) (by rw [List.length_replicate]) (by rw [List.length_replicate])]

/-- The trace is not empty, and it does show lengths: SHA-512 of one block and of two blocks. -/
example : (Ed25519.cryptoHash [1, 2, 3] 3).tr ≠ (Ed25519.cryptoHash (List.replicate 112 1) 112).tr := by decide +kernel

/-- A swap with a condition in the place of the mask would be seen. -/
example : (cond ((1 : Nat) = 1) (pure ([2], [1])) (pure ([1], [2])) : T (List Nat × List Nat)).tr ≠ (cond ((0 : Nat) = 1) (pure ([2], [1])) (pure ([1], [2])) : T (List Nat × List Nat)).tr := by decide

/-! ### C92: the other functions of tweetnacl.c -/

/-- C92: X25519 shows neither the scalar nor the point. -/
theorem ct_x25519 : ∃ t : List Ev, ∀ n q : Bytes, n.length = 32 → q.length = 32 →
    ∃ v : F, Nacl.scalarmultX n q = ⟨.ok (leBytes 32 v.val), t⟩ ∧ IsX25519 (scalar n) (coordinate q) v := by
  have ok : ∀ i : Bytes × Bytes, i.1.length = 32 ∧ i.2.length = 32 → ∃ v : F, Verif.Nacl.scalarmultX i.1 i.2 = .ok (leBytes 32 v.val) ∧ IsX25519 (scalar i.1) (coordinate i.2) v :=
    fun i h => Verif.Nacl.scalarmultX_ok h.1 h.2
  obtain ⟨t, ht⟩ := exists_trace (fun i : Bytes × Bytes => Nacl.scalarmultX i.1 i.2) (fun i => Verif.Nacl.scalarmultX i.1 i.2) (fun _ => ()) (fun i => i.1.length = 32 ∧ i.2.length = 32)
    (fun i _ => scalarmultX_res _ _) (fun i j hi hj _ => by
      obtain ⟨v, e, -⟩ := ok i hi
      obtain ⟨v', e', -⟩ := ok j hj
      rw [← scalarmultX_res] at e e'
      exact (scalarmultX_same _ _ e e').1)
  refine ⟨t (), fun n q hn hq => ?_⟩
  obtain ⟨v, e, hv⟩ := ok (n, q) ⟨hn, hq⟩
  refine ⟨v, ?_, hv⟩
  have := ht (n, q) ⟨hn, hq⟩
  dsimp only at this e
  rw [this, e]

/-- C92: the public key for a scalar shows nothing about it. -/
theorem ct_x25519_base : ∃ t : List Ev, ∀ n : Bytes, n.length = 32 →
    ∃ v : F, Nacl.scalarmultBase n = ⟨.ok (leBytes 32 v.val), t⟩ ∧ IsX25519 (scalar n) 9 v := by
  have ok : ∀ n : Bytes, n.length = 32 → ∃ v : F, Verif.Nacl.scalarmultBase n = .ok (leBytes 32 v.val) ∧ IsX25519 (scalar n) 9 v := fun n h => by
    obtain ⟨v, e, hv⟩ := Verif.Nacl.scalarmultX_ok (q := 9 :: List.replicate 31 0) h rfl
    rw [show coordinate (9 :: List.replicate 31 0) = 9 by decide +kernel] at hv
    exact ⟨v, e, hv⟩
  obtain ⟨t, ht⟩ := exists_trace (fun n : Bytes => Nacl.scalarmultBase n) (fun n => Verif.Nacl.scalarmultBase n) (fun _ => ()) (fun n => n.length = 32)
    (fun n _ => scalarmultBase_res _) (fun i j hi hj _ => by
      obtain ⟨v, e, -⟩ := ok i hi
      obtain ⟨v', e', -⟩ := ok j hj
      rw [← scalarmultBase_res] at e e'
      exact (scalarmultBase_same _ _ e e').1)
  refine ⟨t (), fun n hn => ?_⟩
  obtain ⟨v, e, hv⟩ := ok n hn
  refine ⟨v, ?_, hv⟩
  rw [ht n hn, e]

/-- C92: the comparisons of 16 and of 32 bytes do not show where the strings differ, nor whether they do. -/
theorem ct_verify : (∃ t : List Ev, ∀ x y : Bytes, x.length = 16 → y.length = 16 → Ed25519.cryptoVerify16 x y = ⟨.ok (if x = y then 0 else -1), t⟩) ∧
    ∃ t : List Ev, ∀ x y : Bytes, x.length = 32 → y.length = 32 → Ed25519.cryptoVerify32 x y = ⟨.ok (if x = y then 0 else -1), t⟩ := by
  have all : ∀ {l : Bytes} {n : Nat}, l.length = n → l.take n = l := fun h => by rw [← h, List.take_length]
  constructor
  · obtain ⟨t, ht⟩ := exists_trace_same (fun i : Bytes × Bytes => Ed25519.cryptoVerify16 i.1 i.2) (fun i => if i.1 = i.2 then 0 else -1) (fun _ => ())
      (fun i => i.1.length = 16 ∧ i.2.length = 16) (fun i h => by
        rw [Ed25519.cryptoVerify16_res, Verif.Ed25519.cryptoVerify16, Verif.Ed25519.vn_ok (by omega) (by omega), all h.1, all h.2]) (fun _ _ _ => Ed25519.cryptoVerify16_same)
    exact ⟨t (), fun x y h1 h2 => ht (x, y) ⟨h1, h2⟩⟩
  · obtain ⟨t, ht⟩ := exists_trace_same (fun i : Bytes × Bytes => Ed25519.cryptoVerify32 i.1 i.2) (fun i => if i.1 = i.2 then 0 else -1) (fun _ => ())
      (fun i => i.1.length = 32 ∧ i.2.length = 32) (fun i h => by
        rw [Ed25519.cryptoVerify32_res, Verif.Ed25519.cryptoVerify32, Verif.Ed25519.vn_ok (by omega) (by omega), all h.1, all h.2]) (fun _ _ _ => Ed25519.cryptoVerify32_same)
    exact ⟨t (), fun x y h1 h2 => ht (x, y) ⟨h1, h2⟩⟩

/-- Strings that differ in the first byte and equal strings. -/
example : (Ed25519.cryptoVerify32 (1 :: List.replicate 31 0) (List.replicate 32 0)).tr = (Ed25519.cryptoVerify32 (List.replicate 32 7) (List.replicate 32 7)).tr := by
  obtain ⟨t, ht⟩ := ct_verify.2
  rw [ht _ _ rfl rfl, ht _ _ rfl rfl]

variable {w : Nat}

/-- C92: XSalsa20 shows the length of the message only. -/
theorem ct_stream_xor (hw : 32 ≤ w) : ∃ t : Nat → List Ev, ∀ c m n k : Bytes, m.length ≤ c.length → n.length = 24 → k.length = 32 →
    Nacl.streamXor w c m m.length n k = ⟨.ok (xorBytes m (xsalsa20 k n m.length) ++ c.drop m.length), t m.length⟩ := by
  obtain ⟨t, ht⟩ := exists_trace_same (fun i : Bytes × Bytes × Bytes × Bytes => Nacl.streamXor w i.1 i.2.1 i.2.1.length i.2.2.1 i.2.2.2)
    (fun i => xorBytes i.2.1 (xsalsa20 i.2.2.2 i.2.2.1 i.2.1.length) ++ i.1.drop i.2.1.length) (fun i => i.2.1.length)
    (fun i => i.2.1.length ≤ i.1.length ∧ i.2.2.1.length = 24 ∧ i.2.2.2.length = 32)
    (fun i h => by rw [streamXor_res, Verif.Nacl.nacl_stream_xor hw h.1 h.2.1 h.2.2]) (fun i j e => by rw [e]; exact streamXor_same _ _)
  exact ⟨t, fun c m n k h1 h2 h3 => ht (c, m, n, k) ⟨h1, h2, h3⟩⟩

/-- C92: the bare key stream (`crypto_stream`, which passes NULL for the message) shows its length only. -/
theorem ct_stream (hw : 32 ≤ w) : ∃ t : Nat → List Ev, ∀ (c : Bytes) (d : Nat) (n k : Bytes), d ≤ c.length → n.length = 24 → k.length = 32 →
    Nacl.stream w c d n k = ⟨.ok (xsalsa20 k n d ++ c.drop d), t d⟩ := by
  obtain ⟨t, ht⟩ := exists_trace_same (fun i : Bytes × Nat × Bytes × Bytes => Nacl.stream w i.1 i.2.1 i.2.2.1 i.2.2.2)
    (fun i => xsalsa20 i.2.2.2 i.2.2.1 i.2.1 ++ i.1.drop i.2.1) (fun i => i.2.1)
    (fun i => i.2.1 ≤ i.1.length ∧ i.2.2.1.length = 24 ∧ i.2.2.2.length = 32)
    (fun i h => by rw [stream_res, Verif.Nacl.nacl_stream hw h.1 h.2.1 h.2.2]) (fun i j e => by rw [e]; exact stream_same _ _)
  exact ⟨t, fun c d n k h1 h2 h3 => ht (c, d, n, k) ⟨h1, h2, h3⟩⟩

/-- C92: Poly1305 shows the length of the message only. -/
theorem ct_poly1305 (hw : 32 ≤ w) : ∃ t : Nat → List Ev, ∀ m k : Bytes, k.length = 32 →
    Nacl.onetimeauth w (List.replicate 16 0) 0 m 0 m.length k = ⟨.ok (poly1305 k m), t m.length⟩ := by
  obtain ⟨t, ht⟩ := exists_trace_same (fun i : Bytes × Bytes => Nacl.onetimeauth w (List.replicate 16 0) 0 i.1 0 i.1.length i.2) (fun i => poly1305 i.2 i.1)
    (fun i => i.1.length) (fun i => i.2.length = 32) (fun i h => by rw [onetimeauth_res, Verif.Nacl.nacl_poly1305 hw h])
    (fun i j e => by rw [e]; exact onetimeauth_same _ _ _ _)
  exact ⟨t, fun m k h => ht (m, k) h⟩

/-- C92: checking a tag does not even show whether it is right; in particular not in which byte it is wrong. -/
theorem ct_poly1305_verify (hw : 32 ≤ w) : ∃ t : Nat → List Ev, ∀ h m k : Bytes, h.length = 16 → k.length = 32 →
    Nacl.onetimeauthVerify w h 0 m 0 m.length k = ⟨.ok (if h = poly1305 k m then 0 else -1), t m.length⟩ := by
  obtain ⟨t, ht⟩ := exists_trace_same (fun i : Bytes × Bytes × Bytes => Nacl.onetimeauthVerify w i.1 0 i.2.1 0 i.2.1.length i.2.2) (fun i => if i.1 = poly1305 i.2.2 i.2.1 then 0 else -1)
    (fun i => i.2.1.length) (fun i => i.1.length = 16 ∧ i.2.2.length = 32) (fun i h => by rw [onetimeauthVerify_res, Verif.Nacl.nacl_poly1305_verify hw h.1 h.2])
    (fun i j e => by rw [e]; exact onetimeauthVerify_same _ _ _ _)
  exact ⟨t, fun h m k h1 h2 => ht (h, m, k) ⟨h1, h2⟩⟩

/-- C92: secretbox shows the length of the message only. -/
theorem ct_secretbox (hw : 32 ≤ w) : ∃ t : Nat → List Ev, ∀ c msg n k : Bytes, 32 + msg.length ≤ c.length → n.length = 24 → k.length = 32 →
    Nacl.secretbox w c (List.replicate 32 0 ++ msg) (32 + msg.length) n k = ⟨.ok (0, List.replicate 16 0 ++ sealBox k n msg ++ c.drop (32 + msg.length)), t msg.length⟩ := by
  obtain ⟨t, ht⟩ := exists_trace_same (fun i : Bytes × Bytes × Bytes × Bytes => Nacl.secretbox w i.1 (List.replicate 32 0 ++ i.2.1) (32 + i.2.1.length) i.2.2.1 i.2.2.2)
    (fun i => (0, List.replicate 16 0 ++ sealBox i.2.2.2 i.2.2.1 i.2.1 ++ i.1.drop (32 + i.2.1.length))) (fun i => i.2.1.length)
    (fun i => 32 + i.2.1.length ≤ i.1.length ∧ i.2.2.1.length = 24 ∧ i.2.2.2.length = 32)
    (fun i h => by rw [secretbox_res, Verif.Nacl.nacl_secretbox hw h.1 h.2.1 h.2.2]) (fun i j e => by rw [e]; exact secretbox_same _ _)
  exact ⟨t, fun c m n k h1 h2 h3 => ht (c, m, n, k) ⟨h1, h2, h3⟩⟩

/-- C92: opening a secretbox shows the length and the code that is returned, nothing else. -/
theorem ct_secretbox_open (hw : 32 ≤ w) : ∃ t : Nat → Int → List Ev, ∀ (m c : Bytes) (d : Nat) (n k : Bytes), 32 ≤ d → d ≤ m.length → d ≤ c.length → n.length = 24 → k.length = 32 →
    ∃ code out, Verif.Nacl.secretboxOpen w m c d n k = .ok (code, out) ∧ Nacl.secretboxOpen w m c d n k = ⟨.ok (code, out), t d code⟩ := by
  let Good : Bytes × Bytes × Nat × Bytes × Bytes → Prop := fun i => 32 ≤ i.2.2.1 ∧ i.2.2.1 ≤ i.1.length ∧ i.2.2.1 ≤ i.2.1.length ∧ i.2.2.2.1.length = 24 ∧ i.2.2.2.2.length = 32
  let F : Bytes × Bytes × Nat × Bytes × Bytes → T (Int × Bytes) := fun i => Nacl.secretboxOpen w i.1 i.2.1 i.2.2.1 i.2.2.2.1 i.2.2.2.2
  have ok : ∀ i, Good i → ∃ a, (F i).res = .ok a := fun i ⟨h1, h2, h3, h4, h5⟩ => by
    show ∃ a, (Nacl.secretboxOpen w i.1 i.2.1 i.2.2.1 i.2.2.2.1 i.2.2.2.2).res = .ok a
    rw [secretboxOpen_res]
    have := Verif.Nacl.nacl_secretbox_open hw h1 h2 h3 h4 h5
    by_cases e : ∃ msg, slice i.2.1 16 (i.2.2.1 - 16) = sealBox i.2.2.2.2 i.2.2.2.1 msg
    · obtain ⟨msg, e⟩ := e
      exact ⟨_, this.1 msg e⟩
    · exact ⟨_, this.2 fun msg h => e ⟨msg, h⟩⟩
  let code : Bytes × Bytes × Nat × Bytes × Bytes → Int := fun i => match (F i).res with | .ok a => a.1 | .error _ => 0
  obtain ⟨t, ht⟩ := exists_trace F (fun i => (F i).res) (fun i => (i.2.2.1, code i)) Good (fun _ _ => rfl) (fun i j hi hj e => by
    obtain ⟨a, ha⟩ := ok i hi
    obtain ⟨b, hb⟩ := ok j hj
    obtain ⟨e1, e2⟩ := Prod.mk.inj e
    simp only [code, ha, hb] at e2
    show (Nacl.secretboxOpen w i.1 i.2.1 i.2.2.1 i.2.2.2.1 i.2.2.2.2).tr = (Nacl.secretboxOpen w j.1 j.2.1 j.2.2.1 j.2.2.2.1 j.2.2.2.2).tr
    have ha' : (Nacl.secretboxOpen w i.1 i.2.1 i.2.2.1 i.2.2.2.1 i.2.2.2.2).res = .ok a := ha
    have hb' : (Nacl.secretboxOpen w j.1 j.2.1 j.2.2.1 j.2.2.2.1 j.2.2.2.2).res = .ok b := hb
    rw [e1] at ha' ⊢
    exact secretboxOpen_same _ _ a b ha' hb' e2)
  refine ⟨fun d c => t (d, c), fun m c d n k h1 h2 h3 h4 h5 => ?_⟩
  have g : Good (m, c, d, n, k) := ⟨h1, h2, h3, h4, h5⟩
  obtain ⟨a, ha⟩ := ok _ g
  have h := ht _ g
  have ha' : Verif.Nacl.secretboxOpen w m c d n k = .ok a := by rw [← secretboxOpen_res]; exact ha
  refine ⟨a.1, a.2, ha', ?_⟩
  have hc : code (m, c, d, n, k) = a.1 := by simp only [code, ha]
  rw [ha, hc] at h
  exact h

/-- The key of `crypto_box` for every pair of keys. -/
theorem boxKey (hw : 32 ≤ w) {x y : Bytes} (hx : x.length = 32) (hy : y.length = 32) : ∃ k, Verif.Nacl.boxBeforenm w (List.replicate 32 0) y x = .ok k ∧ k.length = 32 := by
  obtain ⟨v, e, -⟩ := Verif.Nacl.scalarmultX_ok hx hy
  exact ⟨hsalsa20 (leBytes 32 v.val) (List.replicate 16 0), by
    unfold Verif.Nacl.boxBeforenm
    rw [e, ok_bind, Verif.Nacl.nacl_hsalsa20_core hw (by simp) (by simp) (Verif.Ed25519.length_leBytes _ _)], Verif.Nacl.length_hsalsa20⟩

/-- C92: box shows the length of the message only, in particular nothing about the secret key. -/
theorem ct_box (hw : 32 ≤ w) : ∃ t : Nat → List Ev, ∀ c msg n y x : Bytes, 32 + msg.length ≤ c.length → n.length = 24 → y.length = 32 → x.length = 32 →
    ∃ out, Verif.Nacl.box w c (List.replicate 32 0 ++ msg) (32 + msg.length) n y x = .ok (0, out) ∧
      Nacl.box w c (List.replicate 32 0 ++ msg) (32 + msg.length) n y x = ⟨.ok (0, out), t msg.length⟩ := by
  have ok : ∀ i : Bytes × Bytes × Bytes × Bytes × Bytes, (32 + i.2.1.length ≤ i.1.length ∧ i.2.2.1.length = 24 ∧ i.2.2.2.1.length = 32 ∧ i.2.2.2.2.length = 32) →
      ∃ out, Verif.Nacl.box w i.1 (List.replicate 32 0 ++ i.2.1) (32 + i.2.1.length) i.2.2.1 i.2.2.2.1 i.2.2.2.2 = .ok (0, out) := fun i ⟨h1, h2, h3, h4⟩ => by
    obtain ⟨k, e, hk⟩ := boxKey hw h4 h3
    unfold Verif.Nacl.box Verif.Nacl.boxAfternm
    rw [e, ok_bind, Verif.Nacl.nacl_secretbox hw h1 h2 hk]
    exact ⟨_, rfl⟩
  obtain ⟨t, ht⟩ := exists_trace (fun i : Bytes × Bytes × Bytes × Bytes × Bytes => Nacl.box w i.1 (List.replicate 32 0 ++ i.2.1) (32 + i.2.1.length) i.2.2.1 i.2.2.2.1 i.2.2.2.2)
    (fun i => Verif.Nacl.box w i.1 (List.replicate 32 0 ++ i.2.1) (32 + i.2.1.length) i.2.2.1 i.2.2.2.1 i.2.2.2.2) (fun i => i.2.1.length)
    (fun i => 32 + i.2.1.length ≤ i.1.length ∧ i.2.2.1.length = 24 ∧ i.2.2.2.1.length = 32 ∧ i.2.2.2.2.length = 32) (fun i _ => box_res _ _ _ _ _ _ _)
    (fun i j hi hj e => by
      obtain ⟨a, ha⟩ := ok i hi
      obtain ⟨b, hb⟩ := ok j hj
      rw [← box_res] at ha hb
      rw [e] at ha ⊢
      exact (box_same _ _ _ _ ha hb).1)
  refine ⟨t, fun c msg n y x h1 h2 h3 h4 => ?_⟩
  obtain ⟨out, e⟩ := ok (c, msg, n, y, x) ⟨h1, h2, h3, h4⟩
  have h := ht (c, msg, n, y, x) ⟨h1, h2, h3, h4⟩
  dsimp only at e h
  exact ⟨out, e, by rw [h, e]⟩

/-- C92: opening a box shows the length and the code that is returned, nothing else. -/
theorem ct_box_open (hw : 32 ≤ w) : ∃ t : Nat → Int → List Ev, ∀ (m c : Bytes) (d : Nat) (n y x : Bytes), 32 ≤ d → d ≤ m.length → d ≤ c.length → n.length = 24 → y.length = 32 → x.length = 32 →
    ∃ code out, Verif.Nacl.boxOpen w m c d n y x = .ok (code, out) ∧ Nacl.boxOpen w m c d n y x = ⟨.ok (code, out), t d code⟩ := by
  obtain ⟨t1, h1⟩ := exists_trace (fun i : Bytes × Bytes => Nacl.boxBeforenm w (List.replicate 32 0) i.1 i.2) (fun i => Verif.Nacl.boxBeforenm w (List.replicate 32 0) i.1 i.2) (fun _ => ())
    (fun i => i.1.length = 32 ∧ i.2.length = 32) (fun i _ => boxBeforenm_res _ _ _ _) (fun i j hi hj _ => by
      obtain ⟨a, ha, -⟩ := boxKey hw hi.2 hi.1
      obtain ⟨b, hb, -⟩ := boxKey hw hj.2 hj.1
      rw [← boxBeforenm_res] at ha hb
      exact (boxBeforenm_same _ _ _ ha hb).1)
  obtain ⟨t2, h2⟩ := ct_secretbox_open hw
  refine ⟨fun d code => t1 () ++ t2 d code, fun m c d n y x g1 g2 g3 g4 g5 g6 => ?_⟩
  obtain ⟨k, e, hk⟩ := boxKey hw g6 g5
  obtain ⟨code, out, e1, e2⟩ := h2 m c d n k g1 g2 g3 g4 hk
  have h := h1 (y, x) ⟨g5, g6⟩
  dsimp only at h
  rw [e] at h
  have em : Verif.Nacl.boxOpen w m c d n y x = .ok (code, out) := by
    unfold Verif.Nacl.boxOpen Verif.Nacl.boxOpenAfternm
    rw [e, ok_bind, e1]
  refine ⟨code, out, em, T.ext' (by rw [boxOpen_res, em]) ?_⟩
  unfold Nacl.boxOpen Nacl.boxOpenAfternm
  rw [h, bind_tr rfl, e2]

/-- The hypotheses are met by different secrets, for which the theorem gives equal traces. -/
example : (Nacl.scalarmultX (List.replicate 32 1) (List.replicate 32 9)).tr = (Nacl.scalarmultX (List.replicate 32 254) (List.replicate 32 3)).tr := by
  obtain ⟨t, ht⟩ := ct_x25519
  obtain ⟨_, e, _⟩ := ht (List.replicate 32 1) (List.replicate 32 9) (by rw [List.length_replicate]) (by rw [List.length_replicate])
  obtain ⟨_, e', _⟩ := ht (List.replicate 32 254) (List.replicate 32 3) (by rw [List.length_replicate]) (by rw [List.length_replicate])
  rw [e, e']

example : (Nacl.onetimeauthVerify 64 (List.replicate 16 0) 0 [1, 2] 0 2 (List.replicate 32 5)).tr = (Nacl.onetimeauthVerify 64 (poly1305 (List.replicate 32 7) [3, 4]) 0 [3, 4] 0 2 (List.replicate 32 7)).tr := by
  obtain ⟨t, ht⟩ := ct_poly1305_verify (w := 64) (by decide)
  have a := ht (List.replicate 16 0) [1, 2] (List.replicate 32 5) (by simp) (by simp)
  have b := ht (poly1305 (List.replicate 32 7) [3, 4]) [3, 4] (List.replicate 32 7) (Verif.Nacl.length_poly1305 _ _) (by simp)
  exact (congrArg T.tr a).trans (congrArg T.tr b).symm

example : 32 ≤ 34 ∧ 34 ≤ (List.replicate 34 (0 : Byte)).length ∧ (List.replicate 24 (3 : Byte)).length = 24 ∧ (List.replicate 32 (4 : Byte)).length = 32 := by decide

end Nacl
end Verif.Ct
