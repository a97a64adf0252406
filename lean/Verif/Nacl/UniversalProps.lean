import Verif.Nacl.Universal

/-!
The property C109: Poly1305 is an almost universal one-time authenticator.
-/

namespace Verif.Nacl
open Verif Verif.Nacl.Spec

variable {w : Nat}

/-- C109: for every message and every 16-byte tag, exactly 2^128 of the 2^256 keys lead `crypto_onetimeauth` to this tag: one for each first half, so a single tag says nothing about the multiplier
(tweetnacl/tweetnacl.c:185-236). -/
theorem poly1305_tag_keys (hw : 32 ≤ w) {m t : Bytes} (ht : t.length = 16) :
    {k : Bytes | k.length = 32 ∧ onetimeauth w (List.replicate 16 0) 0 m 0 m.length k = .ok t}.ncard = 2 ^ 128 ∧
    ∀ b : Bytes, b.length = 16 → ∃! s : Bytes, s.length = 16 ∧ onetimeauth w (List.replicate 16 0) 0 m 0 m.length (b ++ s) = .ok t := by
  constructor
  · have e : {k : Bytes | k.length = 32 ∧ onetimeauth w (List.replicate 16 0) 0 m 0 m.length k = .ok t} = {k : Bytes | k.length = 32 ∧ poly1305 k m = t ∧ True} := by
      ext k
      simp only [Set.mem_ofPred_eq, and_true]
      refine and_congr_right fun hk => ?_
      rw [nacl_poly1305 hw hk]
      exact ⟨fun h => by injection h, fun h => by rw [h]⟩
    rw [e, ncard_keys ht]
    simp only [and_true]
    exact ncard_all16
  · intro b hb
    refine ⟨secondHalf m t b, ⟨length_leBytes' _ _, ?_⟩, fun s hs => ?_⟩
    · have hl : (b ++ secondHalf m t b).length = 32 := by rw [List.length_append, hb, secondHalf, length_leBytes']
      rw [nacl_poly1305 hw hl, (tag_iff ht hl).2 (by rw [List.drop_left' hb, List.take_left' hb])]
    · have hl : (b ++ s).length = 32 := by rw [List.length_append, hb, hs.1]
      have h := hs.2
      rw [nacl_poly1305 hw hl] at h
      injection h with h
      rw [tag_iff ht hl, List.drop_left' hb, List.take_left' hb] at h
      exact h

/-- C109: for two different messages of any lengths and any two tags, at most 2^22 * 8 q of the keys lead `crypto_onetimeauth` to both tags, where q is the number of 16-byte chunks of the longer message.
So whoever knows the tag of one message guesses the tag of another with probability at most 8 q / 2^106 over the keys that remain possible (tweetnacl/tweetnacl.c:185-236). -/
theorem poly1305_two_tags (hw : 32 ≤ w) {m m' t t' : Bytes} (hne : m ≠ m') (ht : t.length = 16) (ht' : t'.length = 16) :
    {k : Bytes | k.length = 32 ∧ onetimeauth w (List.replicate 16 0) 0 m 0 m.length k = .ok t ∧ onetimeauth w (List.replicate 16 0) 0 m' 0 m'.length k = .ok t'}.ncard
      ≤ 2 ^ 22 * (8 * max ((m.length + 15) / 16) ((m'.length + 15) / 16)) := by
  refine Nat.le_trans (Nat.le_of_eq (congrArg Set.ncard ?_)) (two_tags hne ht ht')
  ext k
  simp only [Set.mem_ofPred_eq]
  refine and_congr_right fun hk => ?_
  rw [nacl_poly1305 hw hk, nacl_poly1305 hw hk]
  exact ⟨fun h => ⟨by injection h.1, by injection h.2⟩, fun h => ⟨by rw [h.1], by rw [h.2]⟩⟩

/-- C109 for `crypto_onetimeauth_verify`: at most 2^22 * 8 q keys accept both of two tagged messages (tweetnacl/tweetnacl.c:238-243). -/
theorem poly1305_two_accepted (hw : 32 ≤ w) {m m' t t' : Bytes} (hne : m ≠ m') (ht : t.length = 16) (ht' : t'.length = 16) :
    {k : Bytes | k.length = 32 ∧ onetimeauthVerify w t 0 m 0 m.length k = .ok 0 ∧ onetimeauthVerify w t' 0 m' 0 m'.length k = .ok 0}.ncard
      ≤ 2 ^ 22 * (8 * max ((m.length + 15) / 16) ((m'.length + 15) / 16)) := by
  refine Nat.le_trans (Nat.le_of_eq (congrArg Set.ncard ?_)) (two_tags hne ht ht')
  have key : ∀ {k m t : Bytes}, k.length = 32 → t.length = 16 → (onetimeauthVerify w t 0 m 0 m.length k = .ok 0 ↔ poly1305 k m = t) := by
    intro k m t hk ht
    rw [nacl_poly1305_verify hw ht hk]
    constructor
    · intro h
      injection h with h
      by_contra hn
      rw [if_neg fun e => hn e.symm] at h
      omega
    · intro h
      rw [if_pos h.symm]
  ext k
  simp only [Set.mem_ofPred_eq]
  refine and_congr_right fun hk => ?_
  rw [key hk ht, key hk ht']

/-- The hypotheses are met by a one-byte message and a message of two chunks: at most 2^26 of the 2^256 keys. -/
example : {k : Bytes | k.length = 32 ∧ onetimeauth 32 (List.replicate 16 0) 0 [1] 0 1 k = .ok (List.replicate 16 7) ∧
    onetimeauth 32 (List.replicate 16 0) 0 (List.replicate 20 9) 0 20 k = .ok (List.replicate 16 8)}.ncard ≤ 2 ^ 22 * (8 * 2) :=
  poly1305_two_tags (m := [1]) (m' := List.replicate 20 9) (by omega) (by decide) rfl rfl

example : {k : Bytes | k.length = 32 ∧ onetimeauth 32 (List.replicate 16 0) 0 [1] 0 1 k = .ok (List.replicate 16 7)}.ncard = 2 ^ 128 := (poly1305_tag_keys (m := [1]) (by omega) rfl).1

end Verif.Nacl
