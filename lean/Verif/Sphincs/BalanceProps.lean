import Verif.Sphincs.Balance

/-! Property C107, the part on SPHINCS+: every choice of FORS leaves and one-time key comes from equally many digests. -/

namespace Verif.Sphincs
open Verif Spec

/-- For every choice of 35 FORS indices, a tree and a leaf there are exactly 512 values of the 49 hash bytes with which `hash_message` and
`message_to_indices` arrive at this choice; the model functions get the 49 bytes in place of the hash function's output. -/
theorem spx_digest_balanced (R pk m : Bytes) {l : List Nat} (hl : l.length = 35) (h : ∀ x ∈ l, x < 512) {tree leaf : Nat} (ht : tree < 2 ^ 64) (hf : leaf < 16) :
    {d : Bytes | d.length = 49 ∧ ∃ md, hashMessage (fun _ _ => d) R pk m = .ok (md, tree, leaf) ∧ messageToIndices md = .ok l}.ncard = 512 := by
  have hn : number512 l < 512 ^ 35 := by have := number512_lt h; rwa [hl] at this
  have key : {d : Bytes | d.length = 49 ∧ ∃ md, hashMessage (fun _ _ => d) R pk m = .ok (md, tree, leaf) ∧ messageToIndices md = .ok l} =
      (fun p : Nat × Nat => digestOf l tree leaf p.1 p.2) '' ((Finset.range 32 ×ˢ Finset.range 16 : Finset (Nat × Nat)) : Set (Nat × Nat)) := by
    ext d
    rw [Set.mem_image]
    constructor
    · rintro ⟨hd, hh⟩
      obtain ⟨a, b, c⟩ := (digest_iff hd hl h).1 hh
      have h1 : (d.take 40).length = 40 := by rw [List.length_take]; omega
      have h2 : (slice d 40 8).length = 8 := length_slice (by omega)
      have h3 : (slice d 48 1).length = 1 := length_slice (by omega)
      have h4 := ofBe_lt (slice d 48 1)
      rw [h3] at h4
      refine ⟨(ofBe (d.take 40) % 32, ofBe (slice d 48 1) / 16), ?_, ?_⟩
      · rw [Finset.mem_coe, Finset.mem_product, Finset.mem_range, Finset.mem_range]
        exact ⟨Nat.mod_lt _ (by decide), by dsimp only; omega⟩
      · dsimp only [digestOf]
        rw [← a, ← b, ← c, Nat.div_add_mod', Nat.div_add_mod']
        conv_rhs => rw [digest_split hd, ← be_ofBe (d.take 40), ← be_ofBe (slice d 40 8), ← be_ofBe (slice d 48 1), h1, h2, h3]
    · rintro ⟨⟨u, hi⟩, hp, rfl⟩
      rw [Finset.mem_coe, Finset.mem_product, Finset.mem_range, Finset.mem_range] at hp
      dsimp only at hp ⊢
      obtain ⟨p1, p2, p3, p4⟩ := digestOf_parts l tree leaf u hi
      refine ⟨p1, (digest_iff p1 hl h).2 ?_⟩
      rw [p2, p3, p4, ofBe_be, ofBe_be, ofBe_be]
      refine ⟨?_, ?_, ?_⟩
      · rw [Nat.mod_eq_of_lt (by norm_num at hn ⊢; omega)]; omega
      · exact Nat.mod_eq_of_lt (by norm_num at ht ⊢; omega)
      · omega
  rw [key, Set.InjOn.ncard_image, Set.ncard_coe_finset]
  · rw [Finset.card_product, Finset.card_range, Finset.card_range]
  · rintro ⟨u, hi⟩ hp ⟨u', hi'⟩ hp' e
    rw [Finset.mem_coe, Finset.mem_product, Finset.mem_range, Finset.mem_range] at hp hp'
    dsimp only at hp hp' e
    obtain ⟨_, p2, _, p4⟩ := digestOf_parts l tree leaf u hi
    obtain ⟨_, q2, _, q4⟩ := digestOf_parts l tree leaf u' hi'
    rw [e] at p2 p4
    have e1 := be_inj (by norm_num at hn ⊢; omega) (by norm_num at hn ⊢; omega) (p2.symm.trans q2)
    have e2 := be_inj (by norm_num; omega) (by norm_num; omega) (p4.symm.trans q4)
    rw [Prod.mk.injEq]; omega

/-- A choice (sphincs/hash_shake.c:50-82, sphincs/fors.c:49-60). -/
example : {d : Bytes | d.length = 49 ∧ ∃ md, hashMessage (fun _ _ => d) [1] [2] [3] = .ok (md, 2 ^ 63 + 5, 11) ∧
    messageToIndices md = .ok (List.range 35)}.ncard = 512 :=
  spx_digest_balanced _ _ _ rfl (fun x hx => by have := List.mem_range.1 hx; omega) (by norm_num) (by norm_num)

end Verif.Sphincs
