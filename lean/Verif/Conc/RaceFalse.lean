import Verif.Conc.AttackProps
import Verif.Real.WeakKeyProps
import Verif.Real.ForgeryProps4

/-!
Helpers for C125: a concrete signature that is not one of the message that replaces the signed one, and where the bytes of common memory come from.
-/

namespace Verif.Real
open Verif Verif.Hybrid Dilithium

namespace Weak
set_option maxRecDepth 100000
open Verif.Witness

/-- The compact hash of the message [3], as a number (compare hybrid-dilithium-sphincs/hybrid.c:594-608). -/
def hash3 : Nat := 62832251897383066051585437745749768448796442856657611780187011942225975883165485913403315435663529985888828354171933536454163022762780520124007611399186
/-- The message representative of that hash (compare dilithium2/sign.c:287-292). -/
def mu3 : Nat := 4594117207898811226513053911764756469204177444326410609349244547678930064218490652319283049848868001519986752110046442906230695857857725868861594531425461
/-- The challenge hash for it (compare dilithium2/sign.c:315-321). -/
def ct3 : Nat := 103292050729186354330675167198034131124187595921335559637355141265948317321992

theorem k_hash3 : Nat.beq (sha3N 72 105 (ofLe (nonceC ++ [3] ++ List.replicate 64 0)) % 2 ^ 512) hash3 = true := by decide +kernel
theorem k_mu3 : Nat.beq (shakeN 136 128 (join tr 512 hash3) 1 % 2 ^ 512) mu3 = true := by decide +kernel
theorem k_ct3 : Nat.beq (shakeN 136 832 (join mu3 512 0) 1 % 2 ^ 256) ct3 = true := by decide +kernel
theorem e_mu3 : shakeN 136 128 (join tr 512 hash3) 1 % 2 ^ 512 = mu3 := Run7.beq_eq k_mu3
theorem e_ct3 : shakeN 136 832 (join mu3 512 0) 1 % 2 ^ 256 = ct3 := Run7.beq_eq k_ct3
theorem length3 : (nonceC ++ [3] ++ List.replicate 64 0).length = 105 := by decide +kernel
theorem ct_ne : ct ≠ ct3 := by decide +kernel
end Weak

open Verif.Witness

theorem sha3_value {m : Bytes} {l n v : Nat} (hl : m.length = l) (hn : ofLe m = n) (h : Nat.beq (sha3N 72 l n % 2 ^ 512) v = true) : ofLe (Keccak.stream 72 0x06 m 64) = v := by
  rw [← Keccak.stream_prefix 72 0x06 _ 64 8, ofLe_take, sha3N_eq (by decide) (by decide), hl, hn]
  exact Nat.eq_of_beq_eq_true h

theorem compactHash_stream {nonce msg k h : Bytes} (hh : IsCompactHash nonce msg k h) : h = Keccak.stream 72 0x06 (nonce ++ msg ++ k) 64 := by
  have e : IsCompactHash nonce msg k (Keccak.stream 72 0x06 (nonce ++ msg ++ k) 64) := by
    rw [IsCompactHash]
    exact Keccak.stream_spec (by omega) (by omega) Keccak.suffix_sha3 _ _
  exact ((compactHash_real (fuel := 0) _ _ _ _).1 hh).trans ((compactHash_real (fuel := 0) _ _ _ _).1 e).symm

/-- The compact hash of [3] is this number. -/
theorem compactHash_num {h : Bytes} (hh : IsCompactHash nonceC [3] (List.replicate 64 0) h) : h.length = 64 ∧ ofLe h = Weak.hash3 := by
  have e : h = Keccak.stream 72 0x06 (nonceC ++ [3] ++ List.replicate 64 0) 64 := compactHash_stream hh
  have l : h.length = 64 := by rw [e, Keccak.length_stream]
  refine ⟨l, ?_⟩
  rw [e]
  exact sha3_value Weak.length3 rfl Weak.k_hash3

theorem ofLe_zeros (n : Nat) : ofLe (List.replicate n 0) = 0 := by
  induction n with
  | zero => rfl
  | succ n ih => rw [List.replicate_succ, ofLe, ih]; rfl

theorem challenge_num {rho h : Bytes} (hr : rho.length = 32) (er : ofLe rho = Run7.rho) {hN mN cN : Nat} (hl : h.length = 64) (hn : ofLe h = hN)
    (k1 : shakeN 136 128 (join Weak.tr 512 hN) 1 % 2 ^ 512 = mN) (k2 : shakeN 136 832 (join mN 512 0) 1 % 2 ^ 256 = cN) : ofLe (zeroChallenge (zeroPk rho) h) = cN := by
  have e1 : ofLe (S256 (zeroPk rho) 64) = Weak.tr := by
    rw [ofLe_S256 (k := 1) (w := 512) (by omega) (l := 1312) (by rw [zeroPk, List.length_append, hr, List.length_replicate]) (v := join Run7.rho 256 0) (by rw [zeroPk]; exact ofLe_join hr er rfl (ofLe_zeros _)) rfl, Weak.e_tr]
  have e2 : ofLe (S256 (S256 (zeroPk rho) 64 ++ h) 64) = mN := by
    have l : (S256 (zeroPk rho) 64).length = 64 := Keccak.length_stream ..
    rw [ofLe_S256 (k := 1) (w := 512) (by omega) (l := 128) (by rw [List.length_append, l, hl]) (ofLe_join l e1 rfl hn) rfl, k1]
  have l : (S256 (S256 (zeroPk rho) 64 ++ h) 64).length = 64 := Keccak.length_stream ..
  rw [zeroChallenge, ofLe_S256 (k := 1) (w := 256) (by omega) (l := 832) (by rw [List.length_append, l, List.length_replicate]) (ofLe_join l e2 rfl (ofLe_zeros _)) rfl, k2]

/-- A Dilithium signature with z = 0 is valid for the strings with its challenge only. -/
theorem zeroSig_only {rho x y : Bytes} (hr : rho.length = 32) (h : Dilithium.Spec.Valid S128 S256 (zeroPk rho) y (zeroSig (zeroPk rho) x)) :
    zeroChallenge (zeroPk rho) x = zeroChallenge (zeroPk rho) y := by
  obtain ⟨ct, z, g, c, A, h1, h2, h3, h4, h5, e, -, -, h6⟩ := h
  obtain ⟨r, -, hu⟩ := unpackSig_iff (length_zeroSig (zeroPk rho) x)
  have a := (hu _ _ _).2 ⟨⟨h1, h2, fun x hx => ⟨(h3 x hx).1, fun v hv => by have := (h3 x hx).2 v hv; omega⟩, h4, h5⟩, e⟩
  have b := (hu (zeroChallenge (zeroPk rho) x) zeroVec zeroVec).2 ⟨⟨Keccak.length_stream .., by decide, fun y hy => by
    obtain rfl := List.eq_of_mem_replicate hy
    refine ⟨List.length_replicate .., fun v hv => ?_⟩
    obtain rfl := List.eq_of_mem_replicate hv
    decide, ⟨by decide, fun y hy => by
    obtain rfl := List.eq_of_mem_replicate hy
    refine ⟨List.length_replicate .., fun v hv => ?_⟩
    obtain rfl := List.eq_of_mem_replicate hv
    exact .inl rfl⟩, by decide +kernel⟩, rfl⟩
  have e := b.symm.trans a
  simp only [Option.some.injEq, Prod.mk.injEq] at e
  obtain ⟨rfl, rfl, rfl⟩ := e
  rw [w1_zero A c hr] at h6
  exact h6

/-- The signature of [2] under the weak key is not one of [3]. -/
theorem weak_other {rho : Bytes} (hr : rho.length = 32) (er : ofLe rho = Run7.rho) :
    ¬ CompactMeets S128 S256 (weakPk rho (List.replicate 64 0)) [3] (compactWire neutralSig (zeroSig (zeroPk rho) RunC.hash) nonceC [3]) := by
  rintro ⟨-, -, ed, dil, nonce, h, l1, l2, l3, e, hh, -, hv⟩
  obtain ⟨rfl, rfl, rfl⟩ := compactWire_inj (by rfl) (length_zeroSig _ _) (by decide) l1 l2 l3 e
  obtain ⟨-, p2, p3⟩ := weak_parts hr (spx := List.replicate 64 0) (List.length_replicate ..)
  rw [p2] at hv
  rw [p3] at hh
  obtain ⟨hl, hn⟩ := compactHash_num hh
  have eq := congrArg ofLe (zeroSig_only hr hv)
  rw [challenge_num hr er hash_length hash_num Weak.e_mu Weak.e_ct, challenge_num hr er hl hn Weak.e_mu3 Weak.e_ct3] at eq
  exact Weak.ct_ne eq

theorem weak_meets : ∃ rho : Bytes, rho.length = 32 ∧ ofLe rho = Run7.rho ∧
    CompactMeets S128 S256 (weakPk rho (List.replicate 64 0)) [2] (compactWire neutralSig (zeroSig (zeroPk rho) RunC.hash) nonceC [2]) := by
  obtain ⟨rho, A, hr, er, hA⟩ := weak_rho
  obtain ⟨c, hc⟩ := weak_ball hr er
  obtain ⟨p1, p2, p3⟩ := weak_parts hr (spx := List.replicate 64 0) (List.length_replicate ..)
  refine ⟨rho, hr, er, by decide, by decide, _, _, _, RunC.hash, rfl, length_zeroSig _ _, by decide, rfl, ?_, ?_, ?_⟩
  · rw [p3]; exact hashC
  · rw [p1]; exact neutral_valid neutral_decodes _
  · rw [p2]; exact zeroSig_valid hr hA hc

end Verif.Real

namespace Verif.Conc
open Verif

variable {ι α : Type} [DecidableEq ι]

/-- A step that does not store at `a` leaves the byte there. -/
theorem step_keep {base : Nat} {R S : Addr → Prop} {x : Prog α} {W : World} {a : Addr} (h : Within base R S x) (hsp : base ≤ W.sp) (ha : a.1 < base)
    (hx : ¬ ∃ q o w k, x = .store q o w k ∧ a = (q.blk, q.off + o)) : byteAt (step x W).2.mem a = byteAt W.mem a := by
  cases x with
  | ret a => rfl
  | fail e => rfl
  | load p i k =>
    rw [step_load]
    cases byteAt W.mem (p.blk, p.off + i) <;> rfl
  | store p i v k =>
    rw [step_store]
    cases byteAt W.mem (p.blk, p.off + i) with
    | none => rfl
    | some _ =>
      show byteAt (put W.mem _ v) a = _
      rw [byteAt_put, if_neg]
      intro e
      exact hx ⟨p, i, v, k, rfl, e⟩
  | draw n k => rfl
  | push init k =>
    show ((Function.update W.mem W.sp (some init)) a.1).bind _ = _
    rw [Function.update_of_ne (by omega)]; rfl
  | pop p k =>
    have h1 := h.1
    show ((Function.update W.mem p.blk none) a.1).bind _ = _
    rw [Function.update_of_ne (by omega)]; rfl

/-- Where a byte of common memory comes from: it was there at the start, or some thread stored it. -/
theorem byte_origin {W : World} {p : ι → Prog α} {R S : ι → Addr → Prop} (hin : ∀ i, Within W.sp (R i) (S i) (p i)) (s : List ι) :
    (∀ i, Within W.sp (R i) (S i) (((start W p).run s).thr i).prog ∧ W.sp ≤ (((start W p).run s).thr i).sp) ∧
    (∀ i a v, Stored (start W p) i s a v → S i a) ∧
    ∀ a v, a.1 < W.sp → byteAt ((start W p).run s).mem a = some v → byteAt W.mem a = some v ∨ ∃ i, Stored (start W p) i s a v := by
  induction s using List.reverseRecOn with
  | nil =>
    refine ⟨fun i => ⟨hin i, Nat.le_refl _⟩, fun i a v h => ?_, fun a v _ h => Or.inl h⟩
    obtain ⟨t, u, _, _, _, h, -⟩ := h
    simp at h
  | append_singleton s j ih =>
    obtain ⟨ih1, ih2, ih3⟩ := ih
    have hb : ((start W p).run s).base = W.sp := run_base ..
    have hst : ∀ i a v, Stored (start W p) i (s ++ [j]) a v → S i a := by
      intro i a v h
      rcases stored_snoc.1 h with h | ⟨rfl, q, o, k, h1, h2, h3, -⟩
      · exact ih2 i a v h
      · have := (ih1 j).1
        rw [h1] at this
        rw [h2]
        exact this.1 (by rw [h2] at h3; exact h3)
    rw [run_snoc]
    generalize hc : (start W p).run s = c at *
    have hws : W.sp ≤ (c.world j).sp := (ih1 j).2
    obtain ⟨w1, w2, -⟩ := step_within (ih1 j).1 hws
    refine ⟨fun i => ?_, hst, fun a v ha h => ?_⟩
    · by_cases e : i = j
      · subst e
        refine ⟨by rw [next_thr_self]; exact w1, ?_⟩
        show W.sp ≤ ((c.next i).world i).sp
        rw [next_world_self]; exact w2
      · rw [next_thr_ne c e]; exact ih1 i
    · have hn : byteAt (c.next j).mem a = byteAt (step (c.thr j).prog (c.world j)).2.mem a := by
        rw [← next_world_self]
        unfold byteAt
        show _ = Option.bind (if a.1 < (c.next j).base then _ else _) _
        rw [if_pos (by show a.1 < c.base; omega)]
      have hw : byteAt (c.world j).mem a = byteAt c.mem a := by
        unfold byteAt
        show Option.bind (if a.1 < c.base then _ else _) _ = _
        rw [if_pos (by omega)]
      have old : byteAt c.mem a = some v → byteAt W.mem a = some v ∨ ∃ i, Stored (start W p) i (s ++ [j]) a v := fun h =>
        (ih3 a v ha h).imp id fun ⟨i, h⟩ => ⟨i, stored_snoc.2 (Or.inl h)⟩
      rw [hn] at h
      by_cases hx : ∃ q o w k, (c.thr j).prog = .store q o w k ∧ a = (q.blk, q.off + o)
      · obtain ⟨q, o, w, k, hx, rfl⟩ := hx
        rw [hx, step_store] at h
        cases hv : byteAt (c.world j).mem (q.blk, q.off + o) with
        | none => rw [hv] at h; exact old (by rw [← hw]; exact h)
        | some v0 =>
          rw [hv] at h
          dsimp only at h
          rw [byteAt_put, if_pos rfl, hv] at h
          simp only [Option.map_some, Option.some.injEq] at h
          subst h
          refine Or.inr ⟨j, stored_snoc.2 (Or.inr ⟨rfl, q, o, k, by rw [hc]; exact hx, rfl, ha, ?_⟩)⟩
          rw [hc, ← hw, hv]; rfl
      · rw [step_keep (ih1 j).1 hws ha hx, hw] at h; exact old h

end Verif.Conc
