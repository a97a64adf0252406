import Verif.Conc.RaceFalse

/-! Helper lemmas for the property C130: two public keys that differ in one byte of t1, and a buffer that is a signature under neither. -/

namespace Verif.Real
open Verif Verif.Witness Dilithium

/-- The weak key with 512 as first coefficient of t1 (compare dilithium2/packing.c:15-28). -/
def otherPk (rho : Bytes) : Bytes := rho ++ 0 :: 2 :: List.replicate 1278 0

namespace Other
set_option maxRecDepth 100000

/-- The hash of the other key as a number (compare dilithium2/sign.c:286). -/
def tr : Nat := 10545992563102849862631543171204786651359617994908938464388327807235395641909407841304365973374691585889375181365912471967849936702008729583238030395359881
/-- The hash of it and of the message (compare dilithium2/sign.c:287-291). -/
def mu : Nat := 4390563875831328562090564444354404460804708588955493221126902817460311993058248380248236536785763897302752975719873911698203431975765730173828198097109896
/-- The challenge hash for w1 = 0 (compare dilithium2/sign.c:316-321). -/
def ct : Nat := 17754037226878655096960569829893579571286016924820690709774223282925391974153
/-- The challenge polynomial of that hash, with 2 for -1 (compare dilithium2/poly.c:480-515). -/
def ball : List Nat := [0, 0, 0, 0, 0, 0, 0, 0, 0, 0, 0, 0, 0, 0, 1, 0, 0, 0, 0, 0, 0, 0, 0, 0, 1, 0, 0, 0, 0, 0, 0, 0, 0, 0, 0, 0, 0, 0, 0, 0, 0, 0, 0, 0, 0, 0, 0, 0, 1, 0, 0, 0, 0, 0, 2, 0, 0, 1, 0, 0, 0, 0, 0, 0, 0, 0, 0, 0, 0, 0, 0, 1, 0, 0, 0, 0, 0, 0, 0, 0, 0, 0, 2, 0, 0, 0, 0, 2, 0, 0, 1, 0, 0, 0, 2, 0, 0, 0, 0, 1, 0, 0, 0, 2, 0, 0, 1, 0, 2, 0, 0, 0, 0, 1, 0, 0, 2, 0, 0, 0, 2, 0, 2, 0, 0, 1, 0, 0, 0, 0, 0, 0, 0, 1, 0, 0, 0, 2, 0, 0, 0, 0, 0, 0, 0, 1, 0, 0, 0, 0, 0, 0, 0, 0, 0, 0, 0, 0, 1, 0, 0, 0, 1, 0, 2, 0, 0, 0, 0, 2, 2, 1, 0, 0, 2, 0, 0, 0, 0, 0, 0, 0, 0, 0, 0, 0, 0, 0, 0, 0, 0, 0, 0, 0, 0, 2, 0, 0, 2, 0, 0, 0, 0, 0, 1, 0, 0, 0, 0, 0, 0, 0, 0, 0, 0, 0, 0, 0, 0, 0, 2, 0, 0, 0, 0, 1, 1, 0, 0, 0, 0, 1, 0, 0, 0, 2, 0, 0, 0, 0, 0, 1, 0, 0, 0, 0, 0, 0, 0, 0, 0, 0, 0, 0, 0, 2]
/-- The w1 that the other key gives for this challenge, as it is hashed (compare dilithium2/poly.c:834-847). -/
def w1 : Nat := 828544896754104952324415126157000178483460351930461650476035704753007644475392780791853484987329038804002686718812840917590916783501656181733679261030252726008154991636523463426531882088144103907640204948033524908480617182085365845696693275380507517742417307398147993647500150273529326482015377549173024689955234022419248496930813893658097976071667586189748939913728592877459252852582933449352679436107050841665050788399006182061658393391857346695889146668384256
/-- The challenge hash for this w1 (compare dilithium2/sign.c:316-321). -/
def ct3 : Nat := 103479008706001682839204365728315202601998312740746641965408731783676997037985

theorem k_tr : Nat.beq (shakeN 136 1312 (join Run7.rho 256 512) 1 % 2 ^ 512) tr = true := by decide +kernel
theorem k_mu : Nat.beq (shakeN 136 128 (join tr 512 RunC.hashN) 1 % 2 ^ 512) mu = true := by decide +kernel
theorem k_ct : Nat.beq (shakeN 136 832 (join mu 512 0) 1 % 2 ^ 256) ct = true := by decide +kernel
theorem k_ct3 : Nat.beq (shakeN 136 832 (join mu 512 w1) 1 % 2 ^ 256) ct3 = true := by decide +kernel
theorem k_ball : challN ct = some ball := by decide +kernel
theorem e_tr : shakeN 136 1312 (join Run7.rho 256 512) 1 % 2 ^ 512 = tr := Run7.beq_eq k_tr
theorem e_mu : shakeN 136 128 (join tr 512 RunC.hashN) 1 % 2 ^ 512 = mu := Run7.beq_eq k_mu
theorem e_ct : shakeN 136 832 (join mu 512 0) 1 % 2 ^ 256 = ct := Run7.beq_eq k_ct
theorem e_ct3 : shakeN 136 832 (join mu 512 w1) 1 % 2 ^ 256 = ct3 := Run7.beq_eq k_ct3
theorem ct_ne : ct ≠ Weak.ct := by decide +kernel
theorem ct3_ne : ct ≠ ct3 := by decide +kernel
theorem ofLe_w1 : ofLe (Spec.packPos 6 (Spec.mk fun j => if Spec.co (ball.map dec) j = 0 then 0 else 22)) = w1 := by decide +kernel
theorem length_w1 : (Spec.packPos 6 (Spec.mk fun j => if Spec.co (ball.map dec) j = 0 then 0 else 22)).length = 192 := by decide +kernel

end Other

theorem length_otherPk {rho : Bytes} (hr : rho.length = 32) : (otherPk rho).length = 1312 := by
  rw [otherPk, List.length_append, hr, List.length_cons, List.length_cons, List.length_replicate]

theorem ofLe_otherTail (n : Nat) : ofLe (0 :: 2 :: List.replicate n 0) = 512 := by
  rw [ofLe, ofLe, ofLe_zeros]; decide

theorem other_mu {rho : Bytes} (hr : rho.length = 32) (er : ofLe rho = Run7.rho) : ofLe (S256 (S256 (otherPk rho) 64 ++ RunC.hash) 64) = Other.mu := by
  have e1 : ofLe (S256 (otherPk rho) 64) = Other.tr := by
    rw [ofLe_S256 (k := 1) (w := 512) (by omega) (l := 1312) (length_otherPk hr) (v := join Run7.rho 256 512) (by rw [otherPk]; exact ofLe_join hr er rfl (ofLe_otherTail _)) rfl, Other.e_tr]
  have l : (S256 (otherPk rho) 64).length = 64 := Keccak.length_stream ..
  rw [ofLe_S256 (k := 1) (w := 512) (by omega) (l := 128) (by rw [List.length_append, l, hash_length]) (ofLe_join l e1 rfl hash_num) rfl, Other.e_mu]

theorem other_ct {rho : Bytes} (hr : rho.length = 32) (er : ofLe rho = Run7.rho) : ofLe (zeroChallenge (otherPk rho) RunC.hash) = Other.ct := by
  have l : (S256 (S256 (otherPk rho) 64 ++ RunC.hash) 64).length = 64 := Keccak.length_stream ..
  rw [zeroChallenge, ofLe_S256 (k := 1) (w := 256) (by omega) (l := 832) (by rw [List.length_append, l, List.length_replicate]) (ofLe_join l (other_mu hr er) rfl (ofLe_zeros _)) rfl, Other.e_ct]

theorem other_ball {rho : Bytes} (hr : rho.length = 32) (er : ofLe rho = Run7.rho) : Spec.IsBall S256 (zeroChallenge (otherPk rho) RunC.hash) (Other.ball.map dec) :=
  (ball_of (s := zeroChallenge (otherPk rho) RunC.hash) (Keccak.length_stream ..) (by rw [other_ct hr er]; exact Other.k_ball)).1

theorem sum_single {x : Int} {k n : Nat} : ((List.range n).map fun i => if i = k then x else 0).sum = if k < n then x else 0 := by
  induction n with
  | zero => rfl
  | succ n ih =>
    rw [List.range_succ, List.map_append, List.sum_append, ih, List.map_singleton, List.sum_singleton]
    split <;> split <;> split <;> omega

/-- Multiplication by a constant polynomial. -/
theorem co_mul_const (c d : List Int) (hd : ∀ k, k ≠ 0 → Spec.co d k = 0) {k : Nat} (hk : k < 256) : Spec.co (Spec.mul c d) k = Spec.co c k * Spec.co d 0 % Spec.q := by
  unfold Spec.mul
  rw [co_mk _ hk, List.map_congr_left (g := fun i => if i = k then Spec.co c k * Spec.co d 0 else 0) ?_, sum_single, if_pos hk]
  intro i hi
  have hi := List.mem_range.1 hi
  by_cases h : i = k
  · subst h; rw [if_pos (Nat.le_refl _), if_pos rfl, Nat.sub_self]
  · rw [if_neg h]
    by_cases h' : i ≤ k
    · rw [if_pos h', hd _ (by omega), mul_zero]
    · rw [if_neg h', hd _ (by omega), neg_zero, mul_zero]

theorem unpack_other (i : Nat) {rho : Bytes} (hr : rho.length = 32) (hi : i < 4) :
    Spec.unpackPos 10 (slice (otherPk rho) (32 + i * 320) 320) = if i = 0 then 512 :: List.replicate 255 0 else List.replicate 256 0 := by
  have e : slice (otherPk rho) (32 + i * 320) 320 = slice (0 :: 2 :: List.replicate 1278 0) (i * 320) 320 := by
    unfold slice otherPk
    rw [← List.drop_drop, List.drop_left' hr]
  rw [e]
  have : ∀ i, i < 4 → Spec.unpackPos 10 (slice (0 :: 2 :: List.replicate 1278 0) (i * 320) 320) = if i = 0 then 512 :: List.replicate 255 0 else List.replicate 256 0 := by decide +kernel
  exact this i hi

theorem co_t1_0 (k : Nat) : Spec.co (512 :: List.replicate 255 0) k = if k = 0 then 512 else 0 := by
  cases k with
  | zero => rfl
  | succ k =>
    unfold Spec.co
    rw [if_neg (Nat.succ_ne_zero k), List.getD_cons_succ, List.getD_eq_getElem?_getD, List.getElem?_replicate]
    split <;> rfl

/-- What the verifier recomputes from the other key, with z = 0 and no hints. -/
theorem w1_other (A : List Vec) {c : List Int} (hc : c.length = 256 ∧ ∀ x ∈ c, x = 0 ∨ x = 1 ∨ x = -1) {rho : Bytes} (hr : rho.length = 32) :
    Spec.w1Of A zeroVec (Spec.vec fun i => Spec.unpackPos 10 (slice (otherPk rho) (32 + i * 320) 320)) zeroVec c =
      Spec.vec fun i => Spec.mk fun j => if i = 0 then (if Spec.co c j = 0 then 0 else 22) else 0 := by
  unfold Spec.w1Of Spec.wApprox
  refine vec_ext (length_vec _) (length_vec _) fun i hi => ?_
  conv_rhs => rw [at_vec _ hi]
  rw [at_vec _ hi]
  refine co_ext (length_mk _) (length_mk _) fun j hj => ?_
  rw [co_mk _ hj, co_mk _ hj, co_zeroVec, at_vec _ hi, matVec_zeroVec, at_vec _ hi, at_vec _ hi, unpack_other i hr hi]
  unfold Spec.sub
  rw [co_mk _ hj, co_mk0]
  by_cases h0 : i = 0
  · rw [if_pos h0, if_pos h0]
    have hs : ∀ k, Spec.co (Spec.scale 8192 (512 :: List.replicate 255 0)) k = if k = 0 then 4194304 else 0 := fun k => by
      by_cases hk : k < 256
      · unfold Spec.scale
        rw [co_mk _ hk, co_t1_0]
        split <;> rfl
      · rw [if_neg (by omega)]
        unfold Spec.scale Spec.co
        rw [List.getD_eq_getElem?_getD, List.getElem?_eq_none (by rw [length_mk]; omega)]; rfl
    rw [co_mul_const _ _ (fun k hk => by rw [hs, if_neg hk]) hj, hs, if_pos rfl]
    rcases hc.2 _ (co_mem (a := c) (i := j) (by omega)) with h | h | h <;> rw [h] <;> decide
  · rw [if_neg h0, if_neg h0]
    have : ∀ k, Spec.co (Spec.scale 8192 (List.replicate 256 0)) k = 0 := fun k => by
      unfold Spec.scale
      simp only [co_zeros, mul_zero, Int.zero_emod]
      exact co_mk0 k
    rw [mul_zeros _ _ this, co_mk0]; decide

/-- If the signature made for the challenge of `k` is valid under `pk`, the challenge satisfies the equation of verification under `pk`. -/
theorem zeroSig_parts {pk k x y : Bytes} (h : Spec.Valid S128 S256 pk y (zeroSig k x)) : ∃ c A, Spec.IsBall S256 (zeroChallenge k x) c ∧
    zeroChallenge k x = S256 (S256 (S256 pk 64 ++ y) 64 ++ (Spec.w1Of A zeroVec (Spec.vec fun i => Spec.unpackPos 10 (slice pk (32 + i * 320) 320)) zeroVec c).flatMap (Spec.packPos 6)) 32 := by
  obtain ⟨ct, z, g, c, A, h1, h2, h3, h4, h5, e, h6, -, h7⟩ := h
  obtain ⟨r, -, hu⟩ := unpackSig_iff (length_zeroSig k x)
  have a := (hu _ _ _).2 ⟨⟨h1, h2, fun x hx => ⟨(h3 x hx).1, fun v hv => by have := (h3 x hx).2 v hv; omega⟩, h4, h5⟩, e⟩
  have b := (hu (zeroChallenge k x) zeroVec zeroVec).2 ⟨⟨Keccak.length_stream .., by decide, fun y hy => by
    obtain rfl := List.eq_of_mem_replicate hy
    refine ⟨List.length_replicate .., fun v hv => ?_⟩
    obtain rfl := List.eq_of_mem_replicate hv
    decide, ⟨by decide, fun y hy => by
    obtain rfl := List.eq_of_mem_replicate hy
    refine ⟨List.length_replicate .., fun v hv => ?_⟩
    obtain rfl := List.eq_of_mem_replicate hv
    exact .inl rfl⟩, by decide +kernel⟩, rfl⟩
  have e := b.symm.trans a
  simp only [Option.some.injEq, Prod.mk.injEq] at e
  obtain ⟨rfl, rfl, rfl⟩ := e
  exact ⟨c, A, h6, h7⟩

/-- The buffer with the challenge of the other key is not a signature under the first key. -/
theorem mixed_not_first {rho : Bytes} (hr : rho.length = 32) (er : ofLe rho = Run7.rho) : ¬ Spec.Valid S128 S256 (zeroPk rho) RunC.hash (zeroSig (otherPk rho) RunC.hash) := by
  intro h
  obtain ⟨c, A, -, h⟩ := zeroSig_parts h
  rw [w1_zero A c hr] at h
  have h := congrArg ofLe h
  rw [other_ct hr er] at h
  have h2 := challenge_num hr er hash_length hash_num Weak.e_mu Weak.e_ct
  rw [zeroChallenge] at h2
  rw [h2] at h
  exact Other.ct_ne h

set_option maxRecDepth 100000 in
/-- Nor is it one under the other key. -/
theorem mixed_not_other {rho : Bytes} (hr : rho.length = 32) (er : ofLe rho = Run7.rho) : ¬ Spec.Valid S128 S256 (otherPk rho) RunC.hash (zeroSig (otherPk rho) RunC.hash) := by
  intro h
  obtain ⟨c, A, hc, h⟩ := zeroSig_parts h
  have ec := ball_unique (Keccak.length_stream ..) hc (other_ball hr er)
  subst ec
  rw [w1_other A (ball_range hc) hr] at h
  have h := congrArg ofLe h
  have l : (S256 (S256 (otherPk rho) 64 ++ RunC.hash) 64).length = 64 := Keccak.length_stream ..
  have f : (Spec.vec fun i => Spec.mk fun j => if i = 0 then (if Spec.co (Other.ball.map dec) j = 0 then 0 else 22) else 0).flatMap (Spec.packPos 6) =
      Spec.packPos 6 (Spec.mk fun j => if Spec.co (Other.ball.map dec) j = 0 then 0 else 22) ++ List.replicate 576 0 := by decide +kernel
  have e : ofLe (Spec.packPos 6 (Spec.mk fun j => if Spec.co (Other.ball.map dec) j = 0 then 0 else 22) ++ List.replicate 576 0) = Other.w1 := by
    rw [ofLe_join Other.length_w1 Other.ofLe_w1 rfl (ofLe_zeros _), join_eq, Nat.mul_zero, Nat.add_zero]
  rw [f, other_ct hr er, ofLe_S256 (k := 1) (w := 256) (by omega) (l := 832) (by rw [List.length_append, l, List.length_append, Other.length_w1, List.length_replicate]) (ofLe_join l (other_mu hr er) rfl e) rfl, Other.e_ct3] at h
  exact Other.ct3_ne h

end Verif.Real
