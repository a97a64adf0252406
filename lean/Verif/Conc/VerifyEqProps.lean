import Verif.Conc.VerifyEq
import Verif.Conc.VerifyAcceptProps
import Verif.Conc.TwoKeys

/-!
C130: what `crypto_verify_dilithium` has verified when it returns 0, whatever other threads write in the meantime.
-/

namespace Verif.Conc
open Verif
open Verif.Real (weak_rho zeroPk otherPk zeroSig zeroVec zeroChallenge length_zeroSig length_otherPk view_block w1_zero other_ball mixed_not_first mixed_not_other)
open Verif.Witness (RunC.hash)
open Verif.Dilithium (S128 S256 Vec)
open Verif.Dilithium.Spec (Valid IsHint IsBall IsMatrix w1Of vec co at_ unpackAt unpackPos packPos encodeSig weight)

/-- `Equation` with one key, for vectors within the bounds, is validity of the encoded signature. -/
theorem equation_valid {pk msg sig : Bytes} : Valid S128 S256 pk msg sig ↔ ∃ ct z h, ct.length = 32 ∧ z.length = 4 ∧ (∀ x ∈ z, x.length = 256 ∧ ∀ v ∈ x, -(131072 - 78) < v ∧ v < 131072 - 78) ∧ IsHint h ∧ weight h ≤ 80 ∧
    sig = encodeSig ct z h ∧ Equation ct z h (slice pk 0 32) (vec fun i => unpackPos 10 (slice pk (32 + i * 320) 320)) pk msg := by
  constructor
  · rintro ⟨ct, z, h, c, A, h1, h2, h3, h4, h5, h6, h7, h8, h9⟩
    exact ⟨ct, z, h, h1, h2, h3, h4, h5, h6, c, A, h7, h8, h9⟩
  · rintro ⟨ct, z, h, h1, h2, h3, h4, h5, h6, c, A, h7, h8, h9⟩
    exact ⟨ct, z, h, c, A, h1, h2, h3, h4, h5, h6, h7, h8, h9⟩

/-- C130: `crypto_verify_dilithium` while other threads do anything at all to the memory it reads.  Whatever they are and whatever the schedule: if it returns 0, the signature length is 2420, the message has 1 to 64 bytes, and there are
a challenge hash, a seed, a public key and a message, every byte of which was at its place at some moment of the call, vectors `z` and `t1`, each coefficient of which is decoded from three or two bytes that were at its place at some
moment (neighbouring coefficients share a byte, which is read for each of them), and a vector `h` of four hint polynomials (coefficients 0 and 1) whose ones are at positions given by bytes
that were at some moment among the 255 bytes from the hint part of the signature on, such that z is within its bound and the equation of verification holds with the matrix of the seed, t1 and the hash of the key
(hybrid-dilithium-sphincs/hybrid.c:698-711, dilithium2/sign.c:257-328). -/
theorem verify_dilithium_equation {ι : Type} [DecidableEq ι] (fuel : Nat) {W : World} {p : ι → Prog Int} {i : ι} {m sm pk : Ptr} {mlen smlen : Nat} (hm : m.blk < W.sp) (hsm : sm.blk < W.sp) (hpk : pk.blk < W.sp)
    (hp : p i = verifyDilithiumSteps fuel (some m) mlen (some sm) smlen (some pk)) (s : List ι) (c : Conf ι Int) (hc : c = start W p) (h : ((c.run s).thr i).prog = .ret 0) :
    smlen = 2420 ∧ 1 ≤ mlen ∧ mlen ≤ 64 ∧ ∃ (ct rho pk2 msg : Bytes) (z t1 h : Vec), ct.length = 32 ∧ rho.length = 32 ∧ pk2.length = 1312 ∧ msg.length = mlen ∧
      Shown c s sm ct ∧ Shown c s pk rho ∧ Shown c s pk pk2 ∧ Shown c s m msg ∧
      z.length = 4 ∧ (∀ x ∈ z, x.length = 256 ∧ ∀ v ∈ x, -(131072 - 78) < v ∧ v < 131072 - 78) ∧
      (∀ i, i < 4 → ∀ j, j < 256 → ∃ y : Bytes, y.length = 3 ∧ Shown c s (sm.add (32 + i * 576 + 18 * j / 8)) y ∧ co (at_ z i) j = 131072 - ((ofLe y / 2 ^ (18 * j % 8) % 2 ^ 18 : Nat) : Int)) ∧
      t1.length = 4 ∧ (∀ x ∈ t1, x.length = 256) ∧
      (∀ i, i < 4 → ∀ j, j < 256 → ∃ y : Bytes, y.length = 2 ∧ Shown c s (pk.add (32 + i * 320 + 10 * j / 8)) y ∧ co (at_ t1 i) j = ((ofLe y / 2 ^ (10 * j % 8) % 2 ^ 10 : Nat) : Int)) ∧
      IsHint h ∧ (∀ x ∈ h, ∀ j, j < 256 → co x j ≠ 0 → ∃ o, o < 255 ∧ Held c s (sm.blk, sm.off + (2336 + o)) (BitVec.ofNat 8 j)) ∧
      ∃ b A, IsBall S256 ct b ∧ IsMatrix S128 rho A ∧ ct = S256 (S256 (S256 pk2 64 ++ msg) 64 ++ (w1Of A z t1 h b).flatMap (packPos 6)) 32 := by
  subst hc
  have := readsIn_run (F := fun _ => True) (A := fun a => a.1 < W.sp) (V := Held (start W p) s) (W := W) (p := p) (i := i) (by rw [hp]; exact reads_found (fun _ => trivial) (fun _ => hsm) (fun _ => hm) (fun _ => hpk)) (fun _ h => h) s
    (Or.inl trivial) (fun t ht a v _ hv => ⟨t, ht, hv⟩)
  rw [h] at this
  obtain ⟨h1, h2, h3, ct, rho, pk2, msg, z, t1, h, a1, a2, a3, a4, b1, b2, b3, b4, bz, fz, hz, bt, ft, lh, hh, e⟩ := this rfl
  have le : ∀ {x : Vec} {B : Nat}, Dilithium.VB x B → ∀ y ∈ x, y.length = 256 := fun {x _} hx y hy => by
    obtain ⟨i, hi, rfl⟩ := List.getElem_of_mem hy
    have := (hx.2 i (by have := hx.1; omega)).1
    rwa [at_, List.getD_eq_getElem?_getD, List.getElem?_eq_getElem hi] at this
  refine ⟨h1, h2, h3, ct, rho, pk2, msg, z, t1, h, a1, a2, a3, a4, b1, b2, b3, b4, bz.1, fun x hx => ⟨le bz x hx, hz x hx⟩, fun i hi j hj => ?_, bt.1, le bt, fun i hi j hj => ?_, ⟨lh, fun x hx => (hh x hx).1⟩, fun x hx => (hh x hx).2, e⟩
  · obtain ⟨y, hy, sy, ey⟩ := fz i hi j hj
    exact ⟨y, hy, fun k v hk => by have := sy k v hk; rwa [← Nat.add_assoc] at this, by rw [show 18 * j % 8 = 2 * (j % 4) by omega]; exact ey⟩
  · obtain ⟨y, hy, sy, ey⟩ := ft i hi j hj
    exact ⟨y, hy, fun k v hk => by have := sy k v hk; rwa [← Nat.add_assoc] at this, by rw [show 10 * j % 8 = 2 * (j % 4) by omega]; exact ey⟩

/-- C130: the two keys can really differ.  Let the signature buffer encode `ct`, `z` and `h` within their bounds, with the equation for the matrix and t1 of the key in memory and the hash of another one.  Let a thread write some bytes
that turn the key in memory into the other one and leave the message.  Then there is a schedule such that the call returns 0 (dilithium2/sign.c:277, 286). -/
theorem verify_dilithium_two_keys {W : World} (hW : W.WF) {m sm pk q : Ptr} {mlen : Nat} {ct msg pk1 pk2 y : Bytes} {z h : Vec} (lct : ct.length = 32) (lz : z.length = 4)
    (hz : ∀ x ∈ z, x.length = 256 ∧ ∀ v ∈ x, -(131072 - 78) < v ∧ v < 131072 - 78) (hh : IsHint h) (hw : weight h ≤ 80) (he : Equation ct z h (slice pk1 0 32) (vec fun i => unpackPos 10 (slice pk1 (32 + i * 320) 320)) pk2 msg) (hv : W.view sm 2420 = some (encodeSig ct z h))
    (hm : W.view m mlen = some msg) (hp : W.view pk 1312 = some pk1) (hq : (W.view q y.length).isSome) (hp' : (W.write q y).view pk 1312 = some pk2) (hm' : (W.write q y).view m mlen = some msg) (h1 : 1 ≤ mlen) (h64 : mlen ≤ 64) :
    ∃ F, ∀ fuel, F ≤ fuel → ∃ s, (((duo W (verifyDilithiumSteps fuel (some m) mlen (some sm) 2420 (some pk)) (overwrite q y)).run s).thr false).prog = .ret 0 := by
  have hsp : q.blk < W.sp := blk_lt hW hq
  have l2 := length_of_view hp'
  have l1 := length_of_view hp
  have lm := length_of_view hm
  have lrho : (slice pk1 0 32).length = 32 := length_slice (by omega)
  have parts : Dilithium.SigParts ct z h := ⟨lct, lz, fun x hx => ⟨(hz x hx).1, fun v hv => by have := (hz x hx).2 v hv; omega⟩, hh, hw⟩
  obtain ⟨r, hu, hr⟩ := Dilithium.unpackSig_iff (length_of_view hv)
  have er := (hr ct z h).2 ⟨parts, rfl⟩
  subst er
  obtain ⟨c, A, hc, hA, he⟩ := he
  obtain ⟨F, hF⟩ := Dilithium.polyChallenge_complete lct hc
  obtain ⟨G, hG⟩ := Dilithium.matrixExpand_complete lrho hA
  refine ⟨max F G, fun fuel hf => ?_⟩
  have rdm : ∀ {W : World} {p : Ptr} {n : Nat} {y : Bytes}, W.view p n = some y → exec (readMem p n) W = .ok (y, W) := fun h => by rw [exec_readMem]; exact readMem_ok h
  have bz : Dilithium.VB z 131073 := ⟨lz, fun i hi => Dilithium.PB_of_mem (hz _ (Dilithium.at_mem (by omega))).1 fun x hx => by
    have := (hz _ (Dilithium.at_mem (v := z) (i := i) (by omega))).2 x hx; omega⟩
  obtain ⟨b, eb, hb⟩ := Dilithium.vecChknorm_ok (B := 130994) (bz.mono (by omega)) (by omega)
  have hb : b = false := hb.2 ((Dilithium.zbound_iff lz fun x hx => (hz x hx).1).2 fun x hx => (hz x hx).2)
  subst hb
  have bt1 : Dilithium.VB (vec fun i => unpackPos 10 (slice pk1 (32 + i * 320) 320)) 1024 := ⟨Dilithium.length_vec _, fun i hi => by
    rw [Dilithium.at_vec _ hi]; exact Dilithium.PB_of_mem Dilithium.length_unpackPos fun x hx => by have := Dilithium.unpackPos_bound x hx; omega⟩
  have bt1n : ∀ i, i < 4 → ∀ j, j < 256 → 0 ≤ co (Dilithium.Spec.at_ (vec fun i => unpackPos 10 (slice pk1 (32 + i * 320) 320)) i) j := fun i hi j hj => by
    rw [Dilithium.at_vec _ hi]
    exact (Dilithium.unpackPos_bound _ (Dilithium.co_mem (a := unpackPos 10 _) (by rw [Dilithium.length_unpackPos]; exact hj))).1
  have lmu : (S256 (S256 pk2 64 ++ msg) 64).length = 64 := Keccak.length_stream ..
  have ltr : (S256 pk2 64).length = 64 := Keccak.length_stream ..
  have sw : Sw W (W.write q y) (verifyDilithiumSteps fuel (some m) mlen (some sm) 2420 (some pk)) 0 := by
    simp only [verifyDilithiumSteps]
    rw [if_neg (by omega)]
    refine Sw.bind (a := 0) ?_ rfl
    unfold dilVerifySteps
    rw [if_neg (by decide)]
    refine sw_step (exec_copyIn_zeros hp (by omega)) (sw_step (exec_readT1 hp) ?_)
    refine sw_step (a := some (ct, z, h)) (by rw [exec_unpackSig hv, hu]; rfl) ?_
    simp only
    refine sw_step (a := false) (by rw [exec_liftC_at]; show (Dilithium.vecChknorm z 130994 >>= _) = _; rw [eb]; rfl) ?_
    rw [if_neg (by decide)]
    refine sw_now ?_
    rw [exec_bind_ok (rdm hp'), exec_bind_ok (a := S256 pk2 64) (W' := W.write q y) (by rw [exec_liftC_at, Dilithium.shake256_ok 64 pk2 1312 l2.symm (List.length_replicate ..).symm]; rfl), exec_bind_ok (rdm hm'),
      exec_bind_ok (a := S256 (S256 pk2 64 ++ msg) 64) (W' := W.write q y) (by
        rw [exec_liftC_at, Dilithium.shake256Inc2_ok ltr.symm (by omega) (by omega), splice_all (by rw [Keccak.length_stream, ltr]), ← lm, List.take_length]; rfl),
      exec_liftC_at, verifyRest_eq fuel lrho bt1 bt1n lct bz hh lmu, hF fuel (by omega), ok_bind, hG fuel (by omega), ok_bind, if_pos he]
    rfl
  obtain ⟨r, s1, s2⟩ := sw
  obtain ⟨s, c1, -⟩ := duo_leads hW (q := q) (y := y) hsp s1 (fun U hU => exec_overwrite (by rw [view_congr (p := q) (hU _ hsp)]; exact hq)) (leads_exec s2)
  exact ⟨s, c1⟩

/-! ### A concrete case: two keys that differ in one byte -/

/-- Memory with the first key and the buffer made from the hash of the other one, for which the call returns 0 if one byte of the key changes in the meantime. -/
theorem mixed_accepted {rho : Bytes} {A : List Vec} (hr : rho.length = 32) (er : ofLe rho = Witness.Run7.rho) (hA : IsMatrix S128 rho A) :
    ∃ (fuel : Nat) (s : List Bool), (((duo (threeBlocks (zeroSig (otherPk rho) RunC.hash) (zeroPk rho) RunC.hash) (verifyDilithiumSteps fuel (some ⟨2, 0⟩) 64 (some ⟨0, 0⟩) 2420 (some ⟨1, 0⟩)) (overwrite ⟨1, 33⟩ [2])).run s).thr
      false).prog = .ret 0 := by
  have lp : (zeroPk rho).length = 1312 := by rw [zeroPk, List.length_append, hr, List.length_replicate]
  have hW := threeBlocks_WF (zeroSig (otherPk rho) RunC.hash) (zeroPk rho) RunC.hash
  have v0 : (threeBlocks (zeroSig (otherPk rho) RunC.hash) (zeroPk rho) RunC.hash).view ⟨0, 0⟩ 2420 = some (encodeSig (zeroChallenge (otherPk rho) RunC.hash) zeroVec zeroVec) := view_block rfl (length_zeroSig _ _)
  have v1 : (threeBlocks (zeroSig (otherPk rho) RunC.hash) (zeroPk rho) RunC.hash).view ⟨1, 0⟩ 1312 = some (zeroPk rho) := view_block rfl lp
  have v2 : (threeBlocks (zeroSig (otherPk rho) RunC.hash) (zeroPk rho) RunC.hash).view ⟨2, 0⟩ 64 = some RunC.hash := view_block rfl (by decide +kernel)
  have m1 : (threeBlocks (zeroSig (otherPk rho) RunC.hash) (zeroPk rho) RunC.hash).mem 1 = some (zeroPk rho) := rfl
  have zz : ∀ y ∈ zeroVec, y.length = 256 ∧ ∀ v ∈ y, v = 0 := fun y hy => by
    obtain rfl := List.eq_of_mem_replicate hy
    exact ⟨List.length_replicate .., fun v hv => List.eq_of_mem_replicate hv⟩
  have sp : splice (zeroPk rho) 33 [2] = otherPk rho := by
    unfold splice zeroPk otherPk
    rw [List.take_append, List.drop_append, hr, List.take_of_length_le (by omega), List.drop_of_length_le (l := rho) (by rw [hr]; show 32 ≤ 34; omega), List.append_assoc, List.append_assoc]
    congr 1
  generalize threeBlocks (zeroSig (otherPk rho) RunC.hash) (zeroPk rho) RunC.hash = W at *
  have we := write_eq (W := W) (p := ⟨1, 33⟩) (x := [2]) m1 (by rw [lp]; decide)
  obtain ⟨F, hF⟩ := verify_dilithium_two_keys hW (m := ⟨2, 0⟩) (sm := ⟨0, 0⟩) (pk := ⟨1, 0⟩) (q := ⟨1, 33⟩) (y := [2]) (mlen := 64) (ct := zeroChallenge (otherPk rho) RunC.hash) (pk2 := otherPk rho) (Keccak.length_stream ..) (by decide)
    (fun x hx => ⟨(zz x hx).1, fun v hv => by rw [(zz x hx).2 v hv]; decide⟩) ⟨by decide, fun x hx => ⟨(zz x hx).1, fun v hv => Or.inl ((zz x hx).2 v hv)⟩⟩ (by decide +kernel)
    ⟨_, A, other_ball hr er, by
      have : slice (zeroPk rho) 0 32 = rho := by unfold slice zeroPk; rw [List.drop_zero, List.take_left' hr]
      rw [this]; exact hA, by rw [w1_zero A _ hr]; rfl⟩ v0 v2 v1 (by unfold World.view; simp only [m1]; rw [if_pos (by rw [lp]; decide)]; rfl)
    (view_block (by rw [we]; show Function.update W.mem 1 (some (splice (zeroPk rho) 33 [2])) 1 = _; rw [Function.update_self, sp]) (length_otherPk hr)) (by rw [view_write_disj (Or.inl (by decide))]; exact v2) (by omega) (by omega)
  obtain ⟨s, h⟩ := hF F (Nat.le_refl F)
  exact ⟨F, s, h⟩

/-- Whatever the schedule, the only keys that can be put together from bytes in the key buffer are the two. -/
theorem mixed_shown {rho : Bytes} (hr : rho.length = 32) (fuel : Nat) (s : List Bool) {c : Conf Bool Int}
    (hc : c = duo (threeBlocks (zeroSig (otherPk rho) RunC.hash) (zeroPk rho) RunC.hash) (verifyDilithiumSteps fuel (some ⟨2, 0⟩) 64 (some ⟨0, 0⟩) 2420 (some ⟨1, 0⟩)) (overwrite ⟨1, 33⟩ [2])) {sig msg pkb : Bytes}
    (ls : sig.length = 2420) (lm : msg.length = 64) (lk : pkb.length = 1312) (hs : Shown c s ⟨0, 0⟩ sig) (hm : Shown c s ⟨2, 0⟩ msg) (hk : Shown c s ⟨1, 0⟩ pkb) :
    sig = zeroSig (otherPk rho) RunC.hash ∧ msg = RunC.hash ∧ (pkb = zeroPk rho ∨ pkb = otherPk rho) := by
  have lp : (zeroPk rho).length = 1312 := by rw [zeroPk, List.length_append, hr, List.length_replicate]
  have v0 : (threeBlocks (zeroSig (otherPk rho) RunC.hash) (zeroPk rho) RunC.hash).view ⟨0, 0⟩ 2420 = some (zeroSig (otherPk rho) RunC.hash) := view_block rfl (length_zeroSig _ _)
  have v1 : (threeBlocks (zeroSig (otherPk rho) RunC.hash) (zeroPk rho) RunC.hash).view ⟨1, 0⟩ 1312 = some (zeroPk rho) := view_block rfl lp
  have v2 : (threeBlocks (zeroSig (otherPk rho) RunC.hash) (zeroPk rho) RunC.hash).view ⟨2, 0⟩ 64 = some RunC.hash := view_block rfl (by decide +kernel)
  have hsp : (threeBlocks (zeroSig (otherPk rho) RunC.hash) (zeroPk rho) RunC.hash).sp = 3 := rfl
  generalize threeBlocks (zeroSig (otherPk rho) RunC.hash) (zeroPk rho) RunC.hash = W at *
  have hin : ∀ i : Bool, Within W.sp (fun _ => True) (fun a => i = true ∧ a = (1, 33)) (if i then overwrite ⟨1, 33⟩ [2] else verifyDilithiumSteps fuel (some ⟨2, 0⟩) 64 (some ⟨0, 0⟩) 2420 (some ⟨1, 0⟩)) := by
    intro i
    cases i with
    | true => exact ⟨fun _ => ⟨rfl, rfl⟩, trivial⟩
    | false => rw [if_neg (by decide)]; exact verify_only_reads.within
  have kept : ∀ {a : Addr} {v : Byte}, a.1 < 3 → a ≠ (1, 33) → Held c s a v → byteAt W.mem a = some v := by
    rintro a v ha hne ⟨t, -, ht⟩
    subst hc
    have := byte_kept hin t (a := a) (by omega) (by rintro i ⟨-, e⟩; exact hne e)
    rw [← this]; exact ht
  refine ⟨eq_of_bytes v0 ls fun k v h => kept (by simp) (by intro e; injection e with e; exact absurd e (by decide)) (hs k v h), eq_of_bytes v2 lm fun k v h => kept (by simp) (by intro e; injection e with e; exact absurd e (by decide)) (hm k v h), ?_⟩
  have new : ∀ {v : Byte}, pkb[33]? = some v → v = 0 ∨ v = 2 := by
    intro v h
    obtain ⟨t, -, ht⟩ := hk 33 v h
    subst hc
    obtain ⟨-, k2, k3⟩ := byte_origin hin t
    rcases k3 (1, 33) v (by show 1 < W.sp; omega) ht with h | ⟨i, h⟩
    · have e := byteAt_view v1 (k := 33) (by omega)
      have h : byteAt W.mem (1, 0 + 33) = some v := h
      rw [e, zeroPk, List.getElem?_append_right (by omega), hr] at h
      left
      exact (Option.some.inj h).symm
    · obtain ⟨rfl, -⟩ := k2 _ _ _ h
      obtain ⟨k4, -⟩ := safe_run (G := fun _ _ u => u = 2) (Q := fun _ _ _ _ _ => True) (W := W) (p := fun i : Bool => if i then overwrite ⟨1, 33⟩ [2] else verifyDilithiumSteps fuel (some ⟨2, 0⟩) 64 (some ⟨0, 0⟩) 2420 (some ⟨1, 0⟩))
        (i := true) ⟨fun _ => ⟨rfl, trivial⟩, fun hb => absurd hb (by show ¬ W.sp ≤ 1; omega)⟩ t
      obtain ⟨-, -, h⟩ := k4 _ _ h
      exact Or.inr h
  have others : ∀ k, k ≠ 33 → k < 1312 → pkb[k]? = (zeroPk rho)[k]? := fun k hne hk' => by
    obtain ⟨v, hv⟩ : ∃ v, pkb[k]? = some v := ⟨_, List.getElem?_eq_getElem (by omega)⟩
    have := kept (by show 1 < 3; omega) (by intro e; injection e with _ e; have e : 0 + k = 33 := e; omega) (hk k v hv)
    rw [byteAt_view v1 hk'] at this
    rw [hv, this]
  have lo := length_otherPk hr
  obtain ⟨v, hv⟩ : ∃ v, pkb[33]? = some v := ⟨_, List.getElem?_eq_getElem (by omega)⟩
  have z33 : (zeroPk rho)[33]? = some 0 := by rw [zeroPk, List.getElem?_append_right (by omega), hr]; rfl
  have o33 : (otherPk rho)[33]? = some 2 := by rw [otherPk, List.getElem?_append_right (by omega), hr]; rfl
  have oth : ∀ k, k ≠ 33 → (otherPk rho)[k]? = (zeroPk rho)[k]? := fun k hk => by
    rw [otherPk, zeroPk]
    by_cases h : k < 32
    · rw [List.getElem?_append_left (by omega), List.getElem?_append_left (by omega)]
    · rw [List.getElem?_append_right (by omega), List.getElem?_append_right (by omega), hr]
      obtain ⟨d, rfl⟩ := Nat.exists_eq_add_of_le (Nat.le_of_not_lt h)
      rw [Nat.add_sub_cancel_left]
      match d with
      | 0 => rfl
      | 1 => exact absurd rfl hk
      | d + 2 => rfl
  rcases new hv with rfl | rfl
  · left
    apply List.ext_getElem?
    intro k
    by_cases h1 : k < 1312
    · by_cases h2 : k = 33
      · rw [h2, hv, z33]
      · exact others k h2 h1
    · rw [List.getElem?_eq_none (by omega), List.getElem?_eq_none (by omega)]
  · right
    apply List.ext_getElem?
    intro k
    by_cases h1 : k < 1312
    · by_cases h2 : k = 33
      · rw [h2, hv, o33]
      · rw [oth k h2]; exact others k h2 h1
    · rw [List.getElem?_eq_none (by omega), List.getElem?_eq_none (by omega)]

/-- C130: one key for both cannot be had.  A call returns 0 while a thread changes a single byte of the key and nothing else, although the buffer is not a signature of the message under any key that can be put together from bytes that were
in the key buffer (hybrid-dilithium-sphincs/hybrid.c:698-711, dilithium2/sign.c:277, 286). -/
theorem verify_dilithium_one_key_false :
    ¬ ∀ (fuel : Nat) (W : World) (other : Prog Int) (m sm pk : Ptr) (mlen : Nat), W.WF → (W.view m mlen).isSome → (W.view sm 2420).isSome → (W.view pk 1312).isSome →
      Within W.sp (fun _ => False) (fun a => a.1 = pk.blk ∧ pk.off ≤ a.2 ∧ a.2 < pk.off + 1312) other →
      ∀ (s : List Bool) (c : Conf Bool Int), c = duo W (verifyDilithiumSteps fuel (some m) mlen (some sm) 2420 (some pk)) other → ((c.run s).thr false).prog = .ret 0 →
      ∃ sig msg pkb : Bytes, sig.length = 2420 ∧ msg.length = mlen ∧ pkb.length = 1312 ∧ Shown c s sm sig ∧ Shown c s m msg ∧ Shown c s pk pkb ∧ Valid S128 S256 pkb msg sig := by
  intro claim
  obtain ⟨rho, A, hr, er, hA⟩ := weak_rho
  obtain ⟨fuel, s, h⟩ := mixed_accepted hr er hA
  have lp : (zeroPk rho).length = 1312 := by rw [zeroPk, List.length_append, hr, List.length_replicate]
  obtain ⟨sig, msg, pkb, ls, lm, lk, hs, hm, hk, hv⟩ := claim fuel (threeBlocks (zeroSig (otherPk rho) RunC.hash) (zeroPk rho) RunC.hash) (overwrite ⟨1, 33⟩ [2]) ⟨2, 0⟩ ⟨0, 0⟩ ⟨1, 0⟩ 64 (threeBlocks_WF _ _ _)
    (by rw [view_block rfl (by decide +kernel)]; rfl) (by rw [view_block rfl (length_zeroSig _ _)]; rfl) (by rw [view_block rfl lp]; rfl) ⟨fun _ => ⟨rfl, by decide, by decide⟩, trivial⟩ s _ rfl h
  obtain ⟨rfl, rfl, rfl | rfl⟩ := mixed_shown hr fuel s rfl ls lm lk hs hm hk
  · exact mixed_not_first hr er hv
  · exact mixed_not_other hr er hv

/-- The hypotheses of `verify_dilithium_equation` can be met, with a thread that writes into the key; those of `verify_dilithium_two_keys` are met, with two different keys, in the proof of `mixed_accepted`. -/
example : ∃ (W : World) (fuel : Nat) (s : List Bool), (((duo W (verifyDilithiumSteps fuel (some ⟨2, 0⟩) 64 (some ⟨0, 0⟩) 2420 (some ⟨1, 0⟩)) (overwrite ⟨1, 33⟩ [2])).run s).thr false).prog = .ret 0 := by
  obtain ⟨rho, A, hr, er, hA⟩ := weak_rho
  obtain ⟨fuel, s, h⟩ := mixed_accepted hr er hA
  exact ⟨_, fuel, s, h⟩

end Verif.Conc
