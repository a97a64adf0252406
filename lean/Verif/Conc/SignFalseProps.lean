import Verif.Conc.SignAttackProps
import Verif.Conc.RaceFalseProps
import Verif.Witness.Only

/-!
Property C126: what a signing call leaves is not always a signature of one message.
-/

namespace Verif.Conc
open Verif
open Verif.Hybrid (compactWire fullWire zeros skDil skSpx skSpxPk sk_parts)
open Verif.Real (real CompactSigned FullSigned view_block)
open Verif.Dilithium (S128 S256 isShake128_S128 isShake256_S256)
open Verif.Witness (nonceC RunC.hash hashC)

/-- A random source whose draws of the length of `b` give `b` (the caller of random/randombytes.c:358-391 may see any bytes). -/
def fixedRng (b : Bytes) : Rng where
  draw := fun _ n => if n = b.length then some b else some (zeros n)
  len_draw := by
    intro i n x hx
    by_cases hn : n = b.length
    · rw [if_pos hn] at hx; cases hx; exact hn.symm
    · rw [if_neg hn] at hx; cases hx; exact List.length_replicate
  log := []

/-- Memory with a message, a signature buffer, a secret key and a length (no line of its own). -/
def signBlocks (mb sb skb rnd : Bytes) : World :=
  { mem := fun b => if b = 0 then some mb else if b = 1 then some sb else if b = 2 then some skb else if b = 3 then some (zeros 8) else none, sp := 4, rng := fixedRng rnd }

theorem signBlocks_WF (mb sb skb rnd : Bytes) : (signBlocks mb sb skb rnd).WF := by
  intro b hb
  have hb : 4 ≤ b := hb
  show (if b = 0 then some mb else if b = 1 then some sb else if b = 2 then some skb else if b = 3 then some (zeros 8) else none) = none
  rw [if_neg (by omega), if_neg (by omega), if_neg (by omega), if_neg (by omega)]

/-- What was at a place that no thread writes is what was there at the start. -/
theorem shown_unchanged {ι : Type} [DecidableEq ι] {W : World} {p : ι → Prog Int} {R S : ι → Addr → Prop} (hin : ∀ i, Within W.sp (R i) (S i) (p i)) {s : List ι} {B o n : Nat} {x b : Bytes} (hB : B < W.sp)
    (hb : W.mem B = some b) (h : Shown (start W p) s ⟨B, o⟩ x) (hx : x.length = n) (hS : ∀ i k, ¬ S i (B, k)) : x = (b.drop o).take n := by
  refine List.ext_getElem? fun k => ?_
  rw [List.getElem?_take]
  by_cases hk : k < n
  · rw [if_pos hk, List.getElem?_drop, List.getElem?_eq_getElem (by omega)]
    obtain ⟨t, -, h2⟩ := h k _ (List.getElem?_eq_getElem (by omega))
    obtain ⟨-, o2, o3⟩ := byte_origin hin t
    rcases o3 _ _ hB h2 with h | ⟨i, h⟩
    · unfold byteAt at h
      simp only [hb, Option.bind_some] at h
      exact h.symm
    · exact absurd (o2 _ _ _ h) (hS i _)
  · rw [if_neg hk, List.getElem?_eq_none (by omega)]

/-- If the bytes of a block differ from those at the start and only one thread writes there, it has stored them; what it has stored is then the whole output. -/
theorem output_final {W : World} {p : Bool → Prog Int} {R S : Bool → Addr → Prop} (hin : ∀ i, Within W.sp (R i) (S i) (p i)) {s : List Bool} {B D n : Nat} {x sig : Bytes} (hB : B < W.sp) (hBD : B ≠ D)
    (hb : W.mem B = some (x.map (· + 1))) (hS : ∀ k, ¬ S true (B, k)) (hx : x.length = n) (hv : ((start W p).run s).common.view ⟨B, 0⟩ n = some x)
    (hs : ∀ a v, Stored (start W p) false s a v ↔ Output ⟨B, 0⟩ ⟨D, 0⟩ sig a v) (hl : sig.length = n) : sig = x := by
  obtain ⟨-, o2, o3⟩ := byte_origin hin s
  refine List.ext_getElem? fun k => ?_
  by_cases hk : k < n
  swap
  · rw [List.getElem?_eq_none (by omega), List.getElem?_eq_none (by omega)]
  obtain ⟨b, e1, e2, e3⟩ := view_eq_some.1 hv
  have e1 : ((start W p).run s).mem B = some b := e1
  have hbk : b[k]? = x[k]? := by
    rw [e3, slice, List.getElem?_take, if_pos hk, List.drop_zero]
  have last : byteAt ((start W p).run s).mem (B, k) = some x[k] := by
    unfold byteAt
    simp only [e1, Option.bind_some]
    rw [hbk, List.getElem?_eq_getElem]
  have st : Stored (start W p) false s (B, k) x[k] := by
    rcases o3 _ _ hB last with h | ⟨i, h⟩
    · unfold byteAt at h
      simp only [hb, Option.bind_some, List.getElem?_map, List.getElem?_eq_getElem (show k < x.length by omega), Option.map_some, Option.some.injEq] at h
      exact absurd h (by generalize x[k] = v; revert v; decide)
    · cases i with
      | false => exact h
      | true => exact absurd (o2 _ _ _ h) (hS k)
  rcases (hs _ _).1 st with ⟨j, h1, h2⟩ | ⟨j, -, h2⟩
  · simp only [Prod.mk.injEq, true_and, Nat.zero_add] at h2
    subst h2
    rw [h1, List.getElem?_eq_getElem]
  · simp only [Prod.mk.injEq] at h2
    exact absurd h2.1 hBD

theorem w_overwrite {base : Nat} {R S : Addr → Prop} {B : Nat} {x : Bytes} (h : ∀ k, S (B, k)) : Within base R S (overwrite ⟨B, 0⟩ x) := by
  unfold overwrite copyOut
  exact Within.bind (w_loopM fun k _ _ h2 => (w_liftC _).bind fun _ => ⟨fun _ => h _, trivial⟩) fun _ => trivial

/-- The Dilithium key inside a secret key of which the used bytes are known. -/
theorem skDil_of_take {skb sk0 : Bytes} (h : skb.take 2624 = (sk0.drop 0).take 2624) : skDil skb = skDil sk0 := by
  have e : ∀ l : Bytes, skDil l = (l.take 2624).drop 64 := fun l => by rw [skDil, List.drop_take]
  rw [e, e, h, List.drop_zero]

theorem skSpxPk_of_drop {skb sk0 : Bytes} (h : skb.drop 4000 = (sk0.drop 4000).take 64) : skSpxPk skb = skSpxPk sk0 := by
  rw [skSpxPk, h, List.take_take]; rfl

/-- C126: what `compact_sign_under_writers_partial` leaves open is false.  In the run of `compact_sign_other` with the message [2], some key pair and a thread that replaces it by [3], the call returns 0 and what it has
stored is not a compact signature, made with a secret key whose bytes were in memory, of any message that was there (hybrid-dilithium-sphincs/hybrid.c:507-511, 557-559). -/
theorem compact_sign_under_writers_false :
    ¬ ∀ (fuel : Nat) (W : World) (p : Bool → Prog Int) (i : Bool) (sm smlen m sk : Ptr) (mlen : Nat), sm.blk < W.sp → smlen.blk < W.sp → m.blk < W.sp → sk.blk < W.sp →
      p i = Conc.signCompact (real fuel) (some sm) (some smlen) (some m) mlen (some sk) → ∀ (s : List Bool) (c : Conf Bool Int), c = start W p → ((c.run s).thr i).prog = .ret 0 →
        ∃ skb msg nonce sig, skb.length = 4064 ∧ msg.length = mlen ∧ nonce.length = 40 ∧ Shown c s sk (skb.take 2624) ∧ Shown c s (sk.add 4000) (skb.drop 4000) ∧ Shown c s m msg ∧
          CompactSigned S128 S256 skb msg nonce sig ∧ ∀ a v, Stored c i s a v ↔ Output sm smlen sig a v := by
  intro claim
  obtain ⟨dpk, dsk, dsig, hk, hs, hno⟩ := Witness.Run7.onlyC
  obtain ⟨l1, l2⟩ : dpk.length = 1312 ∧ dsk.length = 2560 := by
    have hl : (7 :: List.replicate 31 0 : Bytes).length = 32 := by rw [List.length_cons, List.length_replicate]
    obtain ⟨F, hF⟩ := (Dilithium.dil_keygen_spec (pk := zeros 1312) (sk := zeros 2560) isShake128_S128 isShake256_S256 List.length_replicate List.length_replicate hl).2.2 _ _ hk
    exact ((Dilithium.dil_keygen_spec (pk := zeros 1312) (sk := zeros 2560) isShake128_S128 isShake256_S256 List.length_replicate List.length_replicate hl).2.1 _ _ _ _ (hF F (Nat.le_refl _))).2.2
  have ld := Real.dilSigned_length isShake128_S128 isShake256_S256 l2 hs
  obtain ⟨-, q2, -, q4⟩ := sk_parts (a := List.replicate 64 0) (d := List.replicate 128 0) List.length_replicate l2 l1 List.length_replicate
  have q4 := q4.trans (List.drop_replicate ..)
  have lk : (List.replicate 64 0 ++ dsk ++ dpk ++ List.replicate 128 0 : Bytes).length = 4064 := by
    rw [List.length_append, List.length_append, List.length_append, List.length_replicate, List.length_replicate]; omega
  generalize (List.replicate 64 0 ++ dsk ++ dpk ++ List.replicate 128 0 : Bytes) = sk0 at q2 q4 lk
  have le := Ed25519.length_specSign (sk0.take 32) ((sk0.drop 32).take 32) RunC.hash
  have hok : CompactSigned S128 S256 sk0 [2] nonceC (compactWire (Ed25519.Spec.sign (sk0.take 32) ((sk0.drop 32).take 32) RunC.hash) dsig nonceC [2]) :=
    ⟨RunC.hash, 0, dsig, by rw [q4]; exact hashC, by rw [q2]; exact hs, rfl⟩
  generalize Ed25519.Spec.sign (sk0.take 32) ((sk0.drop 32).take 32) RunC.hash = ed at le hok
  have ln : nonceC.length = 40 := by decide
  have wl : (compactWire ed dsig nonceC [2]).take 2526 ++ [3] = compactWire ed dsig nonceC [3] := by
    have e : ∀ x : Byte, compactWire ed dsig nonceC [x] = ([1, 1] ++ ed ++ dsig ++ nonceC) ++ [x] := fun _ => rfl
    rw [e, e, List.take_left']
    rw [List.length_append, List.length_append, List.length_append, le, ld, ln]; rfl
  have lw : (compactWire ed dsig nonceC [3]).length = 2527 := length_wire le ld ln
  have hWF := signBlocks_WF [2] ((compactWire ed dsig nonceC [3]).map (· + 1)) sk0 nonceC
  have b0 : (signBlocks [2] ((compactWire ed dsig nonceC [3]).map (· + 1)) sk0 nonceC).mem 0 = some [2] := rfl
  have b1 : (signBlocks [2] ((compactWire ed dsig nonceC [3]).map (· + 1)) sk0 nonceC).mem 1 = some ((compactWire ed dsig nonceC [3]).map (· + 1)) := rfl
  have b2 : (signBlocks [2] ((compactWire ed dsig nonceC [3]).map (· + 1)) sk0 nonceC).mem 2 = some sk0 := rfl
  have b3 : (signBlocks [2] ((compactWire ed dsig nonceC [3]).map (· + 1)) sk0 nonceC).mem 3 = some (zeros 8) := rfl
  have bsp : (signBlocks [2] ((compactWire ed dsig nonceC [3]).map (· + 1)) sk0 nonceC).sp = 4 := rfl
  have bn : (signBlocks [2] ((compactWire ed dsig nonceC [3]).map (· + 1)) sk0 nonceC).rng.draw (signBlocks [2] ((compactWire ed dsig nonceC [3]).map (· + 1)) sk0 nonceC).rng.log.length 40 = some nonceC := by
    show (if 40 = nonceC.length then some nonceC else some (zeros 40)) = _
    rw [if_pos ln.symm]
  generalize signBlocks [2] ((compactWire ed dsig nonceC [3]).map (· + 1)) sk0 nonceC = W at hWF b0 b1 b2 b3 bsp bn
  obtain ⟨F, hF⟩ := compact_sign_other hWF (sm := ⟨1, 0⟩) (smlen := ⟨3, 0⟩) (m := ⟨0, 0⟩) (sk := ⟨2, 0⟩) (msg := [2]) (x := [3]) (view_block b0 rfl) (view_block b2 lk)
    (by rw [view_block b1 (n := 2526 + [2].length) (by rw [List.length_map, lw]; rfl)]; rfl) (by rw [view_block b3 (n := 8) (by simp)]; rfl) (Or.inl (by decide)) (Or.inl (by decide)) (by decide) (by decide) bn hok rfl
  obtain ⟨s, c, hc, h0, hv, -⟩ := hF F (Nat.le_refl _)
  rw [wl] at hv
  unfold duo at hc
  generalize hp : (fun i : Bool => if i = true then overwrite ⟨0, 0⟩ [3] else Conc.signCompact (real F) (some ⟨1, 0⟩) (some ⟨3, 0⟩) (some ⟨0, 0⟩) [2].length (some ⟨2, 0⟩)) = p at hc
  have hpf : p false = Conc.signCompact (real F) (some ⟨1, 0⟩) (some ⟨3, 0⟩) (some ⟨0, 0⟩) 1 (some ⟨2, 0⟩) := by rw [← hp]; rfl
  have hpt : p true = overwrite ⟨0, 0⟩ [3] := by rw [← hp]; rfl
  let S : Bool → Addr → Prop := fun i a => if i then a.1 = 0 else a.1 = 1 ∨ a.1 = 3
  have hin : ∀ i, Within W.sp (fun _ => True) (S i) (p i) := by
    intro i
    cases i with
    | true => rw [hpt]; exact w_overwrite fun k => rfl
    | false =>
      rw [hpf]
      exact w_signCompact _ (fun _ _ _ _ _ => trivial) (fun _ _ _ _ _ => trivial) (fun q hq _ _ _ => by cases hq; exact Or.inl rfl) (fun q hq _ _ _ => by cases hq; exact Or.inr rfl)
  obtain ⟨skb, msg, nonce, sig, g1, g2, g3, s1, s2, s3, hsg, hst⟩ := claim F W p false ⟨1, 0⟩ ⟨3, 0⟩ ⟨0, 0⟩ ⟨2, 0⟩ 1 (by rw [bsp]; decide) (by rw [bsp]; decide) (by rw [bsp]; decide) (by rw [bsp]; decide) hpf s _ rfl
    (by rw [← hc]; exact h0)
  have hS2 : ∀ i k, ¬ S i (2, k) := by
    intro i k
    cases i with
    | true => exact fun h => absurd (show 2 = 0 from h) (by decide)
    | false => exact fun h => absurd (show 2 = 1 ∨ 2 = 3 from h) (by decide)
  have k1 := skDil_of_take (shown_unchanged hin (by rw [bsp]; decide) b2 s1 (n := 2624) (by rw [List.length_take]; omega) hS2)
  have k2 := skSpxPk_of_drop (shown_unchanged hin (by rw [bsp]; decide) b2 s2 (n := 64) (by rw [List.length_drop]; omega) hS2)
  obtain ⟨h, k, dil, hh, hd, rfl⟩ := hsg
  have le' := Ed25519.length_specSign (skb.take 32) ((skb.drop 32).take 32) h
  generalize Ed25519.Spec.sign (skb.take 32) ((skb.drop 32).take 32) h = ed' at le' hst
  rw [k1, q2] at hd
  rw [k2, q4] at hh
  have ld' := Real.dilSigned_length isShake128_S128 isShake256_S256 l2 hd
  obtain ⟨x, rfl⟩ : ∃ x, msg = [x] := List.length_eq_one_iff.1 g2
  have e := output_final hin (B := 1) (D := 3) (n := 2527) (by rw [bsp]; decide) (by decide) b1 (fun k h => absurd (show 1 = 0 from h) (by decide)) lw (by rw [← hc]; exact hv) hst (length_wire le' ld' g3)
  obtain ⟨rfl, rfl, rfl⟩ := wire_of_prefix le' ld' g3 le ld ln fun k _ => by rw [e]
  obtain rfl : x = 3 := by
    have e' : ∀ x : Byte, compactWire ed' dil nonceC [x] = ([1, 1] ++ ed' ++ dil ++ nonceC) ++ [x] := fun _ => rfl
    rw [e', e'] at e
    have := List.append_cancel_left e
    simpa using this
  exact hno h hh (Dilithium.dil_scheme_correct isShake128_S128 isShake256_S256 hk hd)

set_option maxRecDepth 100000 in
/-- C126: what `full_sign_under_writers_partial` leaves open is false.  In the run of `full_sign_other` with the message [3], some key pair and a thread that replaces it by [2], the call returns 0 and what it has stored is
not a full signature, made with a secret key whose bytes were in memory, of any message that was there (hybrid-dilithium-sphincs/hybrid.c:294-296). -/
theorem full_sign_under_writers_false :
    ¬ ∀ (fuel : Nat) (W : World) (p : Bool → Prog Int) (i : Bool) (sm smlen m sk : Ptr) (mlen : Nat), sm.blk < W.sp → smlen.blk < W.sp → m.blk < W.sp → sk.blk < W.sp →
      p i = Conc.signFull (real fuel) spxBody (some sm) (some smlen) (some m) mlen (some sk) → ∀ (s : List Bool) (c : Conf Bool Int), c = start W p → ((c.run s).thr i).prog = .ret 0 →
        ∃ skb msg opt sig, skb.length = 4064 ∧ msg.length = mlen ∧ opt.length = 32 ∧ Shown c s sk (skb.take 2624) ∧ Shown c s (sk.add 3936) (skb.drop 3936) ∧ Shown c s m msg ∧
          FullSigned S128 S256 skb msg opt sig ∧ ∀ a v, Stored c i s a v ↔ Output sm smlen sig a v := by
  intro claim
  obtain ⟨dpk, dsk, dsig, hk, hs, hno⟩ := Witness.Run7.only
  obtain ⟨l1, l2⟩ : dpk.length = 1312 ∧ dsk.length = 2560 := by
    have hl : (7 :: List.replicate 31 0 : Bytes).length = 32 := by rw [List.length_cons, List.length_replicate]
    obtain ⟨F, hF⟩ := (Dilithium.dil_keygen_spec (pk := zeros 1312) (sk := zeros 2560) isShake128_S128 isShake256_S256 List.length_replicate List.length_replicate hl).2.2 _ _ hk
    exact ((Dilithium.dil_keygen_spec (pk := zeros 1312) (sk := zeros 2560) isShake128_S128 isShake256_S256 List.length_replicate List.length_replicate hl).2.1 _ _ _ _ (hF F (Nat.le_refl _))).2.2
  have ld := Real.dilSigned_length isShake128_S128 isShake256_S256 l2 hs
  obtain ⟨-, q2, -, -⟩ := sk_parts (a := List.replicate 64 0) (d := List.replicate 128 0) List.length_replicate l2 l1 List.length_replicate
  have lk : (List.replicate 64 0 ++ dsk ++ dpk ++ List.replicate 128 0 : Bytes).length = 4064 := by
    rw [List.length_append, List.length_append, List.length_append, List.length_replicate, List.length_replicate]; omega
  generalize (List.replicate 64 0 ++ dsk ++ dpk ++ List.replicate 128 0 : Bytes) = sk0 at q2 lk
  obtain ⟨rnd, lr⟩ : ∃ rnd : Bytes, rnd.length = 32 := ⟨List.replicate 32 0, List.length_replicate⟩
  have le := Ed25519.length_specSign (sk0.take 32) ((sk0.drop 32).take 32) [3]
  have lsp : ∀ skb opt m, (spxOf skb opt m m).length = 49856 := fun skb opt m => length_twice _ _ _ _
  have ls := lsp sk0 rnd [2]
  have hF0 := fun W h1 h2 h3 h4 h5 h6 h7 => full_sign_other (W := W) (msg := [3]) (x := [2]) (skb := sk0) (opt := rnd) (dil := dsig) (k := 0) (sm := ⟨1, 0⟩) (smlen := ⟨3, 0⟩) (m := ⟨0, 0⟩) (sk := ⟨2, 0⟩) h1 h2 h3 h4 h5 h6 (by decide) (by decide) h7
    (by rw [q2]; exact hs) rfl
  generalize Ed25519.Spec.sign (sk0.take 32) ((sk0.drop 32).take 32) [3] = ed at le hF0
  generalize spxOf sk0 rnd [2] [2] = spx at ls hF0
  have lw : (fullWire ed [3] dsig spx).length = 52343 := by rw [(Hybrid.wire_full_slices le ld ls (by decide)).1]; rfl
  have hWF := signBlocks_WF [3] ((fullWire ed [3] dsig spx).map (· + 1)) sk0 rnd
  have b0 : (signBlocks [3] ((fullWire ed [3] dsig spx).map (· + 1)) sk0 rnd).mem 0 = some [3] := rfl
  have b1 : (signBlocks [3] ((fullWire ed [3] dsig spx).map (· + 1)) sk0 rnd).mem 1 = some ((fullWire ed [3] dsig spx).map (· + 1)) := rfl
  have b2 : (signBlocks [3] ((fullWire ed [3] dsig spx).map (· + 1)) sk0 rnd).mem 2 = some sk0 := rfl
  have b3 : (signBlocks [3] ((fullWire ed [3] dsig spx).map (· + 1)) sk0 rnd).mem 3 = some (zeros 8) := rfl
  have bsp : (signBlocks [3] ((fullWire ed [3] dsig spx).map (· + 1)) sk0 rnd).sp = 4 := rfl
  have bn : (signBlocks [3] ((fullWire ed [3] dsig spx).map (· + 1)) sk0 rnd).rng.draw (signBlocks [3] ((fullWire ed [3] dsig spx).map (· + 1)) sk0 rnd).rng.log.length 32 = some rnd := by
    show (if 32 = rnd.length then some rnd else some (zeros 32)) = _
    rw [if_pos lr.symm]
  generalize signBlocks [3] ((fullWire ed [3] dsig spx).map (· + 1)) sk0 rnd = W at hWF b0 b1 b2 b3 bsp bn
  obtain ⟨F, hF⟩ := hF0 W hWF (view_block b0 rfl) (view_block b2 lk)
    (by rw [view_block b1 (n := 52342 + [3].length) (by rw [List.length_map, lw]; rfl)]; rfl) (by rw [view_block b3 (n := 8) (by simp)]; rfl) (Or.inl (by decide)) bn
  obtain ⟨s, c, hc, h0, hv, -⟩ := hF F (Nat.le_refl _)
  unfold duo at hc
  generalize hp : (fun i : Bool => if i = true then overwrite ⟨0, 0⟩ [2] else Conc.signFull (real F) spxBody (some ⟨1, 0⟩) (some ⟨3, 0⟩) (some ⟨0, 0⟩) [3].length (some ⟨2, 0⟩)) = p at hc
  have hpf : p false = Conc.signFull (real F) spxBody (some ⟨1, 0⟩) (some ⟨3, 0⟩) (some ⟨0, 0⟩) 1 (some ⟨2, 0⟩) := by rw [← hp]; rfl
  have hpt : p true = overwrite ⟨0, 0⟩ [2] := by rw [← hp]; rfl
  let S : Bool → Addr → Prop := fun i a => if i then a.1 = 0 else a.1 = 1 ∨ a.1 = 3
  have hin : ∀ i, Within W.sp (fun _ => True) (S i) (p i) := by
    intro i
    cases i with
    | true => rw [hpt]; exact w_overwrite fun k => rfl
    | false =>
      rw [hpf]
      exact w_signFull _ (fun _ _ _ _ _ => trivial) (fun _ _ _ _ _ => trivial) (fun q hq _ _ _ => by cases hq; exact Or.inl rfl) (fun q hq _ _ _ => by cases hq; exact Or.inr rfl)
  obtain ⟨skb, msg, opt, sig, g1, g2, g3, s1, s2, s3, hsg, hst⟩ := claim F W p false ⟨1, 0⟩ ⟨3, 0⟩ ⟨0, 0⟩ ⟨2, 0⟩ 1 (by rw [bsp]; decide) (by rw [bsp]; decide) (by rw [bsp]; decide) (by rw [bsp]; decide) hpf s _ rfl
    (by rw [← hc]; exact h0)
  have hS2 : ∀ i k, ¬ S i (2, k) := by
    intro i k
    cases i with
    | true => exact fun h => absurd (show 2 = 0 from h) (by decide)
    | false => exact fun h => absurd (show 2 = 1 ∨ 2 = 3 from h) (by decide)
  have k1 := skDil_of_take (shown_unchanged hin (by rw [bsp]; decide) b2 s1 (n := 2624) (by rw [List.length_take]; omega) hS2)
  obtain ⟨k, dil, hd, rfl⟩ := hsg
  have le' := Ed25519.length_specSign (skb.take 32) ((skb.drop 32).take 32) msg
  generalize Ed25519.Spec.sign (skb.take 32) ((skb.drop 32).take 32) msg = ed' at le' hst
  have ls' : (Sphincs.Spec.sign S256 ⟨slice (skSpx skb) 64 32, (skSpx skb).take 32⟩ (slice (skSpx skb) 32 32) ((skSpx skb).drop 64) opt msg).length = 49856 := lsp skb opt msg
  generalize Sphincs.Spec.sign S256 ⟨slice (skSpx skb) 64 32, (skSpx skb).take 32⟩ (slice (skSpx skb) 32 32) ((skSpx skb).drop 64) opt msg = spx' at ls' hst
  rw [k1, q2] at hd
  have ld' := Real.dilSigned_length isShake128_S128 isShake256_S256 l2 hd
  obtain ⟨w1, -, -, w2, w3, -⟩ := Hybrid.wire_full_slices (msg := msg) le' ld' ls' (by omega)
  obtain ⟨-, -, -, v2, v3, -⟩ := Hybrid.wire_full_slices (msg := [3]) le ld ls (by decide)
  have e := output_final hin (B := 1) (D := 3) (n := 52343) (by rw [bsp]; decide) (by decide) b1 (fun k h => absurd (show 1 = 0 from h) (by decide)) lw (by rw [← hc]; exact hv) hst (by rw [w1]; omega)
  rw [e, g2] at w2 w3
  have e2 : ed ++ [3] = ed' ++ msg := v2.symm.trans w2
  have e3 : dsig = dil := v3.symm.trans w3
  obtain ⟨-, rfl⟩ := List.append_inj e2 (by omega)
  subst e3
  exact hno (Dilithium.dil_scheme_correct isShake128_S128 isShake256_S256 hk hd)

/-! ### Concrete cases -/

/-- The hypotheses of `compact_sign_other` and of `compact_sign_under_writers_partial` can be met, with a call that returns 0. -/
example : ∃ (fuel : Nat) (skb sig : Bytes) (W : World) (s : List Bool), W.WF ∧ W.sp = 4 ∧ W.view ⟨0, 0⟩ 1 = some [2] ∧ W.view ⟨2, 0⟩ 4064 = some skb ∧ (W.view ⟨1, 0⟩ 2527).isSome ∧ (W.view ⟨3, 0⟩ 8).isSome ∧
    W.rng.draw W.rng.log.length 40 = some nonceC ∧ CompactSigned S128 S256 skb [2] nonceC sig ∧
    (((duo W (Conc.signCompact (real fuel) (some ⟨1, 0⟩) (some ⟨3, 0⟩) (some ⟨0, 0⟩) 1 (some ⟨2, 0⟩)) (overwrite ⟨0, 0⟩ [3])).run s).thr false).prog = .ret 0 := by
  obtain ⟨pk, skb, sig, -, -, lk, hok, -⟩ := Witness.compact_signature
  have b0 : (signBlocks [2] (zeros 2527) skb nonceC).view ⟨0, 0⟩ 1 = some [2] := view_block rfl rfl
  have b1 : (signBlocks [2] (zeros 2527) skb nonceC).view ⟨1, 0⟩ 2527 = some (zeros 2527) := view_block rfl List.length_replicate
  have b2 : (signBlocks [2] (zeros 2527) skb nonceC).view ⟨2, 0⟩ 4064 = some skb := view_block rfl lk
  have b3 : (signBlocks [2] (zeros 2527) skb nonceC).view ⟨3, 0⟩ 8 = some (zeros 8) := view_block rfl List.length_replicate
  have bn : (signBlocks [2] (zeros 2527) skb nonceC).rng.draw (signBlocks [2] (zeros 2527) skb nonceC).rng.log.length 40 = some nonceC := rfl
  have bw := signBlocks_WF [2] (zeros 2527) skb nonceC
  have bsp : (signBlocks [2] (zeros 2527) skb nonceC).sp = 4 := rfl
  generalize signBlocks [2] (zeros 2527) skb nonceC = W at *
  obtain ⟨F, hF⟩ := compact_sign_other bw (sm := ⟨1, 0⟩) (smlen := ⟨3, 0⟩) (m := ⟨0, 0⟩) (sk := ⟨2, 0⟩) (msg := [2]) (x := [3]) b0 b2 (by show (W.view ⟨1, 0⟩ 2527).isSome; rw [b1]; rfl) (by rw [b3]; rfl) (Or.inl (by decide))
    (Or.inl (by decide)) (by decide) (by decide) bn hok rfl
  obtain ⟨s, c, rfl, h, -⟩ := hF F (Nat.le_refl _)
  exact ⟨F, skb, sig, W, s, bw, bsp, b0, b2, by rw [b1]; rfl, by rw [b3]; rfl, bn, hok, h⟩

/-- The hypotheses of `full_sign_other` and of `full_sign_under_writers_partial` can be met, with a call that returns 0. -/
example : ∃ (fuel : Nat) (skb dil opt : Bytes) (W : World) (s : List Bool), W.WF ∧ W.sp = 4 ∧ W.view ⟨0, 0⟩ 1 = some [3] ∧ W.view ⟨2, 0⟩ 4064 = some skb ∧ (W.view ⟨1, 0⟩ 52343).isSome ∧ (W.view ⟨3, 0⟩ 8).isSome ∧
    W.rng.draw W.rng.log.length 32 = some opt ∧ Dilithium.Spec.Signs S128 S256 (skDil skb) [2] 0 dil ∧
    (((duo W (Conc.signFull (real fuel) spxBody (some ⟨1, 0⟩) (some ⟨3, 0⟩) (some ⟨0, 0⟩) 1 (some ⟨2, 0⟩)) (overwrite ⟨0, 0⟩ [2])).run s).thr false).prog = .ret 0 := by
  obtain ⟨dpk, dsk, dil, hk, hs⟩ := Witness.dilithium_run
  have l1 : dpk.length = 1312 ∧ dsk.length = 2560 := by
    have hl : (7 :: List.replicate 31 0 : Bytes).length = 32 := by rw [List.length_cons, List.length_replicate]
    obtain ⟨F, hF⟩ := (Dilithium.dil_keygen_spec (pk := zeros 1312) (sk := zeros 2560) isShake128_S128 isShake256_S256 List.length_replicate List.length_replicate hl).2.2 _ _ hk
    exact ((Dilithium.dil_keygen_spec (pk := zeros 1312) (sk := zeros 2560) isShake128_S128 isShake256_S256 List.length_replicate List.length_replicate hl).2.1 _ _ _ _ (hF F (Nat.le_refl _))).2.2
  obtain ⟨-, q2, -, -⟩ := sk_parts (a := List.replicate 64 0) (d := List.replicate 128 0) List.length_replicate l1.2 l1.1 List.length_replicate
  have lk : (List.replicate 64 0 ++ dsk ++ dpk ++ List.replicate 128 0 : Bytes).length = 4064 := by
    rw [List.length_append, List.length_append, List.length_append, List.length_replicate, List.length_replicate]; omega
  generalize (List.replicate 64 0 ++ dsk ++ dpk ++ List.replicate 128 0 : Bytes) = skb at q2 lk
  rw [← q2] at hs
  obtain ⟨rnd, lr⟩ : ∃ rnd : Bytes, rnd.length = 32 := ⟨List.replicate 32 0, List.length_replicate⟩
  obtain ⟨z, lz⟩ : ∃ z : Bytes, z.length = 52343 := ⟨zeros 52343, List.length_replicate⟩
  have b0 : (signBlocks [3] z skb rnd).view ⟨0, 0⟩ 1 = some [3] := view_block rfl rfl
  have b1 : (signBlocks [3] z skb rnd).view ⟨1, 0⟩ 52343 = some z := view_block rfl lz
  have b2 : (signBlocks [3] z skb rnd).view ⟨2, 0⟩ 4064 = some skb := view_block rfl lk
  have b3 : (signBlocks [3] z skb rnd).view ⟨3, 0⟩ 8 = some (zeros 8) := view_block rfl List.length_replicate
  have bn : (signBlocks [3] z skb rnd).rng.draw (signBlocks [3] z skb rnd).rng.log.length 32 = some rnd := by
    show (if 32 = rnd.length then some rnd else some (zeros 32)) = _
    rw [if_pos lr.symm]
  have bw := signBlocks_WF [3] z skb rnd
  have bsp : (signBlocks [3] z skb rnd).sp = 4 := rfl
  generalize signBlocks [3] z skb rnd = W at *
  obtain ⟨F, hF⟩ := full_sign_other bw (sm := ⟨1, 0⟩) (smlen := ⟨3, 0⟩) (m := ⟨0, 0⟩) (sk := ⟨2, 0⟩) (msg := [3]) (x := [2]) b0 b2 (by show (W.view ⟨1, 0⟩ 52343).isSome; rw [b1]; rfl) (by rw [b3]; rfl)
    (Or.inl (by decide)) (by decide) (by decide) bn hs rfl
  obtain ⟨s, c, rfl, h, -⟩ := hF F (Nat.le_refl _)
  exact ⟨F, skb, dil, rnd, W, s, bw, bsp, b0, b2, by rw [b1]; rfl, by rw [b3]; rfl, bn, hs, h⟩

end Verif.Conc
