import Verif.Real.Session
import Verif.Real.Props3

/-!
Forgeries of the hybrid scheme contain forgeries of its components (C90).
-/

namespace Verif.Real
open Verif Verif.Hybrid Verif.Hybrid.Toy Dilithium

variable {H128 H256 : Bytes → Nat → Bytes}

/-! ### What a session contains -/

/-- What the answer to a query is, in terms of the component schemes. -/
def Answer (H128 H256 : Bytes → Nat → Bytes) (sk : Bytes) : Query → Prop
  | .full msg sig => 1 ≤ msg.length ∧ msg.length ≤ 64 ∧ ∃ opt, FullSigned H128 H256 sk msg opt sig
  | .compact msg sig => 1 ≤ msg.length ∧ msg.length ≤ 64 ∧ (nonceOf sig).length = 40 ∧ CompactSigned H128 H256 sk msg (nonceOf sig) sig

theorem dilSigned_length (h1 : IsShake128 H128) (h2 : IsShake256 H256) {sk m dil : Bytes} {k : Nat} (hl : sk.length = 2560) (hd : Dilithium.Spec.Signs H128 H256 sk m k dil) :
    dil.length = 2420 := by
  obtain ⟨F, hF⟩ := (dil_sign_spec (sig := zeros 2420) (n := 0) h1 h2 hl List.length_replicate).2.2 _ _ hd
  exact ((dil_sign_spec (sig := zeros 2420) (n := 0) h1 h2 hl List.length_replicate).2.1 _ _ _ _ (hF F (Nat.le_refl _))).2.2.1

theorem nonceOf_wire {ed dil nonce msg : Bytes} (h1 : ed.length = 64) (h2 : dil.length = 2420) (h3 : nonce.length = 40) : nonceOf (compactWire ed dil nonce msg) = nonce := by
  have e : compactWire ed dil nonce msg = (1 :: BitVec.ofNat 8 msg.length :: (ed ++ dil)) ++ (nonce ++ msg) := by simp [compactWire]
  have l : (1 :: BitVec.ofNat 8 msg.length :: (ed ++ dil) : Bytes).length = 2486 := by simp [h1, h2]
  unfold nonceOf
  rw [e, List.drop_left' l, List.take_left' h3]

theorem session_answers (h1 : IsShake128 H128) (h2 : IsShake256 H256) {sk : Bytes} {W : World} {qs : List Query} (h : Session sk W qs) : ∀ q ∈ qs, Answer H128 H256 sk q := by
  induction h with
  | start => intro q hq; cases hq
  | client _ _ ih => exact ih
  | @full W W' qs _ fuel sm smlen m s mlen msg sig hm hs hb hl hd hr hsig ih =>
    intro q hq
    rcases List.mem_cons.1 hq with rfl | hq
    · have hmb := length_of_view hm
      have hr' : 1 ≤ mlen ∧ mlen ≤ 64 := by
        by_contra hr'
        rw [((invalid_arguments (P := real fuel) W (some sm) (some smlen) (some m) (some s) none none none mlen 0).1 (Or.inr (by omega))).1] at hr
        simp at hr
      rcases (real_full_sign h1 h2 hm hs hb hl hr'.1 hr'.2).1 _ _ _ hr with ⟨h0, -⟩ | ⟨-, opt, sig', -, hg, rfl⟩
      · omega
      · have lsk := length_of_view hs
        have hw : sig'.length = 52342 + mlen := by
          obtain ⟨k, dil, hd', rfl⟩ := hg
          have l2 : (skDil sk).length = 2560 := by unfold skDil; rw [List.length_take, List.length_drop]; omega
          have ld := dilSigned_length h1 h2 l2 hd'
          have le := Ed25519.length_specSign (sk.take 32) ((sk.drop 32).take 32) msg
          have hspx := (Sphincs.length_sign (shake := H256) (fun m n => by rw [← shake256F_eq h2]; exact Sphincs.length_shake256F m n)
            ⟨slice (skSpx sk) 64 32, (skSpx sk).take 32⟩ (slice (skSpx sk) 32 32) ((skSpx sk).drop 64) opt msg)
          rw [(wire_full_slices le ld hspx (by omega)).1, hmb]
        rw [view_write_disj (by simpa [length_le64] using hd), view_write_same' (W := { W with rng := Sphincs.drawn W.rng 32 }) hb hw] at hsig
        cases hsig
        exact ⟨by omega, by omega, opt, hg⟩
    · exact ih q hq
  | @compact W W' qs _ fuel sm smlen m s mlen msg sig hm hs hb hl hd hdm hr hsig ih =>
    intro q hq
    rcases List.mem_cons.1 hq with rfl | hq
    · have hmb := length_of_view hm
      have hr' : 1 ≤ mlen ∧ mlen ≤ 64 := by
        by_contra hr'
        rw [((invalid_arguments (P := real fuel) W (some sm) (some smlen) (some m) (some s) none none none mlen 0).1 (Or.inr (by omega))).2] at hr
        simp at hr
      rcases (real_compact_sign h1 h2 hm hs hb hl hdm hr'.1 hr'.2).1 _ _ _ hr with ⟨h0, -⟩ | ⟨-, nonce, sig', hn, hg, rfl⟩
      · omega
      · have lsk := length_of_view hs
        have ln : nonce.length = 40 := W.rng.len_draw _ _ _ hn
        have hw : sig'.length = 2526 + mlen ∧ nonceOf sig' = nonce := by
          obtain ⟨h, k, dil, -, hd', rfl⟩ := hg
          have l2 : (skDil sk).length = 2560 := by unfold skDil; rw [List.length_take, List.length_drop]; omega
          have ld := dilSigned_length h1 h2 l2 hd'
          have le := Ed25519.length_specSign (sk.take 32) ((sk.drop 32).take 32) h
          rw [(wire_compact_slices le ld ln (by omega)).1, hmb]
          exact ⟨rfl, nonceOf_wire le ld ln⟩
        rw [view_write_disj (by simpa [length_le64] using hd), view_write_same' (W := { W with rng := Sphincs.drawn W.rng 40 }) hb hw.1] at hsig
        cases hsig
        refine ⟨by omega, by omega, by rw [hw.2]; exact ln, ?_⟩
        rw [hw.2]
        exact hg
    · exact ih q hq

/-- The keys of a generated pair agree on the SPHINCS+ public key. -/
theorem generated_spx {fk : Nat} {pkb skb : Bytes} (hg : Generated (real fk) pkb skb) : skSpxPk skb = pkSpx pkb := by
  obtain ⟨seed, hs, hk⟩ := generated_keys isShake128_S128 isShake256_S256 hg
  exact (keysOf_parts isShake128_S128 isShake256_S256 hs hk).2.2.2.2.2.2.2.1

/-! ### C90 -/

/-- C90, the queries: in any session, the secret key of Ed25519 and that of Dilithium are used on the string `Asked` only, and that of SPHINCS+ on `AskedSpx` only; each query has exactly one
such string.  So a session can be played by somebody who has only signing oracles of the components, and the notions of forgery below count all uses of the secret keys. -/
theorem session_uses {fk : Nat} {pkb skb : Bytes} (hg : Generated (real fk) pkb skb) {U : World} {qs : List Query} (hS : Session skb U qs) :
    ∀ q ∈ qs, (∃ x, Asked (pkSpx pkb) q x ∧ ∀ y, Asked (pkSpx pkb) q y → y = x) ∧
      match q with
      | .full msg sig => ∃ opt k dil, Dilithium.Spec.Signs S128 S256 (skDil skb) msg k dil ∧
          sig = fullWire (Ed25519.Spec.sign (skb.take 32) ((skb.drop 32).take 32) msg) msg dil
            (Sphincs.Spec.sign S256 ⟨slice (skSpx skb) 64 32, (skSpx skb).take 32⟩ (slice (skSpx skb) 32 32) ((skSpx skb).drop 64) opt msg)
      | .compact msg sig => ∃ x k dil, Asked (pkSpx pkb) q x ∧ Dilithium.Spec.Signs S128 S256 (skDil skb) x k dil ∧
          sig = compactWire (Ed25519.Spec.sign (skb.take 32) ((skb.drop 32).take 32) x) dil (nonceOf sig) msg := by
  intro q hq
  have ha := session_answers isShake128_S128 isShake256_S256 hS q hq
  cases q with
  | full msg sig =>
    obtain ⟨-, -, opt, k, dil, hd, e⟩ := ha
    exact ⟨⟨msg, rfl, fun y hy => hy⟩, opt, k, dil, hd, e⟩
  | compact msg sig =>
    obtain ⟨-, -, -, h, k, dil, hh, hd, e⟩ := ha
    rw [generated_spx hg] at hh
    exact ⟨⟨h, hh, fun y hy => Keccak.bits_injective (Eq.trans hy hh.symm)⟩, h, k, dil, hh, hd, e⟩

/-- C90, full mode: if verification accepts a message for which no full signature was asked, then the buffer holds a forgery of SPHINCS+, and forgeries of Ed25519 and of Dilithium too unless the message
is the hash that was signed in answer to a compact query.  (This holds for any list of queries, whether or not it is that of a session.) -/
theorem full_forgery {fv : Nat} {pkb : Bytes} {qs : List Query} {W W' : World} (hW : W.WF) {sm m pk : Ptr} {n k : Nat} {sb mb : Bytes}
    (hsm : W.view sm n = some sb) (hpk : W.view pk 1408 = some pkb) (hm : W.view m k = some mb)
    (h : verifyFull (real fv) (some m) k (some sm) n (some pk) W = .ok (0, W')) (hnew : ∀ sig, Query.full mb sig ∉ qs) :
    ∃ ed dil spx, sb = fullWire ed mb dil spx ∧ SpxForgery S256 pkb qs mb spx ∧
      ((EdForgery pkb qs mb ed ∧ DilForgery S128 S256 pkb qs mb dil) ∨
        ∃ msg sig, Query.compact msg sig ∈ qs ∧ IsCompactHash (nonceOf sig) msg (pkSpx pkb) mb) := by
  obtain ⟨-, -, -, ed, dil, spx, -, -, -, e, v1, v2, v3⟩ := (real_full_verify isShake128_S128 isShake256_S256 hW hsm hpk hm).1 _ _ h
  refine ⟨ed, dil, spx, e, ⟨v3, ?_⟩, ?_⟩
  · intro q hq ha
    cases q with
    | full msg sig => cases ha; exact hnew _ hq
    | compact msg sig => exact ha
  · by_cases hc : ∃ msg sig, Query.compact msg sig ∈ qs ∧ IsCompactHash (nonceOf sig) msg (pkSpx pkb) mb
    · exact Or.inr hc
    · have hno : ∀ q ∈ qs, ¬ Asked (pkSpx pkb) q mb := by
        intro q hq ha
        cases q with
        | full msg sig => cases ha; exact hnew _ hq
        | compact msg sig => exact hc ⟨msg, sig, hq, ha⟩
      exact Or.inl ⟨⟨v1, hno⟩, v2, hno⟩

/-- C90, compact mode: if verification accepts a message for which no compact signature was asked, then the buffer holds forgeries of both Ed25519 and Dilithium, unless a full signature of the hash was asked
(the attack of C20) or the hash input and that of one of the queries are a collision of SHA3-512. -/
theorem compact_forgery {fv : Nat} {pkb skb : Bytes} {U : World} {qs : List Query} (hS : Session skb U qs)
    {W W' : World} (hW : W.WF) {sm m pk : Ptr} {n k : Nat} {sb mb : Bytes}
    (hsm : W.view sm n = some sb) (hpk : W.view pk 1408 = some pkb) (hm : W.view m k = some mb)
    (h : verifyCompact (real fv) (some m) k (some sm) n (some pk) W = .ok (0, W')) (hnew : ∀ sig, Query.compact mb sig ∉ qs) :
    ∃ ed dil nonce x, sb = compactWire ed dil nonce mb ∧ nonce.length = 40 ∧ IsCompactHash nonce mb (pkSpx pkb) x ∧
      ((EdForgery pkb qs x ed ∧ DilForgery S128 S256 pkb qs x dil) ∨ (∃ sig, Query.full x sig ∈ qs) ∨
        ∃ msg sig, Query.compact msg sig ∈ qs ∧ Collision (nonceOf sig ++ msg ++ pkSpx pkb) (nonce ++ mb ++ pkSpx pkb)) := by
  obtain ⟨-, -, -, ed, dil, nonce, x, -, -, ln, e, hx, v1, v2⟩ := (real_compact_verify isShake128_S128 isShake256_S256 hW hsm hpk hm).1 _ _ h
  refine ⟨ed, dil, nonce, x, e, ln, hx, ?_⟩
  by_cases hf : ∃ sig, Query.full x sig ∈ qs
  · exact Or.inr (Or.inl hf)
  by_cases hc : ∃ msg sig, Query.compact msg sig ∈ qs ∧ Asked (pkSpx pkb) (.compact msg sig) x
  · obtain ⟨msg, sig, hq, ha⟩ := hc
    refine Or.inr (Or.inr ⟨msg, sig, hq, fun he => ?_, Eq.trans (Eq.symm ha) hx⟩)
    have l40 : (nonceOf sig).length = 40 := (session_answers isShake128_S128 isShake256_S256 hS _ hq).2.2.1
    have he := List.append_cancel_right he
    obtain ⟨-, rfl⟩ := List.append_inj he (by omega)
    exact hnew _ hq
  · have hno : ∀ q ∈ qs, ¬ Asked (pkSpx pkb) q x := by
      intro q hq ha
      cases q with
      | full msg sig => cases ha; exact hf ⟨_, hq⟩
      | compact msg sig => exact hc ⟨msg, sig, hq, ha⟩
    exact Or.inl ⟨⟨v1, hno⟩, v2, hno⟩

/-! ### Sessions and forgeries that exist -/

/-- A random source whose draws of 32 bytes give `opt` (the caller of random/randombytes.c:358-391 may see any bytes). -/
def optRng (opt : Bytes) (h : opt.length = 32) : Rng where
  draw := fun _ n => if n = 32 then some opt else some (zeros n)
  len_draw := by
    intro i n b hb
    by_cases hn : n = 32
    · rw [if_pos hn] at hb; cases hb; rw [h, hn]
    · rw [if_neg hn] at hb; cases hb; exact List.length_replicate
  log := []

/-- Whenever the specifications have a signature of a message, there is a session in which it is asked and answered. -/
theorem session_exists {skb mb opt sig : Bytes} (ls : skb.length = 4064) (h1 : 1 ≤ mb.length) (h2 : mb.length ≤ 64) (lo : opt.length = 32)
    (hg : FullSigned S128 S256 skb mb opt sig) : ∃ W, Session skb W [.full mb sig] := by
  obtain ⟨z, hz, lz⟩ : ∃ z : Bytes, z = zeros (52342 + mb.length) ∧ z.length = 52342 + mb.length := ⟨_, rfl, List.length_replicate⟩
  obtain ⟨W, w0, w1, w2, w3, wr⟩ : ∃ W : World, W.mem 0 = some z ∧ W.mem 1 = some (zeros 8) ∧ W.mem 2 = some mb ∧ W.mem 3 = some skb ∧ W.rng = optRng opt lo :=
    ⟨{ mem := fun b => if b = 0 then some z else if b = 1 then some (zeros 8) else if b = 2 then some mb else some skb, sp := 4, rng := optRng opt lo }, rfl, rfl, rfl, rfl, rfl⟩
  have v0 : W.view ⟨0, 0⟩ (52342 + mb.length) = some z := view_block w0 lz
  have v1 : W.view ⟨1, 0⟩ 8 = some (zeros 8) := view_block w1 List.length_replicate
  have v2 : W.view ⟨2, 0⟩ mb.length = some mb := view_block w2 rfl
  have v3 : W.view ⟨3, 0⟩ 4064 = some skb := view_block w3 ls
  have i0 : (W.view ⟨0, 0⟩ (52342 + mb.length)).isSome := by rw [v0]; rfl
  have i1 : (W.view ⟨1, 0⟩ 8).isSome := by rw [v1]; rfl
  have hd : Disj ⟨1, 0⟩ 8 ⟨0, 0⟩ (52342 + mb.length) := Or.inl (by decide)
  obtain ⟨F, hF⟩ := (real_full_sign isShake128_S128 isShake256_S256 v2 v3 i0 i1 h1 h2).2 opt sig (by rw [wr]; rfl) hg
  have hw : sig.length = 52342 + mb.length := by
    obtain ⟨k, dil, hd', rfl⟩ := hg
    have l2 : (skDil skb).length = 2560 := by unfold skDil; rw [List.length_take, List.length_drop]; omega
    have ld := dilSigned_length isShake128_S128 isShake256_S256 l2 hd'
    have le := Ed25519.length_specSign (skb.take 32) ((skb.drop 32).take 32) mb
    have hspx := (Sphincs.length_sign (shake := S256) (fun m n => by rw [← shake256F_eq isShake256_S256]; exact Sphincs.length_shake256F m n)
      ⟨slice (skSpx skb) 64 32, (skSpx skb).take 32⟩ (slice (skSpx skb) 32 32) ((skSpx skb).drop 64) opt mb)
    rw [(wire_full_slices le ld hspx (by omega)).1]
  refine ⟨_, Session.full (Session.start W) v2 v3 i0 i1 hd (hF F (Nat.le_refl _)) ?_⟩
  rw [view_write_disj (by simpa [length_le64] using hd), view_write_same' (W := { W with rng := Sphincs.drawn W.rng 32 }) i0 hw]

end Verif.Real
