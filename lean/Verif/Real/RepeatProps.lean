import Verif.Real.ForgeryProps2
import Verif.Witness.HybridC
import Verif.Real.KeyUseProps
import Mathlib.Data.Fintype.Card

/-!
The property C119: what signatures made with one secret key share; in particular no one-time key of SPHINCS+ ever signs two strings.
-/

namespace Verif.Real
open Verif Verif.Hybrid Dilithium
open Verif.Sphincs (length_forsSign length_htSign length_xmssSign length_sign)
open Verif.Sphincs.Spec (Seeds Loc)

/-- The SPHINCS+ signature at the end of a full-mode signature (layout comment in hybrid-dilithium-sphincs/hybrid.c:106-112). -/
def spxPart (sig : Bytes) : Bytes := sig.drop (sig.length - 49856)

/-- The 49-byte hash value that decides which keys a SPHINCS+ signature uses, recomputed from the signature (compare sphincs/hash_shake.c:50-82). -/
def spxDigest (sk msg sig : Bytes) : Bytes := Sphincs.Spec.digest S256 ((spxPart sig).take 32) (skSpxPk sk) msg

/-- The number of the FORS key that a signature uses: 64 bits for the tree and 4 for the leaf (compare sphincs/hash_shake.c:50-82). -/
def spxIndex (sk msg sig : Bytes) : Nat := 16 * Sphincs.Spec.treeOf (spxDigest sk msg sig) + Sphincs.Spec.leafOf (spxDigest sk msg sig)

/-- The two seeds of SPHINCS+ in a composite secret key (sphincs/sign.c:47, 112-113, hybrid-dilithium-sphincs/hybrid.c:51-54). -/
def spxSeeds (sk : Bytes) : Seeds := ⟨slice (skSpx sk) 64 32, (skSpx sk).take 32⟩

/-- The one-time key on layer `i` of the way from FORS key number `e` to the root: tree and leaf (compare sphincs/sign.c:141-155). -/
def place (e i : Nat) : Loc := ⟨i, e / 16 ^ (i + 1), e / 16 ^ i % 16⟩

theorem hS256 : ∀ m n, (S256 m n).length = n := fun m n => by rw [← shake256F_eq isShake256_S256]; exact Sphincs.length_shake256F m n

theorem ht_drop {H : Bytes → Nat → Bytes} (hH : ∀ m n, (H m n).length = n) (s : Seeds) (e : Nat) : ∀ i, i ≤ 17 →
    (Sphincs.Spec.htSign H s 17 0 (e / 16) (e % 16) (Sphincs.Spec.signed H s (place e 0))).drop (2272 * i) =
      Sphincs.Spec.htSign H s (17 - i) i (e / 16 ^ (i + 1)) (e / 16 ^ i % 16) (Sphincs.Spec.signed H s (place e i)) := by
  intro i
  induction i with
  | zero => intro _; rw [Nat.mul_zero, List.drop_zero]; simp
  | succ i ih =>
    intro hi
    rw [Nat.mul_succ, ← List.drop_drop, ih (by omega), show 17 - i = (17 - (i + 1)) + 1 by omega, Sphincs.Spec.htSign, List.drop_left' (length_xmssSign hH _ _ _ _ _)]
    have e1 : e / 16 ^ (i + 1) / 16 = e / 16 ^ (i + 1 + 1) := by rw [Nat.div_div_eq_div_mul, ← Nat.pow_succ]
    have e2 : Sphincs.Spec.signed H s (place e (i + 1)) = Sphincs.Spec.xmssRoot H s i (e / 16 ^ (i + 1)) := by
      show Sphincs.Spec.xmssRoot H s i (16 * (e / 16 ^ (i + 1 + 1)) + e / 16 ^ (i + 1) % 16) = _
      rw [← e1, Nat.div_add_mod]
    rw [e1, e2]

theorem session_key {sk : Bytes} {W : World} {qs : List Query} (h : Session sk W qs) (hq : qs ≠ []) : sk.length = 4064 := by
  induction h with
  | start => exact absurd rfl hq
  | client _ _ ih => exact ih hq
  | full _ _ hs => exact length_of_view hs
  | compact _ _ hs => exact length_of_view hs

theorem skSpx_pk (sk : Bytes) : (skSpx sk).drop 64 = skSpxPk sk := by
  unfold skSpx skSpxPk
  rw [List.drop_take, List.drop_drop]

/-- The parts of an answer. -/
theorem full_answer {sk : Bytes} {W : World} {qs : List Query} (h : Session sk W qs) {m sig : Bytes} (hq : .full m sig ∈ qs) :
    ∃ k dil, Spec.Signs S128 S256 (skDil sk) m k dil ∧ (skDil sk).length = 2560 ∧ 1 ≤ m.length ∧ m.length ≤ 64 ∧ sig.length = 52342 + m.length ∧ (spxPart sig).length = 49856 ∧
      sig.take (2486 + m.length) = 2 :: BitVec.ofNat 8 m.length :: (Ed25519.Spec.sign (sk.take 32) ((sk.drop 32).take 32) m ++ m ++ dil) ∧
      spxPart sig = Sphincs.Spec.signWith S256 (spxSeeds sk) ((spxPart sig).take 32) (skSpxPk sk) m := by
  have ls := session_key h (fun e => by rw [e] at hq; cases hq)
  obtain ⟨h1, h2, opt, k, dil, hd, rfl⟩ := session_answers isShake128_S128 isShake256_S256 h _ hq
  have ld : (skDil sk).length = 2560 := by rw [skDil, List.length_take, List.length_drop, ls]; rfl
  have l2 := dilSigned_length isShake128_S128 isShake256_S256 ld hd
  have l1 := Ed25519.length_specSign (sk.take 32) ((sk.drop 32).take 32) m
  have l3 := length_sign hS256 ⟨slice (skSpx sk) 64 32, (skSpx sk).take 32⟩ (slice (skSpx sk) 32 32) ((skSpx sk).drop 64) opt m
  rw [Sphincs.sign_eq_signWith] at l3 ⊢
  have lR := hS256 (slice (skSpx sk) 32 32 ++ opt ++ m) 32
  generalize S256 (slice (skSpx sk) 32 32 ++ opt ++ m) 32 = R at l3 lR ⊢
  generalize Ed25519.Spec.sign (sk.take 32) ((sk.drop 32).take 32) m = ed at l1 ⊢
  have lw := (wire_full_slices (msg := m) l1 l2 l3 h2).1
  have ew : ∀ x, fullWire ed m dil x = (2 :: BitVec.ofNat 8 m.length :: (ed ++ m ++ dil)) ++ x := fun x => rfl
  have lp : (2 :: BitVec.ofNat 8 m.length :: (ed ++ m ++ dil) : Bytes).length = 2486 + m.length := by
    simp only [List.length_cons, List.length_append, l1, l2]; omega
  have es : spxPart (fullWire ed m dil (Sphincs.Spec.signWith S256 ⟨slice (skSpx sk) 64 32, (skSpx sk).take 32⟩ R ((skSpx sk).drop 64) m)) =
      Sphincs.Spec.signWith S256 ⟨slice (skSpx sk) 64 32, (skSpx sk).take 32⟩ R ((skSpx sk).drop 64) m := by
    rw [spxPart, lw, ew]
    exact List.drop_left' (by omega)
  refine ⟨k, dil, hd, ld, h1, h2, lw, by rw [es]; exact l3, by rw [ew]; exact List.take_left' lp, ?_⟩
  rw [es]
  have et : (Sphincs.Spec.signWith S256 ⟨slice (skSpx sk) 64 32, (skSpx sk).take 32⟩ R ((skSpx sk).drop 64) m).take 32 = R := by
    rw [Sphincs.Spec.signWith, List.append_assoc, List.take_left' lR]
  rw [et, skSpx_pk]
  rfl

/-- The hypertree part of an answer from layer `i` on. -/
theorem full_tail {sk : Bytes} {W : World} {qs : List Query} (h : Session sk W qs) {m sig : Bytes} (hq : .full m sig ∈ qs) {i : Nat} (hi : i ≤ 17) :
    (spxPart sig).drop (11232 + 2272 * i) = Sphincs.Spec.htSign S256 (spxSeeds sk) (17 - i) i (place (spxIndex sk m sig) i).tree (place (spxIndex sk m sig) i).leaf
      (Sphincs.Spec.signed S256 (spxSeeds sk) (place (spxIndex sk m sig) i)) := by
  obtain ⟨k, dil, -, -, -, -, -, hl, -, e⟩ := full_answer h hq
  have lR : ((spxPart sig).take 32).length = 32 := by rw [List.length_take, hl]; rfl
  have hx : spxIndex sk m sig / 16 = Sphincs.Spec.treeOf (spxDigest sk m sig) ∧ spxIndex sk m sig % 16 = Sphincs.Spec.leafOf (spxDigest sk m sig) := by
    have := Sphincs.leafOf_lt (spxDigest sk m sig)
    unfold spxIndex
    omega
  have key := ht_drop hS256 (spxSeeds sk) (spxIndex sk m sig) i hi
  have ep : Sphincs.Spec.signed S256 (spxSeeds sk) (place (spxIndex sk m sig) 0) = Sphincs.Spec.forsPk S256 (spxSeeds sk) ⟨0, spxIndex sk m sig / 16, spxIndex sk m sig % 16⟩ := by
    show Sphincs.Spec.forsPk S256 (spxSeeds sk) ⟨0, spxIndex sk m sig / 16 ^ 1, spxIndex sk m sig / 16 ^ 0 % 16⟩ = _
    rw [Nat.pow_one, Nat.pow_zero, Nat.div_one]
  rw [ep, hx.1, hx.2] at key
  show _ = Sphincs.Spec.htSign S256 (spxSeeds sk) (17 - i) i (spxIndex sk m sig / 16 ^ (i + 1)) (spxIndex sk m sig / 16 ^ i % 16) _
  have lf := length_forsSign hS256 (spxSeeds sk) ⟨0, Sphincs.Spec.treeOf (spxDigest sk m sig), Sphincs.Spec.leafOf (spxDigest sk m sig)⟩ (Sphincs.Spec.mdOf (spxDigest sk m sig))
  have ed : (spxPart sig).drop 11232 = Sphincs.Spec.htSign S256 (spxSeeds sk) 17 0 (Sphincs.Spec.treeOf (spxDigest sk m sig)) (Sphincs.Spec.leafOf (spxDigest sk m sig))
      (Sphincs.Spec.forsPk S256 (spxSeeds sk) ⟨0, Sphincs.Spec.treeOf (spxDigest sk m sig), Sphincs.Spec.leafOf (spxDigest sk m sig)⟩) :=
    (congrArg (List.drop 11232) e).trans (List.drop_left' (by rw [List.length_append, lR]; exact congrArg (32 + ·) lf))
  rw [← key, ← List.drop_drop, ed]

/-- C119, full mode: repeated signatures of one message agree in everything before the SPHINCS+ signature (identifier, length, Ed25519 signature, message, Dilithium signature), and agree altogether if the
32-byte randomiser of SPHINCS+ is the same (hybrid-dilithium-sphincs/hybrid.c:259-344, sphincs/sign.c:96-163). -/
theorem full_repeated {sk : Bytes} {W V : World} {qs qs' : List Query} (h : Session sk W qs) (h' : Session sk V qs') {m sig sig' : Bytes}
    (hq : .full m sig ∈ qs) (hq' : .full m sig' ∈ qs') :
    sig.take (2486 + m.length) = sig'.take (2486 + m.length) ∧ ((spxPart sig).take 32 = (spxPart sig').take 32 → sig = sig') := by
  obtain ⟨k, dil, hd, ld, h1, h2, ls, -, et, es⟩ := full_answer h hq
  obtain ⟨k', dil', hd', -, -, -, ls', -, et', es'⟩ := full_answer h' hq'
  obtain rfl := (dil_deterministic isShake128_S128 isShake256_S256).2 _ _ _ _ _ _ ld hd hd'
  refine ⟨et.trans et'.symm, fun hR => ?_⟩
  rw [hR, ← es'] at es
  unfold spxPart at es
  rw [ls, ls', show 52342 + m.length - 49856 = 2486 + m.length by omega] at es
  rw [← List.take_append_drop (2486 + m.length) sig, ← List.take_append_drop (2486 + m.length) sig', et, et', es]

/-- C119, compact mode: a signature is determined by the message and the nonce it contains (hybrid-dilithium-sphincs/hybrid.c:468-564). -/
theorem compact_repeated {sk : Bytes} {W V : World} {qs qs' : List Query} (h : Session sk W qs) (h' : Session sk V qs') {m sig sig' : Bytes}
    (hq : .compact m sig ∈ qs) (hq' : .compact m sig' ∈ qs') (hn : nonceOf sig = nonceOf sig') : sig = sig' := by
  have ls := session_key h (fun e => by rw [e] at hq; cases hq)
  have ld : (skDil sk).length = 2560 := by rw [skDil, List.length_take, List.length_drop, ls]; rfl
  obtain ⟨-, -, -, x, k, dil, hx, hd, e⟩ := session_answers isShake128_S128 isShake256_S256 h _ hq
  obtain ⟨-, -, -, x', k', dil', hx', hd', e'⟩ := session_answers isShake128_S128 isShake256_S256 h' _ hq'
  rw [← hn] at hx' e'
  obtain rfl : x = x' := Keccak.bits_injective (Eq.trans hx hx'.symm)
  obtain rfl := (dil_deterministic isShake128_S128 isShake256_S256).2 _ _ _ _ _ _ ld hd hd'
  rw [e, e']

/-- C119, the one-time keys: on every layer the 2272 bytes of a signature are the signature, by the one-time key at the place that the index gives, of a string that depends on the secret key and that place
alone.  So no one-time key ever signs two different strings, whatever is signed and whatever the random source delivers (sphincs/sign.c:137-155). -/
theorem one_time_key_input {sk : Bytes} {W : World} {qs : List Query} (h : Session sk W qs) {m sig : Bytes} (hq : .full m sig ∈ qs) {i : Nat} (hi : i < 17) :
    slice (spxPart sig) (11232 + 2272 * i) 2272 = Sphincs.Spec.xmssSign S256 (spxSeeds sk) i (place (spxIndex sk m sig) i).tree (place (spxIndex sk m sig) i).leaf
      (Sphincs.Spec.signed S256 (spxSeeds sk) (place (spxIndex sk m sig) i)) := by
  rw [slice, full_tail h hq (by omega), show 17 - i = (16 - i) + 1 by omega, Sphincs.Spec.htSign, List.take_left' (length_xmssSign hS256 _ _ _ _ _)]

/-- C119: two signatures, of any messages, whose ways to the root meet on layer `i` have the same bytes from there on. -/
theorem full_shared_layers {sk : Bytes} {W V : World} {qs qs' : List Query} (h : Session sk W qs) (h' : Session sk V qs') {m m' sig sig' : Bytes}
    (hq : .full m sig ∈ qs) (hq' : .full m' sig' ∈ qs') {i : Nat} (hi : i ≤ 16) (he : spxIndex sk m sig / 16 ^ i = spxIndex sk m' sig' / 16 ^ i) :
    (spxPart sig).drop (11232 + 2272 * i) = (spxPart sig').drop (11232 + 2272 * i) := by
  have : place (spxIndex sk m sig) i = place (spxIndex sk m' sig') i := by
    unfold place
    rw [Nat.pow_succ, ← Nat.div_div_eq_div_mul, ← Nat.div_div_eq_div_mul, he]
  rw [full_tail h hq (by omega), full_tail h' hq' (by omega), this]

theorem spxIndex_lt (sk m sig : Bytes) {i : Nat} (hi : i ≤ 16) : spxIndex sk m sig / 16 ^ i < 16 ^ (17 - i) := by
  have h1 := Sphincs.treeOf_lt (spxDigest sk m sig)
  have h2 := Sphincs.leafOf_lt (spxDigest sk m sig)
  rw [Nat.div_lt_iff_lt_mul (Nat.pow_pos (by decide)), ← Nat.pow_add, show 17 - i + i = 17 by omega]
  unfold spxIndex
  omega

/-- C119: with one secret key the bytes from layer `i` on take at most `16 ^ (17 - i)` values over all sessions, messages and random sources; the last 2272 bytes of a full-mode signature at most 16. -/
theorem full_tail_values (sk : Bytes) (i : Nat) (hi : i ≤ 16) : ∃ f : Fin (16 ^ (17 - i)) → Bytes, ∀ (W : World) (qs : List Query) (m sig : Bytes), Session sk W qs → .full m sig ∈ qs →
    ∃ j, (spxPart sig).drop (11232 + 2272 * i) = f j := by
  refine ⟨fun j => Sphincs.Spec.htSign S256 (spxSeeds sk) (17 - i) i (j.val / 16) (j.val % 16) (Sphincs.Spec.signed S256 (spxSeeds sk) ⟨i, j.val / 16, j.val % 16⟩), ?_⟩
  intro W qs m sig h hq
  refine ⟨⟨_, spxIndex_lt sk m sig hi⟩, ?_⟩
  rw [full_tail h hq (by omega)]
  unfold place
  rw [Nat.pow_succ, ← Nat.div_div_eq_div_mul]

/-- C119: among any seventeen full-mode signatures made with one secret key, of whatever messages, two end with the same 2272 bytes. -/
theorem full_ends_collide {sk : Bytes} (W : Fin 17 → World) (qs : Fin 17 → List Query) (m sig : Fin 17 → Bytes) (h : ∀ a, Session sk (W a) (qs a)) (hq : ∀ a, .full (m a) (sig a) ∈ qs a) :
    ∃ a b, a ≠ b ∧ (spxPart (sig a)).drop 47584 = (spxPart (sig b)).drop 47584 := by
  obtain ⟨f, hf⟩ := full_tail_values sk 16 (Nat.le_refl _)
  choose g hg using fun a => hf (W a) (qs a) (m a) (sig a) (h a) (hq a)
  obtain ⟨a, b, hab, e⟩ := Fintype.exists_ne_map_eq_of_card_lt g (by simp)
  exact ⟨a, b, hab, by rw [show 47584 = 11232 + 2272 * 16 from rfl, hg a, hg b, e]⟩

/-- C119, the FORS keys: two signatures that use the same FORS key and the same leaf of its tree `t` have the same 320 bytes there (sphincs/fors.c:66-109). -/
theorem full_shared_fors {sk : Bytes} {W V : World} {qs qs' : List Query} (h : Session sk W qs) (h' : Session sk V qs') {m m' sig sig' : Bytes}
    (hq : .full m sig ∈ qs) (hq' : .full m' sig' ∈ qs') {t : Nat} (ht : t < 35) (he : spxIndex sk m sig = spxIndex sk m' sig')
    (hf : Sphincs.Spec.forsIndex (Sphincs.Spec.mdOf (spxDigest sk m sig)) t = Sphincs.Spec.forsIndex (Sphincs.Spec.mdOf (spxDigest sk m' sig')) t) :
    slice (spxPart sig) (32 + 320 * t) 320 = slice (spxPart sig') (32 + 320 * t) 320 := by
  have key : ∀ {W : World} {qs : List Query} {m sig : Bytes}, Session sk W qs → .full m sig ∈ qs →
      slice (spxPart sig) (32 + 320 * t) 320 = Sphincs.Spec.forsSk S256 (spxSeeds sk) (place (spxIndex sk m sig) 0) t (Sphincs.Spec.forsIndex (Sphincs.Spec.mdOf (spxDigest sk m sig)) t) ++
        Sphincs.Spec.authPath S256 (spxSeeds sk).pub (Sphincs.Spec.forsAdrs (place (spxIndex sk m sig) 0) t) (Sphincs.Spec.forsLeaf S256 (spxSeeds sk) (place (spxIndex sk m sig) 0) t) 9
          (Sphincs.Spec.forsIndex (Sphincs.Spec.mdOf (spxDigest sk m sig)) t) := by
    intro W qs m sig h hq
    obtain ⟨k, dil, -, -, -, -, -, hl, -, e⟩ := full_answer h hq
    have lR : ((spxPart sig).take 32).length = 32 := by rw [List.length_take, hl]; rfl
    have ep : place (spxIndex sk m sig) 0 = ⟨0, Sphincs.Spec.treeOf (spxDigest sk m sig), Sphincs.Spec.leafOf (spxDigest sk m sig)⟩ := by
      have := Sphincs.leafOf_lt (spxDigest sk m sig)
      have h1 : spxIndex sk m sig / 16 ^ (0 + 1) = Sphincs.Spec.treeOf (spxDigest sk m sig) := by unfold spxIndex; omega
      have h2 : spxIndex sk m sig / 16 ^ 0 % 16 = Sphincs.Spec.leafOf (spxDigest sk m sig) := by unfold spxIndex; omega
      unfold place
      rw [h1, h2]
    rw [ep]
    have ed : spxPart sig = (spxPart sig).take 32 ++ (Sphincs.Spec.forsSign S256 (spxSeeds sk) ⟨0, Sphincs.Spec.treeOf (spxDigest sk m sig), Sphincs.Spec.leafOf (spxDigest sk m sig)⟩
        (Sphincs.Spec.mdOf (spxDigest sk m sig)) ++ (spxPart sig).drop 11232) := by
      have lf := length_forsSign hS256 (spxSeeds sk) ⟨0, Sphincs.Spec.treeOf (spxDigest sk m sig), Sphincs.Spec.leafOf (spxDigest sk m sig)⟩ (Sphincs.Spec.mdOf (spxDigest sk m sig))
      have eq : (spxPart sig).drop 11232 = Sphincs.Spec.htSign S256 (spxSeeds sk) 17 0 (Sphincs.Spec.treeOf (spxDigest sk m sig)) (Sphincs.Spec.leafOf (spxDigest sk m sig))
        (Sphincs.Spec.forsPk S256 (spxSeeds sk) ⟨0, Sphincs.Spec.treeOf (spxDigest sk m sig), Sphincs.Spec.leafOf (spxDigest sk m sig)⟩) :=
        (congrArg (List.drop 11232) e).trans (List.drop_left' (by rw [List.length_append, lR]; exact congrArg (32 + ·) lf))
      rw [eq, ← List.append_assoc]
      exact e
    generalize spxDigest sk m sig = d at ed ⊢
    have lf := length_forsSign hS256 (spxSeeds sk) ⟨0, Sphincs.Spec.treeOf d, Sphincs.Spec.leafOf d⟩ (Sphincs.Spec.mdOf d)
    have lk : ∀ t, t < 35 → (Sphincs.Spec.forsSk S256 (spxSeeds sk) ⟨0, Sphincs.Spec.treeOf d, Sphincs.Spec.leafOf d⟩ t (Sphincs.Spec.forsIndex (Sphincs.Spec.mdOf d) t) ++
        Sphincs.Spec.authPath S256 (spxSeeds sk).pub (Sphincs.Spec.forsAdrs ⟨0, Sphincs.Spec.treeOf d, Sphincs.Spec.leafOf d⟩ t)
          (Sphincs.Spec.forsLeaf S256 (spxSeeds sk) ⟨0, Sphincs.Spec.treeOf d, Sphincs.Spec.leafOf d⟩ t) 9 (Sphincs.Spec.forsIndex (Sphincs.Spec.mdOf d) t)).length = 320 := fun t _ => by
      rw [List.length_append, Sphincs.length_forsSk hS256, Sphincs.length_authPath hS256 (fun _ => Sphincs.length_forsLeaf hS256 _ _ _ _)]
    have es := Sphincs.slice_flatMap lk ht
    rw [← Sphincs.Spec.forsSign] at es
    rw [ed, slice, ← List.drop_drop, List.drop_left' lR, List.drop_append_of_le_length (by omega), List.take_append_of_le_length (by rw [List.length_drop]; omega), ← slice, Nat.mul_comm 320 t]
    exact es
  rw [key h hq, key h' hq', he, hf]

/-- The sessions that the examples need: one key, one message, any 32 random bytes. -/
theorem repeat_demo : ∃ sk : Bytes, sk.length = 4064 ∧ ∀ opt : Bytes, opt.length = 32 → ∃ W sig, Session sk W [.full [2] sig] ∧ FullSigned S128 S256 sk [2] opt sig := by
  obtain ⟨pkb, skb, sig, hk, k, dil, hd, -⟩ := Witness.keys_and_signature
  have hl := keysOf_parts isShake128_S128 isShake256_S256 Witness.length_seed160 hk
  refine ⟨skb, hl.2.1, fun opt ho => ?_⟩
  obtain ⟨W, h⟩ := session_exists (skb := skb) (mb := [2]) (opt := opt) hl.2.1 (by decide) (by decide) ho ⟨k, dil, hd, rfl⟩
  exact ⟨W, _, h, k, dil, hd, rfl⟩

/-- Two sessions with different random bytes meet the hypotheses of `full_repeated`. -/
example : ∃ (sk : Bytes) (W V : World) (sig sig' : Bytes), Session sk W [.full [2] sig] ∧ Session sk V [.full [2] sig'] ∧ sig.take 2487 = sig'.take 2487 := by
  obtain ⟨sk, -, h⟩ := repeat_demo
  obtain ⟨W, sig, h1, -⟩ := h (List.replicate 32 0) List.length_replicate
  obtain ⟨V, sig', h2, -⟩ := h (List.replicate 32 1) List.length_replicate
  exact ⟨sk, W, V, sig, sig', h1, h2, (full_repeated h1 h2 (List.mem_singleton.2 rfl) (List.mem_singleton.2 rfl)).1⟩

/-- Seventeen sessions with seventeen different strings of random bytes: two signatures end alike, and every layer of every signature is as `one_time_key_input` says. -/
example : ∃ (sk : Bytes) (W : Fin 17 → World) (sig : Fin 17 → Bytes), (∀ a, Session sk (W a) [.full [2] (sig a)]) ∧ (∀ a : Fin 17, FullSigned S128 S256 sk [2] (List.replicate 32 (BitVec.ofNat 8 a.val)) (sig a)) ∧
    ∃ a b, a ≠ b ∧ (spxPart (sig a)).drop 47584 = (spxPart (sig b)).drop 47584 := by
  obtain ⟨sk, -, h⟩ := repeat_demo
  choose W sig h1 h2 using fun a : Fin 17 => h (List.replicate 32 (BitVec.ofNat 8 a.val)) List.length_replicate
  exact ⟨sk, W, sig, h1, h2, full_ends_collide W _ _ sig h1 fun a => List.mem_singleton.2 rfl⟩

/-- The hypotheses of `full_shared_layers` hold of two among seventeen sessions. -/
example : ∃ (sk : Bytes) (W V : World) (sig sig' opt opt' : Bytes), opt ≠ opt' ∧ Session sk W [.full [2] sig] ∧ FullSigned S128 S256 sk [2] opt sig ∧
    Session sk V [.full [2] sig'] ∧ FullSigned S128 S256 sk [2] opt' sig' ∧ spxIndex sk [2] sig / 16 ^ 16 = spxIndex sk [2] sig' / 16 ^ 16 := by
  obtain ⟨sk, -, h⟩ := repeat_demo
  choose W sig h1 h2 using fun a : Fin 17 => h (List.replicate 32 (BitVec.ofNat 8 a.val)) List.length_replicate
  obtain ⟨a, b, hab, e⟩ := Fintype.exists_ne_map_eq_of_card_lt (fun a : Fin 17 => (⟨_, spxIndex_lt sk [2] (sig a) (i := 16) (Nat.le_refl _)⟩ : Fin (16 ^ (17 - 16)))) (by simp)
  refine ⟨sk, _, _, _, _, _, _, ?_, h1 a, h2 a, h1 b, h2 b, congrArg Fin.val e⟩
  intro h
  have h := congrArg BitVec.toNat ((List.replicate_inj.1 h).2.resolve_left (by decide))
  rw [BitVec.toNat_ofNat, BitVec.toNat_ofNat] at h
  omega

/-- One signature in two sessions, for `full_shared_fors`. -/
example : ∃ (sk : Bytes) (W V : World) (sig : Bytes), W ≠ V ∧ Session sk W [.full [2] sig] ∧ Session sk V [.full [2] sig] := by
  obtain ⟨sk, -, h⟩ := repeat_demo
  obtain ⟨W, sig, h1, -⟩ := h (List.replicate 32 0) List.length_replicate
  refine ⟨sk, W, { W with sp := W.sp + 1 }, sig, ?_, h1, Session.client _ h1⟩
  intro e
  have := congrArg World.sp e
  exact absurd this (by show W.sp ≠ W.sp + 1; omega)

/-- A compact signature in a session, for `compact_repeated`. -/
example : ∃ (sk : Bytes) (W : World) (sig : Bytes), Session sk W [.compact [2] sig] := by
  obtain ⟨fs, pkb, skb, W, W', sm, smlen, m, sk, -, -, hm, hs, hb, hl, hd, hdm, hr⟩ := compact_demo_run
  rcases (real_compact_sign isShake128_S128 isShake256_S256 hm hs hb hl hdm (by omega) (by omega)).1 _ _ _ hr with ⟨h0, -⟩ | ⟨-, nonce, sig, -, -, rfl⟩
  · omega
  · obtain ⟨x, hx⟩ := Option.isSome_iff_exists.1 (write_view_isSome (p := smlen) (x := le64 (2526 + 1)) (write_view_isSome (W := { W with rng := Sphincs.drawn W.rng 40 }) (p := sm) (x := sig) hb))
    exact ⟨skb, _, x, Session.compact (Session.start W) hm hs hb hl hd hdm hr hx⟩

end Verif.Real
