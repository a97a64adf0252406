import Verif.Hybrid.Effects
import Verif.Hybrid.Toy

/-!
Property theorems of the hybrid layer, for every set of component algorithms that meets the contracts of
`Verif/Hybrid/Spec.lean`.  Each theorem is followed by an `example` that its hypotheses can be met.
-/

namespace Verif.Hybrid
open Verif Toy

variable {P : Prims}

/-! ### C05, C06: wire formats -/

/-- C05. -/
theorem full_sign_wire_format (hP : P.Sized) (hE : P.EdShape) {W W' : World} {sm smlen m sk : Ptr} {mlen : Nat} {mb skb : Bytes}
    (hm : W.view m mlen = some mb) (hsk : W.view sk 4064 = some skb)
    (hsm : (W.view sm (52342 + mlen)).isSome) (hl : (W.view smlen 8).isSome) (hd : Disj smlen 8 sm (52342 + mlen))
    (h1 : 1 ≤ mlen) (h2 : mlen ≤ 64)
    (h : signFull P (some sm) (some smlen) (some m) mlen (some sk) W = .ok (0, W')) :
    ∃ ed dil spx, ed.length = 64 ∧ dil.length = 2420 ∧ spx.length = 49856 ∧
      W'.view sm (52342 + mlen) = some (fullWire ed mb dil spx) ∧
      W'.view smlen 8 = some (le64 (52342 + mlen)) ∧
      (∃ b, P.edSign (List.replicate 128 0) 0 mb (skEd skb) = .ok (0, b, 64 + mlen) ∧ ed = b.take 64) ∧
      P.dilSign (List.replicate 2420 0) 0 mb (skDil skb) = .ok (0, dil, 2420) ∧
      P.spxSign (List.replicate 49856 0) 0 mb (skSpx skb) W.rng = .ok ((0, spx, 49856), W'.rng) := by
  have hmb := length_of_view hm
  rw [signFull_run hP hm hsk hsm hl h1 h2] at h
  obtain ⟨⟨x, R'⟩, hf, h⟩ := bind_eq_ok.1 h
  cases x with
  | error c =>
    simp only [Except.ok.injEq, Prod.mk.injEq] at h
    exact absurd h.1 (fullSig_code hf)
  | ok sig =>
    simp only [Except.ok.injEq, Prod.mk.injEq, true_and] at h
    subst h
    obtain ⟨b1, b2, b3, e1, e2, e3, rfl, l1, l2, l3⟩ := fullSig_ok hP hE (by omega) hf
    have hw : (fullWire (b1.take 64) mb b2 b3).length = 52342 + mlen := by
      rw [(wire_full_slices (by simp [l1]) l2 l3 (by omega)).1, hmb]
    refine ⟨b1.take 64, b2, b3, by simp [l1], l2, l3, ?_, ?_, ⟨b1, ?_, rfl⟩, e2, ?_⟩
    · rw [view_write_disj (by simpa [length_le64] using hd)]
      exact view_write_same' (W := { W with rng := R' }) hsm hw
    · exact view_write_same' (write_view_isSome (W := { W with rng := R' }) hl) (length_le64 _)
    · rw [← hmb]; exact e1
    · rw [write_rng, write_rng]; exact e3

example : ∃ W', signFull toy (some ⟨0, 0⟩) (some ⟨1, 0⟩) (some ⟨2, 0⟩) 20 (some ⟨3, 0⟩) demo = .ok (0, W') ∧
    toy.Sized ∧ toy.EdShape ∧ demo.view ⟨2, 0⟩ 20 = some (List.replicate 20 5) ∧ (demo.view ⟨3, 0⟩ 4064).isSome ∧
    (demo.view ⟨0, 0⟩ (52342 + 20)).isSome ∧ (demo.view ⟨1, 0⟩ 8).isSome ∧ Disj ⟨1, 0⟩ 8 ⟨0, 0⟩ (52342 + 20) :=
  let ⟨W', h⟩ := demo_sign
  ⟨W', h, toy_sized, toy_edShape, demo_m 20 (by omega), some_isSome demo_sk, some_isSome (demo_sm _ (by omega)),
    some_isSome demo_len, Or.inl (by decide)⟩

/-- C06. -/
theorem compact_sign_wire_format (hP : P.Sized) {W W' : World} {sm smlen m sk : Ptr} {mlen : Nat}
    {mb skb : Bytes} (hm : W.view m mlen = some mb) (hsk : W.view sk 4064 = some skb)
    (hsm : (W.view sm (2526 + mlen)).isSome) (hl : (W.view smlen 8).isSome) (hd : Disj smlen 8 sm (2526 + mlen))
    (hdm : Disj sm (2526 + mlen) m mlen) (h1 : 1 ≤ mlen) (h2 : mlen ≤ 64)
    (h : signCompact P (some sm) (some smlen) (some m) mlen (some sk) W = .ok (0, W')) :
    ∃ ed dil nonce, ed.length = 64 ∧ dil.length = 2420 ∧ nonce.length = 40 ∧
      W'.view sm (2526 + mlen) = some (compactWire ed dil nonce mb) ∧
      W'.view smlen 8 = some (le64 (2526 + mlen)) ∧
      W'.rng.log = W.rng.log ++ [(40, some nonce)] ∧
      (∃ b, P.edSign (List.replicate 128 0) 0 (compactHash P nonce mb (skSpxPk skb)) (skEd skb) = .ok (0, b, 128) ∧
        ed = b.take 64) ∧
      P.dilSign (List.replicate 2420 0) 0 (compactHash P nonce mb (skSpxPk skb)) (skDil skb) = .ok (0, dil, 2420) := by
  have hmb := length_of_view hm
  rw [signCompact_run hP hm hsk hsm hl hdm h1 h2] at h
  obtain ⟨⟨x, R'⟩, hf, h⟩ := bind_eq_ok.1 h
  cases x with
  | error c =>
    simp only [Except.ok.injEq, Prod.mk.injEq] at h
    exact absurd h.1 (compactSig_code hf)
  | ok sig =>
    simp only [Except.ok.injEq, Prod.mk.injEq, true_and] at h
    subst h
    obtain ⟨nonce, b1, b2, e0, eR, e1, e2, rfl, l1, l2, l3⟩ := compactSig_ok hP hf
    have hw : (compactWire (b1.take 64) b2 nonce mb).length = 2526 + mlen := by
      rw [(wire_compact_slices (by simp [l1]) l2 l3 (by omega)).1, hmb]
    refine ⟨b1.take 64, b2, nonce, by simp [l1], l2, l3, ?_, ?_, ?_, ⟨b1, e1, rfl⟩, e2⟩
    · rw [view_write_disj (by simpa [length_le64] using hd)]
      exact view_write_same' (W := { W with rng := R' }) hsm hw
    · exact view_write_same' (write_view_isSome (W := { W with rng := R' }) hl) (length_le64 _)
    · simp only [write_rng, eR]

example : ∃ W', signCompact toy (some ⟨0, 0⟩) (some ⟨1, 0⟩) (some ⟨2, 0⟩) 20 (some ⟨3, 0⟩) demo = .ok (0, W') ∧
    toy.Sized ∧ toy.EdShape ∧ demo.view ⟨2, 0⟩ 20 = some (List.replicate 20 5) ∧ (demo.view ⟨3, 0⟩ 4064).isSome ∧
    (demo.view ⟨0, 0⟩ (2526 + 20)).isSome ∧ (demo.view ⟨1, 0⟩ 8).isSome ∧ Disj ⟨1, 0⟩ 8 ⟨0, 0⟩ (2526 + 20) ∧
    Disj ⟨0, 0⟩ (2526 + 20) ⟨2, 0⟩ 20 :=
  let ⟨W', h⟩ := demo_signCompact
  ⟨W', h, toy_sized, toy_edShape, demo_m 20 (by omega), some_isSome demo_sk, some_isSome (demo_sm _ (by omega)),
    some_isSome demo_len, Or.inl (by decide), Or.inl (by decide)⟩

/-! ### C07, C08: acceptance -/

theorem verifyCode_zero {mb : Bytes} {x : Except Int Bytes} : verifyCode mb x = 0 ↔ x = .ok mb := by
  cases x with
  | error c => simp [verifyCode]
  | ok msg =>
    simp only [verifyCode, Except.ok.injEq]
    by_cases hl : msg.length = mb.length
    · rw [if_neg (not_not.2 hl)]
      by_cases hm : msg = mb
      · simp [hm]
      · simp [hm]
    · rw [if_pos hl]
      constructor
      · intro h; omega
      · rintro rfl; exact absurd rfl hl

/-- C07. -/
theorem full_verify_iff (hP : P.Sized) (hE : P.EdShape) {W W' : World} (hW : W.WF) {sm m pk : Ptr} {smlen mlen : Nat}
    {sb pkb mb : Bytes} (hsm : W.view sm smlen = some sb) (hpk : W.view pk 1408 = some pkb) (hm : W.view m mlen = some mb) :
    verifyFull P (some m) mlen (some sm) smlen (some pk) W = .ok (0, W') ↔ W' = W ∧ FullValid P pkb mb sb := by
  have hmb := length_of_view hm
  by_cases hr : 1 ≤ mlen ∧ mlen ≤ 64
  · rw [verifyFull_run hW hP hsm hpk hm hr.1 hr.2, ← fullOpen_iff hE]
    cases fullOpen P sb pkb with
    | error e => simp
    | ok x =>
      simp only [ok_bind, Except.ok.injEq, Prod.mk.injEq, verifyCode_zero]
      constructor
      · rintro ⟨rfl, rfl⟩; exact ⟨rfl, rfl⟩
      · rintro ⟨rfl, rfl⟩; exact ⟨rfl, rfl⟩
  · constructor
    · intro h
      unfold verifyFull at h
      simp only at h
      rw [if_pos (by simp only [MAX_MSG_LEN]; omega)] at h
      simp at h
    · rintro ⟨-, h1, h2, -⟩
      omega

/-- A toy public key. -/
def toyPk : Bytes := fit 32 [] ++ fit 1312 (fit 32 []) ++ fit 64 []

theorem toyPk_ed : pkEd toyPk = fit 32 [] := by
  rw [toyPk, pkEd, List.append_assoc, List.take_left' (by simp)]

theorem toyPk_dil : (pkDil toyPk).take 32 = fit 32 [] := by
  rw [toyPk, pkDil, ← slice_eq, List.append_assoc, slice_here (by simp) (by simp), take_fit (by omega) (by simp)]

theorem toyPk_spx : pkSpx toyPk = fit 64 [] := by
  rw [toyPk, pkSpx, ← slice_eq, slice_last (by simp) (by simp)]

/-- Toy component signatures on a message. -/
def toyEd (m : Bytes) : Bytes := edSig (fit 32 []) m
/-- A Dilithium signature of the toy components. -/
def toyDil (m : Bytes) : Bytes := fit 2420 (fit 32 [] ++ m.take 64)
/-- A SPHINCS+ signature of the toy components. -/
def toySpx (m : Bytes) : Bytes := List.replicate 32 0 ++ fit 49824 (fit 64 [] ++ m.take 64)

theorem toy_edAccepts {m : Bytes} (h : m.length ≤ 64) : EdAccepts toy (pkEd toyPk) (toyEd m) m := by
  rw [toyPk_ed]
  refine ⟨fit 128 m, m.length, ?_⟩
  simp only [toy, toyEd, length_edSig, List.length_replicate]
  have e1 : ((edSig (fit 32 []) m ++ m ++ List.replicate (64 - m.length) 0).drop 64).take (64 + m.length - 64) = m := by
    rw [List.append_assoc, List.drop_left' (by simp), Nat.add_sub_cancel_left, List.take_left' rfl]
  have e2 : (edSig (fit 32 []) m ++ m ++ List.replicate (64 - m.length) 0).take 64 = edSig (fit 32 []) m := by
    rw [List.append_assoc, List.take_left' (by simp)]
  rw [e1, e2, if_pos ⟨by omega, by simp, rfl⟩, Nat.add_sub_cancel_left]

theorem toy_dilAccepts (m : Bytes) : DilAccepts toy (pkDil toyPk) (toyDil m) m := by
  simp only [DilAccepts, toy, toyPk_dil, toyDil, if_true]

theorem toy_spxAccepts (m : Bytes) : SpxAccepts toy (pkSpx toyPk) (toySpx m) m := by
  simp only [SpxAccepts, toy, toyPk_spx, toySpx]
  rw [List.drop_left' (by simp), if_pos rfl]

theorem toy_fullValid {m : Bytes} (h1 : 1 ≤ m.length) (h : m.length ≤ 64) :
    FullValid toy toyPk m (fullWire (toyEd m) m (toyDil m) (toySpx m)) :=
  ⟨h1, h, _, _, _, length_edSig _ _, by simp [toyDil], by simp [toySpx], rfl, toy_edAccepts h, toy_dilAccepts m, toy_spxAccepts m⟩

theorem toy_compactValid {m nonce : Bytes} (h1 : 1 ≤ m.length) (h : m.length ≤ 64) (hn : nonce.length = 40) :
    CompactValid toy toyPk m (compactWire (toyEd (compactHash toy nonce m (pkSpx toyPk)))
      (toyDil (compactHash toy nonce m (pkSpx toyPk))) nonce m) :=
  ⟨h1, h, _, _, _, length_edSig _ _, by simp [toyDil], hn, rfl, toy_edAccepts (by rw [compactHash, toy_sized.sha3_512]; omega),
    toy_dilAccepts _⟩

/-- A memory that holds the given blocks. -/
def holding (l : List Bytes) : World := { mem := fun i => l[i]?, sp := l.length, rng := demoRng }

theorem holding_WF (l : List Bytes) : (holding l).WF := fun _ h => List.getElem?_eq_none h

theorem holding_view {l : List Bytes} {i n : Nat} {x : Bytes} (h : l[i]? = some x) (hn : x.length = n) :
    (holding l).view ⟨i, 0⟩ n = some x := by
  subst hn
  exact view_eq_some.2 ⟨x, h, by simp, by simp⟩

/-- A buffer that verify accepts, in a memory that holds signature, key and message. -/
example : ∃ (W : World) (sb : Bytes), W.WF ∧ W.view ⟨0, 0⟩ 52343 = some sb ∧ W.view ⟨1, 0⟩ 1408 = some toyPk ∧
    W.view ⟨2, 0⟩ 1 = some [1] ∧ FullValid toy toyPk [1] sb := by
  have hv := toy_fullValid (m := [1]) (by simp) (by simp)
  refine ⟨holding [_, toyPk, [1]], _, holding_WF _, holding_view rfl ?_, holding_view rfl (by simp [toyPk]), holding_view rfl rfl, hv⟩
  rw [(wire_full_slices (ed := toyEd [1]) (length_edSig _ _) (by simp [toyDil]) (by simp [toySpx]) (by simp)).1]
  rfl

/-- C08. -/
theorem compact_verify_iff (hP : P.Sized) (hE : P.EdShape) {W W' : World} (hW : W.WF) {sm m pk : Ptr} {smlen mlen : Nat}
    {sb pkb mb : Bytes} (hsm : W.view sm smlen = some sb) (hpk : W.view pk 1408 = some pkb) (hm : W.view m mlen = some mb) :
    verifyCompact P (some m) mlen (some sm) smlen (some pk) W = .ok (0, W') ↔ W' = W ∧ CompactValid P pkb mb sb := by
  have hmb := length_of_view hm
  by_cases hr : 1 ≤ mlen ∧ mlen ≤ 64
  · rw [verifyCompact_run hW hP hsm hpk hm hr.1 hr.2, ← compactOpen_iff hP hE]
    cases compactOpen P sb pkb with
    | error e => simp
    | ok x =>
      simp only [ok_bind, Except.ok.injEq, Prod.mk.injEq, verifyCode_zero]
      constructor
      · rintro ⟨rfl, rfl⟩; exact ⟨rfl, rfl⟩
      · rintro ⟨rfl, rfl⟩; exact ⟨rfl, rfl⟩
  · constructor
    · intro h
      unfold verifyCompact at h
      simp only at h
      rw [if_pos (by simp only [MAX_MSG_LEN]; omega)] at h
      simp at h
    · rintro ⟨-, h1, h2, -⟩
      omega

/-- C07 for open: it returns 0 exactly for valid buffers and delivers the embedded message. -/
theorem full_open_iff (hP : P.Sized) (hE : P.EdShape) {W W' : World} {sm m mlen pk : Ptr} {smlen : Nat}
    {sb pkb : Bytes} (hsm : W.view sm smlen = some sb) (hpk : W.view pk 1408 = some pkb)
    (hm : (W.view m (smlen - 52342)).isSome) (hl : (W.view mlen 8).isSome) :
    openFull P (some m) (some mlen) (some sm) smlen (some pk) W = .ok (0, W') ↔
      ∃ msg, FullValid P pkb msg sb ∧ W' = (W.write m msg).write mlen (le64 msg.length) := by
  rw [openFull_run hP hsm hpk hm hl]
  constructor
  · intro h
    obtain ⟨x, hx, h⟩ := bind_eq_ok.1 h
    cases x with
    | error c =>
      simp only [Except.ok.injEq, Prod.mk.injEq] at h
      exact absurd h.1 (fullOpen_nonneg hx)
    | ok msg =>
      simp only [Except.ok.injEq, Prod.mk.injEq, true_and] at h
      exact ⟨msg, (fullOpen_iff hE).1 hx, h.symm⟩
  · rintro ⟨msg, hv, rfl⟩
    rw [(fullOpen_iff hE).2 hv]
    rfl

/-- C08 for open. -/
theorem compact_open_iff (hP : P.Sized) (hE : P.EdShape) {W W' : World} {sm m mlen pk : Ptr} {smlen : Nat}
    {sb pkb : Bytes} (hsm : W.view sm smlen = some sb) (hpk : W.view pk 1408 = some pkb)
    (hm : (W.view m (smlen - 2526)).isSome) (hl : (W.view mlen 8).isSome) (hd : Disj m (smlen - 2526) sm smlen) :
    openCompact P (some m) (some mlen) (some sm) smlen (some pk) W = .ok (0, W') ↔
      ∃ msg, CompactValid P pkb msg sb ∧ W' = (W.write m msg).write mlen (le64 msg.length) := by
  rw [openCompact_run hP hsm hpk hm hl hd]
  constructor
  · intro h
    obtain ⟨x, hx, h⟩ := bind_eq_ok.1 h
    cases x with
    | error c =>
      simp only [Except.ok.injEq, Prod.mk.injEq] at h
      exact absurd h.1 (compactOpen_nonneg hx)
    | ok msg =>
      simp only [Except.ok.injEq, Prod.mk.injEq, true_and] at h
      exact ⟨msg, (compactOpen_iff hP hE).1 hx, h.symm⟩
  · rintro ⟨msg, hv, rfl⟩
    rw [(compactOpen_iff hP hE).2 hv]
    rfl

example : toy.Sized ∧ toy.EdShape ∧ demo.WF ∧ (demo.view ⟨0, 0⟩ 2546).isSome ∧ (demo.view ⟨4, 0⟩ 1408).isSome ∧
    (demo.view ⟨2, 0⟩ 20).isSome ∧ (demo.view ⟨6, 0⟩ (2546 - 2526)).isSome ∧ (demo.view ⟨7, 0⟩ 8).isSome ∧
    Disj ⟨6, 0⟩ (2546 - 2526) ⟨0, 0⟩ 2546 :=
  ⟨toy_sized, toy_edShape, demo_WF, some_isSome (demo_sm _ (by omega)), some_isSome demo_pk, some_isSome (demo_m _ (by omega)),
    some_isSome (demo_m2 _ (by omega)), some_isSome demo_len2, Or.inl (by decide)⟩

/-! ### C09, C10 -/

theorem load_id {P : Prims} {m mlen sm pk : Option Ptr} {smlen : Nat} {W W' : World}
    (h : openFull P m mlen sm smlen pk W = .ok (0, W')) : ∃ p b, sm = some p ∧ W.mem p.blk = some b ∧ b[p.off]? = some 2 := by
  unfold openFull at h
  split at h
  · rename_i m mlen sm pk
    split at h
    · simp at h
    rw [M_bind_apply] at h
    obtain ⟨⟨v, W1⟩, h1, h⟩ := bind_eq_ok.1 h
    simp only at h
    split at h
    · simp at h
    rename_i c
    simp only [not_not] at c
    have hv : v = 2 := BitVec.eq_of_toNat_eq c
    subst hv
    unfold load at h1
    split at h1
    · simp at h1
    rename_i b hb
    refine ⟨sm, b, rfl, hb, ?_⟩
    cases e : rd b (sm.off + 0) with
    | error x => rw [e] at h1; simp at h1
    | ok x =>
      rw [e] at h1
      simp only [Except.ok.injEq, Prod.mk.injEq] at h1
      rw [← h1.1]
      exact rd_eq_ok_iff.1 e
  · simp at h

theorem load_id_compact {P : Prims} {m mlen sm pk : Option Ptr} {smlen : Nat} {W W' : World}
    (h : openCompact P m mlen sm smlen pk W = .ok (0, W')) : ∃ p b, sm = some p ∧ W.mem p.blk = some b ∧ b[p.off]? = some 1 := by
  unfold openCompact at h
  split at h
  · rename_i m mlen sm pk
    split at h
    · simp at h
    rw [M_bind_apply] at h
    obtain ⟨⟨v, W1⟩, h1, h⟩ := bind_eq_ok.1 h
    simp only at h
    split at h
    · simp at h
    rename_i c
    simp only [not_not] at c
    have hv : v = 1 := BitVec.eq_of_toNat_eq c
    subst hv
    unfold load at h1
    split at h1
    · simp at h1
    rename_i b hb
    refine ⟨sm, b, rfl, hb, ?_⟩
    cases e : rd b (sm.off + 0) with
    | error x => rw [e] at h1; simp at h1
    | ok x =>
      rw [e] at h1
      simp only [Except.ok.injEq, Prod.mk.injEq] at h1
      rw [← h1.1]
      exact rd_eq_ok_iff.1 e
  · simp at h

/-- C09 for open: no buffer opens in both modes, whatever the lengths, keys and outputs. -/
theorem modes_exclusive_open {m mlen pk m' mlen' pk' : Option Ptr} {sm : Option Ptr} {n n' : Nat} {W W1 W2 : World}
    (hf : openFull P m mlen sm n pk W = .ok (0, W1)) : openCompact P m' mlen' sm n' pk' W ≠ .ok (0, W2) := by
  intro hc
  obtain ⟨p, b, e1, e2, e3⟩ := load_id hf
  obtain ⟨p', b', e1', e2', e3'⟩ := load_id_compact hc
  rw [e1] at e1'
  simp only [Option.some.injEq] at e1'
  subst e1'
  rw [e2] at e2'
  simp only [Option.some.injEq] at e2'
  subst e2'
  rw [e3] at e3'
  exact absurd e3' (by decide)

/-- C09 for verify. -/
theorem modes_exclusive_verify (hP : P.Sized) (hE : P.EdShape) {W W1 W2 : World} (hW : W.WF) {sm m m' pk pk' : Ptr}
    {n n' k k' : Nat} {sb sb' pkb pkb' mb mb' : Bytes} (hsm : W.view sm n = some sb) (hsm' : W.view sm n' = some sb')
    (hpk : W.view pk 1408 = some pkb) (hpk' : W.view pk' 1408 = some pkb') (hm : W.view m k = some mb)
    (hm' : W.view m' k' = some mb')
    (hf : verifyFull P (some m) k (some sm) n (some pk) W = .ok (0, W1)) :
    verifyCompact P (some m') k' (some sm) n' (some pk') W ≠ .ok (0, W2) := by
  intro hc
  obtain ⟨-, -, h64, ed, dil, spx, l1, l2, l3, e, -⟩ := (full_verify_iff hP hE hW hsm hpk hm).1 hf
  obtain ⟨-, -, h64', ed', dil', nonce, l1', l2', l3', e', -⟩ := (compact_verify_iff hP hE hW hsm' hpk' hm').1 hc
  obtain ⟨b, hb, hlt, rfl⟩ := view_eq_some.1 hsm
  obtain ⟨b', hb', hlt', rfl⟩ := view_eq_some.1 hsm'
  rw [hb] at hb'
  simp only [Option.some.injEq] at hb'
  subst hb'
  have a1 : (slice b sm.off n)[0]? = some 2 := by rw [e]; rfl
  have a2 : (slice b sm.off n')[0]? = some 1 := by rw [e']; rfl
  rw [getElem?_slice] at a1 a2
  split at a1
  · split at a2
    · rw [a1] at a2; exact absurd a2 (by decide)
    · simp at a2
  · simp at a1

/-- C10, full mode: two messages that verify against one buffer are equal. -/
theorem full_one_message (hP : P.Sized) (hE : P.EdShape) {W W1 W2 : World} (hW : W.WF) {sm m m' pk pk' : Ptr}
    {n k k' : Nat} {sb pkb pkb' mb mb' : Bytes} (hsm : W.view sm n = some sb)
    (hpk : W.view pk 1408 = some pkb) (hpk' : W.view pk' 1408 = some pkb') (hm : W.view m k = some mb) (hm' : W.view m' k' = some mb')
    (h1 : verifyFull P (some m) k (some sm) n (some pk) W = .ok (0, W1))
    (h2 : verifyFull P (some m') k' (some sm) n (some pk') W = .ok (0, W2)) : mb = mb' ∧ k = k' := by
  have e1 := (full_verify_iff hP hE hW hsm hpk hm).1 h1
  have e2 := (full_verify_iff hP hE hW hsm hpk' hm').1 h2
  have hl := length_of_view hm
  have hl' := length_of_view hm'
  obtain ⟨-, -, h64, ed, dil, spx, l1, l2, l3, rfl, -⟩ := e1
  obtain ⟨-, -, h64', ed', dil', spx', l1', l2', l3', e', -⟩ := e2
  obtain ⟨w1, -, -, w4, -, -, w7⟩ := wire_full_slices l1 l2 l3 h64
  obtain ⟨v1, -, -, v4, -, -, v7⟩ := wire_full_slices l1' l2' l3' h64'
  rw [e'] at w1 w4 w7
  rw [v1] at w1
  have hll : mb'.length = mb.length := by omega
  rw [hll] at v4
  rw [v4] at w4
  have := List.append_inj_right w4 (by omega)
  exact ⟨this.symm, by omega⟩

/-- C10, compact mode. -/
theorem compact_one_message (hP : P.Sized) (hE : P.EdShape) {W W1 W2 : World} (hW : W.WF) {sm m m' pk pk' : Ptr}
    {n k k' : Nat} {sb pkb pkb' mb mb' : Bytes} (hsm : W.view sm n = some sb)
    (hpk : W.view pk 1408 = some pkb) (hpk' : W.view pk' 1408 = some pkb') (hm : W.view m k = some mb) (hm' : W.view m' k' = some mb')
    (h1 : verifyCompact P (some m) k (some sm) n (some pk) W = .ok (0, W1))
    (h2 : verifyCompact P (some m') k' (some sm) n (some pk') W = .ok (0, W2)) : mb = mb' ∧ k = k' := by
  have e1 := (compact_verify_iff hP hE hW hsm hpk hm).1 h1
  have e2 := (compact_verify_iff hP hE hW hsm hpk' hm').1 h2
  have hl := length_of_view hm
  have hl' := length_of_view hm'
  obtain ⟨-, -, h64, ed, dil, spx, l1, l2, l3, rfl, -⟩ := e1
  obtain ⟨-, -, h64', ed', dil', spx', l1', l2', l3', e', -⟩ := e2
  obtain ⟨w1, -, -, -, -, -, w7⟩ := wire_compact_slices l1 l2 l3 h64
  obtain ⟨v1, -, -, -, -, -, v7⟩ := wire_compact_slices l1' l2' l3' h64'
  rw [e'] at w1 w7
  rw [v1] at w1
  have hll : mb'.length = mb.length := by omega
  rw [hll] at v7
  rw [v7] at w7
  exact ⟨w7.symm, by omega⟩

/-- Accepted buffers of both modes exist, so the two theorems above are not empty. -/
example : (∃ sb, FullValid toy toyPk [1] sb) ∧ (∃ sb, CompactValid toy toyPk [1] sb) :=
  ⟨⟨_, toy_fullValid (by simp) (by simp)⟩, ⟨_, toy_compactValid (nonce := List.replicate 40 0) (by simp) (by simp) (by simp)⟩⟩

/-! ### C11, C12: rejected and failing calls -/

/-- Some pointer of the list is NULL. -/
def AnyNull (l : List (Option Ptr)) : Prop := none ∈ l

/-- C11: rejected arguments give -1 and leave the world (memory and random source) as it was. -/
theorem invalid_arguments (W : World) (sm smlen m sk pk mlenp seed : Option Ptr) (mlen n : Nat) :
    ((AnyNull [sm, smlen, m, sk] ∨ mlen = 0 ∨ 64 < mlen) →
      signFull P sm smlen m mlen sk W = .ok (-1, W) ∧ signCompact P sm smlen m mlen sk W = .ok (-1, W)) ∧
    ((AnyNull [m, mlenp, sm, pk] ∨ n < 52343 ∨ 52406 < n) → openFull P m mlenp sm n pk W = .ok (-1, W)) ∧
    ((AnyNull [m, mlenp, sm, pk] ∨ n < 2527 ∨ 2590 < n) → openCompact P m mlenp sm n pk W = .ok (-1, W)) ∧
    ((AnyNull [m, sm, pk] ∨ mlen = 0 ∨ 64 < mlen) →
      verifyFull P m mlen sm n pk W = .ok (-1, W) ∧ verifyCompact P m mlen sm n pk W = .ok (-1, W) ∧
      verifyDilithium P m mlen sm n pk W = .ok (-1, W)) ∧
    (AnyNull [pk, sk, seed] → keypairSeed P pk sk seed W = .ok (-1, W)) ∧
    (AnyNull [pk, sk] → keypair P pk sk W = .ok (-1, W)) := by
  refine ⟨fun h => ⟨?_, ?_⟩, fun h => ?_, fun h => ?_, fun h => ⟨?_, ?_, ?_⟩, fun h => ?_, fun h => ?_⟩
  · unfold signFull
    split
    · have h' : mlen = 0 ∨ 64 < mlen := by simpa [AnyNull] using h
      rw [if_pos (by simp only [MAX_MSG_LEN]; omega)]; rfl
    · rfl
  · unfold signCompact
    split
    · have h' : mlen = 0 ∨ 64 < mlen := by simpa [AnyNull] using h
      rw [if_pos (by simp only [MAX_MSG_LEN]; omega)]; rfl
    · rfl
  · unfold openFull
    split
    · have h' : n < 52343 ∨ 52406 < n := by simpa [AnyNull] using h
      rw [if_pos (by simp only [LEN_BYTES, ED_SIG, MIN_MSG_LEN, MAX_MSG_LEN, DIL_SIG, SPX_SIG]; omega)]; rfl
    · rfl
  · unfold openCompact
    split
    · have h' : n < 2527 ∨ 2590 < n := by simpa [AnyNull] using h
      rw [if_pos (by simp only [LEN_BYTES, ED_SIG, MIN_MSG_LEN, MAX_MSG_LEN, DIL_SIG, NONCE_BYTES]; omega)]; rfl
    · rfl
  · unfold verifyFull
    split
    · have h' : mlen = 0 ∨ 64 < mlen := by simpa [AnyNull] using h
      rw [if_pos (by simp only [MAX_MSG_LEN]; omega)]; rfl
    · rfl
  · unfold verifyCompact
    split
    · have h' : mlen = 0 ∨ 64 < mlen := by simpa [AnyNull] using h
      rw [if_pos (by simp only [MAX_MSG_LEN]; omega)]; rfl
    · rfl
  · unfold verifyDilithium
    split
    · have h' : mlen = 0 ∨ 64 < mlen := by simpa [AnyNull] using h
      rw [if_pos (by simp only [MAX_MSG_LEN]; omega)]; rfl
    · rfl
  · unfold keypairSeed
    split
    · simp [AnyNull] at h
    · rfl
  · unfold keypair
    split
    · simp [AnyNull] at h
    · rfl

example : AnyNull [some ⟨0, 0⟩, none, some ⟨2, 0⟩, some ⟨3, 0⟩] := by simp [AnyNull]

/-- C12, full sign: a nonzero code means that no byte of memory changed.  No assumption on the pointers. -/
theorem full_sign_failure_clean {W W' : World} {sm smlen m sk : Option Ptr} {mlen : Nat} {r : Int}
    (h : signFull P sm smlen m mlen sk W = .ok (r, W')) (hr : r ≠ 0) : W'.mem = W.mem := by
  refine (?_ : FailKeeps (signFull P sm smlen m mlen sk)) W r W' h hr |>.1
  unfold signFull
  split
  · refine .ite (.pure _) ?_
    refine .bind (Keeps.copyIn _ _ _ _ _) fun _ => .bind (Keeps.copyIn _ _ _ _ _) fun _ =>
      .bind (Keeps.copyIn _ _ _ _ _) fun _ => .bind (Keeps.readMem _ _) fun _ => .bind (Keeps.liftC _) fun _ =>
      .bind (Keeps.liftC _) fun _ => .bind (Keeps.liftR _) fun _ => ?_
    refine .ite (.pure _) (.ite (.pure _) (.ite (.pure _) (.ite (.pure _) (.ite (.pure _) (.ite (.pure _) ?_)))))
    exact OnlyZero.fail (.bind fun _ => .bind fun _ => .bind fun _ => .bind fun _ => .bind fun _ => .bind fun _ => .pure)
  · exact .pure _

/-- C12, compact sign. -/
theorem compact_sign_failure_clean {W W' : World} {sm smlen m sk : Option Ptr} {mlen : Nat} {r : Int}
    (h : signCompact P sm smlen m mlen sk W = .ok (r, W')) (hr : r ≠ 0) : W'.mem = W.mem := by
  refine (?_ : FailKeeps (signCompact P sm smlen m mlen sk)) W r W' h hr |>.1
  unfold signCompact
  split
  · refine .ite (.pure _) ?_
    refine .bind (Keeps.copyIn _ _ _ _ _) fun _ => .bind (Keeps.copyIn _ _ _ _ _) fun _ =>
      .bind (Keeps.liftR _) fun o => ?_
    cases o with
    | none => exact .pure _
    | some nonce =>
      refine .bind (Keeps.liftC _) fun _ => .bind (Keeps.copyIn _ _ _ _ _) fun _ => .bind (Keeps.copyIn _ _ _ _ _) fun _ =>
        .bind (Keeps.liftC _) fun _ => .bind (Keeps.liftC _) fun _ => .bind (Keeps.liftC _) fun _ => ?_
      refine .ite (.pure _) (.ite (.pure _) (.ite (.pure _) (.ite (.pure _) ?_)))
      exact OnlyZero.fail (.bind fun _ => .bind fun _ => .bind fun _ => .bind fun _ => .bind fun _ => .bind fun _ =>
        .bind fun _ => .pure)
  · exact .pure _

/-- C12, full open. -/
theorem full_open_failure_clean {W W' : World} {m mlen sm pk : Option Ptr} {n : Nat} {r : Int}
    (h : openFull P m mlen sm n pk W = .ok (r, W')) (hr : r ≠ 0) : W'.mem = W.mem := by
  refine (?_ : FailKeeps (openFull P m mlen sm n pk)) W r W' h hr |>.1
  unfold openFull
  split
  · refine .ite (.pure _) (.bind (Keeps.load _ _) fun _ => .ite (.pure _) (.bind (Keeps.load _ _) fun _ =>
      .ite (.pure _) (.ite (.pure _) ?_)))
    refine .bind (Keeps.copyIn _ _ _ _ _) fun _ => .bind (Keeps.copyIn _ _ _ _ _) fun _ => .bind (Keeps.liftC _) fun _ =>
      .ite (.pure _) (.ite (.pure _) ?_)
    refine .bind (Keeps.copyIn _ _ _ _ _) fun _ => .bind (Keeps.copyIn _ _ _ _ _) fun _ => .bind (Keeps.liftC _) fun _ =>
      .bind (Keeps.liftC _) fun _ => .ite (.pure _) ?_
    refine .bind (Keeps.copyIn _ _ _ _ _) fun _ => .bind (Keeps.copyIn _ _ _ _ _) fun _ => .bind (Keeps.liftC _) fun _ =>
      .ite (.pure _) ?_
    exact OnlyZero.fail (.bind fun _ => .bind fun _ => .pure)
  · exact .pure _

/-- C12, compact open. -/
theorem compact_open_failure_clean {W W' : World} {m mlen sm pk : Option Ptr} {n : Nat} {r : Int}
    (h : openCompact P m mlen sm n pk W = .ok (r, W')) (hr : r ≠ 0) : W'.mem = W.mem := by
  refine (?_ : FailKeeps (openCompact P m mlen sm n pk)) W r W' h hr |>.1
  unfold openCompact
  split
  · refine .ite (.pure _) (.bind (Keeps.load _ _) fun _ => .ite (.pure _) (.bind (Keeps.load _ _) fun _ =>
      .ite (.pure _) (.ite (.pure _) ?_)))
    refine .bind (Keeps.copyIn _ _ _ _ _) fun _ => .bind (Keeps.copyIn _ _ _ _ _) fun _ => .bind (Keeps.copyIn _ _ _ _ _) fun _ =>
      .bind (Keeps.liftC _) fun _ => .bind (Keeps.copyIn _ _ _ _ _) fun _ => .bind (Keeps.liftC _) fun _ =>
      .bind (Keeps.copyIn _ _ _ _ _) fun _ => .bind (Keeps.liftC _) fun _ => .ite (.pure _) (.ite (.pure _) ?_)
    refine .bind (Keeps.liftC _) fun _ => .bind (Keeps.liftC _) fun _ => .ite (.pure _) ?_
    refine .bind (Keeps.copyIn _ _ _ _ _) fun _ => .bind (Keeps.copyIn _ _ _ _ _) fun _ => .bind (Keeps.liftC _) fun _ =>
      .ite (.pure _) ?_
    exact OnlyZero.fail (.bind fun _ => .bind fun _ => .pure)
  · exact .pure _

/-- C12: verify leaves caller memory (and the random source) unchanged whatever it returns. -/
theorem verify_clean (hP : P.Sized) {W W' : World} (hW : W.WF) {sm m pk : Ptr} {n k : Nat} {sb pkb mb : Bytes} {r : Int}
    (hsm : W.view sm n = some sb) (hpk : W.view pk 1408 = some pkb) (hm : W.view m k = some mb)
    (h : verifyFull P (some m) k (some sm) n (some pk) W = .ok (r, W') ∨
      verifyCompact P (some m) k (some sm) n (some pk) W = .ok (r, W')) : W' = W := by
  by_cases hr : 1 ≤ k ∧ k ≤ 64
  · rw [verifyFull_run hW hP hsm hpk hm hr.1 hr.2, verifyCompact_run hW hP hsm hpk hm hr.1 hr.2] at h
    rcases h with h | h
    · obtain ⟨x, -, h⟩ := bind_eq_ok.1 h
      simp only [Except.ok.injEq, Prod.mk.injEq] at h; exact h.2.symm
    · obtain ⟨x, -, h⟩ := bind_eq_ok.1 h
      simp only [Except.ok.injEq, Prod.mk.injEq] at h; exact h.2.symm
  · have hb : k = 0 ∨ 64 < k := by omega
    obtain ⟨e1, e2, -⟩ := (invalid_arguments (P := P) W (some sm) none (some m) none (some pk) none none k n).2.2.2.1 (Or.inr hb)
    rw [e1, e2] at h
    rcases h with h | h <;> · simp only [Except.ok.injEq, Prod.mk.injEq] at h; exact h.2.symm

/-- A failing call: in the demo memory the random source fails, so compact sign returns -1. -/
example : signCompact toy (some ⟨0, 0⟩) (some ⟨1, 0⟩) (some ⟨2, 0⟩) 20 (some ⟨3, 0⟩) demoFail =
    .ok (-1, { demoFail with rng := { demoFail.rng with log := [(40, none)] } }) := by
  rw [signCompact_run toy_sized (mb := List.replicate 20 5) (skb := List.replicate 4064 3) (view_replicate rfl (by omega))
    (view_replicate rfl (by omega)) (some_isSome (view_replicate (v := 9) (N := 60000) rfl (by omega)))
    (some_isSome (view_replicate (v := 9) (N := 8) rfl (by omega))) (Or.inl (by decide)) (by omega) (by omega)]
  rfl

/-! ### C13: memory footprint and absence of undefined behaviour -/

/-- C13, writes: no call writes outside its documented outputs, whatever the placement of the buffers. -/
theorem footprint (W W' : World) (r : Int) (sm smlen m sk pk mlenp seed : Ptr) (mlen n : Nat) :
    (signFull P (some sm) (some smlen) (some m) mlen (some sk) W = .ok (r, W') →
      SameOutside [(sm, 52342 + mlen), (smlen, 8)] W W') ∧
    (signCompact P (some sm) (some smlen) (some m) mlen (some sk) W = .ok (r, W') →
      SameOutside [(sm, 2526 + mlen), (smlen, 8)] W W') ∧
    (openFull P (some m) (some mlenp) (some sm) n (some pk) W = .ok (r, W') →
      SameOutside [(m, n - 52342), (mlenp, 8)] W W') ∧
    (openCompact P (some m) (some mlenp) (some sm) n (some pk) W = .ok (r, W') →
      SameOutside [(m, n - 2526), (mlenp, 8)] W W') ∧
    (keypairSeed P (some pk) (some sk) (some seed) W = .ok (r, W') → SameOutside [(pk, 1408), (sk, 4064)] W W') ∧
    (W.WF → keypair P (some pk) (some sk) W = .ok (r, W') → SameOutside [(pk, 1408), (sk, 4064)] W W') ∧
    (seedExpander P (some seed) (some pk) W = .ok (r, W') → SameOutside [(pk, 160)] W W') ∧
    (verifyDilithium P (some m) mlen (some sm) n (some pk) W = .ok (r, W') → SameOutside [] W W') := by
  refine ⟨signFull_writes _ _ _ _ _ _ _ _, signCompact_writes _ _ _ _ _ _ _ _, openFull_writes _ _ _ _ _ _ _ _,
    openCompact_writes _ _ _ _ _ _ _ _, keypairSeed_writes _ _ _ _ _ _, fun hW h => ?_, seedExpander_writes _ _ _ _ _,
    fun h => (verifyDilithium_keeps _ _ _ _ _).onlyWrites _ _ _ h⟩
  unfold keypair at h
  simp only [M_bind_apply] at h
  obtain ⟨⟨o, W1⟩, h1, h2⟩ := bind_eq_ok.1 h
  have hk := (Keeps.liftR (randombytes 160)) _ _ _ h1
  have hW1 : W1.WF := by intro b hb; rw [hk.1]; exact hW b (by rw [← hk.2]; exact hb)
  have hs1 : SameOutside [(pk, 1408), (sk, 4064)] W W1 := (Keeps.liftR (randombytes 160)).onlyWrites _ _ _ h1
  refine hs1.trans ?_
  cases o with
  | none => exact OnlyWrites.pure _ _ _ _ h2
  | some s =>
    refine withLocal_writes hW1 ?_ h2
    intro V a V' hV
    have := keypairSeed_writes pk sk ⟨W1.sp, 0⟩ V a V' hV
    refine ⟨this.1, fun b => ⟨(this.2 b).1, fun i hi => (this.2 b).2 i ?_⟩⟩
    rintro ⟨r, hr, hr'⟩
    exact hi ⟨r, List.mem_cons_of_mem _ hr, hr'⟩

/-- C13, safety of full sign: documented buffer sizes suffice, for every placement (overlaps allowed). -/
theorem full_sign_safe (hP : P.Sized) (hU : P.NoUB) {W : World} {sm smlen m sk : Ptr} {mlen : Nat}
    (hm : (W.view m mlen).isSome) (hsk : (W.view sk 4064).isSome) (hsm : (W.view sm (52342 + mlen)).isSome)
    (hl : (W.view smlen 8).isSome) : signFull P (some sm) (some smlen) (some m) mlen (some sk) W ≠ .error .ub := by
  by_cases hr : 1 ≤ mlen ∧ mlen ≤ 64
  · obtain ⟨mb, hm⟩ := Option.isSome_iff_exists.1 hm
    obtain ⟨skb, hsk⟩ := Option.isSome_iff_exists.1 hsk
    have hmb := length_of_view hm
    have hskb := length_of_view hsk
    rw [signFull_run hP hm hsk hsm hl hr.1 hr.2]
    intro h
    rcases bind_eq_error.1 h with h | ⟨⟨x, R'⟩, -, h⟩
    · unfold fullSig at h
      simp only [RandM_bind_apply] at h
      rcases bind_eq_error.1 h with h | ⟨⟨⟨r1, b1, n1⟩, R1⟩, h1, h⟩
      · exact hU.edSign _ _ (by omega) (length_slice (by omega)) (liftCR_eq_error h)
      rcases bind_eq_error.1 h with h | ⟨⟨⟨r2, b2, n2⟩, R2⟩, h2, h⟩
      · exact hU.dilSign _ _ (length_slice (by omega)) (liftCR_eq_error h)
      rcases bind_eq_error.1 h with h | ⟨⟨⟨r3, b3, n3⟩, R3⟩, h3, h⟩
      · exact hU.spxSign _ _ _ (length_slice (by omega)) h
      · simp only at h
        split at h
        · simp at h
        split at h
        · simp at h
        split at h
        · simp at h
        split at h
        · simp at h
        split at h
        · simp at h
        split at h
        · simp at h
        simp at h
    · cases x <;> simp at h
  · have hb : mlen = 0 ∨ 64 < mlen := by omega
    rw [((invalid_arguments (P := P) W (some sm) (some smlen) (some m) (some sk) none none none mlen 0).1 (Or.inr hb)).1]
    simp

/-- C13, safety of compact sign, for every placement of the buffers. -/
theorem compact_sign_safe (hP : P.Sized) (hU : P.NoUB) {W : World} {sm smlen m sk : Ptr} {mlen : Nat}
    (hm : (W.view m mlen).isSome) (hsk : (W.view sk 4064).isSome) (hsm : (W.view sm (2526 + mlen)).isSome)
    (hl : (W.view smlen 8).isSome) : signCompact P (some sm) (some smlen) (some m) mlen (some sk) W ≠ .error .ub := by
  by_cases hr : 1 ≤ mlen ∧ mlen ≤ 64
  · have hmS := hm
    obtain ⟨mb, hm⟩ := Option.isSome_iff_exists.1 hm
    obtain ⟨skb, hsk⟩ := Option.isSome_iff_exists.1 hsk
    have hmb := length_of_view hm
    have hskb := length_of_view hsk
    rw [signCompact_gen hP hm hsk hsm hr.1 hr.2]
    intro h
    rcases bind_eq_error.1 h with h | ⟨⟨x, R'⟩, hx, h⟩
    · unfold compactSig at h
      simp only [RandM_bind_apply] at h
      rcases bind_eq_error.1 h with h | ⟨⟨o, R1⟩, h0, h⟩
      · simp [randombytes] at h
      cases o with
      | none => simp at h
      | some nonce =>
        simp only [RandM_bind_apply] at h
        rcases bind_eq_error.1 h with h | ⟨⟨⟨r1, b1, n1⟩, R1⟩, h1, h⟩
        · exact hU.edSign _ _ (by rw [hP.sha3_512]; omega) (length_slice (by omega)) (liftCR_eq_error h)
        rcases bind_eq_error.1 h with h | ⟨⟨⟨r2, b2, n2⟩, R2⟩, h2, h⟩
        · exact hU.dilSign _ _ (length_slice (by omega)) (liftCR_eq_error h)
        simp only at h
        split at h
        · simp at h
        split at h
        · simp at h
        split at h
        · simp at h
        split at h
        · simp at h
        simp at h
    · cases x with
      | error c => simp at h
      | ok sig =>
        obtain ⟨pre, hp, rfl⟩ := compactSig_form hP hx
        simp only at h
        rw [List.take_append_of_le_length (by omega), List.take_of_length_le (by omega)] at h
        obtain ⟨y, -, e⟩ := signTail_total (W := { W with rng := R' }) (sm := sm) (smlen := smlen) (m := m) (mlen := mlen) hp
          hmS hsm hl
        rw [e] at h
        simp at h
  · have hb : mlen = 0 ∨ 64 < mlen := by omega
    rw [((invalid_arguments (P := P) W (some sm) (some smlen) (some m) (some sk) none none none mlen 0).1 (Or.inr hb)).2]
    simp

theorem fullOpen_safe (hU : P.NoUB) {sb pkb : Bytes} (hpk : pkb.length = 1408) : fullOpen P sb pkb ≠ .error .ub := by
  intro h
  unfold fullOpen at h
  simp only at h
  split at h
  · simp at h
  split at h
  · simp at h
  split at h
  · simp at h
  split at h
  · simp at h
  rename_i c1 c2 c3 c4
  simp only [not_not, not_or, Nat.not_lt, Nat.not_le] at c1 c2 c3 c4
  generalize hn : (sb.getD 1 0).toNat = n at *
  rcases bind_eq_error.1 h with h | ⟨⟨r1, b1, n1⟩, h1, h⟩
  · refine hU.edOpen _ _ _ ?_ (by omega) (length_slice (by omega)) h
    rw [length_splice (by rw [length_slice (by omega)]; simp; omega)]; simp
  simp only at h
  split at h
  · simp at h
  split at h
  · simp at h
  rcases bind_eq_error.1 h with h | ⟨r2, h2, h⟩
  · exact hU.dilVerify _ _ _ (length_slice (by omega)) (length_slice (by omega)) h
  split at h
  · simp at h
  rcases bind_eq_error.1 h with h | ⟨r2, h2, h⟩
  · exact hU.spxVerify _ _ _ (length_slice (by omega)) (length_slice (by omega)) h
  split at h <;> simp at h

theorem compactOpen_safe (hP : P.Sized) (hU : P.NoUB) {sb pkb : Bytes} (hpk : pkb.length = 1408) : compactOpen P sb pkb ≠ .error .ub := by
  intro h
  unfold compactOpen at h
  simp only at h
  split at h
  · simp at h
  split at h
  · simp at h
  split at h
  · simp at h
  split at h
  · simp at h
  rename_i c1 c2 c3 c4
  simp only [not_not, not_or, Nat.not_lt, Nat.not_le] at c1 c2 c3 c4
  generalize hn : (sb.getD 1 0).toNat = n at *
  rcases bind_eq_error.1 h with h | ⟨⟨r1, b1, n1⟩, h1, h⟩
  · refine hU.edOpen _ _ _ ?_ (by omega) (length_slice (by omega)) h
    rw [List.length_append, length_slice (by omega), hP.sha3_512]
  simp only at h
  split at h
  · simp at h
  split at h
  · simp at h
  split at h
  · simp at h
  rcases bind_eq_error.1 h with h | ⟨r2, h2, h⟩
  · exact hU.dilVerify _ _ _ (length_slice (by omega)) (length_slice (by omega)) h
  split at h <;> simp at h

/-- C13, safety of open in both modes, for every signature length and every placement. -/
theorem open_safe (hP : P.Sized) (hU : P.NoUB) {W : World} {m mlen sm pk : Ptr} {n : Nat}
    (hsm : (W.view sm n).isSome) (hpk : (W.view pk 1408).isSome) (hl : (W.view mlen 8).isSome) :
    ((W.view m (n - 52342)).isSome → openFull P (some m) (some mlen) (some sm) n (some pk) W ≠ .error .ub) ∧
    ((W.view m (n - 2526)).isSome → openCompact P (some m) (some mlen) (some sm) n (some pk) W ≠ .error .ub) := by
  obtain ⟨sb, hsm⟩ := Option.isSome_iff_exists.1 hsm
  obtain ⟨pkb, hpk⟩ := Option.isSome_iff_exists.1 hpk
  have hsb := length_of_view hsm
  refine ⟨fun hm => ?_, fun hm => ?_⟩
  · rw [openFull_run hP hsm hpk hm hl]
    intro h
    rcases bind_eq_error.1 h with h | ⟨x, -, h⟩
    · exact fullOpen_safe hU (length_of_view hpk) h
    · cases x <;> simp at h
  · rw [openCompact_gen hP hsm hpk]
    intro h
    rcases bind_eq_error.1 h with h | ⟨x, hx, h⟩
    · exact compactOpen_safe hP hU (length_of_view hpk) h
    · cases x with
      | error c => simp at h
      | ok msg =>
        have hb := compactOpen_bounds hx
        simp only at h
        obtain ⟨y, -, e⟩ := openTail_total (W := W) (m := m) (mlen := mlen) (sm := sm) (n := msg.length)
          (by rw [hb.1, hsb]; exact hm) (by rw [view_sub hsm (by omega)]; rfl) hl
        rw [e] at h
        simp at h

/-- C13, safety of verify in both modes. -/
theorem verify_safe (hP : P.Sized) (hU : P.NoUB) {W : World} (hW : W.WF) {m sm pk : Ptr} {n k : Nat}
    (hsm : (W.view sm n).isSome) (hpk : (W.view pk 1408).isSome) (hm : (W.view m k).isSome) :
    verifyFull P (some m) k (some sm) n (some pk) W ≠ .error .ub ∧
    verifyCompact P (some m) k (some sm) n (some pk) W ≠ .error .ub := by
  obtain ⟨sb, hsm⟩ := Option.isSome_iff_exists.1 hsm
  obtain ⟨pkb, hpk⟩ := Option.isSome_iff_exists.1 hpk
  obtain ⟨mb, hm⟩ := Option.isSome_iff_exists.1 hm
  by_cases hr : 1 ≤ k ∧ k ≤ 64
  · rw [verifyFull_run hW hP hsm hpk hm hr.1 hr.2, verifyCompact_run hW hP hsm hpk hm hr.1 hr.2]
    refine ⟨fun h => ?_, fun h => ?_⟩
    · rcases bind_eq_error.1 h with h | ⟨x, -, h⟩
      · exact fullOpen_safe hU (length_of_view hpk) h
      · simp at h
    · rcases bind_eq_error.1 h with h | ⟨x, -, h⟩
      · exact compactOpen_safe hP hU (length_of_view hpk) h
      · simp at h
  · have hb : k = 0 ∨ 64 < k := by omega
    obtain ⟨e1, e2, -⟩ := (invalid_arguments (P := P) W (some sm) none (some m) none (some pk) none none k n).2.2.2.1 (Or.inr hb)
    rw [e1, e2]
    simp

theorem keyBytes_safe (hU : P.NoUB) {seedb : Bytes} (hs : seedb.length = 160) : keyBytes P seedb ≠ .error .ub := by
  intro h
  unfold keyBytes at h
  rcases bind_eq_error.1 h with h | ⟨⟨r1, b1, n1⟩, h1, h⟩
  · exact hU.edKeypairSeed _ (length_slice (by omega)) h
  simp only at h
  split at h
  · simp at h
  rcases bind_eq_error.1 h with h | ⟨⟨r2, b2, n2⟩, h2, h⟩
  · exact hU.dilKeypairSeed _ (length_slice (by omega)) h
  simp only at h
  split at h
  · simp at h
  rcases bind_eq_error.1 h with h | ⟨⟨r3, b3, n3⟩, h3, h⟩
  · exact hU.spxKeypairSeed _ (length_slice (by omega)) h
  simp only at h
  split at h <;> simp at h

/-- Key generation from a seed has no undefined behaviour, whatever the placement of the three buffers. -/
theorem keypairSeed_safe (hP : P.Sized) (hU : P.NoUB) {W : World} {pk sk seed : Ptr} (hs : (W.view seed 160).isSome)
    (hpk : (W.view pk 1408).isSome) (hsk : (W.view sk 4064).isSome) : keypairSeed P (some pk) (some sk) (some seed) W ≠ .error .ub := by
  obtain ⟨seedb, hs⟩ := Option.isSome_iff_exists.1 hs
  have hsb := length_of_view hs
  simp only [keypairSeed, ED_SEED, DIL_SEED, SPX_SEED, ED_PK, ED_SK, DIL_SK, DIL_PK, SPX_SK, SPX_PK, Nat.reduceAdd]
  simp only [M_bind_apply]
  rw [copyIn_zeros hs (by omega)]; simp only [ok_bind]
  rw [copyIn_zeros hs (by omega)]; simp only [ok_bind]
  rw [copyIn_zeros hs (by omega)]; simp only [ok_bind]
  cases he : P.edKeypairSeed (zeros 32) (zeros 64) (slice seedb 0 32) with
  | error e =>
    intro h
    have h' : e = .ub := by simpa [liftC] using h
    exact hU.edKeypairSeed _ (length_slice (by omega)) (h' ▸ he)
  | ok t =>
  obtain ⟨r1, pk1, sk1⟩ := t
  obtain ⟨l1, l2⟩ := hP.edKeypairSeed _ _ _ _ _ _ he
  simp only [length_zeros] at l1 l2
  simp only [liftC_ok, ok_bind]
  split
  · simp
  simp only [M_bind_apply]
  rw [copyOut_ok (view_isSome_sub hpk (by omega)) (by omega)]; simp only [ok_bind]
  rw [copyOut_ok (write_view_isSome (view_isSome_sub hsk (by omega))) (by omega)]; simp only [ok_bind]
  generalize hW1 : (W.write (pk.add 0) (slice pk1 0 32)).write (sk.add 0) (slice sk1 0 64) = W1
  have hpk1 : (W1.view pk 1408).isSome := hW1 ▸ write_view_isSome (write_view_isSome hpk)
  have hsk1 : (W1.view sk 4064).isSome := hW1 ▸ write_view_isSome (write_view_isSome hsk)
  cases hd : P.dilKeypairSeed (zeros 1312) (zeros 2560) (slice seedb 32 32) with
  | error e =>
    intro h
    have h' : e = .ub := by simpa [liftC] using h
    exact hU.dilKeypairSeed _ (length_slice (by omega)) (h' ▸ hd)
  | ok t =>
  obtain ⟨r2, pk2, sk2⟩ := t
  obtain ⟨l3, l4⟩ := hP.dilKeypairSeed _ _ _ _ _ _ hd
  simp only [length_zeros] at l3 l4
  simp only [liftC_ok, ok_bind]
  split
  · simp
  simp only [M_bind_apply]
  rw [copyOut_ok (view_isSome_sub hsk1 (by omega)) (by omega)]; simp only [ok_bind]
  generalize hW2 : W1.write (sk.add 64) (slice sk2 0 2560) = W2
  have hpk2 : (W2.view pk 1408).isSome := hW2 ▸ write_view_isSome hpk1
  have hsk2 : (W2.view sk 4064).isSome := hW2 ▸ write_view_isSome hsk1
  obtain ⟨u, W3, e3, hpk3, hsk3⟩ := loopM_ok (fun _ _ W' => (W'.view pk 1408).isSome ∧ (W'.view sk 4064).isSome)
    (fun i (_ : Unit) => do
      let v ← liftC (rd pk2 i)
      store pk (32 + i) v
      let v ← liftC (rd pk2 i)
      store sk (2624 + i) v) 0 1312 () W2 ⟨hpk2, hsk2⟩ (by
        rintro k c W' _ hk ⟨h1, h2⟩
        have hr : rd pk2 k = .ok (pk2[k]'(by omega)) := rd_ok (by omega)
        refine ⟨(), (W'.write (pk.add (32 + k)) [pk2[k]'(by omega)]).write (sk.add (2624 + k)) [pk2[k]'(by omega)], ?_, write_view_isSome (write_view_isSome h1), write_view_isSome (write_view_isSome h2)⟩
        simp only [M_bind_apply, hr, liftC_ok, ok_bind]
        rw [store_ok h1 (by omega)]; simp only [ok_bind]
        rw [store_ok (write_view_isSome h2) (by omega)])
  rw [e3]
  simp only [ok_bind]
  cases hx : P.spxKeypairSeed (zeros 64) (zeros 128) (slice seedb 64 96) with
  | error e =>
    intro h
    have h' : e = .ub := by simpa [liftC] using h
    exact hU.spxKeypairSeed _ (length_slice (by omega)) (h' ▸ hx)
  | ok t =>
  obtain ⟨r3, pk3, sk3⟩ := t
  obtain ⟨l5, l6⟩ := hP.spxKeypairSeed _ _ _ _ _ _ hx
  simp only [length_zeros] at l5 l6
  simp only [liftC_ok, ok_bind]
  split
  · simp
  simp only [M_bind_apply]
  rw [copyOut_ok (view_isSome_sub hsk3 (by omega)) (by omega)]; simp only [ok_bind]
  rw [copyOut_ok (write_view_isSome (view_isSome_sub hpk3 (by omega))) (by omega)]
  simp

/-- C13, safety of key generation, for every placement of the buffers. -/
theorem keypair_safe (hP : P.Sized) (hU : P.NoUB) {W : World} {pk sk seed : Ptr}
    (hpk : (W.view pk 1408).isSome) (hsk : (W.view sk 4064).isSome) :
    ((W.view seed 160).isSome → keypairSeed P (some pk) (some sk) (some seed) W ≠ .error .ub) ∧
    (W.WF → keypair P (some pk) (some sk) W ≠ .error .ub) := by
  refine ⟨fun hs => keypairSeed_safe hP hU hs hpk hsk, fun hW => ?_⟩
  simp only [keypair, M_bind_apply, liftR]
  cases hr : randombytes 160 W.rng with
  | error e => simp [randombytes] at hr
  | ok t =>
    obtain ⟨o, R'⟩ := t
    simp only [ok_bind]
    cases o with
    | none => simp
    | some seedb =>
      simp only [randombytes, Except.ok.injEq, Prod.mk.injEq] at hr
      have hl := W.rng.len_draw _ _ _ hr.1
      simp only []
      rw [withLocal_eq]
      intro h
      rcases bind_eq_error.1 h with h | ⟨x, -, h⟩
      · exact keypairSeed_safe hP hU (some_isSome (push_view_new { W with rng := R' } seedb (by omega))) (push_view_isSome (W := { W with rng := R' }) hW _ hpk) (push_view_isSome (W := { W with rng := R' }) hW _ hsk) h
      · simp at h

/-- C13, safety of the seed expander, for every placement of the buffers. -/
theorem expander_safe (hP : P.Sized) (hU : P.NoUB) {W : World} {seed ex : Ptr} (hs : (W.view seed 96).isSome) (hx : (W.view ex 160).isSome) :
    seedExpander P (some seed) (some ex) W ≠ .error .ub := by
  obtain ⟨seedb, hs'⟩ := Option.isSome_iff_exists.1 hs
  have hsb := length_of_view hs'
  simp only [seedExpander]
  simp only [M_bind_apply]
  rw [expanderCopy_run hs']; simp only [ok_bind]
  cases he : P.seedexpander (effectiveSeed seedb) 128 with
  | error e =>
    intro h
    have h' : e = .ub := by simpa [liftC] using h
    exact hU.seedexpander _ (by simp [effectiveSeed]) (h' ▸ he)
  | ok t =>
    obtain ⟨r, tmp⟩ := t
    have hl := hP.seedexpander _ _ _ _ he
    simp only [liftC_ok, ok_bind]
    split
    · simp
    simp only [M_bind_apply]
    rw [copyOut_ok (view_isSome_sub hx (by omega)) (by omega)]; simp only [ok_bind]
    obtain ⟨y, hy, e⟩ := copyMem_total (W := W.write (ex.add 0) (slice tmp 0 32)) (p := ex) (q := seed) (o := 32) (s := 64) (n := 32)
      (write_view_isSome (view_isSome_sub hx (by omega))) (write_view_isSome (view_isSome_sub hs (by omega)))
    rw [e]; simp only [ok_bind]
    rw [copyOut_ok (write_view_isSome (write_view_isSome (view_isSome_sub hx (by omega)))) (by omega)]
    simp

/-- C13, safety of the separate Dilithium verification, for every length. -/
theorem dilithium_verify_safe (hU : P.NoUB) {W : World} {m sm pk : Ptr} {n k : Nat} (hsm : (W.view sm n).isSome) (hpk : (W.view pk 1312).isSome) (hm : (W.view m k).isSome) :
    verifyDilithium P (some m) k (some sm) n (some pk) W ≠ .error .ub := by
  obtain ⟨sb, hsm⟩ := Option.isSome_iff_exists.1 hsm
  obtain ⟨pkb, hpk⟩ := Option.isSome_iff_exists.1 hpk
  obtain ⟨mb, hm⟩ := Option.isSome_iff_exists.1 hm
  by_cases hr : 1 ≤ k ∧ k ≤ 64
  · by_cases hn : n = 2420
    · subst hn
      rw [verifyDilithium_run hsm hpk hm hr.1 hr.2]
      intro h
      rcases bind_eq_error.1 h with h | ⟨x, -, h⟩
      · exact hU.dilVerify _ _ _ (length_of_view hsm) (length_of_view hpk) h
      · simp at h
    · simp only [verifyDilithium]
      split
      · simp
      · simp
  · simp only [verifyDilithium]
    rw [if_pos (by simp only [MAX_MSG_LEN]; omega)]
    simp

example : toy.Sized ∧ toy.NoUB ∧ (demo.view ⟨4, 0⟩ 1408).isSome ∧ (demo.view ⟨3, 0⟩ 4064).isSome ∧
    (demo.view ⟨5, 0⟩ 160).isSome ∧
    -- overlapping message and signature buffers, and overlapping keys, are covered too
    (demo.view ⟨0, 0⟩ 1408).isSome ∧ (demo.view ⟨0, 0⟩ 4064).isSome ∧ (demo.view ⟨0, 10⟩ 20).isSome ∧ (demo.view ⟨0, 0⟩ (2526 + 20)).isSome :=
  ⟨toy_sized, toy_noUB, some_isSome demo_pk, some_isSome demo_sk, some_isSome (demo_seed _ (by omega)), some_isSome (demo_sm _ (by omega)), some_isSome (demo_sm _ (by omega)),
    view_isSome_sub (W := demo) (p := ⟨0, 0⟩) (n := 100) (o := 10) (k := 20) (some_isSome (demo_sm 100 (by omega))) (by omega), some_isSome (demo_sm _ (by omega))⟩

end Verif.Hybrid
