import Verif.Dilithium.Correct

/-! What the property theorems need on top of the refinement: fuel, the period of the masking nonces, the weight of the challenge, attached
signatures. -/

namespace Verif.Dilithium
open Verif Spec Keccak

/-! ### Fuel -/

theorem signLoop_fuel {x : SignCtx} {X : Ctx} (hx : Match x X) (fuel : Nat) : ∀ (rounds : Nat) (sig : Bytes) (k : Nat) (out : Bytes), sig.length = 2420 →
    signLoop fuel x rounds sig (BitVec.ofNat 16 k) = .ok out →
    ∃ k' c, polyChallenge fuel (cTilde S256 X k') = .ok c ∧ out = encodeSig (cTilde S256 X k') (zOf S256 X k' c) (hOf S256 X k' c) := by
  intro rounds
  induction rounds with
  | zero => intro sig k out _ h; cases h
  | succ n ih =>
    intro sig k out hs h
    unfold signLoop at h
    obtain ⟨h1, h2⟩ := signAttempt_run hx hs fuel k
    rcases (polyChallenge_safe fuel (cTilde_len X k)).cases with ⟨c, ec⟩ | e
    · obtain ⟨b, sig', e, hl, hb, hv⟩ := h2 c ec
      rw [e, ok_bind] at h
      simp only at h
      cases b with
      | true =>
        rw [if_pos rfl] at h
        cases h
        exact ⟨k, c, ec, hv rfl⟩
      | false =>
        simp only [Bool.false_eq_true, if_false] at h
        rw [nonce_succ] at h
        exact ih sig' (k + 1) out hl h
    · rw [h1 e] at h; cases h

theorem signature_fuel {fuel : Nat} {sig m sk sig' : Bytes} {siglen n : Nat} {r : Int} (hsk : sk.length = 2560) (hsig : sig.length = 2420)
    (h : signature fuel sig siglen m sk = .ok (r, sig', n)) :
    (∃ A, matrixExpand fuel (slice sk 0 32) = .ok A) ∧ ∃ c, polyChallenge fuel (sig'.take 32) = .ok c := by
  obtain ⟨h1, h2⟩ := signature_run fuel (m := m) siglen hsk hsig
  rcases (matrixExpand_safe fuel (rho := slice sk 0 32) (length_slice (by omega))).cases with ⟨A, eA⟩ | e
  · obtain ⟨x, hx, e⟩ := h2 A eA
    rw [e] at h
    obtain ⟨s, es, h⟩ := bind_eq_ok.1 h
    cases h
    obtain ⟨k', c, hc, hs⟩ := signLoop_fuel hx fuel fuel sig 0 _ hsig es
    refine ⟨⟨A, eA⟩, c, ?_⟩
    rw [hs, encodeSig, List.append_assoc, List.take_left' (cTilde_len _ _)]
    exact hc
  · rw [h1 e] at h; cases h

theorem keygen_parts {seed pk sk : Bytes} (h : KeyGen S128 S256 seed pk sk) :
    pk.length = 1312 ∧ sk.length = 2560 ∧ slice pk 0 32 = slice sk 0 32 := by
  obtain ⟨A, s1, s2, hA, h1, h2, epk, esk⟩ := h
  have hS : (S256 seed 128).length = 128 := length_stream ..
  have hv := tOf_VRes A s1 s2
  have hrho : (slice (S256 seed 128) 0 32).length = 32 := length_slice (by omega)
  obtain ⟨a1, a2, -⟩ := encodePk_parts (rho := slice (S256 seed 128) 0 32) (t1 := (tOf A s1 s2).map (·.map fun r => (power2Round r).1)) hrho
    (by rw [List.length_map]; exact hv.1) fun x hx => ⟨(mem_map_map hv hx).1, fun c hc => by
      obtain ⟨r, rfl⟩ := (mem_map_map hv hx).2 c hc; exact (power2Round_range r).1⟩
  obtain ⟨b1, b2, -⟩ := encodeSk_parts (rho := slice (S256 seed 128) 0 32) (key := slice (S256 seed 128) 96 32) (tr := S256 pk 64) (s1 := s1) (s2 := s2)
    (t0 := (tOf A s1 s2).map (·.map fun r => (power2Round r).2)) hrho (length_slice (by omega)) (length_stream ..) h1.1 h2.1
    (by rw [List.length_map]; exact hv.1) (etaVec_mem h1) (etaVec_mem h2) fun x hx => ⟨(mem_map_map hv hx).1, fun c hc => by
      obtain ⟨r, rfl⟩ := (mem_map_map hv hx).2 c hc; exact (power2Round_range r).2⟩
  rw [← epk] at a1 a2
  rw [← esk] at b1 b2
  exact ⟨a1, b1, a2.trans b2.symm⟩

theorem signs_length {sk m sig : Bytes} {k : Nat} (h : Signs S128 S256 sk m k sig) : sig.length = 2420 := by
  obtain ⟨x, _, _, c, _, ha, rfl⟩ := h
  exact length_encodeSig (cTilde_len _ _) (length_vec _) (fun y hy => by obtain ⟨i, _, rfl⟩ := mem_vec hy; exact length_mk _) ha.2.2.2

/-- Verification with the fuel of the signing run. -/
theorem verify_same {fuel : Nat} {sig pk m : Bytes} (hs : sig.length = 2420) (hpk : pk.length = 1312) (h : Valid S128 S256 pk m sig)
    (hA : ∃ A, matrixExpand fuel (slice pk 0 32) = .ok A) (hc : ∃ c, polyChallenge fuel (sig.take 32) = .ok c) : verify fuel sig 2420 m pk = .ok 0 := by
  obtain ⟨A, hA⟩ := hA
  obtain ⟨cp, hc⟩ := hc
  have hval := h
  obtain ⟨ct, z, h, c, A', h1, h2, h3, h4, h5, h6, h7, h8, h9⟩ := h
  obtain ⟨r, hu, hr⟩ := unpackSig_iff hs
  have hp : SigParts ct z h := ⟨h1, h2, fun x hx => ⟨(h3 x hx).1, fun v hv => by have := (h3 x hx).2 v hv; omega⟩, h4, h5⟩
  have er := (hr ct z h).2 ⟨hp, h6⟩
  rw [er] at hu
  have ect : sig.take 32 = ct := by rw [h6, encodeSig, List.append_assoc, List.take_left' h1]
  rw [ect] at hc
  obtain ⟨_, h10⟩ := verify_run fuel (m := m) hpk hu hp
  have e := (h10 ((zbound_iff h2 fun x hx => (h3 x hx).1).2 fun x hx => (h3 x hx).2)).2.2 cp A hc hA
  rcases verify_sound hs hpk e with ⟨hv, _⟩ | ⟨_, hn⟩
  · rw [hv] at e; exact e
  · exact absurd hval hn

/-! ### The masking nonces have period 16384 -/

theorem mask_period (s : Bytes) (k i : Nat) : mask S256 s (4 * (k + 16384) + i) = mask S256 s (4 * k + i) := by
  unfold mask
  rw [← le16_mod (4 * (k + 16384) + i), ← le16_mod (4 * k + i), show (4 * (k + 16384) + i) % 65536 = (4 * k + i) % 65536 by omega]

theorem yOf_period (x : Ctx) (k : Nat) : yOf S256 x (k + 16384) = yOf S256 x k := by
  unfold yOf
  exact congrArg _ (funext fun i => mask_period _ _ _)

theorem cTilde_period (x : Ctx) (k : Nat) : cTilde S256 x (k + 16384) = cTilde S256 x k := by
  unfold cTilde wOf; rw [yOf_period]

theorem accept_period (x : Ctx) (k : Nat) (c : List Int) : Accept S256 x (k + 16384) c ↔ Accept S256 x k c := by
  unfold Accept zOf r0Of hOf r0Of wOf; rw [yOf_period]

/-- A signature is found within the first 16384 attempts or never. -/
theorem signs_bound {sk m sig : Bytes} {k : Nat} (h : Signs S128 S256 sk m k sig) : k < 16384 := by
  obtain ⟨x, _, hr, c, hc, ha, _⟩ := h
  by_contra hk
  obtain ⟨j, rfl⟩ : ∃ j, k = j + 16384 := ⟨k - 16384, by omega⟩
  obtain ⟨c', hc', hn⟩ := hr j (by omega)
  rw [cTilde_period] at hc
  have := ball_unique (cTilde_len x j) hc hc'
  subst this
  exact hn ((accept_period x j c).1 ha)

theorem le16_inj {a b : Nat} (ha : a < 65536) (hb : b < 65536) (h : le16 a = le16 b) : a = b := by
  have := congrArg ofLe h
  unfold le16 at this
  rwa [ofLe_toLe _ _ (by omega), ofLe_toLe _ _ (by omega)] at this

/-! ### The challenge has exactly 39 nonzero coefficients -/

theorem firstLe_le {i : Nat} : ∀ {b : Bytes} {j : Nat} {b' : Bytes}, firstLe i b = some (j, b') → j ≤ i := by
  intro b
  induction b with
  | nil => intro j b' h; cases h
  | cons x l ih =>
    intro j b' h
    unfold firstLe at h
    split at h
    · cases h; assumption
    · exact ih h

theorem getElem_co {c : List Int} {j : Nat} (h : j < c.length) : c[j] = co c j := by
  unfold co; rw [List.getD_eq_getElem?_getD, List.getElem?_eq_getElem h]; rfl

/-- Number of nonzero coefficients. -/
def nz (c : List Int) : Nat := c.countP (· ≠ 0)

theorem ballLoop_nz (n : Nat) : ∀ (i s : Nat) (b : Bytes) (c c' : List Int), c.length = 256 → i + n ≤ 256 → (∀ k, i ≤ k → co c k = 0) →
    ballLoop n i s b c = some c' → nz c' = nz c + n := by
  induction n with
  | zero => intro i s b c c' _ _ _ h; cases h; rfl
  | succ n ih =>
    intro i s b c c' hl hi hz h
    unfold ballLoop at h
    split at h
    · cases h
    · rename_i j b' hf
      have hj := firstLe_le hf
      have hne : (if s % 2 = 0 then (1 : Int) else -1) ≠ 0 := by split <;> decide
      generalize (if s % 2 = 0 then (1 : Int) else -1) = v at *
      have l1 : (c.set i (co c j)).length = 256 := by rw [List.length_set]; exact hl
      have := ih (i + 1) _ _ _ _ (by rw [List.length_set]; exact l1) (by omega) (fun k hk => by
        rw [co_set _ _ _ _ (by omega), if_neg (by omega), co_set _ _ _ _ (by omega), if_neg (by omega)]
        exact hz k (by omega)) h
      rw [this]
      have ci : c[i]'(by omega) = 0 := by
        have := hz i (Nat.le_refl _)
        unfold co at this
        rwa [List.getD_eq_getElem?_getD, List.getElem?_eq_getElem (by omega)] at this
      have e1 : nz (c.set i (co c j)) = nz c + if co c j ≠ 0 then 1 else 0 := by
        unfold nz
        rw [List.countP_set (by omega), ci]
        simp
      have ej : (c.set i (co c j))[j]'(by omega) = co c j := by
        have : co (c.set i (co c j)) j = co c j := by
          rw [co_set _ _ _ _ (by omega)]
          split <;> rfl
        exact (getElem_co _).trans this
      have e2 : nz ((c.set i (co c j)).set j v) = nz (c.set i (co c j)) - (if co c j ≠ 0 then 1 else 0) + 1 := by
        unfold nz
        rw [List.countP_set (by omega), ej]
        simp [hne]
      rw [e2, e1]
      omega

theorem ball_nz {s : Bytes} {c : List Int} (h : IsBall S256 s c) : nz c = 39 := by
  obtain ⟨N, h⟩ := h
  unfold ballOf at h
  split at h
  · have := ballLoop_nz 39 217 _ _ _ _ (List.length_replicate ..) (by omega) (fun k _ => by
      unfold co; rw [List.getD_eq_getElem?_getD, List.getElem?_replicate]; split <;> rfl) h
    rw [this]
    unfold nz
    rw [List.countP_replicate]
    simp
  · cases h

/-! ### Hints in the form of FIPS 204 -/

theorem hint_form {w r0 t v w' : Int} (h1 : 0 ≤ w) (h2 : w < 8380417) (h3 : 0 ≤ v) (h4 : v < 8380417) (h5 : 0 ≤ w') (h6 : w' < 8380417)
    (b0 : -95154 < r0 ∧ r0 < 95154) (bt : -95232 < t ∧ t < 95232)
    (e1 : (w' - (highBits w * 190464 + r0)) % 8380417 = 0) (e2 : (v - (w' + t)) % 8380417 = 0) :
    highBits w' = highBits w ∧ hintBit (r0 + t) (highBits w) = if highBits v = highBits w' then 0 else 1 := by
  have hw := decompose_spec w h1 h2
  have hv := decompose_spec v h3 h4
  have hrec := hint_recovers (w := w) (e := r0 + t - lowBits w) (v := v) h1 h2 (by omega) h3 h4 (by omega)
  rw [show lowBits w + (r0 + t - lowBits w) = r0 + t by omega] at hrec
  have hc : highBits w' = highBits w := by
    refine (decompose_unique (y := r0) h5 h6 hw.1 (by omega) ?_).1
    have : w' = highBits w * 190464 + r0 ∨ w' = highBits w * 190464 + r0 + 8380417 := by omega
    omega
  refine ⟨hc, ?_⟩
  rw [hc]
  have hb : hintBit (r0 + t) (highBits w) = 0 ∨ hintBit (r0 + t) (highBits w) = 1 := by unfold hintBit; split <;> simp
  generalize hintBit (r0 + t) (highBits w) = h at *
  unfold Spec.useHint at hrec
  rcases hb with rfl | rfl
  · rw [if_neg (by omega)] at hrec
    rw [if_pos hrec]
  · rw [if_pos rfl] at hrec
    rw [if_neg]
    intro e
    split at hrec <;> omega

/-! ### Attached signatures -/

theorem back_copy {b m : Bytes} {o : Nat} (h : o + m.length ≤ b.length) :
    loop (fun i s => do
      let x ← rd m (m.length - 1 - i)
      wr s (o + m.length - 1 - i) x) 0 m.length b = .ok (splice b o m) := by
  obtain ⟨s, e, hs⟩ := loop_inv (fun i (s : Bytes) => s = splice b (o + m.length - i) (m.drop (m.length - i))) (fun i s => do
      let x ← rd m (m.length - 1 - i)
      wr s (o + m.length - 1 - i) x) 0 m.length b (by simp) (by
    intro i s _ hi hs
    have hi' : i < m.length := by omega
    rw [rd_ok (by omega), ok_bind]
    have ls : s.length = b.length := by rw [hs, length_splice (by rw [List.length_drop]; omega)]
    rw [wr_ok (by omega)]
    refine ⟨_, rfl, ?_⟩
    apply List.ext_getElem?
    intro k
    rw [List.getElem?_set, hs, getElem?_splice _ _ _ _ (by rw [List.length_drop]; omega), getElem?_splice _ _ _ _ (by rw [List.length_drop]; omega),
      length_splice (by rw [List.length_drop]; omega), List.length_drop, List.length_drop]
    by_cases c : o + m.length - 1 - i = k
    · rw [if_pos c, if_pos (by omega), if_pos (by omega), List.getElem?_drop]
      rw [show m.length - (i + 1) + (k - (o + m.length - (i + 1))) = m.length - 1 - i by omega, List.getElem?_eq_getElem (by omega)]
    · rw [if_neg c]
      by_cases c2 : o + m.length - i ≤ k ∧ k < o + m.length - i + (m.length - (m.length - i))
      · rw [if_pos c2, if_pos (by omega), List.getElem?_drop, List.getElem?_drop]
        congr 1
        omega
      · rw [if_neg c2, if_neg (by omega)])
  rw [e, hs]
  simp

/-- The same with source and destination in one buffer, the destination behind the source. -/
theorem back_copy_inplace {b : Bytes} {o n : Nat} (h : o + n ≤ b.length) :
    loop (fun i s => do
      let x ← rd s (n - 1 - i)
      wr s (o + n - 1 - i) x) 0 n b = .ok (splice b o (b.take n)) := by
  have hl : (b.take n).length = n := by rw [List.length_take]; omega
  obtain ⟨s, e, hs⟩ := loop_inv (fun i (s : Bytes) => s = splice b (o + n - i) ((b.take n).drop (n - i))) (fun i s => do
      let x ← rd s (n - 1 - i)
      wr s (o + n - 1 - i) x) 0 n b (by rw [List.drop_of_length_le (by omega), splice_nil]) (by
    intro i s _ hi hs
    have hi' : i < n := by omega
    have ls : s.length = b.length := by rw [hs, length_splice (by rw [List.length_drop, hl]; omega)]
    rw [rd_ok (by omega), ok_bind]
    rw [wr_ok (by omega)]
    refine ⟨_, rfl, ?_⟩
    have hx : s[n - 1 - i]? = b[n - 1 - i]? := by
      rw [hs, getElem?_splice _ _ _ _ (by rw [List.length_drop, hl]; omega), if_neg (by omega)]
    rw [List.getElem?_eq_getElem (by omega)] at hx
    apply List.ext_getElem?
    intro k
    rw [List.getElem?_set, getElem?_splice _ _ _ _ (by rw [List.length_drop, hl]; omega), List.length_drop, hl]
    by_cases c : o + n - 1 - i = k
    · rw [if_pos c, if_pos (by omega), if_pos (by omega), List.getElem?_drop, hx]
      rw [show n - (i + 1) + (k - (o + n - (i + 1))) = n - 1 - i by omega, List.getElem?_take_of_lt (by omega)]
    · rw [if_neg c, hs, getElem?_splice _ _ _ _ (by rw [List.length_drop, hl]; omega), List.length_drop, hl]
      by_cases c2 : o + n - i ≤ k ∧ k < o + n - i + (n - (n - i))
      · rw [if_pos c2, if_pos (by omega), List.getElem?_drop, List.getElem?_drop]
        congr 1
        omega
      · rw [if_neg c2, if_neg (by omega)])
  rw [e, hs]
  simp

/-- Forward copy to the front of the same buffer. -/
theorem front_copy_inplace {b : Bytes} {o n : Nat} (h : o + n ≤ b.length) :
    loop (fun i s => do
      let x ← rd s (o + i)
      wr s i x) 0 n b = .ok (splice b 0 (slice b o n)) := by
  obtain ⟨s, e, hs⟩ := loop_inv (fun i (s : Bytes) => s = splice b 0 (slice b o i)) (fun i s => do
      let x ← rd s (o + i)
      wr s i x) 0 n b (by simp [slice]) (by
    intro i s _ hi hs
    have hi' : i < n := by omega
    have li : (slice b o i).length = i := length_slice (by omega)
    have ls : s.length = b.length := by rw [hs, length_splice (by omega)]
    rw [rd_ok (by omega), ok_bind, wr_ok (by omega)]
    refine ⟨_, rfl, ?_⟩
    have hx : s[o + i]? = b[o + i]? := by
      rw [hs, getElem?_splice _ _ _ _ (by omega), if_neg (by omega)]
    rw [List.getElem?_eq_getElem (by omega)] at hx
    have li' : (slice b o (i + 1)).length = i + 1 := length_slice (by omega)
    apply List.ext_getElem?
    intro k
    rw [List.getElem?_set, getElem?_splice _ _ _ _ (by omega), li']
    by_cases c : i = k
    · rw [if_pos c, if_pos (by omega), if_pos (by omega), hx, getElem?_slice, if_pos (by omega), ← c]
      rfl
    · rw [if_neg c, hs, getElem?_splice _ _ _ _ (by omega), li]
      by_cases c2 : 0 ≤ k ∧ k < 0 + i
      · rw [if_pos c2, if_pos (by omega), getElem?_slice, getElem?_slice, if_pos (by omega), if_pos (by omega)]
      · rw [if_neg c2, if_neg (by omega)])
  rw [e, hs]
  simp

theorem sign_tail {b m sig : Bytes} (h : 2420 + m.length ≤ b.length) (hs : sig.length = 2420) :
    splice (splice b 2420 m) 0 sig = sig ++ m ++ b.drop (2420 + m.length) := by
  unfold splice
  rw [List.take_zero, List.nil_append, Nat.zero_add, hs, List.append_assoc, List.append_assoc, List.drop_append_of_le_length (by rw [List.length_take]; omega),
    List.drop_of_length_le (by rw [List.length_take]; omega), List.nil_append]

theorem sign_head {b m : Bytes} (h : 2420 + m.length ≤ b.length) :
    ((splice b 2420 m).take 2420).length = 2420 ∧ slice (splice b 2420 m) 2420 m.length = m := by
  constructor
  · rw [List.length_take, length_splice h]; omega
  · exact slice_splice_same (by omega)

theorem sign_run (fuel : Nat) {sm m : Bytes} (n : Nat) (sk : Bytes) (h : 2420 + m.length ≤ sm.length) :
    ∃ b : Bytes, b.length = 2420 ∧ sign fuel sm n m sk = (do
      let (_, sig, n) ← signature fuel b n m sk
      .ok (0, splice (splice sm 2420 m) 0 sig, n + m.length)) := by
  obtain ⟨h1, h2⟩ := sign_head h
  refine ⟨_, h1, ?_⟩
  unfold sign
  rw [back_copy h, ok_bind, h2]

theorem signInPlace_run (fuel : Nat) {b : Bytes} (n mlen : Nat) (sk : Bytes) (h : 2420 + mlen ≤ b.length) :
    signInPlace fuel b mlen n sk = sign fuel b n (b.take mlen) sk := by
  have hl : (b.take mlen).length = mlen := by rw [List.length_take]; omega
  unfold signInPlace sign
  rw [back_copy_inplace h, ok_bind, back_copy (by omega), ok_bind, hl]

end Verif.Dilithium
