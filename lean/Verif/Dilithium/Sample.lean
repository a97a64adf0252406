import Verif.Dilithium.Hint
import Verif.Keccak.Props

/-! The samplers (dilithium2/poly.c:311-515) against the streams they read. -/

namespace Verif.Dilithium
open Verif Verif.Keccak Spec

/-- SHAKE128 of m, the first n bytes (common/fips202.c:695-714). -/
abbrev S128 (m : Bytes) (n : Nat) : Bytes := stream 168 0x1F m n
/-- SHAKE256 of m, the first n bytes (common/fips202.c:726-745). -/
abbrev S256 (m : Bytes) (n : Nat) : Bytes := stream 136 0x1F m n

/-- State after the first `n` bytes. -/
def after (r : Nat) (m : Bytes) (n : Nat) : Inc := (nextN r ⟨padded r 0x1F m, 0⟩ n).2

theorem stream_add (r : Nat) (m : Bytes) (n k : Nat) :
    stream r 0x1F m (n + k) = stream r 0x1F m n ++ (nextN r (after r m n) k).1 := by
  unfold stream; rw [nextN_add]; rfl

theorem after_add (r : Nat) (m : Bytes) (n k : Nat) : after r m (n + k) = (nextN r (after r m n) k).2 := by
  unfold after; rw [nextN_add]

theorem after_ok {r : Nat} (h0 : 0 < r) (hr : r ≤ 200) (m : Bytes) (n : Nat) : (after r m n).SqOk r :=
  nextN_sqOk ⟨length_padded h0 hr, Nat.zero_le _⟩ n

theorem le16_bv (nonce : BitVec 16) : ([nonce.setWidth 8, (nonce >>> 8).setWidth 8] : Bytes) = le16 nonce.toNat := by
  unfold le16
  simp only [toLe]
  refine congrArg₂ _ ?_ (congrArg₂ _ ?_ rfl)
  · apply BitVec.eq_of_toNat_eq; simp
  · apply BitVec.eq_of_toNat_eq; simp [Nat.shiftRight_eq_div_pow]

theorem streamInit_ok {r : Nat} (h0 : 0 < r) (hr : r ≤ 200) {seed : Bytes} (nonce : BitVec 16) :
    streamInit r seed seed.length nonce = .ok (after r (seed ++ le16 nonce.toNat) 0) := by
  unfold streamInit
  simp only
  rw [incAbsorb_run (incInit_ok h0) hr (Nat.le_refl _), ok_bind, incAbsorb_run (feedAll_ok (incInit_ok h0) hr _) hr (by simp), ok_bind,
    ← feedAll_append, List.take_length, List.take_of_length_le (by simp), le16_bv, incFinalize_run h0 hr (by decide)]
  rfl

theorem squeezeAt_ok {r : Nat} (h0 : 0 < r) (hr : r ≤ 200) (m : Bytes) (N n : Nat) (buf : Bytes) (hn : n ≤ buf.length) :
    squeezeAt buf 0 n (after r m N) r = .ok (splice buf 0 (nextN r (after r m N) n).1, after r m (N + n)) := by
  unfold squeezeAt
  rw [List.drop_zero, incSqueeze_run (after_ok h0 hr m N) h0 hr hn, ok_bind, after_add]
  rfl

theorem take_splice_zero {α : Type} {b x : List α} {n : Nat} (h : x.length = n) : (splice b 0 x).take n = x := by
  unfold splice
  rw [List.take_zero, List.nil_append, ← h, List.take_left]

/-! ### Candidates -/

/-- Accepted candidates of `rej_uniform`. -/
def candU (b : Bytes) : List Int := ((triples b).filter fun t => t < 8380417).map fun (t : Nat) => (t : Int)
/-- Accepted candidates of `rej_eta`. -/
def candE (b : Bytes) : List Int :=
  ((b.flatMap fun x => [x.toNat % 16, x.toNat / 16]).filter fun t => t < 15).map fun (t : Nat) => 2 - ((t % 5 : Nat) : Int)

theorem triples_append : ∀ (n : Nat) (x y : Bytes), x.length = 3 * n → triples (x ++ y) = triples x ++ triples y := by
  intro n
  induction n with
  | zero => intro x y h; have := List.length_eq_zero_iff.1 (by omega : x.length = 0); subst this; rfl
  | succ n ih =>
    intro x y h
    match x, h with
    | a :: b :: c :: x, h =>
      simp only [List.cons_append, triples]
      rw [ih x y (by simp at h; omega)]

theorem candU_append {x y : Bytes} (h : x.length % 3 = 0) : candU (x ++ y) = candU x ++ candU y := by
  unfold candU
  rw [triples_append (x.length / 3) x y (by omega), List.filter_append, List.map_append]

theorem candE_append (x y : Bytes) : candE (x ++ y) = candE x ++ candE y := by
  unfold candE
  rw [List.flatMap_append, List.filter_append, List.map_append]

theorem triple_val (b0 b1 b2 : Byte) :
    ((b0.setWidth 32 ||| b1.setWidth 32 <<< 8 ||| b2.setWidth 32 <<< 16) &&& (0x7FFFFF : BitVec 32)).toNat =
      b0.toNat + 256 * b1.toNat + 65536 * (b2.toNat % 128) := by
  have h0 := b0.isLt; have h1 := b1.isLt; have h2 := b2.isLt
  have e : ∀ b : Byte, b.setWidth 32 = BitVec.ofNat 32 b.toNat := fun b => by apply BitVec.eq_of_toNat_eq; simp
  rw [e, e, e, shl_ofNat, shl_ofNat, or_add_bv 8 rfl (by omega), or_add_bv 16 rfl (by omega), BitVec.toNat_and, BitVec.toNat_ofNat,
    show (0x7FFFFF : BitVec 32).toNat = 2 ^ 23 - 1 by rfl, Nat.and_two_pow_sub_one_eq_mod]
  omega

theorem rejUniformLoop_ok {base len buflen : Nat} {buf : Bytes} (hb : buflen ≤ buf.length) (k : Nat) :
    ∀ (a : Poly) (ctr pos : Nat), base + len ≤ a.length → ctr ≤ len → pos ≤ buflen → buflen - pos = k →
      rejUniformLoop base len buf buflen a ctr pos =
        .ok (splice a (base + ctr) ((candU (slice buf pos (buflen - pos))).take (len - ctr)),
          ctr + ((candU (slice buf pos (buflen - pos))).take (len - ctr)).length) := by
  induction k using Nat.strong_induction_on with
  | _ k ih =>
    intro a ctr pos ha hc hp hk
    rw [rejUniformLoop]
    by_cases c : ctr < len ∧ pos + 3 ≤ buflen
    · rw [dif_pos c, rd_ok (by omega), ok_bind, rd_ok (by omega), ok_bind, rd_ok (by omega), ok_bind]
      simp only
      rw [triple_val]
      have hs : slice buf pos (buflen - pos) = buf[pos]'(by omega) :: buf[pos + 1]'(by omega) :: buf[pos + 2]'(by omega) :: slice buf (pos + 3) (buflen - (pos + 3)) := by
        rw [show buflen - pos = buflen - (pos + 3) + 1 + 1 + 1 by omega, slice_cons (List.getElem?_eq_getElem (show pos < buf.length by omega)),
          slice_cons (List.getElem?_eq_getElem (show pos + 1 < buf.length by omega)), slice_cons (List.getElem?_eq_getElem (show pos + 1 + 1 < buf.length by omega))]
      rw [hs]
      generalize buf[pos]'(by omega) = b0
      generalize buf[pos + 1]'(by omega) = b1
      generalize buf[pos + 2]'(by omega) = b2
      obtain ⟨l, hl⟩ : ∃ l, l = slice buf (pos + 3) (buflen - (pos + 3)) := ⟨_, rfl⟩
      by_cases d : b0.toNat + 256 * b1.toNat + 65536 * (b2.toNat % 128) < 8380417
      · have hcand : candU (b0 :: b1 :: b2 :: l) = ((b0.toNat + 256 * b1.toNat + 65536 * (b2.toNat % 128) : Nat) : Int) :: candU l := by
          unfold candU
          rw [triples, List.filter_cons_of_pos (by simpa using d)]; rfl
        rw [if_pos d, wr_ok (by omega), ok_bind, ih _ (by omega) _ (ctr + 1) (pos + 3) (by simpa using ha) (by omega) (by omega) rfl, ← hl, hcand,
          show len - ctr = (len - (ctr + 1)) + 1 by omega, List.take_succ_cons]
        have hll : ((candU l).take (len - (ctr + 1))).length ≤ len - (ctr + 1) := List.length_take_le _ _
        have := splice_splice (b := a) (o := base + ctr) (x := [((b0.toNat + 256 * b1.toNat + 65536 * (b2.toNat % 128) : Nat) : Int)])
          (y := (candU l).take (len - (ctr + 1))) (by simp only [List.length_singleton]; omega)
        have h1 := splice_snoc (b := a) (x := []) (o := base + ctr) (v := ((b0.toNat + 256 * b1.toNat + 65536 * (b2.toNat % 128) : Nat) : Int)) (by simp; omega)
        simp only [splice_nil, List.length_nil, Nat.add_zero, List.nil_append] at h1
        rw [h1, ← Nat.add_assoc]
        rw [List.length_singleton] at this
        rw [this]
        refine congrArg _ (Prod.ext rfl ?_)
        simp only [List.length_cons]
        omega
      · have hcand : candU (b0 :: b1 :: b2 :: l) = candU l := by
          unfold candU
          rw [triples, List.filter_cons_of_neg (by simpa using d)]
        rw [if_neg d, ih _ (by omega) _ ctr (pos + 3) ha hc (by omega) rfl, ← hl, hcand]
    · rw [dif_neg c]
      have : (candU (slice buf pos (buflen - pos))).take (len - ctr) = [] := by
        by_cases d : ctr < len
        · have hlt : (slice buf pos (buflen - pos)).length < 3 := by rw [length_slice (by omega)]; omega
          have : ∀ x : Bytes, x.length < 3 → triples x = [] := by
            intro x hx
            match x, hx with
            | [], _ => rfl
            | [_], _ => rfl
            | [_, _], _ => rfl
          unfold candU
          rw [this _ hlt]; simp
        · rw [show len - ctr = 0 by omega]; rfl
      rw [this, splice_nil]; rfl

theorem rejUniform_ok {base len buflen : Nat} {buf : Bytes} {a : Poly} (hb : buflen ≤ buf.length) (ha : base + len ≤ a.length) :
    rejUniform a base len buf buflen = .ok (splice a base ((candU (buf.take buflen)).take len), ((candU (buf.take buflen)).take len).length) := by
  unfold rejUniform
  rw [rejUniformLoop_ok hb _ a 0 0 ha (by omega) (by omega) rfl, Nat.zero_add]
  rfl

theorem eta_vals : ∀ b : Byte, (b.setWidth 32 &&& (0x0F : BitVec 32)).toNat = b.toNat % 16 ∧ (b.setWidth 32 >>> 4 : BitVec 32).toNat = b.toNat / 16 ∧
    (b.toNat % 16 < 15 → etaVal (b.setWidth 32 &&& (0x0F : BitVec 32)) = 2 - ((b.toNat % 16 % 5 : Nat) : Int)) ∧
    (b.toNat / 16 < 15 → etaVal (b.setWidth 32 >>> 4) = 2 - ((b.toNat / 16 % 5 : Nat) : Int)) := by
  decide +kernel

theorem wr_splice {α : Type} {a : List α} {o : Nat} {v : α} (h : o < a.length) : wr a o v = .ok (splice a o [v]) := by
  rw [wr_ok h]
  have h1 := splice_snoc (b := a) (x := []) (o := o) (v := v) (by simp; omega)
  simp only [splice_nil, List.length_nil, Nat.add_zero, List.nil_append] at h1
  rw [h1]

/-- Candidates of one byte. -/
def candB (b : Byte) : List Int := candE [b]

theorem rejEtaStep_ok {base len : Nat} {a : Poly} {ctr : Nat} (b : Byte) (ha : base + len ≤ a.length) (hc : ctr < len) :
    (do
      let (a, ctr) ← (if (b.setWidth 32 &&& (0x0F : BitVec 32)).toNat < 15 then do
          let a ← wr a (base + ctr) (etaVal (b.setWidth 32 &&& (0x0F : BitVec 32)))
          .ok (a, ctr + 1)
        else .ok (a, ctr) : C (Poly × Nat))
      (if (b.setWidth 32 >>> 4 : BitVec 32).toNat < 15 ∧ ctr < len then do
          let a ← wr a (base + ctr) (etaVal (b.setWidth 32 >>> 4))
          .ok (a, ctr + 1)
        else .ok (a, ctr) : C (Poly × Nat))) =
      .ok (splice a (base + ctr) ((candB b).take (len - ctr)), ctr + ((candB b).take (len - ctr)).length) := by
  obtain ⟨e1, e2, e3, e4⟩ := eta_vals b
  rw [e1, e2]
  have hcand : candB b = (if b.toNat % 16 < 15 then [2 - ((b.toNat % 16 % 5 : Nat) : Int)] else []) ++ (if b.toNat / 16 < 15 then [2 - ((b.toNat / 16 % 5 : Nat) : Int)] else []) := by
    unfold candB candE
    simp only [List.flatMap_cons, List.flatMap_nil, List.append_nil]
    by_cases h1 : b.toNat % 16 < 15 <;> by_cases h2 : b.toNat / 16 < 15 <;> simp [List.filter_cons, h1, h2]
  rw [hcand]
  by_cases h1 : b.toNat % 16 < 15
  · rw [if_pos h1, if_pos h1, e3 h1, wr_splice (by omega), ok_bind, ok_bind]
    simp only
    by_cases h2 : b.toNat / 16 < 15
    · rw [if_pos h2]
      by_cases h3 : ctr + 1 < len
      · rw [if_pos ⟨h2, h3⟩, e4 h2, wr_splice (by rw [length_splice (by simp only [List.length_singleton]; omega)]; omega), ok_bind, ← Nat.add_assoc]
        have := splice_splice (b := a) (o := base + ctr) (x := [2 - ((b.toNat % 16 % 5 : Nat) : Int)])
          (y := [2 - ((b.toNat / 16 % 5 : Nat) : Int)]) (by simp only [List.length_singleton]; omega)
        rw [List.length_singleton] at this
        rw [this, List.take_of_length_le (by simp only [List.length_append, List.length_singleton]; omega)]
        rfl
      · rw [if_neg (by omega), show len - ctr = 1 by omega]
        rfl
    · rw [if_neg h2, if_neg (fun h => h2 h.1), List.append_nil, List.take_of_length_le (by simp only [List.length_singleton]; omega)]
      rfl
  · rw [if_neg h1, if_neg h1, ok_bind, List.nil_append]
    simp only
    by_cases h2 : b.toNat / 16 < 15
    · rw [if_pos h2, if_pos ⟨h2, hc⟩, e4 h2, wr_splice (by omega), ok_bind, List.take_of_length_le (by simp only [List.length_singleton]; omega)]
      rfl
    · rw [if_neg h2, if_neg (fun h => h2 h.1)]
      simp [splice_nil]

theorem rejEtaLoop_ok {base len buflen : Nat} {buf : Bytes} (hb : buflen ≤ buf.length) (k : Nat) :
    ∀ (a : Poly) (ctr pos : Nat), base + len ≤ a.length → ctr ≤ len → pos ≤ buflen → buflen - pos = k →
      rejEtaLoop base len buf buflen a ctr pos =
        .ok (splice a (base + ctr) ((candE (slice buf pos (buflen - pos))).take (len - ctr)),
          ctr + ((candE (slice buf pos (buflen - pos))).take (len - ctr)).length) := by
  induction k with
  | zero =>
    intro a ctr pos ha hc hp hk
    rw [rejEtaLoop, dif_neg (by omega), show buflen - pos = 0 by omega]
    simp [slice, candE, splice_nil]
  | succ k ih =>
    intro a ctr pos ha hc hp hk
    rw [rejEtaLoop]
    by_cases c : ctr < len
    · rw [dif_pos ⟨c, by omega⟩, rd_ok (by omega), ok_bind]
      have hs : slice buf pos (buflen - pos) = buf[pos]'(by omega) :: slice buf (pos + 1) (buflen - (pos + 1)) := by
        rw [show buflen - pos = buflen - (pos + 1) + 1 by omega, slice_cons (List.getElem?_eq_getElem (show pos < buf.length by omega))]
      rw [hs]
      generalize buf[pos]'(by omega) = b
      simp only
      have st := rejEtaStep_ok (base := base) (len := len) (a := a) (ctr := ctr) b ha c
      rw [bind_eq_ok] at st
      obtain ⟨⟨a1, c1⟩, s1, s2⟩ := st
      rw [s1, ok_bind]
      simp only at s2 ⊢
      rw [s2, ok_bind]
      have hle : ((candB b).take (len - ctr)).length ≤ len - ctr := List.length_take_le _ _
      rw [ih _ _ _ (by rw [length_splice (by omega)]; exact ha) (by omega) (by omega) (by omega)]
      have hE : candE (b :: slice buf (pos + 1) (buflen - (pos + 1))) = candB b ++ candE (slice buf (pos + 1) (buflen - (pos + 1))) :=
        candE_append [b] _
      rw [hE]
      generalize candE (slice buf (pos + 1) (buflen - (pos + 1))) = l at *
      generalize candB b = x at *
      have htk : (x ++ l).take (len - ctr) = x.take (len - ctr) ++ l.take (len - (ctr + (x.take (len - ctr)).length)) := by
        rw [List.take_append]
        congr 2
        rw [List.length_take]; omega
      rw [htk]
      have hl2 : (l.take (len - (ctr + (x.take (len - ctr)).length))).length ≤ len - (ctr + (x.take (len - ctr)).length) := List.length_take_le _ _
      rw [← splice_splice (by omega), List.length_append]
      simp only [Nat.add_assoc]
    · rw [dif_neg (by omega), show len - ctr = 0 by omega]
      simp [splice_nil]

theorem rejEta_ok {base len buflen : Nat} {buf : Bytes} {a : Poly} (hb : buflen ≤ buf.length) (ha : base + len ≤ a.length) :
    rejEta a base len buf buflen = .ok (splice a base ((candE (buf.take buflen)).take len), ((candE (buf.take buflen)).take len).length) := by
  unfold rejEta
  rw [rejEtaLoop_ok hb _ a 0 0 ha (by omega) (by omega) rfl, Nat.zero_add]
  rfl

/-! ### The loops -/

/-- Result of a sampler whose candidates are `l`. -/
def resultOf (l : Option (List Int)) : C Poly := match l with | some a => .ok a | none => .error .diverge

theorem first256_lt {l : List Int} (h : l.length < 256) : first256 l = none := by unfold first256; rw [if_neg (by omega)]
theorem first256_ge {l l' : List Int} (h : 256 ≤ l.length) : first256 (l ++ l') = some (l.take 256) := by
  unfold first256
  rw [if_pos (by rw [List.length_append]; omega), List.take_append_of_le_length h]

theorem step_take {a : Poly} {u v : List Int} {ctr : Nat} (ha : a.length = 256) (hlt : ctr < 256) (hu : a.take ctr = u) (hul : u.length = ctr) :
    (splice a ctr (v.take (256 - ctr))).length = 256 ∧
    (splice a ctr (v.take (256 - ctr))).take (ctr + (v.take (256 - ctr)).length) = (u ++ v).take 256 ∧
    ctr + (v.take (256 - ctr)).length = ((u ++ v).take 256).length := by
  have hle : (v.take (256 - ctr)).length ≤ 256 - ctr := List.length_take_le _ _
  refine ⟨by rw [length_splice (by omega), ha], ?_, ?_⟩
  · unfold splice
    rw [hu, List.take_append_of_le_length (by rw [List.length_append]; omega), List.take_of_length_le (by rw [List.length_append]; omega), List.take_append,
      List.take_of_length_le (l := u) (by omega), hul]
  · rw [List.take_append, List.length_append, List.take_of_length_le (l := u) (by omega), hul]

theorem polyUniformLoop_ok {m : Bytes} (fuel : Nat) :
    ∀ (a : Poly) (buf : Bytes) (buflen ctr N : Nat), buf.length = 842 → buflen % 3 = 0 → N % 3 = 0 → a.length = 256 →
      ctr = ((candU (S128 m N)).take 256).length → a.take ctr = (candU (S128 m N)).take 256 →
      polyUniformLoop fuel a buf buflen ctr (after 168 m N) = resultOf (uniformOf (S128 m (N + 168 * fuel))) := by
  induction fuel with
  | zero =>
    intro a buf buflen ctr N hb hbl hN ha hc hat
    rw [List.length_take] at hc
    rw [polyUniformLoop]
    show _ = resultOf (first256 (candU _))
    by_cases c : ctr < 256
    · rw [if_pos c, Nat.mul_zero, Nat.add_zero, first256_lt (by omega)]; rfl
    · rw [if_neg c, Nat.mul_zero, Nat.add_zero, ← List.append_nil (candU _), first256_ge (by omega), ← hat, List.take_of_length_le (by omega)]; rfl
  | succ fuel ih =>
    intro a buf buflen ctr N hb hbl hN ha hc hat
    have hc0 := hc
    rw [List.length_take] at hc
    rw [polyUniformLoop]
    by_cases c : ctr < 256
    · rw [if_pos c]
      simp only
      rw [hbl, loop_zero, ok_bind, squeezeAt_ok (by omega) (by omega) m N 168 buf (by omega), ok_bind]
      simp only [Nat.add_zero]
      have hl : (splice buf 0 (nextN 168 (after 168 m N) 168).1).length = 842 := by rw [length_splice (by rw [length_nextN]; omega), hb]
      rw [rejUniform_ok (by omega) (by omega), ok_bind, take_splice_zero (length_nextN _ _ _)]
      simp only
      have hcand : candU (S128 m (N + 168)) = candU (S128 m N) ++ candU (nextN 168 (after 168 m N) 168).1 := by
        rw [S128, stream_add, candU_append (by rw [length_stream]; exact hN)]
      have hu : a.take ctr = candU (S128 m N) := by rw [hat, List.take_of_length_le (by omega)]
      obtain ⟨s1, s2, s3⟩ := step_take (v := candU (nextN 168 (after 168 m N) 168).1) ha c hu (by omega)
      rw [ih _ _ _ _ (N + 168) hl (by omega) (by omega) s1 (by rw [s3, hcand]) (by rw [s2, hcand]),
        show N + 168 + 168 * fuel = N + 168 * (fuel + 1) by omega]
    · rw [if_neg c]
      show _ = resultOf (first256 (candU _))
      rw [S128, stream_add, candU_append (by rw [length_stream]; exact hN)]
      change ctr = min 256 (candU (stream 168 31 m N)).length at hc
      rw [first256_ge (by omega), ← hat, List.take_of_length_le (by omega)]; rfl

theorem polyUniform_ok (fuel : Nat) {seed : Bytes} (hs : seed.length = 32) (nonce : BitVec 16) :
    polyUniform fuel seed nonce = resultOf (uniformOf (S128 (seed ++ le16 nonce.toNat) (840 + 168 * fuel))) := by
  unfold polyUniform
  rw [← hs, streamInit_ok (by omega) (by omega), ok_bind, squeezeAt_ok (by omega) (by omega) _ 0 840 _ (by rw [List.length_replicate]; omega), ok_bind]
  simp only
  have hl : (splice (List.replicate 842 (0 : Byte)) 0 (nextN 168 (after 168 (seed ++ le16 nonce.toNat) 0) 840).1).length = 842 := by
    rw [length_splice (by rw [length_nextN, List.length_replicate]; omega), List.length_replicate]
  have h256 : (List.replicate 256 (0 : Int)).length = 256 := List.length_replicate ..
  rw [rejUniform_ok (by omega) (by omega), ok_bind, take_splice_zero (length_nextN _ _ _)]
  simp only
  have hst : S128 (seed ++ le16 nonce.toNat) 840 = (nextN 168 (after 168 (seed ++ le16 nonce.toNat) 0) 840).1 := rfl
  rw [← hst] at *
  have hle : ((candU (S128 (seed ++ le16 nonce.toNat) 840)).take 256).length ≤ 256 := List.length_take_le _ _
  exact polyUniformLoop_ok fuel _ _ 840 _ (0 + 840) hl (by omega) (by omega) (by rw [length_splice (by omega), h256]) rfl (by
    rw [take_splice_zero rfl])

theorem polyUniformEtaLoop_ok {m : Bytes} (fuel : Nat) :
    ∀ (a : Poly) (buf : Bytes) (ctr N : Nat), buf.length = 136 → a.length = 256 →
      ctr = ((candE (S256 m N)).take 256).length → a.take ctr = (candE (S256 m N)).take 256 →
      polyUniformEtaLoop fuel a buf ctr (after 136 m N) = resultOf (etaOf (S256 m (N + 136 * fuel))) := by
  induction fuel with
  | zero =>
    intro a buf ctr N hb ha hc hat
    rw [List.length_take] at hc
    rw [polyUniformEtaLoop]
    show _ = resultOf (first256 (candE _))
    by_cases c : ctr < 256
    · rw [if_pos c, Nat.mul_zero, Nat.add_zero, first256_lt (by omega)]; rfl
    · rw [if_neg c, Nat.mul_zero, Nat.add_zero, ← List.append_nil (candE _), first256_ge (by omega), ← hat, List.take_of_length_le (by omega)]; rfl
  | succ fuel ih =>
    intro a buf ctr N hb ha hc hat
    have hc0 := hc
    rw [List.length_take] at hc
    rw [polyUniformEtaLoop]
    by_cases c : ctr < 256
    · rw [if_pos c]
      simp only
      rw [squeezeAt_ok (by omega) (by omega) m N 136 buf (by omega), ok_bind]
      simp only
      have hl : (splice buf 0 (nextN 136 (after 136 m N) 136).1).length = 136 := by rw [length_splice (by rw [length_nextN]; omega), hb]
      rw [rejEta_ok (by omega) (by omega), ok_bind, take_splice_zero (length_nextN _ _ _)]
      simp only
      have hcand : candE (S256 m (N + 136)) = candE (S256 m N) ++ candE (nextN 136 (after 136 m N) 136).1 := by
        rw [S256, stream_add, candE_append]
      have hu : a.take ctr = candE (S256 m N) := by rw [hat, List.take_of_length_le (by omega)]
      obtain ⟨s1, s2, s3⟩ := step_take (v := candE (nextN 136 (after 136 m N) 136).1) ha c hu (by omega)
      rw [ih _ _ _ (N + 136) hl s1 (by rw [s3, hcand]) (by rw [s2, hcand]),
        show N + 136 + 136 * fuel = N + 136 * (fuel + 1) by omega]
    · rw [if_neg c]
      show _ = resultOf (first256 (candE _))
      rw [S256, stream_add, candE_append]
      change ctr = min 256 (candE (stream 136 31 m N)).length at hc
      rw [first256_ge (by omega), ← hat, List.take_of_length_le (by omega)]; rfl

theorem polyUniformEta_ok (fuel : Nat) {seed : Bytes} (hs : seed.length = 64) (nonce : BitVec 16) :
    polyUniformEta fuel seed nonce = resultOf (etaOf (S256 (seed ++ le16 nonce.toNat) (136 + 136 * fuel))) := by
  unfold polyUniformEta
  rw [← hs, streamInit_ok (by omega) (by omega), ok_bind, squeezeAt_ok (by omega) (by omega) _ 0 136 _ (by rw [List.length_replicate]), ok_bind]
  simp only
  have hl : (splice (List.replicate 136 (0 : Byte)) 0 (nextN 136 (after 136 (seed ++ le16 nonce.toNat) 0) 136).1).length = 136 := by
    rw [length_splice (by rw [length_nextN, List.length_replicate]), List.length_replicate]
  have h256 : (List.replicate 256 (0 : Int)).length = 256 := List.length_replicate ..
  rw [rejEta_ok (by omega) (by omega), ok_bind, take_splice_zero (length_nextN _ _ _)]
  simp only
  have hst : S256 (seed ++ le16 nonce.toNat) 136 = (nextN 136 (after 136 (seed ++ le16 nonce.toNat) 0) 136).1 := rfl
  rw [← hst] at *
  have hle : ((candE (S256 (seed ++ le16 nonce.toNat) 136)).take 256).length ≤ 256 := List.length_take_le _ _
  exact polyUniformEtaLoop_ok fuel _ _ _ (0 + 136) hl (by rw [length_splice (by omega), h256]) rfl (by
    rw [take_splice_zero rfl])

theorem polyUniformGamma1_ok {seed : Bytes} (hs : seed.length = 64) (nonce : BitVec 16) :
    polyUniformGamma1 seed nonce = .ok (mask S256 seed nonce.toNat) := by
  unfold polyUniformGamma1 mask
  rw [← hs, streamInit_ok (by omega) (by omega), ok_bind, squeezeAt_ok (by omega) (by omega) _ 0 680 _ (by rw [List.length_replicate]), ok_bind]
  simp only
  have hl : (splice (List.replicate 680 (0 : Byte)) 0 (nextN 136 (after 136 (seed ++ le16 nonce.toNat) 0) 680).1).length = 680 := by
    rw [length_splice (by rw [length_nextN, List.length_replicate]), List.length_replicate]
  rw [polyzUnpack_ok (by omega)]
  refine congrArg _ (congrArg _ ?_)
  have : slice (splice (List.replicate 680 (0 : Byte)) 0 (nextN 136 (after 136 (seed ++ le16 nonce.toNat) 0) 680).1) 0 576 =
      (S256 (seed ++ le16 nonce.toNat) (576 + 104)).take 576 := by
    rw [splice_all (by rw [length_nextN, List.length_replicate])]; rfl
  rw [this, stream_prefix]

/-! ### The challenge polynomial -/

/-- Byte `k` of the stream. -/
def sb (m : Bytes) (k : Nat) : Byte := (S256 m (k + 1)).getD k 0

theorem sb_eq (m : Bytes) {k n : Nat} (h : k < n) : (S256 m n)[k]? = some (sb m k) := by
  have e : n = (k + 1) + (n - (k + 1)) := by omega
  have hp := stream_prefix 136 0x1F m (k + 1) (n - (k + 1))
  rw [← e] at hp
  have h1 : (S256 m (k + 1))[k]? = (S256 m n)[k]? := by
    rw [S256, ← hp, List.getElem?_take, if_pos (by omega)]
  rw [← h1]
  unfold sb
  rw [List.getD_eq_getElem?_getD, List.getElem?_eq_getElem (by rw [length_stream]; omega)]; rfl

/-- The sampler state has read `p` bytes of the stream. -/
structure Rep (m : Bytes) (s : ChalSt) (p : Nat) : Prop where
  len : s.buf.length = 136
  pos : s.pos ≤ 136
  rep : ∃ N, s.st = after 136 m (N + 136) ∧ p = N + s.pos ∧ ∀ k, k < 136 → s.buf[k]? = some (sb m (N + k))

theorem Rep.of {m buf : Bytes} {pos p : Nat} {st : Inc} (N : Nat) (h1 : buf.length = 136) (h2 : pos ≤ 136) (h3 : st = after 136 m (N + 136)) (h4 : p = N + pos)
    (h5 : ∀ k, k < 136 → buf[k]? = some (sb m (N + k))) : Rep m ⟨buf, pos, st⟩ p := ⟨h1, h2, N, h3, h4, h5⟩

/-- The bounded search of `challengeByte` on the stream. -/
def scan (m : Bytes) : (fuel i p : Nat) → Option (Nat × Nat)
  | 0, _, _ => none
  | fuel + 1, i, p => if (sb m p).toNat > i then scan m fuel i (p + 1) else some ((sb m p).toNat, p + 1)

theorem squeeze_sb (m : Bytes) (N k : Nat) (hk : k < 136) : (nextN 136 (after 136 m N) 136).1[k]? = some (sb m (N + k)) := by
  have h := stream_add 136 m N 136
  rw [← sb_eq m (show N + k < N + 136 by omega), S256, h, List.getElem?_append_right (by rw [length_stream]; omega), length_stream,
    show N + k - N = k by omega]

theorem challengeByte_ok (m : Bytes) (fuel : Nat) : ∀ (i p : Nat) (s : ChalSt), Rep m s p →
    match scan m fuel i p with
    | none => challengeByte fuel i s = .error .diverge
    | some (b, p') => ∃ s', challengeByte fuel i s = .ok (b, s') ∧ Rep m s' p' := by
  induction fuel with
  | zero => intro i p s _; rfl
  | succ fuel ih =>
    intro i p s hs
    obtain ⟨h1, h2, N, h3, h4, h5⟩ := hs
    -- the state after the refill
    have hfill : ∃ t : ChalSt, (if s.pos ≥ 136 then do
        let (buf, st) ← squeezeAt s.buf 0 136 s.st 136
        .ok ⟨buf, 0, st⟩
      else .ok s : C ChalSt) = .ok t ∧ Rep m t p ∧ t.pos < 136 := by
      by_cases c : s.pos ≥ 136
      · rw [if_pos c, h3, squeezeAt_ok (by omega) (by omega) m (N + 136) 136 _ (by omega), ok_bind]
        rw [splice_all (by rw [length_nextN, h1])]
        refine ⟨⟨(nextN 136 (after 136 m (N + 136)) 136).1, 0, after 136 m (N + 136 + 136)⟩, rfl, Rep.of (N + 136) (length_nextN _ _ _) (Nat.zero_le _) rfl (by omega) (fun k hk => squeeze_sb m (N + 136) k hk), Nat.zero_lt_succ _⟩
      · rw [if_neg c]
        exact ⟨s, rfl, ⟨h1, h2, N, h3, h4, h5⟩, by omega⟩
    obtain ⟨t, e, hr, hp⟩ := hfill
    rw [challengeByte, e, ok_bind]
    obtain ⟨g1, g2, N', g3, g4, g5⟩ := hr
    have hrd : rd t.buf t.pos = .ok (sb m p) := by
      rw [rd_ok (by omega)]
      have := g5 t.pos hp
      rw [List.getElem?_eq_getElem (by omega), ← g4] at this
      exact congrArg _ (Option.some.inj this)
    rw [hrd, ok_bind]
    simp only
    have hnext : Rep m ⟨t.buf, t.pos + 1, t.st⟩ (p + 1) := ⟨g1, hp, N', g3, by simp only; omega, g5⟩
    rw [scan]
    by_cases c : (sb m p).toNat > i
    · rw [if_pos c, if_pos c]
      exact ih i (p + 1) _ hnext
    · rw [if_neg c, if_neg c]
      exact ⟨_, rfl, hnext⟩

theorem drop_stream (m : Bytes) {p n : Nat} (h : p < n) : (S256 m n).drop p = sb m p :: (S256 m n).drop (p + 1) := by
  rw [List.drop_eq_getElem?_toList_append, sb_eq m h]; rfl

theorem scan_firstLe (m : Bytes) (fuel i : Nat) : ∀ p b p', scan m fuel i p = some (b, p') →
    p < p' ∧ b ≤ i ∧ b < 256 ∧ ∀ n, p' ≤ n → firstLe i ((S256 m n).drop p) = some (b, (S256 m n).drop p') := by
  induction fuel with
  | zero => intro p b p' h; cases h
  | succ fuel ih =>
    intro p b p' h
    rw [scan] at h
    by_cases c : (sb m p).toNat > i
    · rw [if_pos c] at h
      obtain ⟨h1, h2, h3, h4⟩ := ih _ _ _ h
      refine ⟨by omega, h2, h3, fun n hn => ?_⟩
      rw [drop_stream m (by omega), firstLe, if_neg (by omega), h4 n hn]
    · rw [if_neg c] at h
      rw [Option.some.injEq, Prod.mk.injEq] at h
      obtain ⟨rfl, rfl⟩ := h
      refine ⟨by omega, by omega, (sb m p).isLt, fun n hn => ?_⟩
      rw [drop_stream m (by omega), firstLe, if_pos (by omega)]

theorem firstLe_scan (m : Bytes) (n i : Nat) (k : Nat) : ∀ p b r, n - p = k → firstLe i ((S256 m n).drop p) = some (b, r) →
    ∃ p', p' ≤ n ∧ r = (S256 m n).drop p' ∧ ∀ fuel, k ≤ fuel → scan m fuel i p = some (b, p') := by
  induction k with
  | zero =>
    intro p b r hk h
    rw [List.drop_of_length_le (by rw [length_stream]; omega)] at h
    cases h
  | succ k ih =>
    intro p b r hk h
    rw [drop_stream m (by omega), firstLe] at h
    by_cases c : (sb m p).toNat ≤ i
    · rw [if_pos c, Option.some.injEq, Prod.mk.injEq] at h
      obtain ⟨rfl, rfl⟩ := h
      refine ⟨p + 1, by omega, rfl, fun fuel hf => ?_⟩
      obtain ⟨f, rfl⟩ : ∃ f, fuel = f + 1 := ⟨fuel - 1, by omega⟩
      rw [scan, if_neg (by omega)]
    · rw [if_neg c] at h
      obtain ⟨p', h1, h2, h3⟩ := ih _ _ _ (by omega) h
      refine ⟨p', h1, h2, fun fuel hf => ?_⟩
      obtain ⟨f, rfl⟩ : ∃ f, fuel = f + 1 := ⟨fuel - 1, by omega⟩
      rw [scan, if_pos (by omega), h3 f (by omega)]

theorem sign_val (s : BitVec 64) : toI32 ((1 - 2 * (s &&& 1)).toNat : Int) = if s.toNat % 2 = 0 then 1 else -1 := by
  have h1 : s &&& 1 = BitVec.ofNat 64 (s.toNat % 2) := by
    apply BitVec.eq_of_toNat_eq
    rw [BitVec.toNat_and, BitVec.toNat_ofNat, show (1 : BitVec 64).toNat = 2 ^ 1 - 1 from rfl, Nat.and_two_pow_sub_one_eq_mod]
    omega
  rw [h1]
  rcases Nat.mod_two_eq_zero_or_one s.toNat with h | h <;> rw [h] <;> decide +kernel

/-- The loop of poly_challenge on the stream. -/
def ballScan (m : Bytes) (fuel : Nat) : (n i s p : Nat) → List Int → Option (List Int)
  | 0, _, _, _, c => some c
  | n + 1, i, s, p, c =>
    match scan m fuel i p with
    | none => none
    | some (j, p) => ballScan m fuel n (i + 1) (s / 2) p ((c.set i (co c j)).set j (if s % 2 = 0 then 1 else -1))

theorem challengeLoop_ok (m : Bytes) (fuel : Nat) (n : Nat) : ∀ (i p : Nat) (c : Poly) (s : BitVec 64) (cs : ChalSt), Rep m cs p → c.length = 256 →
    i + n ≤ 256 →
    match ballScan m fuel n i s.toNat p c with
    | none => loop (challengeStep fuel) i n (c, s, cs) = .error .diverge
    | some c' => ∃ s' cs', loop (challengeStep fuel) i n (c, s, cs) = .ok (c', s', cs') := by
  induction n with
  | zero => intro i p c s cs _ _ _; exact ⟨s, cs, rfl⟩
  | succ n ih =>
    intro i p c s cs hr hc hi
    have hb := challengeByte_ok m fuel i p cs hr
    rw [ballScan, loop_succ]
    cases hsc : scan m fuel i p with
    | none =>
      rw [hsc] at hb
      simp only at hb ⊢
      unfold challengeStep
      simp only
      rw [hb, error_bind, error_bind]
    | some q =>
      obtain ⟨b, p'⟩ := q
      rw [hsc] at hb
      obtain ⟨cs', e, hr'⟩ := hb
      obtain ⟨_, _, hb256, _⟩ := scan_firstLe m fuel i p b p' hsc
      have hstep : challengeStep fuel i (c, s, cs) = .ok ((c.set i (co c b)).set b (if s.toNat % 2 = 0 then 1 else -1), s >>> 1, cs') := by
        unfold challengeStep
        simp only
        rw [e, ok_bind]
        simp only
        rw [rd_co (by omega), ok_bind, wr_ok (by omega), ok_bind, wr_ok (by simp; omega), ok_bind, sign_val]
      rw [hstep, ok_bind]
      have := ih (i + 1) p' ((c.set i (co c b)).set b (if s.toNat % 2 = 0 then 1 else -1)) (s >>> 1) cs' hr' (by simp [hc]) (by omega)
      rw [BitVec.toNat_ushiftRight, Nat.shiftRight_eq_div_pow] at this
      exact this

theorem ballScan_sound (m : Bytes) (fuel n : Nat) : ∀ (i s p : Nat) (c c' : List Int), ballScan m fuel n i s p c = some c' →
    ∃ p', p ≤ p' ∧ ∀ N, p' ≤ N → ballLoop n i s ((S256 m N).drop p) c = some c' := by
  induction n with
  | zero => intro i s p c c' h; exact ⟨p, Nat.le_refl _, fun N _ => h⟩
  | succ n ih =>
    intro i s p c c' h
    rw [ballScan] at h
    cases hsc : scan m fuel i p with
    | none => rw [hsc] at h; cases h
    | some q =>
      obtain ⟨b, p1⟩ := q
      rw [hsc] at h
      obtain ⟨h1, _, _, h4⟩ := scan_firstLe m fuel i p b p1 hsc
      obtain ⟨p', h5, h6⟩ := ih _ _ _ _ _ h
      refine ⟨p', by omega, fun N hN => ?_⟩
      rw [ballLoop, h4 N (by omega)]
      exact h6 N hN

theorem ballScan_complete (m : Bytes) (N n : Nat) : ∀ (i s p : Nat) (c c' : List Int), p ≤ N → ballLoop n i s ((S256 m N).drop p) c = some c' →
    ∀ fuel, N ≤ fuel → ballScan m fuel n i s p c = some c' := by
  induction n with
  | zero => intro i s p c c' _ h fuel _; exact h
  | succ n ih =>
    intro i s p c c' hp h fuel hf
    rw [ballLoop] at h
    cases hfl : firstLe i ((S256 m N).drop p) with
    | none => rw [hfl] at h; cases h
    | some q =>
      obtain ⟨b, r⟩ := q
      rw [hfl] at h
      obtain ⟨p', h1, h2, h3⟩ := firstLe_scan m N i (N - p) p b r rfl hfl
      rw [ballScan, h3 fuel (by omega)]
      simp only at h ⊢
      rw [h2] at h
      exact ih _ _ _ _ _ h1 h fuel hf

theorem signs_ok {buf : Bytes} (hb : 8 ≤ buf.length) :
    ∃ s : BitVec 64, loop (fun i (signs : BitVec 64) => do
      let b ← rd buf i
      .ok (signs ||| b.setWidth 64 <<< (8 * i))) 0 8 0 = .ok s ∧ s.toNat = ofLe (buf.take 8) := by
  obtain ⟨s, e, h⟩ := loop_inv (fun i (s : BitVec 64) => s.toNat = ofLe (buf.take i)) (fun i (signs : BitVec 64) => do
      let b ← rd buf i
      .ok (signs ||| b.setWidth 64 <<< (8 * i))) 0 8 0 (by simp [ofLe]) (by
    intro i s _ hi hs
    have hlt := ofLe_lt (buf.take i)
    rw [List.length_take, Nat.min_eq_left (by omega)] at hlt
    rw [rd_ok (by omega), ok_bind]
    refine ⟨_, rfl, ?_⟩
    have e1 : s = BitVec.ofNat 64 (ofLe (buf.take i)) := by apply BitVec.eq_of_toNat_eq; rw [hs, BitVec.toNat_ofNat, Nat.mod_eq_of_lt]; rw [← hs]; exact s.isLt
    have e2 : (buf[i]'(by omega)).setWidth 64 = BitVec.ofNat 64 (buf[i]'(by omega)).toNat := by apply BitVec.eq_of_toNat_eq; simp
    have hp : (256 : Nat) ^ i = 2 ^ (8 * i) := by rw [Nat.pow_mul]
    have htk : buf.take (i + 1) = buf.take i ++ [buf[i]'(by omega)] := by rw [List.take_add_one, List.getElem?_eq_getElem (by omega)]; rfl
    have hb := (buf[i]'(by omega)).isLt
    have hle : (256 : Nat) ^ i * 256 ≤ 2 ^ 64 := by
      rw [hp, show 256 = 2 ^ 8 by rfl, ← Nat.pow_add]; exact Nat.pow_le_pow_right (by omega) (by omega)
    rw [e1, e2, shl_ofNat, or_add_bv (8 * i) rfl (by rw [← hp]; exact hlt), BitVec.toNat_ofNat, htk, ofLe_append, List.length_take, Nat.min_eq_left (by omega), ← hp]
    have h1 : ofLe [buf[i]'(by omega)] = (buf[i]'(by omega)).toNat := by simp [ofLe]
    rw [h1]
    generalize (buf[i]'(by omega)).toNat = v at *
    have h2 : v * 256 ^ i ≤ 255 * 256 ^ i := Nat.mul_le_mul_right _ (by omega)
    rw [Nat.mod_eq_of_lt (by omega), Nat.mul_comm v])
  exact ⟨s, e, h⟩

theorem polyChallenge_ok (fuel : Nat) {seed : Bytes} (hs : seed.length = 32) :
    polyChallenge fuel seed = resultOf (ballScan seed fuel 39 217 (ofLe (S256 seed 8)) 8 (List.replicate 256 0)) := by
  unfold polyChallenge
  have h136 : (List.replicate 136 (0 : Byte)).length = 136 := List.length_replicate ..
  rw [incAbsorb_run (incInit_ok (by omega)) (by omega) (by omega), ok_bind, List.take_of_length_le (by omega), incFinalize_run (by omega) (by omega) (by decide), ok_bind]
  have e0 : (⟨padded 136 0x1F seed, 0⟩ : Inc) = after 136 seed 0 := rfl
  rw [e0, squeezeAt_ok (by omega) (by omega) seed 0 136 _ (by omega), ok_bind]
  simp only
  rw [splice_all (by rw [length_nextN, h136])]
  have e1 : (nextN 136 (after 136 seed 0) 136).1 = S256 seed (8 + 128) := rfl
  obtain ⟨s, es, hsv⟩ := signs_ok (buf := (nextN 136 (after 136 seed 0) 136).1) (by rw [length_nextN]; omega)
  rw [e1, stream_prefix] at hsv
  rw [es, ok_bind]
  have hrep : Rep seed ⟨(nextN 136 (after 136 seed 0) 136).1, 8, after 136 seed (0 + 136)⟩ 8 :=
    Rep.of 0 (length_nextN _ _ _) (by omega) rfl rfl (fun k hk => squeeze_sb seed 0 k hk)
  have := challengeLoop_ok seed fuel 39 217 8 (List.replicate 256 0) s _ hrep (List.length_replicate ..) (by omega)
  rw [hsv] at this
  cases hbs : ballScan seed fuel 39 217 (ofLe (S256 seed 8)) 8 (List.replicate 256 0) with
  | none => rw [hbs] at this; simp only at this; rw [this]; rfl
  | some c =>
    rw [hbs] at this
    obtain ⟨s', cs', e⟩ := this
    rw [e]; rfl

/-! ### The samplers as relations -/

theorem resultOf_cases (l : Option (List Int)) : (∃ a, resultOf l = .ok a) ∨ resultOf l = .error .diverge := by
  cases l with
  | none => exact Or.inr rfl
  | some a => exact Or.inl ⟨a, rfl⟩

theorem resultOf_ok {l : Option (List Int)} {a : Poly} : resultOf l = .ok a ↔ l = some a := by
  cases l with
  | none => simp [resultOf]
  | some b => simp [resultOf]

theorem triples_prefix : ∀ (k : Nat) (x y : Bytes), x.length ≤ k → ∃ l, triples (x ++ y) = triples x ++ l := by
  intro k
  induction k using Nat.strong_induction_on with
  | _ k ih =>
    intro x y h
    match x, h with
    | [], _ => exact ⟨_, rfl⟩
    | [_], _ => exact ⟨_, rfl⟩
    | [_, _], _ => exact ⟨_, rfl⟩
    | a :: b :: c :: x, h =>
      simp only [List.length_cons] at h
      obtain ⟨l, e⟩ := ih (k - 3) (by omega) x y (by omega)
      exact ⟨l, by simp only [List.cons_append, triples, e]⟩

theorem first256_mono {l l' : List Int} {a : List Int} (h : first256 l = some a) : first256 (l ++ l') = some a := by
  have hl : 256 ≤ l.length := by
    unfold first256 at h
    by_contra c
    rw [if_neg c] at h; cases h
  rw [first256_ge hl]
  unfold first256 at h
  rw [if_pos hl] at h
  exact h

theorem uniformOf_mono (m : Bytes) {n n' : Nat} (hn : n ≤ n') {a : List Int} (h : uniformOf (S128 m n) = some a) : uniformOf (S128 m n') = some a := by
  obtain ⟨k, rfl⟩ : ∃ k, n' = n + k := ⟨n' - n, by omega⟩
  rw [S128, stream_add]
  obtain ⟨l, e⟩ := triples_prefix _ (stream 168 31 m n) (nextN 168 (after 168 m n) k).1 (Nat.le_refl _)
  unfold uniformOf at h ⊢
  rw [e, List.filter_append, List.map_append]
  exact first256_mono h

theorem etaOf_mono (m : Bytes) {n n' : Nat} (hn : n ≤ n') {a : List Int} (h : etaOf (S256 m n) = some a) : etaOf (S256 m n') = some a := by
  obtain ⟨k, rfl⟩ : ∃ k, n' = n + k := ⟨n' - n, by omega⟩
  rw [S256, stream_add]
  unfold etaOf at h ⊢
  rw [List.flatMap_append, List.filter_append, List.map_append]
  exact first256_mono h

theorem polyUniform_sound {fuel : Nat} {seed : Bytes} (hs : seed.length = 32) {nonce : BitVec 16} {a : Poly} (h : polyUniform fuel seed nonce = .ok a) :
    IsUniform S128 seed nonce.toNat a := by
  rw [polyUniform_ok fuel hs, resultOf_ok] at h
  exact ⟨_, h⟩
theorem polyUniform_complete {seed : Bytes} (hs : seed.length = 32) {nonce : BitVec 16} {a : Poly} (h : IsUniform S128 seed nonce.toNat a) :
    ∃ F, ∀ fuel, F ≤ fuel → polyUniform fuel seed nonce = .ok a := by
  obtain ⟨n, h⟩ := h
  exact ⟨n, fun fuel hf => by rw [polyUniform_ok fuel hs, resultOf_ok]; exact uniformOf_mono _ (by omega) h⟩
theorem polyUniformEta_sound {fuel : Nat} {seed : Bytes} (hs : seed.length = 64) {nonce : BitVec 16} {a : Poly} (h : polyUniformEta fuel seed nonce = .ok a) :
    IsEta S256 seed nonce.toNat a := by
  rw [polyUniformEta_ok fuel hs, resultOf_ok] at h
  exact ⟨_, h⟩
theorem polyUniformEta_complete {seed : Bytes} (hs : seed.length = 64) {nonce : BitVec 16} {a : Poly} (h : IsEta S256 seed nonce.toNat a) :
    ∃ F, ∀ fuel, F ≤ fuel → polyUniformEta fuel seed nonce = .ok a := by
  obtain ⟨n, h⟩ := h
  exact ⟨n, fun fuel hf => by rw [polyUniformEta_ok fuel hs, resultOf_ok]; exact etaOf_mono _ (by omega) h⟩
theorem polyChallenge_sound {fuel : Nat} {seed : Bytes} (hs : seed.length = 32) {c : Poly} (h : polyChallenge fuel seed = .ok c) : IsBall S256 seed c := by
  rw [polyChallenge_ok fuel hs, resultOf_ok] at h
  obtain ⟨p', h1, h2⟩ := ballScan_sound _ _ _ _ _ _ _ _ h
  refine ⟨p', ?_⟩
  unfold ballOf
  obtain ⟨k, rfl⟩ : ∃ k, p' = 8 + k := ⟨p' - 8, by omega⟩
  rw [if_pos (by rw [length_stream]; omega), stream_prefix]
  exact h2 _ (Nat.le_refl _)
theorem polyChallenge_complete {seed : Bytes} (hs : seed.length = 32) {c : Poly} (h : IsBall S256 seed c) :
    ∃ F, ∀ fuel, F ≤ fuel → polyChallenge fuel seed = .ok c := by
  obtain ⟨n, h⟩ := h
  refine ⟨n, fun fuel hf => ?_⟩
  rw [polyChallenge_ok fuel hs, resultOf_ok]
  unfold ballOf at h
  have hn : 8 ≤ n := by
    by_contra c
    rw [if_neg (by rw [length_stream]; omega)] at h; cases h
  rw [if_pos (by rw [length_stream]; omega)] at h
  obtain ⟨k, rfl⟩ : ∃ k, n = 8 + k := ⟨n - 8, by omega⟩
  rw [stream_prefix] at h
  exact ballScan_complete _ _ _ _ _ _ _ _ (by omega) h fuel hf

end Verif.Dilithium
