import Verif.Conc.Foot
import Verif.Conc.Run
import Verif.Real.Contracts
import Verif.Real.Props2
import Verif.Sphincs.Twice
import Verif.Real.Forgery
import Verif.Witness.Hybrid

/-!
Property C123: calls that run at the same time do not disturb each other.
-/

namespace Verif.Conc
open Verif
open Verif.Real (real when when_pos FullSigned)
open Verif.Dilithium (S128 S256 isShake128_S128 isShake256_S256)

variable {ι : Type}

/-- What `crypto_sign_signature` computes from its random bytes and the message as it reads it for the first and for the second time (sphincs/sign.c:96-163). -/
def spxBody (sig : Bytes) (n : Nat) (m m' sk : Bytes) (o : Option Bytes) : C (Int × Bytes × Nat) :=
  when (sig.length = 49856 ∧ sk.length = 128) (match o with
    | none => .ok (-1, sig, n)
    | some opt => do
      let sig ← Sphincs.signTwice Sphincs.shake256F sig m m' sk opt
      .ok (0, sig, 49856))

/-- The SPHINCS+ signing of the code makes one draw of 32 bytes before everything else. -/
theorem oneDraw_real (fuel : Nat) : OneDraw (real fuel) spxBody := by
  intro sig n m sk
  funext R
  rw [Real.spxSign_eq]
  unfold spxBody when
  by_cases hc : sig.length = 49856 ∧ sk.length = 128
  · simp only [if_pos hc, Sphincs.signature, RandM_bind_apply, randombytes, ok_bind]
    cases R.draw R.log.length 32 with
    | none => rfl
    | some o =>
      simp only [RandM_bind_apply, Sphincs.signTwice_same]
      cases Sphincs.signBody Sphincs.shake256F sig m sk o <;> rfl
  · simp only [if_neg hc, RandM_bind_apply, randombytes, ok_bind]
    cases R.draw R.log.length 32 <;> rfl

/-- Threads that each make one call of the library (no line of its own). -/
def together (fuel : Nat) (W : World) (call : ι → Call) : Conf ι Int := start W fun i => (call i).prog (real fuel) spxBody

/-- No call writes where another one reads or writes (no line of its own). -/
def Separate (call : ι → Call) : Prop := ∀ i j, i ≠ j → ∀ a, Covers (call i).writes a → ¬ Covers (call j).reads a ∧ ¬ Covers (call j).writes a

/-- The draws of a thread as a random source of its own (no line of its own). -/
def Conf.own {α : Type} (c : Conf ι α) (W : World) (i : ι) : World := ⟨W.mem, W.sp, answers W.rng fun j => (c.thr i).got.getD j 0⟩

section
variable [DecidableEq ι]

theorem together_inv (fuel : Nat) {W : World} (hW : W.WF) {call : ι → Call} (hs : Separate call) (s : List ι) :
    Inv W (fun i => (call i).prog (real fuel) spxBody) (fun i => Covers (call i).reads) (fun i => Covers (call i).writes) ((together fuel W call).run s) :=
  Inv.run (fun i j hij a _ h => hs i j hij a h) (Inv.start hW fun _ => w_call _ _) s

/-- C123: whatever the schedule, a call that has ended gave the result, or the fault, that the model of the whole function gives when it runs alone from the initial memory with the random bytes that this thread got,
and the bytes it may write are what they are then; bytes that no call may write are what they were; no byte that one thread has written has been read or written by another (there is no data race); and
every draw from the random source went to exactly one thread. -/
theorem concurrent_calls (fuel : Nat) {W : World} (hW : W.WF) {call : ι → Call} (hs : Separate call) (s : List ι) (c : Conf ι Int) (hc : c = (together fuel W call).run s) :
    (∀ i r, (c.thr i).prog = .ret r → ∃ W', (call i).whole (real fuel) (c.own W i) = .ok (r, W') ∧ W'.rng.log.length = (c.thr i).got.length ∧
      ∀ a : Addr, a.1 < W.sp → Covers (call i).writes a → byteAt c.mem a = byteAt W'.mem a) ∧
    (∀ i e, (c.thr i).prog = .fail e → (call i).whole (real fuel) (c.own W i) = .error e) ∧
    (∀ a : Addr, a.1 < W.sp → (∀ i, ¬ Covers (call i).writes a) → byteAt c.mem a = byteAt W.mem a) ∧
    (∀ i j, i ≠ j → ∀ a w, (true, a) ∈ (c.thr i).acc → (w, a) ∉ (c.thr j).acc) ∧
    ((∀ i, (c.thr i).got.Pairwise (· < ·)) ∧ (∀ i j, i ≠ j → ∀ g ∈ (c.thr i).got, g ∉ (c.thr j).got) ∧
      ∀ g, (∃ i, g ∈ (c.thr i).got) ↔ W.rng.log.length ≤ g ∧ g < c.rng.log.length) := by
  have H := together_inv fuel hW hs s
  rw [← hc] at H
  have alone : ∀ i, ∃ l V, l.length = (c.thr i).got.length ∧ Agree W.sp (fun a => Covers (call i).reads a ∨ Covers (call i).writes a) (c.world i).mem V ∧
      (call i).whole (real fuel) (c.own W i) = exec (c.thr i).prog ⟨V, (c.thr i).sp, { (c.own W i).rng with log := l }⟩ := by
    intro i
    obtain ⟨l, V, h1, h2, h3⟩ := (H.at_ i).alone (c.own W i).rng rfl (fun j h n => by
      show W.rng.draw ((c.thr i).got.getD j 0) n = _
      rw [List.getD, List.getElem?_eq_getElem h]; rfl)
    rw [exec_call _ (oneDraw_real fuel)] at h3
    exact ⟨l, V, h1, h2, h3⟩
  refine ⟨fun i r h => ?_, fun i e h => ?_, H.mem, fun i j hij a w h1 h2 => ?_, fun i => (H.at_ i).asc, H.apart, fun g => ⟨fun ⟨i, h⟩ => (H.at_ i).got g h, fun h => H.all g h.1 h.2⟩⟩
  · obtain ⟨l, V, h1, h2, h3⟩ := alone i
    rw [h] at h3
    refine ⟨_, h3, h1, fun a ha hw => ?_⟩
    rw [← h2.1 a ha (Or.inr hw), world_byte (by rw [H.base]; exact ha)]
  · obtain ⟨l, V, h1, h2, h3⟩ := alone i
    rw [h] at h3
    exact h3
  · have b1 := ((H.at_ i).acc _ _ h1).2
    have b2 := ((H.at_ j).acc _ _ h2).2
    obtain ⟨n1, n2⟩ := hs i j hij a b1
    cases w
    · exact n1 b2
    · exact n2 b2

/-- C123: nothing waits.  In every schedule in which a thread gets steps again and again its call ends, whatever the other threads do or do not do, and it stays ended with that result. -/
theorem concurrent_calls_end (fuel : Nat) (W : World) (call : ι → Call) (σ : Nat → ι) (i : ι) (hσ : ∀ N, ∃ n, N ≤ n ∧ σ n = i) :
    ∃ n, ((∃ r, (((together fuel W call).run ((List.range n).map σ)).thr i).prog = .ret r) ∨ ∃ e, (((together fuel W call).run ((List.range n).map σ)).thr i).prog = .fail e) ∧
      ∀ n', n ≤ n' → (((together fuel W call).run ((List.range n').map σ)).thr i).prog = (((together fuel W call).run ((List.range n).map σ)).thr i).prog := by
  obtain ⟨n, hn⟩ := ends (together fuel W call) σ i hσ
  refine ⟨n, ?_, fun n' h => ?_⟩
  · revert hn
    cases (((together fuel W call).run ((List.range n).map σ)).thr i).prog with
    | ret a => exact fun _ => Or.inl ⟨a, rfl⟩
    | fail e => exact fun _ => Or.inr ⟨e, rfl⟩
    | _ => exact fun h => h.elim
  · obtain ⟨d, rfl⟩ := Nat.exists_eq_add_of_le h
    rw [List.range_add, List.map_append, run_append]
    exact run_done hn _

/-! ### Full signing by several threads -/

/-- The common memory (no line of its own). -/
def Conf.common {α : Type} (c : Conf ι α) : World := ⟨c.mem, c.base, c.rng⟩

omit [DecidableEq ι] in
theorem view_of_bytes {W V : World} {p : Ptr} {n : Nat} {x : Bytes} (hn : 0 < n) (h : V.view p n = some x) (hb : ∀ j, j < n → byteAt W.mem (p.blk, p.off + j) = byteAt V.mem (p.blk, p.off + j)) :
    W.view p n = some x := by
  obtain ⟨b, h1, h2, rfl⟩ := view_eq_some.1 h
  have hV : ∀ j, j < n → byteAt V.mem (p.blk, p.off + j) = some (b[p.off + j]?.getD 0) := by
    intro j hj
    show (V.mem p.blk).bind _ = _
    rw [h1, Option.bind_some, List.getElem?_eq_getElem (show p.off + j < b.length by omega)]; rfl
  have hl := (hb (n - 1) (by omega)).trans (hV (n - 1) (by omega))
  unfold byteAt at hl
  cases hm : W.mem p.blk with
  | none => simp only [hm, Option.bind_none] at hl; cases hl
  | some d =>
    simp only [hm, Option.bind_some] at hl
    have hdl : p.off + (n - 1) < d.length := by
      by_contra hcon
      rw [List.getElem?_eq_none (by omega)] at hl; cases hl
    refine view_eq_some.2 ⟨d, hm, by omega, ?_⟩
    apply List.ext_getElem?
    intro j
    rw [getElem?_slice, getElem?_slice]
    split
    · rename_i hj
      have := hb j hj
      unfold byteAt at this
      simp only [hm, h1, Option.bind_some] at this
      exact this.symm
    · rfl

omit [DecidableEq ι] in
theorem fullSigned_length {skb mb opt sig : Bytes} (ls : skb.length = 4064) (h1 : mb.length ≤ 64) (hg : FullSigned S128 S256 skb mb opt sig) : sig.length = 52342 + mb.length := by
  open Real Hybrid in
  obtain ⟨k, dil, hd', rfl⟩ := hg
  have l2 : (skDil skb).length = 2560 := by unfold skDil; rw [List.length_take, List.length_drop]; omega
  have ld := dilSigned_length isShake128_S128 isShake256_S256 l2 hd'
  have le := Ed25519.length_specSign (skb.take 32) ((skb.drop 32).take 32) mb
  have hspx := (Sphincs.length_sign (shake := S256) (fun m n => by rw [← shake256F_eq isShake256_S256]; exact Sphincs.length_shake256F m n)
    ⟨slice (skSpx skb) 64 32, (skSpx skb).take 32⟩ (slice (skSpx skb) 32 32) ((skSpx skb).drop 64) opt mb)
  rw [(wire_full_slices le ld hspx (by omega)).1]

/-- C123: any number of threads sign in full mode, with the same key or with different keys.  Whatever the schedule, no thread runs into undefined behaviour; a thread that has ended returned -4 because its draw failed,
or it returned 0, its buffer in the common memory holds the signature that the specifications give for its key, its message and the 32 bytes of its own draw, and no other thread got that draw. -/
theorem concurrent_full_signers (fuel : Nat) {W : World} (hW : W.WF) (sm smlen m sk : ι → Ptr) (mb skb : ι → Bytes)
    (hm : ∀ i, W.view (m i) (mb i).length = some (mb i)) (hsk : ∀ i, W.view (sk i) 4064 = some (skb i))
    (hsm : ∀ i, (W.view (sm i) (52342 + (mb i).length)).isSome) (hl : ∀ i, (W.view (smlen i) 8).isSome) (hd : ∀ i, Disj (smlen i) 8 (sm i) (52342 + (mb i).length))
    (hlo : ∀ i, 1 ≤ (mb i).length) (hhi : ∀ i, (mb i).length ≤ 64)
    (hs : Separate fun i => .signFull (some (sm i)) (some (smlen i)) (some (m i)) (mb i).length (some (sk i)))
    (s : List ι) (c : Conf ι Int) (hc : c = (together fuel W fun i => .signFull (some (sm i)) (some (smlen i)) (some (m i)) (mb i).length (some (sk i))).run s) (i : ι) :
    (∀ e, (c.thr i).prog = .fail e → e = .diverge) ∧
    ∀ r, (c.thr i).prog = .ret r → ∃ g, (c.thr i).got = [g] ∧ (∀ j, j ≠ i → g ∉ (c.thr j).got) ∧
      ((r = -4 ∧ W.rng.draw g 32 = none) ∨
       (r = 0 ∧ ∃ opt sig, W.rng.draw g 32 = some opt ∧ FullSigned S128 S256 (skb i) (mb i) opt sig ∧
         c.common.view (sm i) (52342 + (mb i).length) = some sig ∧ c.common.view (smlen i) 8 = some (le64 (52342 + (mb i).length)))) := by
  obtain ⟨r1, r2, -, -, -, r5, -⟩ := concurrent_calls fuel hW hs s c hc
  have safe : (Call.signFull (some (sm i)) (some (smlen i)) (some (m i)) (mb i).length (some (sk i))).whole (real fuel) (c.own W i) ≠ .error .ub :=
    Hybrid.full_sign_safe Real.real_sized Real.real_noUB (W := c.own W i) (by rw [show (c.own W i).view = W.view from rfl, hm]; rfl) (by rw [show (c.own W i).view = W.view from rfl, hsk]; rfl) (hsm i) (hl i)
  refine ⟨fun e he => ?_, fun r hr => ?_⟩
  · have := r2 i e he
    cases e with
    | ub => exact absurd this safe
    | diverge => rfl
  · obtain ⟨W', h1, h2, h3⟩ := r1 i r hr
    have hin : ∀ p n, 0 < n → (W.view p n).isSome → p.blk < W.sp := by
      intro p n hn hp
      obtain ⟨x, hx⟩ := Option.isSome_iff_exists.1 hp
      obtain ⟨b, hb, -, -⟩ := view_eq_some.1 hx
      by_contra hcon
      rw [hW _ (by omega)] at hb; cases hb
    have spec := (Real.real_full_sign isShake128_S128 isShake256_S256 (W := c.own W i) (hm i) (hsk i) (hsm i) (hl i) (hlo i) (hhi i)).1 fuel r W' h1
    have hlog : W'.rng.log.length = 1 := by
      rcases spec with ⟨-, -, rfl⟩ | ⟨-, opt, sig, -, -, rfl⟩
      · rfl
      · rw [write_rng, write_rng]; rfl
    rw [hlog] at h2
    obtain ⟨g, hg⟩ := List.length_eq_one_iff.1 h2.symm
    have hdraw : (c.own W i).rng.draw (c.own W i).rng.log.length 32 = W.rng.draw g 32 := by
      show W.rng.draw ((c.thr i).got.getD 0 0) 32 = _
      rw [hg]; rfl
    refine ⟨g, hg, fun j hj hgj => r5 j i hj g hgj (by rw [hg]; exact List.mem_singleton.2 rfl), ?_⟩
    rcases spec with ⟨rfl, e, -⟩ | ⟨rfl, opt, sig, e, hsig, rfl⟩
    · exact Or.inl ⟨rfl, hdraw ▸ e⟩
    · refine Or.inr ⟨rfl, opt, sig, hdraw ▸ e, hsig, ?_, ?_⟩
      · refine view_of_bytes (by omega) (V := _) ?_ fun j hj => h3 _ (hin _ _ (by omega) (hsm i)) ⟨_, List.mem_append_left _ (List.mem_singleton.2 rfl), rfl, Nat.le_add_right _ _, Nat.add_lt_add_left hj _⟩
        rw [view_write_disj (by simpa [length_le64] using hd i)]
        exact Hybrid.view_write_same' (hsm i) (fullSigned_length (length_of_view (hsk i)) (hhi i) hsig)
      · refine view_of_bytes (by omega) (V := _) ?_ fun j hj => h3 _ (hin _ _ (by omega) (hl i)) ⟨_, List.mem_append_right _ (List.mem_singleton.2 rfl), rfl, Nat.le_add_right _ _, Nat.add_lt_add_left hj _⟩
        exact Hybrid.view_write_same' (by rw [view_write_isSome]; exact hl i) (length_le64 _)

end

/-! ### Two threads with one key -/

/-- A random source whose draws of 32 bytes are all zeros the first time and all ones later (no line of its own). -/
def twoRng : Rng where
  draw := fun j n => some (List.replicate n (if j = 0 then 0 else 1))
  len_draw := by
    intro i n b hb
    cases hb; exact List.length_replicate
  log := []

/-- The memory of the example: two signature buffers, two length cells, a message, a key (no line of its own). -/
def twoWorld (z skb : Bytes) : World :=
  { mem := fun b => if b < 2 then some z else if b < 4 then some (Hybrid.zeros 8) else if b = 4 then some [2] else if b = 5 then some skb else none, sp := 6, rng := twoRng }

/-- The example: thread `false` and thread `true` sign the same message with the same key at the same time, into buffers of their own (no line of its own). -/
def twoSigners (b : Bool) : Call := .signFull (some ⟨if b then 1 else 0, 0⟩) (some ⟨if b then 3 else 2, 0⟩) (some ⟨4, 0⟩) ([2] : Bytes).length (some ⟨5, 0⟩)

theorem twoSigners_separate : Separate twoSigners := by
  intro i j hij a h
  have key : ∀ b x, Covers (twoSigners b).writes x → x.1 = (if b then 1 else 0) ∨ x.1 = (if b then 3 else 2) := by
    rintro b x ⟨r, hr, hx, -⟩
    simp only [twoSigners, Call.writes, range, Option.map_some, Option.toList_some, List.singleton_append, List.mem_cons, List.not_mem_nil, or_false] at hr
    rcases hr with rfl | rfl
    · exact Or.inl hx
    · exact Or.inr hx
  have keyR : ∀ b x, Covers (twoSigners b).reads x → x.1 = 4 ∨ x.1 = 5 := by
    rintro b x ⟨r, hr, hx, -⟩
    simp only [twoSigners, Call.reads, range, Option.map_some, Option.toList_some, List.singleton_append, List.mem_cons, List.not_mem_nil, or_false] at hr
    rcases hr with rfl | rfl
    · exact Or.inl hx
    · exact Or.inr hx
  have h1 := key i a h
  refine ⟨fun h2 => ?_, fun h2 => ?_⟩
  · have := keyR j a h2
    cases i <;> simp at h1 <;> omega
  · have := key j a h2
    cases i <;> cases j <;> simp at h1 this hij <;> omega

/-- Both hypotheses of `concurrent_full_signers` and both outcomes are real: with some key, when the threads take turns, both calls end, both return 0, and the buffers hold two signatures of the same message that
were made with the two different draws. -/
theorem two_signers_demo : ∃ (fuel : Nat) (skb : Bytes) (s : List Bool) (c : Conf Bool Int) (g : Bool → Nat) (opt sig : Bool → Bytes),
    c = (together fuel (twoWorld (Hybrid.zeros 52343) skb) twoSigners).run s ∧ g false ≠ g true ∧
    ∀ b, (c.thr b).prog = .ret 0 ∧ (c.thr b).got = [g b] ∧ twoRng.draw (g b) 32 = some (opt b) ∧ FullSigned S128 S256 skb [2] (opt b) (sig b) ∧
      c.common.view ⟨if b then 1 else 0, 0⟩ 52343 = some (sig b) := by
  obtain ⟨pkb, skb, sig0, hk, k, dil, hd, -⟩ := Witness.keys_and_signature
  have ls := (Real.keysOf_parts isShake128_S128 isShake256_S256 Witness.length_seed160 hk).2.1
  obtain ⟨z, hz, lz⟩ : ∃ z : Bytes, z = Hybrid.zeros 52343 ∧ z.length = 52343 := ⟨_, rfl, List.length_replicate⟩
  rw [← hz]
  have hW : (twoWorld z skb).WF := by
    intro b hb
    have hb : 6 ≤ b := hb
    show (if b < 2 then _ else _) = _
    rw [if_neg (by omega), if_neg (by omega), if_neg (by omega), if_neg (by omega)]
  have v0 : ∀ b : Bool, (twoWorld z skb).view ⟨if b then 1 else 0, 0⟩ (52342 + ([2] : Bytes).length) = some z := fun b => Real.view_block (by cases b <;> rfl) lz
  have v1 : ∀ b : Bool, (twoWorld z skb).view ⟨if b then 3 else 2, 0⟩ 8 = some (Hybrid.zeros 8) := fun b => Real.view_block (by cases b <;> rfl) List.length_replicate
  have v2 : (twoWorld z skb).view ⟨4, 0⟩ ([2] : Bytes).length = some [2] := Real.view_block rfl rfl
  have v3 : (twoWorld z skb).view ⟨5, 0⟩ 4064 = some skb := Real.view_block rfl ls
  have d0 : ∀ b : Bool, Disj ⟨if b then 3 else 2, 0⟩ 8 ⟨if b then 1 else 0, 0⟩ (52342 + ([2] : Bytes).length) := fun b => Or.inl (by cases b <;> decide)
  -- the two random sources that a thread can find: it draws first, or the other one does
  have alone : ∀ q b : Bool, ∃ F, ∀ fuel, F ≤ fuel → ∃ W', (twoSigners b).whole (real fuel) ⟨(twoWorld z skb).mem, 6, answers twoRng fun j => if q then j + 1 else j⟩ = .ok (0, W') := by
    intro q b
    have hs : FullSigned S128 S256 skb [2] (List.replicate 32 (if (if q then 0 + 1 else 0) = 0 then 0 else 1)) _ := ⟨k, dil, hd, rfl⟩
    obtain ⟨F, hF⟩ := (Real.real_full_sign isShake128_S128 isShake256_S256 (W := ⟨(twoWorld z skb).mem, 6, answers twoRng fun j => if q then j + 1 else j⟩) (sm := ⟨if b then 1 else 0, 0⟩) (smlen := ⟨if b then 3 else 2, 0⟩) (m := ⟨4, 0⟩) (sk := ⟨5, 0⟩) (mlen := ([2] : Bytes).length) (mb := [2]) (skb := skb)
      v2 v3 (Option.isSome_iff_exists.2 ⟨_, v0 b⟩) (Option.isSome_iff_exists.2 ⟨_, v1 b⟩) (by decide) (by decide)).2 _ _ rfl hs
    exact ⟨F, fun fuel hf => ⟨_, hF fuel hf⟩⟩
  choose F hF using alone
  obtain ⟨fuel, hfuel⟩ : ∃ fuel, ∀ q b, F q b ≤ fuel := ⟨F false false + F false true + F true false + F true true, fun q b => by cases q <;> cases b <;> omega⟩
  have fair : ∀ b : Bool, ∀ N, ∃ n, N ≤ n ∧ (decide (n % 2 = 1)) = b := by
    intro b N
    cases b
    · exact ⟨2 * N, by omega, by simp⟩
    · exact ⟨2 * N + 1, by omega, by simp [Nat.add_mod]⟩
  have hend := fun b => concurrent_calls_end fuel (twoWorld z skb) twoSigners (fun n => decide (n % 2 = 1)) b (fair b)
  choose n hn using hend
  obtain ⟨s, hs⟩ : ∃ s, s = (List.range (n false + n true)).map fun n => decide (n % 2 = 1) := ⟨_, rfl⟩
  obtain ⟨c, hc⟩ : ∃ c, c = (together fuel (twoWorld z skb) twoSigners).run s := ⟨_, rfl⟩
  have hdone : ∀ b, (∃ r, (c.thr b).prog = .ret r) ∨ ∃ e, (c.thr b).prog = .fail e := by
    intro b
    have h := hn b
    rw [← h.2 (n false + n true) (by cases b <;> omega), ← hs, ← hc] at h
    exact h.1
  have H := together_inv fuel hW twoSigners_separate s
  rw [← hc] at H
  have zero : ∀ b, (c.thr b).prog = .ret 0 := by
    intro b
    have asc := (H.at_ b).asc
    obtain ⟨q, hq⟩ : ∃ q : Bool, ∀ j (h : j < (c.thr b).got.length) n, (answers twoRng fun j => if q then j + 1 else j).draw j n = twoRng.draw ((c.thr b).got[j]) n := by
      revert asc
      cases (c.thr b).got with
      | nil => exact fun _ => ⟨false, fun j h => by cases h⟩
      | cons x l =>
        intro asc
        have later : ∀ j (h : j < l.length), l[j] ≠ 0 := fun j h => by
          have := (List.pairwise_cons.1 asc).1 l[j] (List.getElem_mem h); omega
        refine ⟨decide (x ≠ 0), fun j h n => ?_⟩
        show some (List.replicate n (if (if decide (x ≠ 0) = true then j + 1 else j) = 0 then (0 : Byte) else 1)) = some (List.replicate n (if (x :: l)[j] = 0 then 0 else 1))
        cases j with
        | zero => by_cases hx : x = 0 <;> simp [hx]
        | succ j =>
          have hj := later j (by simpa using h)
          simp only [List.getElem_cons_succ, if_neg hj]
          by_cases hx : x = 0 <;> simp [hx]
    obtain ⟨l, V, -, -, e⟩ := (H.at_ b).alone _ rfl hq
    rw [exec_call _ (oneDraw_real fuel)] at e
    obtain ⟨W', hW'⟩ := hF q b fuel (hfuel q b)
    have e := hW'.symm.trans e
    rcases hdone b with ⟨r, hr⟩ | ⟨f, hf⟩
    · rw [hr] at e
      have e := Except.ok.inj e
      rw [Prod.mk.injEq] at e
      rw [hr, e.1]
    · rw [hf] at e; cases e
  have out := fun b => (concurrent_full_signers fuel hW (fun b : Bool => ⟨if b then 1 else 0, 0⟩) (fun b : Bool => ⟨if b then 3 else 2, 0⟩) (fun _ => ⟨4, 0⟩) (fun _ => ⟨5, 0⟩) (fun _ => [2]) (fun _ => skb)
    (fun _ => v2) (fun _ => v3) (fun b => Option.isSome_iff_exists.2 ⟨_, v0 b⟩) (fun b => Option.isSome_iff_exists.2 ⟨_, v1 b⟩) d0 (fun _ => by decide) (fun _ => by decide) twoSigners_separate s c hc b).2 0 (zero b)
  choose g hg using out
  have out : ∀ b, ∃ opt sig, twoRng.draw (g b) 32 = some opt ∧ FullSigned S128 S256 skb [2] opt sig ∧ c.common.view ⟨if b then 1 else 0, 0⟩ 52343 = some sig := by
    intro b
    rcases (hg b).2.2 with ⟨h, -⟩ | ⟨-, opt, sig, h1, h2, h3, -⟩
    · cases h
    · exact ⟨opt, sig, h1, h2, h3⟩
  choose opt sig ho using out
  refine ⟨fuel, skb, s, c, g, opt, sig, hc, fun e => ?_, fun b => ⟨zero b, (hg b).1, ho b⟩⟩
  exact (hg false).2.1 true (by decide) (by rw [(hg true).1, e]; exact List.mem_singleton.2 rfl)

/-- The hypotheses of `concurrent_calls` are met by the two signers. -/
example : ∃ (fuel : Nat) (W : World) (call : Bool → Call) (s : List Bool), W.WF ∧ Separate call ∧ ∀ b, (((together fuel W call).run s).thr b).prog = .ret 0 := by
  obtain ⟨fuel, skb, s, c, g, opt, sig, hc, -, h⟩ := two_signers_demo
  subst hc
  refine ⟨fuel, _, _, s, ?_, twoSigners_separate, fun b => (h b).1⟩
  intro b hb
  have hb : 6 ≤ b := hb
  show (if b < 2 then _ else _) = _
  rw [if_neg (by omega), if_neg (by omega), if_neg (by omega), if_neg (by omega)]

end Verif.Conc
