import Verif.Conc.RaceOpen
import Verif.Real.Props

/-!
Properties C124 and C125: opening and verifying while other threads change the buffers.
-/

namespace Verif.Conc
open Verif
open Verif.Hybrid (Prims fullOpen compactOpen fullOpen_iff compactOpen_iff fullOpen_bounds)
open Verif.Real (real real_sized real_edShape FullMeets CompactMeets fullValid_sound compactValid_sound)
open Verif.Dilithium (S128 S256 isShake128_S128 isShake256_S256)

variable {ι : Type} [DecidableEq ι]

/-- Each byte of `x` was at its place from `p` on at some moment of the run, not necessarily all at the same moment (no line of its own). -/
def Shown {α : Type} (c : Conf ι α) (s : List ι) (p : Ptr) (x : Bytes) : Prop := ∀ k v, x[k]? = some v → Held c s (p.blk, p.off + k) v

/-- The byte `v` at `a` belongs to the message `msg` written at `m` or to its length written at `mlen` (no line of its own). -/
def Output (m mlen : Ptr) (msg : Bytes) (a : Addr) (v : Byte) : Prop :=
  (∃ k, msg[k]? = some v ∧ a = (m.blk, m.off + k)) ∨ ∃ k, (le64 msg.length)[k]? = some v ∧ a = (mlen.blk, mlen.off + k)

theorem at_mem {p : Ptr} {x : Bytes} {a : Addr} {v : Byte} : (a, v) ∈ At p 0 x ↔ ∃ k, x[k]? = some v ∧ a = (p.blk, p.off + k) := by
  obtain ⟨b, q⟩ := a
  simp only [At, Set.mem_ofPred_eq, Prod.mk.injEq, Nat.zero_add]
  constructor
  · rintro ⟨h1, k, h2, h3⟩; exact ⟨k, h2, h1, h3⟩
  · rintro ⟨k, h2, h1, h3⟩; exact ⟨h1, k, h2, h3⟩

theorem output_iff {m mlen : Ptr} {msg : Bytes} {a : Addr} {v : Byte} : Output m mlen msg a v ↔ (a, v) ∈ At m 0 msg ∪ At mlen 0 (le64 msg.length) := by
  unfold Output
  rw [Set.mem_union, at_mem, at_mem]

theorem shown_of {α : Type} {c : Conf ι α} {s : List ι} {p : Ptr} {x : Bytes} {R : Facts} (hR : ∀ f ∈ R, Held c s f.1 f.2) (h : At p 0 x ⊆ R) : Shown c s p x :=
  fun _ _ hk => hR _ (h (at_mem.2 ⟨_, hk, rfl⟩))

theorem fullMeets_of {fuel : Nat} {sb pkb msg : Bytes} (hp : pkb.length = 1408) (h : fullOpen (real fuel) sb pkb = .ok (.ok msg)) : FullMeets S128 S256 pkb msg sb :=
  fullValid_sound isShake128_S128 isShake256_S256 hp ((fullOpen_iff real_edShape).1 h)

theorem compactMeets_of {fuel : Nat} {sb pkb msg : Bytes} (hp : pkb.length = 1408) (h : compactOpen (real fuel) sb pkb = .ok (.ok msg)) : CompactMeets S128 S256 pkb msg sb :=
  compactValid_sound isShake128_S128 isShake256_S256 hp ((compactOpen_iff real_sized real_edShape).1 h)

/-- What a call has read passed all checks (no line of its own). -/
def FullRead (fuel : Nat) (sm pk : Ptr) (smlen : Nat) (R : Facts) (msg : Bytes) : Prop :=
  ∃ sb pkb : Bytes, sb.length = smlen ∧ pkb.length = 1408 ∧ At sm 0 sb ⊆ R ∧ At pk 0 pkb ⊆ R ∧ fullOpen (real fuel) sb pkb = .ok (.ok msg)

theorem FullRead.mono {fuel : Nat} {sm pk : Ptr} {smlen : Nat} {R R' : Facts} {msg : Bytes} (h : FullRead fuel sm pk smlen R msg) (hR : R ⊆ R') : FullRead fuel sm pk smlen R' msg := by
  obtain ⟨sb, pkb, h1, h2, h3, h4, h5⟩ := h
  exact ⟨sb, pkb, h1, h2, h3.trans hR, h4.trans hR, h5⟩

theorem FullRead.shown {α : Type} {fuel : Nat} {sm pk : Ptr} {smlen : Nat} {R : Facts} {msg : Bytes} {c : Conf ι α} {s : List ι} (hR : ∀ f ∈ R, Held c s f.1 f.2)
    (h : FullRead fuel sm pk smlen R msg) : ∃ sb pkb, sb.length = smlen ∧ pkb.length = 1408 ∧ Shown c s sm sb ∧ Shown c s pk pkb ∧ FullMeets S128 S256 pkb msg sb := by
  obtain ⟨sb, pkb, h1, h2, h3, h4, h5⟩ := h
  exact ⟨sb, pkb, h1, h2, shown_of hR h3, shown_of hR h4, fullMeets_of h2 h5⟩

/-- C124: `crypto_sign_dilithium_ed25519_sphincs_open` while other threads do anything at all to the memory it reads.  Whatever they are and whatever the schedule: if it returns 0, there is one signature buffer and one
public key, every byte of which was in memory when the call read it, such that the buffer is a signature of a message under the key, and what the call has written to the caller's memory is that message and its length;
if it returns something else it has written nothing; and before it ends it writes only bytes of such a message. -/
theorem full_open_under_writers (fuel : Nat) {W : World} {p : ι → Prog Int} {i : ι} {m mlen sm pk : Ptr} {smlen : Nat} (hm : m.blk < W.sp) (hl : mlen.blk < W.sp) (hsm : sm.blk < W.sp) (hpk : pk.blk < W.sp)
    (hp : p i = Conc.openFull (real fuel) (some m) (some mlen) (some sm) smlen (some pk)) (s : List ι) (c : Conf ι Int) (hc : c = start W p) :
    (((c.run s).thr i).prog = .ret 0 → ∃ sb pkb msg, sb.length = smlen ∧ pkb.length = 1408 ∧ Shown c s sm sb ∧ Shown c s pk pkb ∧ FullMeets S128 S256 pkb msg sb ∧
      ∀ a v, Stored c i s a v ↔ Output m mlen msg a v) ∧
    (∀ r, ((c.run s).thr i).prog = .ret r → r ≠ 0 → ∀ a v, ¬ Stored c i s a v) ∧
    (∀ a v, Stored c i s a v → ∃ sb pkb msg, sb.length = smlen ∧ pkb.length = 1408 ∧ Shown c s sm sb ∧ Shown c s pk pkb ∧ FullMeets S128 S256 pkb msg sb ∧ Output m mlen msg a v) := by
  subst hc
  have safe : Safe W.sp (fun R a v => ∃ msg, FullRead fuel sm pk smlen R msg ∧ Output m mlen msg a v)
      (fun _ _ R S r => (r = 0 → ∃ msg, FullRead fuel sm pk smlen R msg ∧ ∀ a v, (a, v) ∈ S ↔ Output m mlen msg a v) ∧ (r ≠ 0 → S = ∅)) (p i) (fun _ => none) W.sp ∅ ∅ := by
    rw [hp]
    refine safe_openFull _ real_sized hsm hpk (fun R' c hc => ⟨fun h => absurd h hc, fun _ => rfl⟩) fun R' sb pkb msg1 n l1 l2 a1 a2 hn h64 ho => ?_
    have hr : FullRead fuel sm pk smlen R' (msg1.take n) := ⟨sb, pkb, l1, l2, a1, a2, ho⟩
    have hlen : (msg1.take n).length = n := by rw [List.length_take]; omega
    unfold fullTail
    refine Safe.bind (safe_copyOut hm (by omega) (fun f hf => ⟨_, hr, output_iff.2 (Or.inl ?_)⟩) ?_)
    · simpa [slice] using hf
    · refine Safe.bind (safe_copyOut hl (by simp) (fun f hf => ⟨_, hr, output_iff.2 (Or.inr ?_)⟩) ?_)
      · rw [hlen]
        simpa [slice, List.take_of_length_le] using hf
      · refine safe_pure ⟨fun _ => ⟨_, hr, fun a v => ?_⟩, fun h => absurd rfl h⟩
        rw [output_iff, hlen]
        simp [slice, List.take_of_length_le]
  obtain ⟨h1, st, R, S, -, -, hR, hS, hQ⟩ := safe_run safe s
  refine ⟨fun h => ?_, fun r h hr a v hst => ?_, fun a v h => ?_⟩
  · rw [h] at hQ
    obtain ⟨msg, h2, h3⟩ := hQ.1 rfl
    obtain ⟨sb, pkb, a1, a2, a3, a4, a5⟩ := h2.shown hR
    exact ⟨sb, pkb, msg, a1, a2, a3, a4, a5, fun a v => (hS a v).symm.trans (h3 a v)⟩
  · rw [h] at hQ
    have := hQ.2 hr
    rw [← hS, this] at hst
    exact hst.elim
  · obtain ⟨R', hR', msg, h2, h3⟩ := h1 a v h
    obtain ⟨sb, pkb, a1, a2, a3, a4, a5⟩ := h2.shown hR'
    exact ⟨sb, pkb, msg, a1, a2, a3, a4, a5, h3⟩

/-- C124: `crypto_verify_dilithium_ed25519_sphincs` while other threads do anything at all to the memory it reads.  If it returns 0, there is one signature buffer, one public key and one message of the length given by the
caller, every byte of which was in memory at some moment of the call, such that the buffer is a signature of the message under the key.  It never writes to the caller's memory. -/
theorem full_verify_under_writers (fuel : Nat) {W : World} {p : ι → Prog Int} {i : ι} {m sm pk : Ptr} {mlen smlen : Nat} (hm : m.blk < W.sp) (hsm : sm.blk < W.sp) (hpk : pk.blk < W.sp)
    (hp : p i = Conc.verifyFull (real fuel) (some m) mlen (some sm) smlen (some pk)) (s : List ι) (c : Conf ι Int) (hc : c = start W p) :
    (((c.run s).thr i).prog = .ret 0 → ∃ sb pkb msg, sb.length = smlen ∧ pkb.length = 1408 ∧ msg.length = mlen ∧ Shown c s sm sb ∧ Shown c s pk pkb ∧ Shown c s m msg ∧ FullMeets S128 S256 pkb msg sb) ∧
    ∀ a v, ¬ Stored c i s a v := by
  subst hc
  have safe : Safe W.sp (fun _ _ _ => False) (fun _ _ R S r => S = ∅ ∧ (r = 0 → ∃ msg : Bytes, msg.length = mlen ∧ FullRead fuel sm pk smlen R msg ∧ At m 0 msg ⊆ R)) (p i) (fun _ => none) W.sp ∅ ∅ := by
    rw [hp]
    simp only [Conc.verifyFull]
    by_cases c1 : mlen ≤ 0 ∨ mlen > 64
    · rw [if_pos c1]; exact ⟨rfl, fun h => absurd h (by decide)⟩
    rw [if_neg c1]
    refine safe_verify (op := fun buf lenp => Conc.openFull (real fuel) (some buf) (some lenp) (some sm) smlen (some pk)) (fun _ _ _ h h' => h'.mono h) (Nat.le_refl _) hm ?_
    refine safe_openFull _ real_sized hsm hpk (fun R' c hc => ⟨rfl, fun h => absurd h hc⟩) fun R' sb pkb msg1 n l1 l2 a1 a2 hn h64 ho => ?_
    have hlen : (msg1.take n).length = n := by rw [List.length_take]; omega
    refine safe_fullTail_local (Nat.le_refl _) hn (by simp; omega) fun b' hb' ht => ⟨rfl, fun _ => ⟨msg1.take n, b', ⟨sb, pkb, l1, l2, a1, a2, ho⟩, by omega, ?_, by omega, by rw [hlen, ht], ?_⟩⟩
    · rw [Function.update_of_ne (by omega), Function.update_self]
    · rw [Function.update_self, hlen]
  obtain ⟨h1, st, R, S, -, -, hR, hS, hQ⟩ := safe_run safe s
  refine ⟨fun h => ?_, fun a v h => ?_⟩
  · rw [h] at hQ
    obtain ⟨msg, h2, h3, h4⟩ := hQ.2 rfl
    obtain ⟨sb, pkb, a1, a2, a3, a4, a5⟩ := h3.shown hR
    exact ⟨sb, pkb, msg, a1, a2, h2, a3, a4, shown_of hR h4, a5⟩
  · obtain ⟨R', -, hf⟩ := h1 a v h
    exact hf

/-! ### Compact mode -/

/-- What a call of compact open has read passed all checks, with the message `msg`, and the second reading of the message gave the beginning `x` of it (no line of its own). -/
def CompactRead (fuel : Nat) (sm pk : Ptr) (smlen : Nat) (R : Facts) (msg x : Bytes) : Prop :=
  ∃ sb pkb : Bytes, sb.length = smlen ∧ pkb.length = 1408 ∧ At sm 0 sb ⊆ R ∧ At pk 0 pkb ⊆ R ∧ compactOpen (real fuel) sb pkb = .ok (.ok msg) ∧ x.length ≤ msg.length ∧ At sm 2526 x ⊆ R

theorem CompactRead.mono {fuel : Nat} {sm pk : Ptr} {smlen : Nat} {R R' : Facts} {msg x : Bytes} (h : CompactRead fuel sm pk smlen R msg x) (hR : R ⊆ R') : CompactRead fuel sm pk smlen R' msg x := by
  obtain ⟨sb, pkb, h1, h2, h3, h4, h5, h6, h7⟩ := h
  exact ⟨sb, pkb, h1, h2, h3.trans hR, h4.trans hR, h5, h6, h7.trans hR⟩

theorem at_add {p : Ptr} {o : Nat} {x : Bytes} : At p o x = At (p.add o) 0 x := by
  ext ⟨⟨b, q⟩, v⟩
  simp only [At, Set.mem_ofPred_eq, Ptr.add, Nat.zero_add, Nat.add_assoc]

theorem CompactRead.shown {α : Type} {fuel : Nat} {sm pk : Ptr} {smlen : Nat} {R : Facts} {msg x : Bytes} {c : Conf ι α} {s : List ι} (hR : ∀ f ∈ R, Held c s f.1 f.2)
    (h : CompactRead fuel sm pk smlen R msg x) :
    ∃ sb pkb, sb.length = smlen ∧ pkb.length = 1408 ∧ Shown c s sm sb ∧ Shown c s pk pkb ∧ CompactMeets S128 S256 pkb msg sb ∧ x.length ≤ msg.length ∧ Shown c s (sm.add 2526) x := by
  obtain ⟨sb, pkb, h1, h2, h3, h4, h5, h6, h7⟩ := h
  exact ⟨sb, pkb, h1, h2, shown_of hR h3, shown_of hR h4, compactMeets_of h2 h5, h6, shown_of hR (by rw [← at_add]; exact h7)⟩

/-- C125, what is true of compact open under writers: the full claim would be that of `full_open_under_writers`, that the message that comes out is the one that passed the checks.  It is false
(`compact_open_under_writers_false`).  True is: if the call returns 0, there is one signature buffer and one public key, every byte of which was in memory when the call read it, such that the buffer is a
compact signature of a message under the key; and what the call has written is some bytes that were at some moment in the message part of the buffer, as many as the message has, and their number.
If it returns something else it has written nothing; and before it ends it writes only such bytes. -/
theorem compact_open_under_writers_partial (fuel : Nat) {W : World} {p : ι → Prog Int} {i : ι} {m mlen sm pk : Ptr} {smlen : Nat} (hm : m.blk < W.sp) (hl : mlen.blk < W.sp) (hsm : sm.blk < W.sp)
    (hpk : pk.blk < W.sp) (hp : p i = Conc.openCompact (real fuel) (some m) (some mlen) (some sm) smlen (some pk)) (s : List ι) (c : Conf ι Int) (hc : c = start W p) :
    (((c.run s).thr i).prog = .ret 0 → ∃ sb pkb msg msg', sb.length = smlen ∧ pkb.length = 1408 ∧ Shown c s sm sb ∧ Shown c s pk pkb ∧ CompactMeets S128 S256 pkb msg sb ∧
      msg'.length = msg.length ∧ Shown c s (sm.add 2526) msg' ∧ ∀ a v, Stored c i s a v ↔ Output m mlen msg' a v) ∧
    (∀ r, ((c.run s).thr i).prog = .ret r → r ≠ 0 → ∀ a v, ¬ Stored c i s a v) ∧
    (∀ a v, Stored c i s a v → ∃ sb pkb msg, sb.length = smlen ∧ pkb.length = 1408 ∧ Shown c s sm sb ∧ Shown c s pk pkb ∧ CompactMeets S128 S256 pkb msg sb ∧
      ((∃ k, k < msg.length ∧ Held c s (sm.blk, sm.off + (2526 + k)) v ∧ a = (m.blk, m.off + k)) ∨ ∃ k, (le64 msg.length)[k]? = some v ∧ a = (mlen.blk, mlen.off + k))) := by
  subst hc
  have safe : Safe W.sp (fun R a v => ∃ msg x, CompactRead fuel sm pk smlen R msg x ∧ ((a, v) ∈ At m 0 x ∨ (a, v) ∈ At mlen 0 (le64 msg.length)))
      (fun _ _ R S r => (r = 0 → ∃ msg x, CompactRead fuel sm pk smlen R msg x ∧ x.length = msg.length ∧ ∀ a v, (a, v) ∈ S ↔ Output m mlen x a v) ∧ (r ≠ 0 → S = ∅)) (p i) (fun _ => none) W.sp ∅ ∅ := by
    rw [hp]
    refine safe_openCompact _ real_sized hsm hpk (fun R' c hc => ⟨fun h => absurd h hc, fun _ => rfl⟩) fun R' sb pkb msg l1 l2 a1 a2 h64 ho => ?_
    have hr : ∀ x : Bytes, x.length ≤ msg.length → CompactRead fuel sm pk smlen (R' ∪ At sm 2526 x) msg x := fun x hx =>
      ⟨sb, pkb, l1, l2, a1.trans Set.subset_union_left, a2.trans Set.subset_union_left, ho, hx, Set.subset_union_right⟩
    unfold compactTail
    refine Safe.bind (safe_copyMem hm hsm (fun x hx f hf => ⟨msg, x, hr x hx, Or.inl hf⟩) fun x hx => ?_)
    refine Safe.bind (safe_copyOut hl (by simp) (fun f hf => ⟨msg, x, hr x (by omega), Or.inr ?_⟩) ?_)
    · simpa [slice, List.take_of_length_le] using hf
    · refine safe_pure ⟨fun _ => ⟨msg, x, hr x (by omega), hx, fun a v => ?_⟩, fun h => absurd rfl h⟩
      rw [output_iff, hx]
      simp [slice, List.take_of_length_le]
  obtain ⟨h1, st, R, S, -, -, hR, hS, hQ⟩ := safe_run safe s
  refine ⟨fun h => ?_, fun r h hr a v hst => ?_, fun a v h => ?_⟩
  · rw [h] at hQ
    obtain ⟨msg, x, h2, h3, h4⟩ := hQ.1 rfl
    obtain ⟨sb, pkb, a1, a2, a3, a4, a5, a6, a7⟩ := h2.shown hR
    exact ⟨sb, pkb, msg, x, a1, a2, a3, a4, a5, h3, a7, fun a v => (hS a v).symm.trans (h4 a v)⟩
  · rw [h] at hQ
    have := hQ.2 hr
    rw [← hS, this] at hst
    exact hst.elim
  · obtain ⟨R', hR', msg, x, h2, h3⟩ := h1 a v h
    obtain ⟨sb, pkb, a1, a2, a3, a4, a5, a6, a7⟩ := h2.shown hR'
    refine ⟨sb, pkb, msg, a1, a2, a3, a4, a5, ?_⟩
    rcases h3 with h3 | h3
    · obtain ⟨k, hk, ha⟩ := at_mem.1 h3
      have hk' : k < x.length := by
        by_contra hcon
        rw [List.getElem?_eq_none (by omega)] at hk; cases hk
      refine Or.inl ⟨k, by omega, ?_, ha⟩
      have := a7 k v hk
      rwa [Ptr.add, Nat.add_assoc] at this
    · exact Or.inr (at_mem.1 h3)

/-- C125, what is true of compact verify under writers: if it returns 0, a compact signature of some message under some key was read, each byte of both was in memory when it was read, and a message of the same length
was read at some moments from the message part of the buffer and from the caller's message.  That it is the message of the signature is false (`compact_verify_under_writers_false`).  It never writes to the caller's memory. -/
theorem compact_verify_under_writers_partial (fuel : Nat) {W : World} {p : ι → Prog Int} {i : ι} {m sm pk : Ptr} {mlen smlen : Nat} (hm : m.blk < W.sp) (hsm : sm.blk < W.sp) (hpk : pk.blk < W.sp)
    (hp : p i = Conc.verifyCompact (real fuel) (some m) mlen (some sm) smlen (some pk)) (s : List ι) (c : Conf ι Int) (hc : c = start W p) :
    (((c.run s).thr i).prog = .ret 0 → ∃ sb pkb msg msg', sb.length = smlen ∧ pkb.length = 1408 ∧ Shown c s sm sb ∧ Shown c s pk pkb ∧ CompactMeets S128 S256 pkb msg sb ∧
      msg'.length = msg.length ∧ msg'.length = mlen ∧ Shown c s (sm.add 2526) msg' ∧ Shown c s m msg') ∧
    ∀ a v, ¬ Stored c i s a v := by
  subst hc
  have safe : Safe W.sp (fun _ _ _ => False) (fun _ _ R S r => S = ∅ ∧ (r = 0 → ∃ msg : Bytes, msg.length = mlen ∧ (∃ msg0, msg.length = msg0.length ∧ CompactRead fuel sm pk smlen R msg0 msg) ∧ At m 0 msg ⊆ R))
      (p i) (fun _ => none) W.sp ∅ ∅ := by
    rw [hp]
    simp only [Conc.verifyCompact]
    by_cases c1 : mlen ≤ 0 ∨ mlen > 64
    · rw [if_pos c1]; exact ⟨rfl, fun h => absurd h (by decide)⟩
    rw [if_neg c1]
    refine safe_verify (X := fun R msg => ∃ msg0, msg.length = msg0.length ∧ CompactRead fuel sm pk smlen R msg0 msg) (op := fun buf lenp => Conc.openCompact (real fuel) (some buf) (some lenp) (some sm) smlen (some pk))
      (fun _ _ _ h h' => h'.imp fun _ h2 => ⟨h2.1, h2.2.mono h⟩) (Nat.le_refl _) hm ?_
    refine safe_openCompact _ real_sized hsm hpk (fun R' c hc => ⟨rfl, fun h => absurd h hc⟩) fun R' sb pkb msg l1 l2 a1 a2 h64 ho => ?_
    refine safe_compactTail_local (Nat.le_refl _) hsm (by simp; omega) fun b' x hb' hx ht => ⟨rfl, fun _ => ⟨x, b', ⟨msg, hx, sb, pkb, l1, l2, a1.trans Set.subset_union_left, a2.trans Set.subset_union_left, ho,
      by omega, Set.subset_union_right⟩, by omega, ?_, by omega, by rw [hx, ht], ?_⟩⟩
    · rw [Function.update_of_ne (by omega), Function.update_self]
    · rw [Function.update_self, hx]
  obtain ⟨h1, st, R, S, -, -, hR, hS, hQ⟩ := safe_run safe s
  refine ⟨fun h => ?_, fun a v h => ?_⟩
  · rw [h] at hQ
    obtain ⟨msg, h2, ⟨msg0, h5, h3⟩, h4⟩ := hQ.2 rfl
    obtain ⟨sb, pkb, a1, a2, a3, a4, a5, -, a7⟩ := h3.shown hR
    exact ⟨sb, pkb, msg0, msg, a1, a2, a3, a4, a5, h5, h2, a7, shown_of hR h4⟩
  · obtain ⟨R', -, hf⟩ := h1 a v h
    exact hf

end Verif.Conc
