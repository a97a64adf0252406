import Verif.Conc.Exec
import Verif.Conc.Lemmas

/-!
Which bytes of the caller the functions read and write.
-/

namespace Verif.Conc
open Verif
open Verif.Hybrid (Prims)

variable {α β : Type}

/-- The range of a pointer argument; none for NULL (no line of its own). -/
def range (p : Option Ptr) (n : Nat) : List (Ptr × Nat) := (p.map fun p => (p, n)).toList

/-- The ranges that a call may read (hybrid-dilithium-sphincs/hybrid.c:140-711; the sizes are those of the loops there, hybrid-dilithium-sphincs/hybrid.h:20-52 says nothing about them). -/
def Call.reads : Call → List (Ptr × Nat)
  | .seedExpander seed _ => range seed 96
  | .keypairSeed _ _ seed => range seed 160
  | .keypair _ _ => []
  | .signFull _ _ m mlen sk => range m mlen ++ range sk 4064
  | .openFull _ _ sm smlen pk => range sm smlen ++ range pk 1408
  | .verifyFull m mlen sm smlen pk => range m mlen ++ range sm smlen ++ range pk 1408
  | .signCompact _ _ m mlen sk => range m mlen ++ range sk 4064
  | .openCompact _ _ sm smlen pk => range sm smlen ++ range pk 1408
  | .verifyCompact m mlen sm smlen pk => range m mlen ++ range sm smlen ++ range pk 1408
  | .verifyDilithium m mlen sm smlen pk => range m mlen ++ range sm smlen ++ range pk 1312

/-- The ranges that a call may write (hybrid-dilithium-sphincs/hybrid.c:140-711).  Verification writes nothing. -/
def Call.writes : Call → List (Ptr × Nat)
  | .seedExpander _ ex => range ex 160
  | .keypairSeed pk sk _ => range pk 1408 ++ range sk 4064
  | .keypair pk sk => range pk 1408 ++ range sk 4064
  | .signFull sm smlen _ mlen _ => range sm (52342 + mlen) ++ range smlen 8
  | .openFull m mlen _ smlen _ => range m (smlen - 52342) ++ range mlen 8
  | .verifyFull _ _ _ _ _ => []
  | .signCompact sm smlen _ mlen _ => range sm (2526 + mlen) ++ range smlen 8
  | .openCompact m mlen _ smlen _ => range m (smlen - 2526) ++ range mlen 8
  | .verifyCompact _ _ _ _ _ => []
  | .verifyDilithium _ _ _ _ _ => []

/-- The address lies in one of the ranges (no line of its own). -/
def Covers (l : List (Ptr × Nat)) (a : Addr) : Prop := ∃ r ∈ l, a.1 = r.1.blk ∧ r.1.off ≤ a.2 ∧ a.2 < r.1.off + r.2

/-- The `n` bytes at `p` are in the set, if they are below `base` (no line of its own). -/
def In (base : Nat) (S : Addr → Prop) (p : Ptr) (n : Nat) : Prop := p.blk < base → ∀ j, j < n → S (p.blk, p.off + j)

theorem In.mono {base : Nat} {S : Addr → Prop} {p : Ptr} {n k : Nat} (h : In base S p n) (hk : k ≤ n) : In base S p k := fun hb j hj => h hb j (by omega)

theorem In.local {base : Nat} {S : Addr → Prop} {p : Ptr} (h : base ≤ p.blk) (n : Nat) : In base S p n := fun hb => by omega

theorem In.covers {base : Nat} {l : List (Ptr × Nat)} {p : Ptr} {n : Nat} (h : (p, n) ∈ l) : In base (Covers l) p n :=
  fun _ j hj => ⟨_, h, rfl, by simp only; omega, by simp only; omega⟩

variable {base : Nat} {R S : Addr → Prop}

theorem w_pure (a : α) : Within base R S (pure a : Prog α) := trivial

theorem w_fail (e : Fault) : Within base R S (.fail e : Prog α) := trivial

theorem w_liftC (x : C α) : Within base R S (liftC x) := by cases x <;> trivial

theorem w_load {p : Ptr} {i : Nat} (h : In base R p (i + 1)) : Within base R S (load p i) := ⟨fun hb => h hb i (by omega), fun _ => trivial⟩

theorem w_store {p : Ptr} {i : Nat} {v : Byte} (h : In base S p (i + 1)) : Within base R S (store p i v) := ⟨fun hb => h hb i (by omega), trivial⟩

theorem w_draw (n : Nat) : Within base R S (draw n) := fun _ => trivial

theorem w_loopM {σ : Type} {f : Nat → σ → Prog σ} {i n : Nat} {s : σ} (h : ∀ k s, i ≤ k → k < i + n → Within base R S (f k s)) :
    Within base R S (loopM f i n s) := by
  induction n generalizing i s with
  | zero => trivial
  | succ n ih => exact (h i s (Nat.le_refl _) (by omega)).bind fun s => ih fun k s h1 h2 => h k s (by omega) (by omega)

theorem w_copyIn {dst : Bytes} {d : Nat} {p : Ptr} {o n : Nat} (h : In base R p (o + n)) : Within base R S (copyIn dst d p o n) :=
  w_loopM fun k _ _ h2 => (w_load (h.mono (by omega))).bind fun _ => w_liftC _

theorem w_copyOut {p : Ptr} {o : Nat} {src : Bytes} {s n : Nat} (h : In base S p (o + n)) : Within base R S (copyOut p o src s n) :=
  w_loopM fun k _ _ h2 => (w_liftC _).bind fun _ => w_store (h.mono (by omega))

theorem w_copyMem {p : Ptr} {o : Nat} {q : Ptr} {s n : Nat} (h : In base S p (o + n)) (hq : In base R q (s + n)) : Within base R S (copyMem p o q s n) :=
  w_loopM fun k _ _ h2 => (w_load (hq.mono (by omega))).bind fun _ => w_store (h.mono (by omega))

theorem w_readMem {p : Ptr} {n : Nat} (h : In base R p n) : Within base R S (readMem p n) := w_copyIn (h.mono (by omega))

theorem w_storeU64 {p : Ptr} {v : Nat} (h : In base S p 8) : Within base R S (storeU64 p v) := w_copyOut h

theorem w_loadU64 {p : Ptr} (h : In base R p 8) : Within base R S (loadU64 p) := (w_readMem h).bind fun _ => trivial

theorem w_withLocal {init : Bytes} {f : Ptr → Prog α} (h : ∀ p : Ptr, base ≤ p.blk → Within base R S (f p)) : Within base R S (withLocal init f) :=
  fun p hp => (h p hp).bind (f := fun a => .pop p (.ret a)) fun _ => ⟨hp, trivial⟩

theorem w_cmpMem {b m : Ptr} {i n : Nat} (hb : In base R b (i + n)) (hm : In base R m (i + n)) : Within base R S (cmpMem b m i n) := by
  induction n generalizing i with
  | zero => trivial
  | succ n ih =>
    refine (w_load (hb.mono (by omega))).bind fun x => (w_load (hm.mono (by omega))).bind fun y => ?_
    split
    · trivial
    · exact ih (hb.mono (by omega)) (hm.mono (by omega))

theorem w_spxSign {body : Bytes → Nat → Bytes → Bytes → Bytes → Option Bytes → C (Int × Bytes × Nat)} {sig : Bytes} {n : Nat} {m : Ptr} {mlen : Nat} {sk : Bytes} (h : In base R m mlen) :
    Within base R S (spxSign body sig n m mlen sk) :=
  (w_draw _).bind fun o => match o with
    | none => w_liftC _
    | some _ => (w_readMem h).bind fun _ => (w_readMem h).bind fun _ => w_liftC _

/-- One bound on a length. -/
syntax "foot_le" : tactic
macro_rules
  | `(tactic| foot_le) => `(tactic| (simp only [Hybrid.MIN_MSG_LEN, Hybrid.MAX_MSG_LEN, Hybrid.LEN_BYTES, Hybrid.ED_SEED, Hybrid.ED_PK, Hybrid.ED_SK, Hybrid.ED_SIG,
      Hybrid.DIL_SEED, Hybrid.DIL_PK, Hybrid.DIL_SK, Hybrid.DIL_SIG, Hybrid.SPX_SEED, Hybrid.SPX_PK, Hybrid.SPX_SK, Hybrid.SPX_SIG, Hybrid.NONCE_BYTES, Hybrid.HASH_LENGTH, ne_eq, Decidable.not_not] at *; omega))

/-- One operation. -/
syntax "foot" : tactic
macro_rules
  | `(tactic| foot) => `(tactic| first
    | with_reducible exact w_pure _
    | with_reducible exact w_fail _
    | with_reducible exact w_liftC _
    | with_reducible exact w_draw _
    | with_reducible exact w_spxSign (In.mono (by assumption) (by foot_le))
    | with_reducible exact w_copyIn (In.mono (by assumption) (by foot_le))
    | with_reducible exact w_copyOut (In.mono (by assumption) (by foot_le))
    | with_reducible exact w_copyMem (In.mono (by assumption) (by foot_le)) (In.mono (by assumption) (by foot_le))
    | with_reducible exact w_readMem (In.mono (by assumption) (by foot_le))
    | with_reducible exact w_storeU64 (by assumption)
    | with_reducible exact w_loadU64 (In.local (by assumption) _)
    | with_reducible exact w_cmpMem (In.local (by assumption) _) (In.mono (by assumption) (by foot_le))
    | with_reducible exact w_load (In.mono (by assumption) (by foot_le))
    | with_reducible exact w_store (In.mono (by assumption) (by foot_le))
    | with_reducible refine Within.bind ?_ fun _ => ?_
    | with_reducible dsimp only
    | split)

variable (P : Prims) {body : Bytes → Nat → Bytes → Bytes → Bytes → Option Bytes → C (Int × Bytes × Nat)}

theorem w_seedExpander {seed ex : Option Ptr} (h1 : ∀ p, seed = some p → In base R p 96) (h2 : ∀ p, ex = some p → In base S p 160) :
    Within base R S (seedExpander P seed ex) := by
  unfold seedExpander
  split
  · trivial
  · have h1 := h1 _ rfl
    refine Within.bind (w_loopM fun k _ _ hk => (w_load (h1.mono (by omega))).bind fun _ => w_liftC _) fun _ => ?_
    refine (w_liftC _).bind fun _ => ?_
    split; split
    · trivial
    · split
      · trivial
      · have h2 := h2 _ rfl
        repeat' foot

theorem w_keypairSeed {pk sk seed : Option Ptr} (h1 : ∀ p, seed = some p → In base R p 160) (h2 : ∀ p, pk = some p → In base S p 1408) (h3 : ∀ p, sk = some p → In base S p 4064) :
    Within base R S (keypairSeed P pk sk seed) := by
  unfold keypairSeed
  split
  · have h1 := h1 _ rfl
    have h2 := h2 _ rfl
    have h3 := h3 _ rfl
    repeat' foot
    refine w_loopM fun k _ _ hk => ?_
    have hk : k < 1312 := by foot_le
    repeat' foot
  · trivial

theorem w_keypair {pk sk : Option Ptr} (h2 : ∀ p, pk = some p → In base S p 1408) (h3 : ∀ p, sk = some p → In base S p 4064) :
    Within base R S (keypair P pk sk) := by
  unfold keypair
  split
  · refine (w_draw _).bind fun _ => ?_
    split
    · trivial
    · exact w_withLocal fun p hp => w_keypairSeed P (fun q hq => by cases hq; exact In.local hp _) h2 h3
  · trivial

theorem w_signFull {sm smlen m sk : Option Ptr} {mlen : Nat} (h1 : ∀ p, m = some p → In base R p mlen) (h2 : ∀ p, sk = some p → In base R p 4064)
    (h3 : ∀ p, sm = some p → In base S p (52342 + mlen)) (h4 : ∀ p, smlen = some p → In base S p 8) :
    Within base R S (signFull P body sm smlen m mlen sk) := by
  unfold signFull
  split
  · have h1 := h1 _ rfl
    have h2 := h2 _ rfl
    have h3 := h3 _ rfl
    have h4 := h4 _ rfl
    repeat' foot
  · trivial

theorem w_openFull {m mlen sm pk : Option Ptr} {smlen : Nat} (h1 : ∀ p, sm = some p → In base R p smlen) (h2 : ∀ p, pk = some p → In base R p 1408)
    (h3 : ∀ p, m = some p → In base S p (smlen - 52342)) (h4 : ∀ p, mlen = some p → In base S p 8) :
    Within base R S (openFull P m mlen sm smlen pk) := by
  unfold openFull
  split
  · have h1 := h1 _ rfl
    have h2 := h2 _ rfl
    have h3 := h3 _ rfl
    have h4 := h4 _ rfl
    repeat' foot
  · trivial

theorem w_verifyFull {m sm pk : Option Ptr} {mlen smlen : Nat} (h0 : ∀ p, m = some p → In base R p mlen) (h1 : ∀ p, sm = some p → In base R p smlen)
    (h2 : ∀ p, pk = some p → In base R p 1408) : Within base R S (verifyFull P m mlen sm smlen pk) := by
  unfold verifyFull
  split
  · split
    · trivial
    · refine w_withLocal fun p hp => w_withLocal fun q hq => ?_
      refine (w_openFull P h1 h2 (fun r hr => by cases hr; exact In.local hp _) (fun r hr => by cases hr; exact In.local hq _)).bind fun _ => ?_
      have h0 := h0 _ rfl
      repeat' foot
  · trivial

theorem w_signCompact {sm smlen m sk : Option Ptr} {mlen : Nat} (h1 : ∀ p, m = some p → In base R p mlen) (h2 : ∀ p, sk = some p → In base R p 4064)
    (h3 : ∀ p, sm = some p → In base S p (2526 + mlen)) (h4 : ∀ p, smlen = some p → In base S p 8) :
    Within base R S (signCompact P sm smlen m mlen sk) := by
  unfold signCompact
  split
  · have h1 := h1 _ rfl
    have h2 := h2 _ rfl
    have h3 := h3 _ rfl
    have h4 := h4 _ rfl
    repeat' foot
  · trivial

theorem w_openCompact {m mlen sm pk : Option Ptr} {smlen : Nat} (h1 : ∀ p, sm = some p → In base R p smlen) (h2 : ∀ p, pk = some p → In base R p 1408)
    (h3 : ∀ p, m = some p → In base S p (smlen - 2526)) (h4 : ∀ p, mlen = some p → In base S p 8) :
    Within base R S (openCompact P m mlen sm smlen pk) := by
  unfold openCompact
  split
  · have h1 := h1 _ rfl
    have h2 := h2 _ rfl
    have h3 := h3 _ rfl
    have h4 := h4 _ rfl
    repeat' foot
  · trivial

theorem w_verifyCompact {m sm pk : Option Ptr} {mlen smlen : Nat} (h0 : ∀ p, m = some p → In base R p mlen) (h1 : ∀ p, sm = some p → In base R p smlen)
    (h2 : ∀ p, pk = some p → In base R p 1408) : Within base R S (verifyCompact P m mlen sm smlen pk) := by
  unfold verifyCompact
  split
  · split
    · trivial
    · refine w_withLocal fun p hp => w_withLocal fun q hq => ?_
      refine (w_openCompact P h1 h2 (fun r hr => by cases hr; exact In.local hp _) (fun r hr => by cases hr; exact In.local hq _)).bind fun _ => ?_
      have h0 := h0 _ rfl
      repeat' foot
  · trivial

theorem w_verifyDilithium {m sm pk : Option Ptr} {mlen smlen : Nat} (h0 : ∀ p, m = some p → In base R p mlen) (h1 : ∀ p, sm = some p → In base R p smlen)
    (h2 : ∀ p, pk = some p → In base R p 1312) : Within base R S (verifyDilithium P m mlen sm smlen pk) := by
  unfold verifyDilithium
  split
  · have h0 := h0 _ rfl
    have h1 := h1 _ rfl
    have h2 := h2 _ rfl
    repeat' foot
  · trivial

theorem In.range {base : Nat} {l : List (Ptr × Nat)} {q : Option Ptr} {n : Nat} (h : ∀ x ∈ Conc.range q n, x ∈ l) : ∀ p, q = some p → In base (Covers l) p n :=
  fun p hp => In.covers (h _ (by subst hp; simp [Conc.range]))

/-- Every call stays inside its ranges. -/
theorem w_call (c : Call) : Within base (Covers c.reads) (Covers c.writes) (c.prog P body) := by
  cases c with
  | seedExpander a b => exact w_seedExpander P (In.range fun _ h => h) (In.range fun _ h => h)
  | keypairSeed a b c => exact w_keypairSeed P (In.range fun _ h => h) (In.range fun _ h => List.mem_append_left _ h) (In.range fun _ h => List.mem_append_right _ h)
  | keypair a b => exact w_keypair P (In.range fun _ h => List.mem_append_left _ h) (In.range fun _ h => List.mem_append_right _ h)
  | signFull a b c d e => exact w_signFull P (In.range fun _ h => List.mem_append_left _ h) (In.range fun _ h => List.mem_append_right _ h) (In.range fun _ h => List.mem_append_left _ h) (In.range fun _ h => List.mem_append_right _ h)
  | openFull a b c d e => exact w_openFull P (In.range fun _ h => List.mem_append_left _ h) (In.range fun _ h => List.mem_append_right _ h) (In.range fun _ h => List.mem_append_left _ h) (In.range fun _ h => List.mem_append_right _ h)
  | verifyFull a b c d e => exact w_verifyFull P (In.range fun _ h => List.mem_append_left _ (List.mem_append_left _ h)) (In.range fun _ h => List.mem_append_left _ (List.mem_append_right _ h)) (In.range fun _ h => List.mem_append_right _ h)
  | signCompact a b c d e => exact w_signCompact P (In.range fun _ h => List.mem_append_left _ h) (In.range fun _ h => List.mem_append_right _ h) (In.range fun _ h => List.mem_append_left _ h) (In.range fun _ h => List.mem_append_right _ h)
  | openCompact a b c d e => exact w_openCompact P (In.range fun _ h => List.mem_append_left _ h) (In.range fun _ h => List.mem_append_right _ h) (In.range fun _ h => List.mem_append_left _ h) (In.range fun _ h => List.mem_append_right _ h)
  | verifyCompact a b c d e => exact w_verifyCompact P (In.range fun _ h => List.mem_append_left _ (List.mem_append_left _ h)) (In.range fun _ h => List.mem_append_left _ (List.mem_append_right _ h)) (In.range fun _ h => List.mem_append_right _ h)
  | verifyDilithium a b c d e => exact w_verifyDilithium P (In.range fun _ h => List.mem_append_left _ (List.mem_append_left _ h)) (In.range fun _ h => List.mem_append_left _ (List.mem_append_right _ h)) (In.range fun _ h => List.mem_append_right _ h)

end Verif.Conc
