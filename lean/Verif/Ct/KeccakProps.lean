import Verif.Ct.KeccakLemmas
import Verif.Ct.NaclProps
import Verif.Keccak.Props

/-!
The property C93: what control flow and memory addresses of common/fips202.c and common/shake_prng.c show about the data hashed.  Each theorem says
that the function with traces has the FIPS 202 result, together with a trace that depends on lengths only.
-/

namespace Verif.Ct.Keccak
open Verif.Keccak (Inc incInit)
open Verif.Keccak.Spec (bits)

/-- From a model function that always succeeds to one trace for each choice of the public data. -/
theorem trace_of {ι π α : Type} (F : ι → T α) (pub : ι → π) (good : ι → Prop) (Q : ι → α → Prop) (hr : ∀ i, good i → ∃ a, (F i).res = .ok a ∧ Q i a)
    (h : ∀ i j, pub i = pub j → Same (F i) (F j)) : ∃ t : π → List Ev, ∀ i, good i → ∃ a, F i = ⟨.ok a, t (pub i)⟩ ∧ Q i a := by
  obtain ⟨t, ht⟩ := exists_trace F (fun i => (F i).res) pub good (fun _ _ => rfl) (fun i j hi hj e => by
    obtain ⟨a, ha, -⟩ := hr i hi
    obtain ⟨b, hb, -⟩ := hr j hj
    exact (h i j e _ _ ha hb).1)
  refine ⟨t, fun i hi => ?_⟩
  obtain ⟨a, ha, hq⟩ := hr i hi
  exact ⟨a, by rw [ht i hi, ha], hq⟩

/-- C93: `shake128` shows the two lengths. -/
theorem ct_shake128 : ∃ t : Nat → Nat → List Ev, ∀ (output : Bytes) (n : Nat) (input : Bytes), n ≤ output.length →
    ∃ d, shake128 output n input input.length = ⟨.ok (d ++ output.drop n), t n input.length⟩ ∧ bits d = Verif.Keccak.Spec.SHAKE128 (bits input) (8 * n) := by
  obtain ⟨t, ht⟩ := trace_of (fun i : Bytes × Nat × Bytes => shake128 i.1 i.2.1 i.2.2 i.2.2.length) (fun i => (i.2.1, i.2.2.length)) (fun i => i.2.1 ≤ i.1.length)
    (fun i a => ∃ d, a = d ++ i.1.drop i.2.1 ∧ bits d = Verif.Keccak.Spec.SHAKE128 (bits i.2.2) (8 * i.2.1))
    (fun i hi => by
      obtain ⟨d, e, -, hd⟩ := (Verif.Keccak.hash_functions_fips202 i.1 i.2.2).2.2.2.1 i.2.1 hi
      exact ⟨_, (shake_res _ _ _ _ _).trans e, d, rfl, hd⟩)
    (fun i j e => by
      obtain ⟨o, n, x⟩ := i
      obtain ⟨o', n', x'⟩ := j
      simp only [Prod.mk.injEq] at e
      obtain ⟨rfl, e⟩ := e
      dsimp only
      rw [e]
      exact shake_same _ _ _)
  refine ⟨fun n k => t (n, k), fun o n x h => ?_⟩
  obtain ⟨a, e, d, rfl, hd⟩ := ht (o, n, x) h
  exact ⟨d, e, hd⟩

/-- C93: `shake256` shows the two lengths. -/
theorem ct_shake256 : ∃ t : Nat → Nat → List Ev, ∀ (output : Bytes) (n : Nat) (input : Bytes), n ≤ output.length →
    ∃ d, shake256 output n input input.length = ⟨.ok (d ++ output.drop n), t n input.length⟩ ∧ bits d = Verif.Keccak.Spec.SHAKE256 (bits input) (8 * n) := by
  obtain ⟨t, ht⟩ := trace_of (fun i : Bytes × Nat × Bytes => shake256 i.1 i.2.1 i.2.2 i.2.2.length) (fun i => (i.2.1, i.2.2.length)) (fun i => i.2.1 ≤ i.1.length)
    (fun i a => ∃ d, a = d ++ i.1.drop i.2.1 ∧ bits d = Verif.Keccak.Spec.SHAKE256 (bits i.2.2) (8 * i.2.1))
    (fun i hi => by
      obtain ⟨d, e, -, hd⟩ := (Verif.Keccak.hash_functions_fips202 i.1 i.2.2).2.2.2.2 i.2.1 hi
      exact ⟨_, (shake_res _ _ _ _ _).trans e, d, rfl, hd⟩)
    (fun i j e => by
      obtain ⟨o, n, x⟩ := i
      obtain ⟨o', n', x'⟩ := j
      simp only [Prod.mk.injEq] at e
      obtain ⟨rfl, e⟩ := e
      dsimp only
      rw [e]
      exact shake_same _ _ _)
  refine ⟨fun n k => t (n, k), fun o n x h => ?_⟩
  obtain ⟨a, e, d, rfl, hd⟩ := ht (o, n, x) h
  exact ⟨d, e, hd⟩

/-- C93: `sha3_256`, `sha3_384` and `sha3_512` show the length of the input. -/
theorem ct_sha3 : ∃ t256 t384 t512 : Nat → List Ev, ∀ output input : Bytes,
    (32 ≤ output.length → ∃ d, sha3_256 output input input.length = ⟨.ok (d ++ output.drop 32), t256 input.length⟩ ∧ bits d = Verif.Keccak.Spec.SHA3_256 (bits input)) ∧
    (48 ≤ output.length → ∃ d, sha3_384 output input input.length = ⟨.ok (d ++ output.drop 48), t384 input.length⟩ ∧ bits d = Verif.Keccak.Spec.SHA3_384 (bits input)) ∧
    (64 ≤ output.length → ∃ d, sha3_512 output input input.length = ⟨.ok (d ++ output.drop 64), t512 input.length⟩ ∧ bits d = Verif.Keccak.Spec.SHA3_512 (bits input)) := by
  have key : ∀ (r n : Nat) (S : List Bool → List Bool), (∀ output input : Bytes, n ≤ output.length → ∃ d, Verif.Keccak.sha3 r n output input input.length = .ok (d ++ output.drop n) ∧ bits d = S (bits input)) →
      ∃ t : Nat → List Ev, ∀ output input : Bytes, n ≤ output.length → ∃ d, sha3 r n output input input.length = ⟨.ok (d ++ output.drop n), t input.length⟩ ∧ bits d = S (bits input) := by
    intro r n S hS
    obtain ⟨t, ht⟩ := trace_of (fun i : Bytes × Bytes => sha3 r n i.1 i.2 i.2.length) (fun i => i.2.length) (fun i => n ≤ i.1.length)
      (fun i a => ∃ d, a = d ++ i.1.drop n ∧ bits d = S (bits i.2))
      (fun i hi => by
        obtain ⟨d, e, hd⟩ := hS i.1 i.2 hi
        exact ⟨_, (sha3_res _ _ _ _ _).trans e, d, rfl, hd⟩)
      (fun i j e => by
        rw [e]
        exact sha3_same _ _ _)
    refine ⟨t, fun o x h => ?_⟩
    obtain ⟨a, e, d, rfl, hd⟩ := ht (o, x) h
    exact ⟨d, e, hd⟩
  obtain ⟨a, ha⟩ := key Verif.Keccak.SHA3_256_RATE 32 Verif.Keccak.Spec.SHA3_256 fun o x h => by
    obtain ⟨d, e, -, hd⟩ := (Verif.Keccak.hash_functions_fips202 o x).1 h
    exact ⟨d, e, hd⟩
  obtain ⟨b, hb⟩ := key Verif.Keccak.SHA3_384_RATE 48 Verif.Keccak.Spec.SHA3_384 fun o x h => by
    obtain ⟨d, e, -, hd⟩ := (Verif.Keccak.hash_functions_fips202 o x).2.1 h
    exact ⟨d, e, hd⟩
  obtain ⟨c, hc⟩ := key Verif.Keccak.SHA3_512_RATE 64 Verif.Keccak.Spec.SHA3_512 fun o x h => by
    obtain ⟨d, e, -, hd⟩ := (Verif.Keccak.hash_functions_fips202 o x).2.2.1 h
    exact ⟨d, e, hd⟩
  exact ⟨a, b, c, fun o x => ⟨ha o x, hb o x, hc o x⟩⟩

/-- Absorb the pieces one after the other; the traced form of `Verif.Keccak.absorbPieces`, i.e. a sequence of calls of common/fips202.c:440-464 `keccak_inc_absorb`. -/
def absorbPieces (r : Nat) (st : Inc) : List Bytes → T Inc
  | [] => pure st
  | m :: ms => do
    let st ← incAbsorb st r m m.length
    absorbPieces r st ms

/-- Squeeze the given numbers of bytes one after the other; the traced form of `Verif.Keccak.squeezePieces`, i.e. a sequence of calls of
common/fips202.c:498-523 `keccak_inc_squeeze`. -/
def squeezePieces (r : Nat) (junk : Byte) (st : Inc) : List Nat → T (List Bytes)
  | [] => pure []
  | n :: ns => do
    let x ← incSqueeze (List.replicate n junk) n st r
    let l ← squeezePieces r junk x.2 ns
    pure (x.1 :: l)

/-- A whole use of the incremental interface: initialise, absorb the pieces, finalize, squeeze the pieces (common/fips202.c:525-543, 557-575: the
`shake128_inc_*` and `shake256_inc_*` functions are the calls below with rate 168 and 136). -/
def incSession (r : Nat) (junk : Byte) (ms : List Bytes) (ns : List Nat) : T (List Bytes) := do
  let st ← absorbPieces r incInit ms
  let st ← incFinalize st r 0x1F
  squeezePieces r junk st ns

theorem absorbPieces_res (r : Nat) (st : Inc) (ms : List Bytes) : (absorbPieces r st ms).res = Verif.Keccak.absorbPieces r st ms := by
  induction ms generalizing st with
  | nil => rfl
  | cons m ms ih => exact bind_res (incAbsorb_res _ _ _ _) fun _ => ih _

theorem absorbPieces_same (r : Nat) {a b : Inc} (h : Cnt a b) {ms ms' : List Bytes} (hl : ms.map List.length = ms'.map List.length) :
    Rel Cnt (absorbPieces r a ms) (absorbPieces r b ms') := by
  induction ms generalizing a b ms' with
  | nil =>
    cases ms' with
    | nil => exact Rel.pure h
    | cons => cases hl
  | cons m ms ih =>
    cases ms' with
    | nil => cases hl
    | cons m' ms' =>
      injection hl with h1 h2
      rw [absorbPieces, absorbPieces, h1]
      exact (incAbsorb_same _ _ h).bind fun _ _ h => ih h h2

theorem squeezePieces_res (r : Nat) (junk : Byte) (st : Inc) (ns : List Nat) : (squeezePieces r junk st ns).res = Verif.Keccak.squeezePieces r junk st ns := by
  induction ns generalizing st with
  | nil => rfl
  | cons n ns ih => exact bind_res (incSqueeze_res _ _ _ _) fun _ => bind_res (ih _) fun _ => rfl

theorem squeezePieces_same (r : Nat) {j j' : Byte} {a b : Inc} (h : Cnt a b) (ns : List Nat) : Same (squeezePieces r j a ns) (squeezePieces r j' b ns) := by
  induction ns generalizing a b with
  | nil => exact Rel.pure trivial
  | cons n ns ih => exact (incSqueeze_same _ _ h).bind fun _ _ h => (ih h).bind fun _ _ _ => Rel.pure trivial

/-- C93: the incremental interface shows the lengths of the pieces absorbed and squeezed; the result is the one-shot output on the concatenated pieces. -/
theorem ct_shake_incremental (r : Nat) (hr : r = 168 ∨ r = 136) : ∃ t : List Nat → List Nat → List Ev, ∀ (junk : Byte) (ms : List Bytes) (ns : List Nat),
    ∃ l, incSession r junk ms ns = ⟨.ok l, t (ms.map List.length) ns⟩ ∧ l.map List.length = ns ∧
      Verif.Keccak.shake r (List.replicate ns.sum 0) ns.sum ms.flatten ms.flatten.length = .ok l.flatten := by
  obtain ⟨t, ht⟩ := trace_of (fun i : Byte × List Bytes × List Nat => incSession r i.1 i.2.1 i.2.2) (fun i => (i.2.1.map List.length, i.2.2)) (fun _ => True)
    (fun i l => l.map List.length = i.2.2 ∧ Verif.Keccak.shake r (List.replicate i.2.2.sum 0) i.2.2.sum i.2.1.flatten i.2.1.flatten.length = .ok l.flatten)
    (fun i _ => by
      obtain ⟨s1, s2, l, e1, e2, e3, h1, h2⟩ := Verif.Keccak.shake_incremental r hr i.1 i.2.1 i.2.2
      refine ⟨l, ?_, h1, h2⟩
      refine (bind_res (absorbPieces_res _ _ _) fun _ => bind_res (incFinalize_res _ _ _) fun _ => squeezePieces_res _ _ _ _).trans ?_
      rw [e1, ok_bind, e2, ok_bind, e3])
    (fun i j e => by
      obtain ⟨junk, ms, ns⟩ := i
      obtain ⟨junk', ms', ns'⟩ := j
      simp only [Prod.mk.injEq] at e
      obtain ⟨e, rfl⟩ := e
      exact (absorbPieces_same r rfl e).bind fun _ _ h => (incFinalize_same _ h).bind fun _ _ h => squeezePieces_same _ h _)
  exact ⟨fun a b => t (a, b), fun junk ms ns => ht (junk, ms, ns) trivial⟩

/-- A whole use of the incremental SHA-3 functions: initialise, absorb the pieces, finalize into `output` (common/fips202.c:747-782, 808-843, 869-904: the `sha3_256_inc_*`, `sha3_384_inc_*` and
`sha3_512_inc_*` functions are the calls below with rate 136, 104 and 72). -/
def sha3Session (r n : Nat) (output : Bytes) (ms : List Bytes) : T Bytes := do
  let st ← absorbPieces r incInit ms
  sha3IncFinalize r n output st

/-- C93: the incremental SHA-3 functions show the lengths of the pieces absorbed; the digest is the one-shot digest of the concatenated pieces. -/
theorem ct_sha3_incremental (r n : Nat) (h : (r, n) = (136, 32) ∨ (r, n) = (104, 48) ∨ (r, n) = (72, 64)) :
    ∃ t : List Nat → List Ev, ∀ (output : Bytes) (ms : List Bytes), n ≤ output.length →
      ∃ d, sha3Session r n output ms = ⟨.ok d, t (ms.map List.length)⟩ ∧ Verif.Keccak.sha3 r n output ms.flatten ms.flatten.length = .ok d := by
  obtain ⟨t, ht⟩ := trace_of (fun i : Bytes × List Bytes => sha3Session r n i.1 i.2) (fun i => i.2.map List.length) (fun i => n ≤ i.1.length)
    (fun i d => Verif.Keccak.sha3 r n i.1 i.2.flatten i.2.flatten.length = .ok d)
    (fun i hi => by
      obtain ⟨st, d, e1, e2, e3⟩ := Verif.Keccak.sha3_incremental r n h i.1 hi i.2
      refine ⟨d, ?_, e3⟩
      refine (bind_res (absorbPieces_res _ _ _) fun _ => sha3IncFinalize_res _ _ _ _).trans ?_
      rw [e1, ok_bind, e2])
    (fun i j e => (absorbPieces_same r rfl e).bind fun _ _ h => sha3IncFinalize_same _ _ h)
  exact ⟨t, fun output ms hn => ht (output, ms) hn⟩

example : ∃ t : List Nat → List Ev, ∀ a b : Byte, ∃ d, sha3Session 136 32 (List.replicate 32 0) [[a], [b, 1]] = ⟨.ok d, t [1, 2]⟩ := by
  obtain ⟨t, ht⟩ := ct_sha3_incremental 136 32 (.inl rfl)
  exact ⟨t, fun a b => (ht _ _ (by simp)).imp fun _ h => h.1⟩

/-- C93: `seedexpander_wrapper`, which both hybrid schemes apply to the secret seed, shows the two lengths. -/
theorem ct_seedexpander : ∃ t : Nat → Nat → List Ev, ∀ (seed out : Bytes) (n : Nat), 32 ≤ seed.length → seed.length < n → n ≤ out.length →
    ∃ d, seedexpanderWrapper (some seed) seed.length (some out) n = ⟨.ok (0, some (d ++ out.drop n)), t seed.length n⟩ ∧
      bits d = Verif.Keccak.Spec.SHAKE256 (bits (seed ++ [2])) (8 * n) := by
  obtain ⟨t, ht⟩ := trace_of (fun i : Bytes × Bytes × Nat => seedexpanderWrapper (some i.1) i.1.length (some i.2.1) i.2.2) (fun i => (i.1.length, i.2.2))
    (fun i => 32 ≤ i.1.length ∧ i.1.length < i.2.2 ∧ i.2.2 ≤ i.2.1.length)
    (fun i a => ∃ d, a = (0, some (d ++ i.2.1.drop i.2.2)) ∧ bits d = Verif.Keccak.Spec.SHAKE256 (bits (i.1 ++ [2])) (8 * i.2.2))
    (fun i hi => by
      obtain ⟨d, -, e, hd⟩ := ((Verif.Keccak.seedexpander_wrapper_spec (some i.1) (some i.2.1) i.2.2).2 _ _ rfl rfl).2.2 hi.1 hi.2.1 hi.2.2
      exact ⟨_, (seedexpanderWrapper_res _ _ _ _).trans e, d, rfl, hd⟩)
    (fun i j e => by
      obtain ⟨s, o, n⟩ := i
      obtain ⟨s', o', n'⟩ := j
      simp only [Prod.mk.injEq] at e
      obtain ⟨e, rfl⟩ := e
      dsimp only
      rw [e]
      exact seedexpanderWrapper_same _ _)
  refine ⟨fun a b => t (a, b), fun s o n h1 h2 h3 => ?_⟩
  obtain ⟨a, e, d, rfl, hd⟩ := ht (s, o, n) ⟨h1, h2, h3⟩
  exact ⟨d, e, hd⟩

/-- Different inputs of one length, and the theorem's conclusion for them. -/
example : (shake256 (List.replicate 40 0) 40 [1, 2, 3] 3).tr = (shake256 (List.replicate 50 7) 40 [9, 9, 9] 3).tr := by
  obtain ⟨t, ht⟩ := ct_shake256
  obtain ⟨_, e, -⟩ := ht (List.replicate 40 0) 40 [1, 2, 3] (by rw [List.length_replicate])
  obtain ⟨_, e', -⟩ := ht (List.replicate 50 7) 40 [9, 9, 9] (by rw [List.length_replicate]; decide)
  exact (congrArg T.tr e).trans (congrArg T.tr e').symm

example : (seedexpanderWrapper (some (List.replicate 32 1)) 32 (some (List.replicate 64 0)) 64).tr = (seedexpanderWrapper (some (List.replicate 32 2)) 32 (some (List.replicate 64 0)) 64).tr := by
  obtain ⟨t, ht⟩ := ct_seedexpander
  obtain ⟨_, e, -⟩ := ht (List.replicate 32 1) (List.replicate 64 0) 64 (by rw [List.length_replicate]) (by rw [List.length_replicate]; decide) (by rw [List.length_replicate])
  obtain ⟨_, e', -⟩ := ht (List.replicate 32 2) (List.replicate 64 0) 64 (by rw [List.length_replicate]) (by rw [List.length_replicate]; decide) (by rw [List.length_replicate])
  rw [List.length_replicate] at e e'
  exact (congrArg T.tr e).trans (congrArg T.tr e').symm

example : ∃ t : List Nat → List Nat → List Ev, ∀ (junk : Byte) (ms : List Bytes) (ns : List Nat),
    ∃ l, incSession 136 junk ms ns = ⟨.ok l, t (ms.map List.length) ns⟩ ∧ l.map List.length = ns ∧
      Verif.Keccak.shake 136 (List.replicate ns.sum 0) ns.sum ms.flatten ms.flatten.length = .ok l.flatten := ct_shake_incremental 136 (Or.inr rfl)

/-- The traces do show the lengths: one block of input and two. -/
example : (absorb 136 [] 0 0x1F).tr ≠ (absorb 136 (List.replicate 136 0) 136 0x1F).tr := by decide +kernel

end Verif.Ct.Keccak
