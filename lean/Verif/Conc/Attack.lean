import Verif.Conc.RaceOpen
import Verif.Conc.Exec

/-!
A second thread that changes the message part of the buffer between the checks of compact open and its last loop.
-/

namespace Verif.Conc
open Verif
open Verif.Hybrid

variable {α β ι : Type}

/-- `n` steps without interruption (no line of its own). -/
def steps : Nat → Prog α × World → Prog α × World
  | 0, r => r
  | n + 1, r => steps n (step r.1 r.2)

theorem steps_add (n k : Nat) (r : Prog α × World) : steps (n + k) r = steps k (steps n r) := by
  induction n generalizing r with
  | zero => rw [Nat.zero_add]; rfl
  | succ n ih => rw [show n + 1 + k = n + k + 1 by omega]; exact ih _

/-- One state leads to the other without interruption (no line of its own). -/
def Leads (r r' : Prog α × World) : Prop := ∃ n, steps n r = r'

theorem Leads.refl (r : Prog α × World) : Leads r r := ⟨0, rfl⟩

theorem Leads.trans {r r' r'' : Prog α × World} : Leads r r' → Leads r' r'' → Leads r r'' := by
  rintro ⟨n, rfl⟩ ⟨k, rfl⟩
  exact ⟨n + k, steps_add _ _ _⟩

theorem Leads.head {r r' : Prog α × World} (h : Leads (step r.1 r.2) r') : Leads r r' := by
  obtain ⟨n, h⟩ := h
  exact ⟨n + 1, h⟩

/-- A first part that ends is followed by the second one. -/
theorem leads_bind {x : Prog α} {f : α → Prog β} {W W' : World} {a : α} (h : exec x W = .ok (a, W')) : Leads (x >>= f, W) (f a, W') := by
  show Leads (x.bind f, W) (f a, W')
  induction x generalizing W with
  | ret b => cases h; exact Leads.refl _
  | fail e => cases h
  | load p i k ih =>
    have h' : (Verif.load p i >>= fun v => exec (k v)) W = .ok (a, W') := h
    rw [M_bind_apply, load_byteAt] at h'
    refine Leads.head ?_
    show Leads (step (.load p i fun v => (k v).bind f) W) _
    rw [step_load]
    cases hb : byteAt W.mem (p.blk, p.off + i) with
    | none => rw [hb] at h'; cases h'
    | some v => rw [hb] at h'; exact ih v h'
  | store p i v k ih =>
    have h' : (Verif.store p i v >>= fun _ => exec k) W = .ok (a, W') := h
    rw [M_bind_apply, store_byteAt] at h'
    refine Leads.head ?_
    show Leads (step (.store p i v (k.bind f)) W) _
    rw [step_store]
    cases hb : byteAt W.mem (p.blk, p.off + i) with
    | none => rw [hb] at h'; cases h'
    | some _ => rw [hb] at h'; exact ih h'
  | draw n k ih => exact Leads.head (ih _ h)
  | push init k ih => exact Leads.head (ih _ h)
  | pop p k ih => exact Leads.head (ih h)

theorem leads_exec {x : Prog α} {W W' : World} {a : α} (h : exec x W = .ok (a, W')) : Leads (x, W) (.ret a, W') := by
  have := leads_bind (f := Prog.ret) h
  have e : ∀ x : Prog α, x.bind Prog.ret = x := by
    intro x
    induction x with
    | ret a => rfl
    | fail e => rfl
    | load p i k ih => show Prog.load p i (fun v => (k v).bind Prog.ret) = _; rw [funext ih]
    | store p i v k ih => show Prog.store p i v (k.bind Prog.ret) = _; rw [ih]
    | draw n k ih => show Prog.draw n (fun v => (k v).bind Prog.ret) = _; rw [funext ih]
    | push init k ih => show Prog.push init (fun v => (k v).bind Prog.ret) = _; rw [funext ih]
    | pop p k ih => show Prog.pop p (k.bind Prog.ret) = _; rw [ih]
  rw [bind_def, e] at this
  exact this

/-- A first part that leads to another one. -/
theorem Leads.bind {x y : Prog α} {f : α → Prog β} {W W' : World} (h : Leads (x, W) (y, W')) : Leads (x >>= f, W) (y >>= f, W') := by
  obtain ⟨n, h⟩ := h
  induction n generalizing x W with
  | zero => cases h; exact Leads.refl _
  | succ n ih =>
    have h' : steps n (step x W) = (y, W') := h
    have hs : ∀ r : Prog α × World, step x W = r → Leads (x.bind f, W) (r.1.bind f, r.2) := by
      rintro r rfl
      cases x with
      | ret a => exact Leads.refl _
      | fail e => exact Leads.refl _
      | load p i k =>
        refine Leads.head ?_
        show Leads (step (.load p i fun v => (k v).bind f) W) _
        rw [step_load, step_load]
        cases byteAt W.mem (p.blk, p.off + i) <;> exact Leads.refl _
      | store p i v k =>
        refine Leads.head ?_
        show Leads (step (.store p i v (k.bind f)) W) _
        rw [step_store, step_store]
        cases byteAt W.mem (p.blk, p.off + i) <;> exact Leads.refl _
      | draw n k => exact Leads.head (Leads.refl _)
      | push init k => exact Leads.head (Leads.refl _)
      | pop p k => exact Leads.head (Leads.refl _)
    exact (hs _ rfl).trans (ih (x := (step x W).1) (W := (step x W).2) h')

/-! ### Compact open up to its last loop -/

variable (P : Prims)

theorem leads_openCompact (hP : P.Sized) {W : World} {m mlen sm pk : Ptr} {smlen : Nat} {sb pkb msg : Bytes} (hsm : W.view sm smlen = some sb) (hpk : W.view pk 1408 = some pkb)
    (h : compactOpen P sb pkb = .ok (.ok msg)) :
    Leads (Conc.openCompact P (some m) (some mlen) (some sm) smlen (some pk), W) (compactTail m mlen sm msg.length, W) := by
  have hsb := length_of_view hsm
  have hpkb := length_of_view hpk
  unfold compactOpen at h
  simp only [hsb] at h
  simp only [Conc.openCompact]
  simp only [ED_PK, DIL_PK, SPX_PK, ED_SIG, DIL_SIG, LEN_BYTES, MAX_MSG_LEN, MIN_MSG_LEN, COMPACT_ID, NONCE_BYTES, HASH_LENGTH]
  split at h
  · simp at h
  rename_i c1
  split at h
  · simp at h
  rename_i c2
  split at h
  · simp at h
  rename_i c3
  split at h
  · simp at h
  rename_i c4
  rw [if_neg (by omega)]
  refine (leads_bind (a := sb.getD 0 0) (W' := W) (by rw [exec_load]; exact load_getD hsm (by omega))).trans ?_
  rw [if_neg c2]
  refine (leads_bind (a := sb.getD 1 0) (W' := W) (by rw [exec_load]; exact load_getD hsm (by omega))).trans ?_
  generalize (sb.getD 1 0).toNat = n at *
  rw [if_neg c3, if_neg (by omega)]
  have n1 : (slice sb 2486 40).length = 40 := length_slice (by omega)
  have n2 : (slice sb 2526 n).length = n := length_slice (by omega)
  have n3 : (slice pkb 1344 64).length = 64 := length_slice (by omega)
  have n4 : (slice sb 2 64).length = 64 := length_slice (by omega)
  simp only [Nat.reduceAdd]
  refine (leads_bind (W' := W) (by rw [exec_copyIn]; exact copyIn_ok (view_sub hsm (by omega)) (by simp))).trans ?_
  refine (leads_bind (W' := W) (by rw [exec_copyIn]; exact copyIn_ok (view_sub hsm (by omega)) (by rw [length_splice (by simp; omega)]; simp; omega))).trans ?_
  rw [splice_append (by omega) (by simp; omega)]
  refine (leads_bind (W' := W) (by rw [exec_copyIn]; exact copyIn_ok (view_sub hpk (by omega)) (by rw [length_splice (by simp; omega)]; simp; omega))).trans ?_
  rw [splice_append (by simp; omega) (by simp; omega)]
  rw [prefixOf_ok (by rw [length_splice (by simp; omega)]; simp; omega), take_splice (by simp; omega)]
  refine (leads_bind (W' := W) (by rw [exec_liftC]; rfl)).trans ?_
  have hh := hP.sha3_512 (slice sb 2486 40 ++ slice sb 2526 n ++ slice pkb 1344 64)
  generalize P.sha3_512 (slice sb 2486 40 ++ slice sb 2526 n ++ slice pkb 1344 64) = hash at hh h
  refine (leads_bind (W' := W) (by rw [exec_copyIn]; exact copyIn_ok (view_sub hsm (by omega)) (by simp))).trans ?_
  rw [copy_ok (by omega) (by rw [length_splice (by simp; omega)]; simp)]
  refine (leads_bind (W' := W) (by rw [exec_liftC]; rfl)).trans ?_
  rw [slice_full hh, splice_append n4 (by simp; omega), splice_zeros (by simp; omega)]
  refine (leads_bind (W' := W) (by rw [exec_copyIn]; exact copyIn_zeros hpk (by omega))).trans ?_
  obtain ⟨⟨r1, m1, len1⟩, he, h⟩ := bind_eq_ok.1 h
  have e1 := hP.edOpen _ _ _ _ _ _ _ _ he
  simp only [length_zeros] at e1
  refine (leads_bind (W' := W) (by rw [exec_liftC, he]; rfl)).trans ?_
  dsimp only at h ⊢
  split at h
  · simp at h
  rename_i c5
  split at h
  · simp at h
  rename_i c6
  split at h
  · simp at h
  rename_i c7
  rw [if_neg c5, if_neg c6, prefixOf_ok (by omega), prefixOf_ok (by omega)]
  refine (leads_bind (W' := W) (by rw [exec_liftC]; rfl)).trans ?_
  refine (leads_bind (W' := W) (by rw [exec_liftC]; rfl)).trans ?_
  rw [List.take_of_length_le (l := hash) (by omega), if_neg c7]
  refine (leads_bind (W' := W) (by rw [exec_copyIn]; exact copyIn_zeros hsm (by omega))).trans ?_
  refine (leads_bind (W' := W) (by rw [exec_copyIn]; exact copyIn_zeros hpk (by omega))).trans ?_
  obtain ⟨r2, hr2, h⟩ := bind_eq_ok.1 h
  refine (leads_bind (W' := W) (by rw [exec_liftC, hr2]; rfl)).trans ?_
  split at h
  · simp at h
  rename_i c8
  rw [if_neg c8]
  simp only [Except.ok.injEq] at h
  rw [← h, n2]
  exact Leads.refl _

end Verif.Conc
