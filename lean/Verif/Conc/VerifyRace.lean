import Verif.Conc.VerifySafe
import Verif.Conc.AttackProps
import Verif.Conc.SignAttack

/-!
Which bytes `crypto_verify_dilithium` reads while other threads write to its buffers.
-/

namespace Verif.Conc
open Verif
open Verif.Dilithium (Poly Vec vecUnpack polyzUnpack)

variable {α β ι : Type}

/-! ### Programs that only read -/

/-- The program only reads, at addresses in `A`, provided that a read at `a` gives a byte with `V a`; a result satisfies `Q`, and if the program fails by itself, `F` holds of the fault (no line of its own). -/
def ReadsIn (F : Fault → Prop) (A : Addr → Prop) (V : Addr → Byte → Prop) (Q : α → Prop) : Prog α → Prop
  | .ret a => Q a
  | .fail e => F e
  | .load p i k => A (p.blk, p.off + i) ∧ ∀ v, V (p.blk, p.off + i) v → ReadsIn F A V Q (k v)
  | _ => False

variable {F : Fault → Prop} {A : Addr → Prop} {V : Addr → Byte → Prop} {Q : α → Prop} {Q' : β → Prop}

theorem ReadsIn.bind {x : Prog α} {f : α → Prog β} (hx : ReadsIn F A V Q x) (hf : ∀ a, Q a → ReadsIn F A V Q' (f a)) : ReadsIn F A V Q' (x >>= f) := by
  show ReadsIn F A V Q' (x.bind f)
  induction x with
  | ret a => exact hf a hx
  | fail e => exact hx
  | load p i k ih => exact ⟨hx.1, fun v hv => ih v (hx.2 v hv)⟩
  | store p i v k ih => exact hx.elim
  | draw n k ih => exact hx.elim
  | push init k ih => exact hx.elim
  | pop p k ih => exact hx.elim

theorem ReadsIn.mono {x : Prog α} {Q' : α → Prop} (h : ReadsIn F A V Q x) (hq : ∀ a, Q a → Q' a) : ReadsIn F A V Q' x := by
  induction x with
  | ret a => exact hq a h
  | fail e => exact h
  | load p i k ih => exact ⟨h.1, fun v hv => ih v (h.2 v hv)⟩
  | store p i v k ih => exact h.elim
  | draw n k ih => exact h.elim
  | push init k ih => exact h.elim
  | pop p k ih => exact h.elim

theorem reads_liftC {x : C α} (hF : F .diverge) (hs : Dilithium.Safe x) (h : ∀ a, x = .ok a → Q a) : ReadsIn F A V Q (liftC x) := by
  rcases hs.cases with ⟨a, rfl⟩ | rfl
  · exact h a rfl
  · exact hF

theorem reads_ok {x : C α} {a : α} (h : x = .ok a) (hq : Q a) : ReadsIn F A V Q (liftC x) := by
  rw [h]; exact hq

theorem reads_load {p : Ptr} {i : Nat} (h : A (p.blk, p.off + i)) : ReadsIn F A V (fun v => V (p.blk, p.off + i) v) (load p i) := ⟨h, fun _ hv => hv⟩

theorem reads_loopM {σ : Type} {I : σ → Prop} {f : Nat → σ → Prog σ} {n i : Nat} {s : σ} (hs : I s) (h : ∀ k s, i ≤ k → k < i + n → I s → ReadsIn F A V I (f k s)) : ReadsIn F A V I (loopM f i n s) := by
  induction n generalizing i s with
  | zero => exact hs
  | succ n ih => exact (h i s (by omega) (by omega) hs).bind fun s' hs' => ih hs' fun k s h1 h2 => h k s (by omega) (by omega)

theorem reads_copyIn {dst : Bytes} {d : Nat} {p : Ptr} {o n : Nat} (hd : d + n ≤ dst.length) (h : ∀ k, k < n → A (p.blk, p.off + (o + k))) :
    ReadsIn F A V (fun b => b.length = dst.length) (copyIn dst d p o n) :=
  reads_loopM (I := fun b : Bytes => b.length = dst.length) rfl fun k s _ hk hs => (reads_load (h k (by omega))).bind fun v _ => reads_ok (wr_ok (by omega)) (by rw [List.length_set]; exact hs)

theorem reads_part {p : Ptr} {o n : Nat} (h : ∀ k, k < n → A (p.blk, p.off + (o + k))) :
    ReadsIn F A V (fun b => b.length = n ∧ ∀ k v, b[k]? = some v → V (p.blk, p.off + (o + k)) v) (copyIn (List.replicate n 0) 0 p o n) := by
  have key : ∀ l i (b : Bytes), i + l = n → b.length = n → (∀ k v, k < i → b[k]? = some v → V (p.blk, p.off + (o + k)) v) →
      ReadsIn F A V (fun b => b.length = n ∧ ∀ k v, b[k]? = some v → V (p.blk, p.off + (o + k)) v) (loopM (fun i b => do
        let v ← load p (o + i)
        liftC (wr b (0 + i) v)) i l b) := by
    intro l
    induction l with
    | zero =>
      intro i b hi hb h
      refine ⟨hb, fun k v hk => h k v ?_ hk⟩
      have := (List.getElem?_eq_some_iff.1 hk).1
      omega
    | succ l ih =>
      intro i b hi hb hv
      unfold loopM
      refine ReadsIn.bind (Q := fun b' => b'.length = n ∧ ∀ k v, k < i + 1 → b'[k]? = some v → V (p.blk, p.off + (o + k)) v) ?_ fun b' hb' => ih _ _ (by omega) hb'.1 hb'.2
      simp only [Nat.zero_add]
      refine (reads_load (h i (by omega))).bind fun v hw => reads_ok (wr_ok (by omega)) ⟨by rw [List.length_set]; exact hb, fun k u hk hu => ?_⟩
      rw [List.getElem?_set] at hu
      split at hu
      · subst k
        rw [if_pos (by omega)] at hu
        cases hu; exact hw
      · exact hv k u (by omega) hu
  exact key n 0 _ (by omega) List.length_replicate fun k v hk => absurd hk (by omega)

section
variable {coef : Nat → Bytes → C Int} {f : Nat → Bytes → Int} {w b : Nat}

theorem reads_readPoly (hf : ∀ j y, y.length = b → coef j y = .ok (f j y)) (hw : ∀ j, j < 256 → w * j / 8 + b ≤ 32 * w) {p : Ptr} {o : Nat} (hA : ∀ k, k < 32 * w → A (p.blk, p.off + (o + k))) (n j : Nat) (hj : j + n ≤ 256) :
    ReadsIn F A V (fun r => r.length = n ∧ ∀ k, k < n → ∃ y, y.length = b ∧ (∀ l v, y[l]? = some v → V (p.blk, p.off + (o + w * (j + k) / 8 + l)) v) ∧ Dilithium.Spec.co r k = f (j + k) y) (readPoly p o w b coef n j) := by
  induction n generalizing j with
  | zero => exact ⟨rfl, fun k hk => absurd hk (by omega)⟩
  | succ n ih =>
    have := hw j (by omega)
    unfold readPoly
    refine (reads_part fun k hk => by rw [Nat.add_assoc]; exact hA _ (by omega)).bind fun y hy => (reads_ok (Q := fun c => c = f j y) (hf _ _ hy.1) rfl).bind fun c hc => (ih (j + 1) (by omega)).bind fun r hr => ?_
    subst hc
    refine ⟨by rw [List.length_cons, hr.1], fun k hk => ?_⟩
    cases k with
    | zero => exact ⟨y, hy.1, hy.2, rfl⟩
    | succ k =>
      obtain ⟨y, h1, h2, h3⟩ := hr.2 k (by omega)
      rw [show j + 1 + k = j + (k + 1) by omega] at h2 h3
      exact ⟨y, h1, h2, h3⟩

theorem reads_readVec (hf : ∀ j y, y.length = b → coef j y = .ok (f j y)) (hw : ∀ j, j < 256 → w * j / 8 + b ≤ 32 * w) {p : Ptr} {o : Nat} (n i : Nat) (hA : ∀ k, k < (i + n) * (32 * w) → A (p.blk, p.off + (o + k))) :
    ReadsIn F A V (fun r => r.length = n ∧ ∀ k, k < n → (Dilithium.Spec.at_ r k).length = 256 ∧ ∀ j, j < 256 → ∃ y, y.length = b ∧
      (∀ l v, y[l]? = some v → V (p.blk, p.off + (o + (i + k) * (32 * w) + w * j / 8 + l)) v) ∧ Dilithium.Spec.co (Dilithium.Spec.at_ r k) j = f j y) (readVec p o (32 * w) w b coef n i) := by
  induction n generalizing i with
  | zero => exact ⟨rfl, fun k hk => absurd hk (by omega)⟩
  | succ n ih =>
    have e : (i + (n + 1)) * (32 * w) = i * (32 * w) + 32 * w + n * (32 * w) := by ring
    unfold readVec
    refine (reads_readPoly hf hw (fun k hk => by rw [Nat.add_assoc]; exact hA _ (by omega)) 256 0 (by omega)).bind fun x hx => (ih (i + 1) fun k hk => hA k (by rw [show i + (n + 1) = i + 1 + n by omega]; exact hk)).bind fun r hr => ?_
    refine ⟨by rw [List.length_cons, hr.1], fun k hk => ?_⟩
    cases k with
    | zero =>
      refine ⟨hx.1, fun j hj => ?_⟩
      obtain ⟨y, h1, h2, h3⟩ := hx.2 j hj
      rw [Nat.zero_add] at h2 h3
      exact ⟨y, h1, h2, h3⟩
    | succ k =>
      have := hr.2 k (by omega)
      rw [show i + 1 + k = i + (k + 1) by omega] at this
      exact this

end

theorem reads_z {p : Ptr} (hA : ∀ k, k < 2336 → A (p.blk, p.off + k)) :
    ReadsIn F A V (fun z => Dilithium.VB z 131073 ∧ ∀ i, i < 4 → ∀ j, j < 256 → ∃ y : Bytes, y.length = 3 ∧ (∀ l v, y[l]? = some v → V (p.blk, p.off + (32 + i * 576 + 18 * j / 8 + l)) v) ∧
      Dilithium.Spec.co (Dilithium.Spec.at_ z i) j = zVal j y) (readVec p 32 576 18 3 zCoef 4 0) := by
  have := reads_readVec (F := F) (A := A) (V := V) (w := 18) (p := p) (o := 32) zCoef_ok (fun j hj => by omega) 4 0 fun k hk => hA _ (by omega)
  refine this.mono fun z hz => ?_
  simp only [Nat.zero_add] at hz
  refine ⟨⟨hz.1, fun i hi => ⟨(hz.2 i hi).1, fun j hj => ?_⟩⟩, fun i hi j hj => (hz.2 i hi).2 j hj⟩
  obtain ⟨y, -, -, e⟩ := (hz.2 i hi).2 j hj
  have := zVal_bound j y
  rw [e]; omega

theorem reads_t1 {p : Ptr} (hA : ∀ k, k < 1312 → A (p.blk, p.off + k)) :
    ReadsIn F A V (fun t => Dilithium.VB t 1024 ∧ (∀ i, i < 4 → ∀ j, j < 256 → 0 ≤ Dilithium.Spec.co (Dilithium.Spec.at_ t i) j) ∧ ∀ i, i < 4 → ∀ j, j < 256 → ∃ y : Bytes, y.length = 2 ∧
      (∀ l v, y[l]? = some v → V (p.blk, p.off + (32 + i * 320 + 10 * j / 8 + l)) v) ∧ Dilithium.Spec.co (Dilithium.Spec.at_ t i) j = t1Val j y) (readVec p 32 320 10 2 t1Coef 4 0) := by
  have := reads_readVec (F := F) (A := A) (V := V) (w := 10) (p := p) (o := 32) t1Coef_ok (fun j hj => by omega) 4 0 fun k hk => hA _ (by omega)
  refine this.mono fun t ht => ?_
  simp only [Nat.zero_add] at ht
  refine ⟨⟨ht.1, fun i hi => ⟨(ht.2 i hi).1, fun j hj => ?_⟩⟩, fun i hi j hj => ?_, fun i hi j hj => (ht.2 i hi).2 j hj⟩
  all_goals
    obtain ⟨y, -, -, e⟩ := (ht.2 i hi).2 j hj
    have := t1Val_bound j y
    rw [e]; omega

theorem reads_readMem {p : Ptr} {n : Nat} (h : ∀ k, k < n → A (p.blk, p.off + k)) : ReadsIn F A V (fun b => b.length = n) (readMem p n) := by
  have := reads_copyIn (F := F) (A := A) (V := V) (dst := List.replicate n 0) (d := 0) (p := p) (o := 0) (n := n) (by rw [List.length_replicate]; omega) (fun k hk => by rw [Nat.zero_add]; exact h k hk)
  simp only [List.length_replicate] at this
  exact this

/-! ### Verification -/

/-- A polynomial with coefficients 0 and 1 (dilithium2/packing.c:233-246). -/
def Zeros (h : Poly) : Prop := h.length = 256 ∧ ∀ c ∈ h, c = 0 ∨ c = 1

theorem Zeros.set {h : Poly} (hz : Zeros h) (i : Nat) : Zeros (h.set i 1) :=
  ⟨by rw [List.length_set]; exact hz.1, fun c hc => by
    rcases List.mem_or_eq_of_mem_set hc with hc | rfl
    · exact hz.2 c hc
    · exact Or.inr rfl⟩

theorem zeros_replicate : Zeros (List.replicate 256 0) := ⟨List.length_replicate, fun _ hc => Or.inl (List.eq_of_mem_replicate hc)⟩

theorem reads_hintPoly {sig : Ptr} {i k N B : Nat} (hi : i < 4) (hN : 2420 ≤ N) (hA : ∀ o, o < N → A (sig.blk, sig.off + o)) (hB : 2336 + B ≤ N) (hV : ∀ v, V (sig.blk, sig.off + (2416 + i)) v → v.toNat ≤ B) (n j : Nat) (h : Poly)
    (hn : j + n = 256) (hj : j ≤ 255) (hh : Zeros h) : ReadsIn F A V (fun r => ∀ h', r = some h' → Zeros h') (hintPoly sig i k n j h) := by
  induction n generalizing j h with
  | zero => omega
  | succ n ih =>
    unfold hintPoly
    refine (reads_load (hA _ (by omega))).bind fun e he => ?_
    have he := hV e he
    have hl := e.isLt
    split
    · rintro _ ⟨⟩; exact hh
    · have tail : ReadsIn F A V (fun r => ∀ h', r = some h' → Zeros h') (do let y ← load sig (2336 + j); let h ← liftC (wr h y.toNat 1); hintPoly sig i k n (j + 1) h) :=
        (reads_load (hA _ (by omega))).bind fun y _ => (reads_ok (wr_ok (by rw [hh.1]; exact y.isLt)) (Q := Zeros) (hh.set _)).bind fun h' hh' => ih _ _ (by omega) (by omega) hh'
      refine ReadsIn.bind (Q := fun _ => True) ?_ fun b _ => ?_
      · split
        · exact (reads_load (hA _ (by omega))).bind fun _ _ => (reads_load (hA (2336 + j - 1) (by omega))).bind fun _ _ => trivial
        · trivial
      · split
        · rintro _ ⟨⟩
        · exact tail

theorem reads_hints {sig : Ptr} {N B : Nat} (hN : 2420 ≤ N) (hA : ∀ o, o < N → A (sig.blk, sig.off + o)) (hB : 2336 + B ≤ N)
    (hV : ∀ i, i < 4 → ∀ v w, V (sig.blk, sig.off + (2416 + i)) v → v.toNat ≤ 80 → V (sig.blk, sig.off + (2416 + i)) w → w.toNat ≤ B) (n i k : Nat) (hi : i + n ≤ 4) (hk : k ≤ 255) :
    ReadsIn F A V (fun r => ∀ hs k', r = some (hs, k') → hs.length = n ∧ ∀ x ∈ hs, Zeros x) (hints sig n i k) := by
  induction n generalizing i k with
  | zero => rintro _ _ ⟨⟩; exact ⟨rfl, fun _ h => nomatch h⟩
  | succ n ih =>
    unfold hints
    refine (reads_load (hA _ (by omega))).bind fun e _ => ?_
    split
    · rintro _ _ ⟨⟩
    · refine (reads_load (hA _ (by omega))).bind fun e he => ?_
      split
      · rintro _ _ ⟨⟩
      · rename_i hc
        refine (reads_hintPoly (N := N) (B := B) (by omega) hN hA hB (fun w hw => hV i (by omega) e w he (by omega) hw) _ _ _ (by omega) hk zeros_replicate).bind fun r hr => ?_
        cases r with
        | none => rintro _ _ ⟨⟩
        | some h =>
          refine (reads_load (hA _ (by omega))).bind fun e _ => (ih _ _ (by omega) (by have := e.isLt; omega)).bind fun r hrs => ?_
          rcases r with - | ⟨hs, k⟩
          · rintro _ _ ⟨⟩
          · rintro _ _ ⟨⟩
            obtain ⟨l, hz⟩ := hrs hs k rfl
            refine ⟨by rw [List.length_cons, l], fun x hx => ?_⟩
            rcases List.mem_cons.1 hx with rfl | hx
            · exact hr _ rfl
            · exact hz x hx

theorem reads_hintRest {sig : Ptr} (hA : ∀ o, o < 2420 → A (sig.blk, sig.off + o)) (n j : Nat) (h : n = 0 ∨ j + n ≤ 80) : ReadsIn F A V (fun _ => True) (hintRest sig n j) := by
  induction n generalizing j with
  | zero => trivial
  | succ n ih =>
    unfold hintRest
    refine (reads_load (hA _ (by omega))).bind fun x _ => ?_
    split
    · trivial
    · exact ih _ (by omega)

theorem reads_unpackSig {sig : Ptr} {N B : Nat} (hN : 2420 ≤ N) (hA : ∀ o, o < N → A (sig.blk, sig.off + o)) (hB : 2336 + B ≤ N)
    (hV : ∀ i, i < 4 → ∀ v w, V (sig.blk, sig.off + (2416 + i)) v → v.toNat ≤ 80 → V (sig.blk, sig.off + (2416 + i)) w → w.toNat ≤ B) :
    ReadsIn F A V (fun r => ∀ c z h, r = some (c, z, h) → c.length = 32 ∧ Dilithium.VB z 131073 ∧ Dilithium.Spec.IsHint h) (unpackSigSteps sig) := by
  unfold unpackSigSteps
  refine (reads_copyIn (by rw [List.length_replicate]) fun k hk => hA _ (by omega)).bind fun c hc => (reads_z fun k hk => hA _ (by omega)).bind fun z hz => ?_
  rw [List.length_replicate] at hc
  · refine (reads_hints hN hA hB hV 4 0 0 (by omega) (by omega)).bind fun r hr => ?_
    rcases r with - | ⟨h, k⟩
    · rintro _ _ _ ⟨⟩
    · refine (reads_hintRest (fun o ho => hA o (by omega)) _ _ (by omega)).bind fun b _ => ?_
      split
      · rintro _ _ _ ⟨⟩
      · rintro _ _ _ ⟨⟩; exact ⟨hc, hz.1, hr _ _ rfl⟩

theorem reads_verify {fuel : Nat} {sm m pk : Ptr} {mlen smlen N B : Nat} (hF : F .diverge) (hN : 2420 ≤ N) (hA : ∀ o, o < N → A (sm.blk, sm.off + o)) (hB : 2336 + B ≤ N)
    (hV : ∀ i, i < 4 → ∀ v w, V (sm.blk, sm.off + (2416 + i)) v → v.toNat ≤ 80 → V (sm.blk, sm.off + (2416 + i)) w → w.toNat ≤ B)
    (hm : ∀ o, o < mlen → A (m.blk, m.off + o)) (hp : ∀ o, o < 1312 → A (pk.blk, pk.off + o)) :
    ReadsIn F A V (fun _ => True) (verifyDilithiumSteps fuel (some m) mlen (some sm) smlen (some pk)) := by
  simp only [verifyDilithiumSteps, dilVerifySteps]
  split
  · trivial
  · refine ReadsIn.bind (Q := fun _ => True) ?_ fun r _ => ?_
    · split
      · trivial
      · refine (reads_copyIn (by rw [List.length_replicate]) fun k hk => hp _ (by omega)).bind fun rho hrho => (reads_t1 hp).bind fun t1 ht1 => ?_
        rw [List.length_replicate] at hrho
        refine (reads_unpackSig hN hA hB hV).bind fun r hr => ?_
        rcases r with - | ⟨c, z, h⟩
        · trivial
        · obtain ⟨hc, hz, hh⟩ := hr _ _ _ rfl
          obtain ⟨b, eb, -⟩ := Dilithium.vecChknorm_ok (B := 130994) (hz.mono (by omega)) (by omega)
          refine (reads_ok (Q := fun _ => True) eb trivial).bind fun b _ => ?_
          split
          · trivial
          · refine (reads_readMem hp).bind fun pkb' hpk' => (reads_ok (Q := fun mu => mu.length = 64) (Dilithium.shake256_ok 64 pkb' 1312 hpk'.symm List.length_replicate.symm) (Keccak.length_stream ..)).bind fun mu hmu => ?_
            refine (reads_readMem hm).bind fun msg hmsg => (reads_ok (Q := fun mu => mu.length = 64) (Dilithium.shake256Inc2_ok hmu.symm (by omega) (by omega)) (by rw [splice_all (by rw [Keccak.length_stream, hmu]), Keccak.length_stream])).bind fun mu' hmu' => ?_
            exact reads_liftC hF (verifyRest_safe fuel hrho ht1.1 ht1.2.1 hc hz hh hmu') fun _ _ => trivial
    · split <;> trivial

/-! ### Among other threads -/

theorem readsIn_run [DecidableEq ι] {W : World} {p : ι → Prog α} {i : ι} (h : ReadsIn F A V Q (p i)) (hA : ∀ a, A a → a.1 < W.sp) (s : List ι)
    (hE : F .ub ∨ ∀ t, t <+: s → ∀ a, A a → (byteAt ((start W p).run t).mem a).isSome) (hV : ∀ t, t <+: s → ∀ a v, A a → byteAt ((start W p).run t).mem a = some v → V a v) : ReadsIn F A V Q (((start W p).run s).thr i).prog := by
  induction s using List.reverseRecOn with
  | nil => exact h
  | append_singleton s j ih =>
    have ih := ih (hE.imp_right fun hE t ht => hE t (ht.trans (List.prefix_append _ _))) fun t ht => hV t (ht.trans (List.prefix_append _ _))
    have hE' := hE.imp_right fun hE => hE s (List.prefix_append _ _)
    rw [run_append]
    have hb : ((start W p).run s).base = W.sp := run_base _ _
    have hm := hV s (List.prefix_append _ _)
    generalize (start W p).run s = c at ih hb hm hE'
    show ReadsIn F A V Q ((c.next j).thr i).prog
    by_cases hj : i = j
    · subst hj
      rw [next_thr_self]
      cases hx : (c.thr i).prog with
      | ret a => rw [hx] at ih; exact ih
      | fail e => rw [hx] at ih; exact ih
      | load q o k =>
        rw [hx] at ih
        rw [step_load, world_byte (by rw [hb]; exact hA _ ih.1)]
        cases he : byteAt c.mem (q.blk, q.off + o) with
        | none =>
          rcases hE' with hE | hE
          · exact hE
          · have := hE _ ih.1; rw [he] at this; cases this
        | some v => exact ih.2 v (hm _ v ih.1 he)
      | store q o v k => rw [hx] at ih; exact ih.elim
      | draw n k => rw [hx] at ih; exact ih.elim
      | push init k => rw [hx] at ih; exact ih.elim
      | pop q k => rw [hx] at ih; exact ih.elim
    · rw [next_thr_ne c hj]; exact ih

theorem ReadsIn.access {x : Prog α} (h : ReadsIn F A V Q x) {w : Bool} {a : Addr} (ha : Conc.access x = some (w, a)) : w = false ∧ A a := by
  cases x with
  | load p i k =>
    simp only [Conc.access, Option.some.injEq, Prod.mk.injEq] at ha
    obtain ⟨rfl, rfl⟩ := ha
    exact ⟨rfl, h.1⟩
  | store p i v k => exact h.elim
  | ret a => simp [Conc.access] at ha
  | fail e => simp [Conc.access] at ha
  | draw n k => exact h.elim
  | push init k => exact h.elim
  | pop p k => exact h.elim

theorem ReadsIn.within {base : Nat} {S : Addr → Prop} {x : Prog α} (h : ReadsIn F A (fun _ _ => True) Q x) : Within base (fun _ => True) S x := by
  induction x with
  | ret a => trivial
  | fail e => trivial
  | load p i k ih => exact ⟨fun _ => trivial, fun v => ih v (h.2 v trivial)⟩
  | store p i v k ih => exact h.elim
  | draw n k ih => exact h.elim
  | push init k ih => exact h.elim
  | pop p k ih => exact h.elim

/-- What a thread may still access, whatever the others do. -/
theorem within_run [DecidableEq ι] {W : World} {p : ι → Prog α} {i : ι} {R S : Addr → Prop} (hin : Within W.sp R S (p i)) (s : List ι) :
    Within W.sp R S (((start W p).run s).thr i).prog ∧ W.sp ≤ (((start W p).run s).thr i).sp := by
  induction s using List.reverseRecOn with
  | nil => exact ⟨hin, Nat.le_refl _⟩
  | append_singleton s j ih =>
    rw [run_append]
    generalize (start W p).run s = c at ih
    show Within W.sp R S ((c.next j).thr i).prog ∧ W.sp ≤ ((c.next j).thr i).sp
    by_cases hj : i = j
    · subst hj
      obtain ⟨w1, w2, -⟩ := step_within (W := c.world i) ih.1 ih.2
      refine ⟨by rw [next_thr_self]; exact w1, ?_⟩
      have : ((c.next i).thr i).sp = (step (c.thr i).prog (c.world i)).2.sp := by simp [Conf.next]
      rw [this]; exact w2
    · rw [next_thr_ne c hj]; exact ih

/-- A byte that no thread writes keeps its value. -/
theorem byte_kept [DecidableEq ι] {W : World} {p : ι → Prog α} {R S : ι → Addr → Prop} (hin : ∀ i, Within W.sp (R i) (S i) (p i)) (s : List ι) {a : Addr} (ha : a.1 < W.sp) (hS : ∀ i, ¬ S i a) :
    byteAt ((start W p).run s).mem a = byteAt W.mem a := by
  have key : (∀ i, Within W.sp (R i) (S i) (((start W p).run s).thr i).prog ∧ W.sp ≤ (((start W p).run s).thr i).sp) ∧ byteAt ((start W p).run s).mem a = byteAt W.mem a := by
    induction s using List.reverseRecOn with
    | nil => exact ⟨fun i => ⟨hin i, Nat.le_refl _⟩, rfl⟩
    | append_singleton s j ih =>
      rw [run_append]
      have hb : ((start W p).run s).base = W.sp := run_base _ _
      generalize (start W p).run s = c at ih hb
      show (∀ i, Within W.sp (R i) (S i) ((c.next j).thr i).prog ∧ W.sp ≤ ((c.next j).thr i).sp) ∧ byteAt (c.next j).mem a = byteAt W.mem a
      obtain ⟨w1, w2, w3⟩ := step_within (W := c.world j) (ih.1 j).1 (ih.1 j).2
      refine ⟨fun i => ?_, ?_⟩
      · by_cases hj : i = j
        · subst hj
          refine ⟨by rw [next_thr_self]; exact w1, ?_⟩
          have : ((c.next i).thr i).sp = (step (c.thr i).prog (c.world i)).2.sp := by simp [Conf.next]
          rw [this]; exact w2
        · rw [next_thr_ne c hj]; exact ih.1 i
      · have hw := w3 a ha (hS j)
        rw [world_byte (by rw [hb]; exact ha)] at hw
        rw [← ih.2, ← hw]
        show Option.bind (if a.1 < c.base then _ else _) _ = _
        rw [if_pos (by rw [hb]; exact ha)]; rfl
  exact key.2

theorem step_exists {base : Nat} {R S : Addr → Prop} {x : Prog α} {W : World} (h : Within base R S x) (hsp : base ≤ W.sp) {a : Addr} (ha : a.1 < base) (he : (byteAt W.mem a).isSome) : (byteAt (step x W).2.mem a).isSome := by
  cases x with
  | store p i v k =>
    rw [step_store]
    cases hx : byteAt W.mem (p.blk, p.off + i) with
    | none => exact he
    | some y =>
      show (byteAt (put W.mem (p.blk, p.off + i) v) a).isSome
      rw [byteAt_put]
      split
      · rename_i hc; subst hc; rw [hx]; rfl
      · exact he
  | ret b => exact he
  | fail e => exact he
  | load p i k =>
    rw [step_load]
    cases byteAt W.mem (p.blk, p.off + i) <;> exact he
  | draw n k => exact he
  | push init k =>
    show (((Function.update W.mem W.sp (some init)) a.1).bind _).isSome
    rw [Function.update_of_ne (by omega)]; exact he
  | pop p k =>
    have h1 := h.1
    show (((Function.update W.mem p.blk none) a.1).bind _).isSome
    rw [Function.update_of_ne (by omega)]; exact he

/-- Bytes that exist go on existing if no thread frees them. -/
theorem exists_kept [DecidableEq ι] {W : World} {p : ι → Prog α} {R S : ι → Addr → Prop} (hin : ∀ i, Within W.sp (R i) (S i) (p i)) (s : List ι) {a : Addr} (ha : a.1 < W.sp) (he : (byteAt W.mem a).isSome) :
    (byteAt ((start W p).run s).mem a).isSome := by
  induction s using List.reverseRecOn with
  | nil => exact he
  | append_singleton s j ih =>
    have hw := within_run (hin j) s
    rw [run_append]
    have hb : ((start W p).run s).base = W.sp := run_base _ _
    generalize (start W p).run s = c at ih hb hw
    have := step_exists (W := c.world j) hw.1 hw.2 ha (by rw [world_byte (by rw [hb]; exact ha)]; exact ih)
    show (Option.bind (if a.1 < c.base then _ else _) _).isSome
    rw [if_pos (by rw [hb]; exact ha)]; exact this

/-! ### A write between two reads -/

theorem bind_assoc_prog {γ : Type} (x : Prog α) (f : α → Prog β) (g : β → Prog γ) : (x >>= f) >>= g = x >>= fun a => f a >>= g := by
  show (x.bind f).bind g = x.bind fun a => (f a).bind g
  induction x with
  | ret a => rfl
  | fail e => rfl
  | load p i k ih => simp only [Prog.bind, ih]
  | store p i v k ih => simp only [Prog.bind, ih]
  | draw n k ih => simp only [Prog.bind, ih]
  | push init k ih => simp only [Prog.bind, ih]
  | pop p k ih => simp only [Prog.bind, ih]

/-- The program comes to the first loop over the positions of hints and leaves the memory as it is (no line of its own; the loop is dilithium2/packing.c:241-247). -/
def Before (sm : Ptr) (W : World) (x : Prog α) : Prop := ∃ F : Option Poly → Prog α, Leads (x, W) (hintPoly sm 0 0 256 0 (List.replicate 256 0) >>= F, W)

theorem Before.bind {sm : Ptr} {W : World} {x : Prog α} {f : α → Prog β} (h : Before sm W x) : Before sm W (x >>= f) := by
  obtain ⟨F, hF⟩ := h
  exact ⟨fun a => F a >>= f, by rw [← bind_assoc_prog]; exact hF.bind⟩

theorem before_step {sm : Ptr} {W : World} {x : Prog α} {f : α → Prog β} {a : α} (hx : exec x W = .ok (a, W)) (h : Before sm W (f a)) : Before sm W (x >>= f) := by
  obtain ⟨F, hF⟩ := h
  exact ⟨F, (leads_bind hx).trans hF⟩

theorem before_verify {fuel : Nat} {W : World} {sm m pk : Ptr} {mlen : Nat} {x pkb : Bytes} (hv : W.view sm 2420 = some x) (hp : W.view pk 1312 = some pkb) (h1 : 1 ≤ mlen) (h2 : mlen ≤ 64)
    (he : (x.getD 2416 0).toNat ≤ 80) : Before sm W (verifyDilithiumSteps fuel (some m) mlen (some sm) 2420 (some pk)) := by
  have hl := length_of_view hv
  have hh : Before sm W (hints sm 4 0 0) := by
    unfold hints
    refine before_step (exec_load_view hv (by omega)) ?_
    rw [if_neg (by omega)]
    refine before_step (exec_load_view hv (by omega)) ?_
    rw [if_neg (by rw [Nat.add_zero]; omega)]
    exact ⟨_, Leads.refl _⟩
  have hu : Before sm W (unpackSigSteps sm) := by
    unfold unpackSigSteps
    exact before_step (exec_copyIn_zeros hv (by omega)) (before_step (exec_readZ hv (by omega)) hh.bind)
  simp only [verifyDilithiumSteps, dilVerifySteps]
  rw [if_neg (by omega), if_neg (by decide)]
  exact Before.bind (before_step (exec_copyIn_zeros hp (by omega)) (before_step (exec_readT1 hp) hu.bind))

/-- The loop comes to position 84, behind the end of the buffer. -/
theorem leads_over {W : World} {sm : Ptr} {y : Bytes} (hv : W.view sm 2420 = some y) (he : 84 < (y.getD 2416 0).toNat) (hup : ∀ j, j < 83 → (y.getD (2336 + j) 0).toNat < (y.getD (2336 + (j + 1)) 0).toNat) (d n j : Nat) (h : Poly)
    (hd : j + d = 84) (hn : d < n) (hh : h.length = 256) : ∃ K, Leads (hintPoly sm 0 0 n j h, W) (.load sm 2420 K, W) := by
  induction d generalizing n j h with
  | zero =>
    obtain ⟨n, rfl⟩ : ∃ k, n = k + 1 := ⟨n - 1, by omega⟩
    have : j = 84 := by omega
    subst this
    unfold hintPoly
    have hl := leads_bind (f := fun e : Byte => if e.toNat ≤ 84 then pure (some h) else do
      let bad ← (if 84 > 0 then do
          let x ← load sm (2336 + 84)
          let y ← load sm (2336 + 84 - 1)
          pure (decide (x.toNat ≤ y.toNat))
        else pure false : Prog Bool)
      if bad then pure none else do
      let x ← load sm (2336 + 84)
      let h ← liftC (wr h x.toNat 1)
      hintPoly sm 0 0 n (84 + 1) h) (exec_load_view hv (i := 2416) (by omega))
    rw [if_neg (show ¬ (y.getD 2416 0).toNat ≤ 84 by omega)] at hl
    exact ⟨_, hl⟩
  | succ d ih =>
    obtain ⟨n, rfl⟩ : ∃ k, n = k + 1 := ⟨n - 1, by omega⟩
    unfold hintPoly
    obtain ⟨K, hK⟩ := ih n (j + 1) (h.set (y.getD (2336 + j) 0).toNat 1) (by omega) (by omega) (by simpa using hh)
    refine ⟨K, (leads_bind (exec_load_view hv (by omega))).trans ?_⟩
    rw [if_neg (by rw [Nat.add_zero]; omega)]
    refine (leads_bind (a := false) (W' := W) ?_).trans ?_
    · by_cases h0 : j > 0
      · rw [if_pos h0, exec_bind_ok (exec_load_view hv (by omega)), exec_bind_ok (exec_load_view hv (by omega))]
        have := hup (j - 1) (by omega)
        rw [show 2336 + (j - 1) = 2336 + j - 1 by omega, show 2336 + (j - 1 + 1) = 2336 + j by omega] at this
        rw [decide_eq_false (by omega)]; rfl
      · rw [if_neg h0]; rfl
    · rw [if_neg (by decide)]
      refine (leads_bind (exec_load_view hv (by omega))).trans ?_
      rw [wr_ok (by rw [hh]; exact BitVec.isLt _)]
      exact (leads_bind (exec_liftC_at _ _)).trans hK

theorem view_set {W : World} {p : Ptr} {n o : Nat} {x : Bytes} {v : Byte} (h : W.view p n = some x) (ho : o < n) : (W.write (p.add o) [v]).view p n = some (x.set o v) := by
  obtain ⟨b, h1, h2, rfl⟩ := view_eq_some.1 h
  have e : splice b (p.off + o) [v] = b.set (p.off + o) v := by
    have := splice_snoc (b := b) (x := []) (o := p.off + o) (v := v) (by simp; omega)
    simpa [splice] using this.symm
  rw [write_eq (p := p.add o) (b := b) h1 (by simp [Ptr.add]; omega)]
  refine view_eq_some.2 ⟨b.set (p.off + o) v, ?_, by rw [List.length_set]; exact h2, ?_⟩
  · simp [Ptr.add, e]
  · unfold slice
    rw [List.drop_set, if_neg (by omega), show p.off + o - p.off = o by omega, List.take_set]

/-- The call, the other thread, the call again, up to some step. -/
theorem duo_leads {W : World} (hW : W.WF) {call other x z : Prog Int} {V V' : World} {q : Ptr} {y : Bytes} {r' : Int} (hq : q.blk < W.sp) (h1 : Leads (call, W) (x, V))
    (h2 : ∀ U : World, (∀ b, b < W.sp → U.mem b = V.mem b) → exec other U = .ok (r', U.write q y)) (h3 : Leads (x, V.write q y) (z, V')) :
    ∃ s, (((duo W call other).run s).thr false).prog = z ∧ ((duo W call other).run s).world false = V' := by
  obtain ⟨n1, a1, a2, a3⟩ := leads_run (c := duo W call other) (i := false) (y := x) (V := V) (by
    unfold duo
    rw [start_world hW]; exact h1)
  generalize hc1 : (duo W call other).run (List.replicate n1 false) = c1 at a1 a2 a3
  have b1 : c1.base = W.sp := by rw [← hc1, run_base]; rfl
  have hm1 : ∀ b, b < W.sp → (c1.world true).mem b = V.mem b := by
    intro b hb
    rw [← a2]
    show (if b < c1.base then _ else _) = (if b < c1.base then _ else _)
    rw [if_pos (by omega), if_pos (by omega)]
  obtain ⟨n2, d1, d2, d3⟩ := leads_run (c := c1) (i := true) (leads_exec (x := (c1.thr true).prog) (by
    rw [a3 true (by decide)]
    exact h2 _ hm1))
  generalize hc2 : c1.run (List.replicate n2 true) = c2 at d1 d2 d3
  have b2 : c2.base = c1.base := by rw [← hc2, run_base]
  have w2 := world_after b2 (d3 false (by decide)) d2 (by rw [b1]; exact hq)
  rw [a2] at w2
  obtain ⟨n3, e1, e2, e3⟩ := leads_run (c := c2) (i := false) (y := z) (V := V') (by
    rw [d3 false (by decide), a1, w2]
    exact h3)
  refine ⟨List.replicate n1 false ++ (List.replicate n2 true ++ List.replicate n3 false), ?_, ?_⟩
  · rw [run_append, run_append, hc1, hc2]; exact e1
  · rw [run_append, run_append, hc1, hc2]; exact e2

end Verif.Conc
