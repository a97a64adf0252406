import Verif.Conc.RaceProps
import Verif.Conc.Exec

/-!
Key generation and the seed expander while other threads change the memory: helper lemmas for property C127.
-/

namespace Verif.Conc
open Verif
open Verif.Hybrid (Prims zeros)
open Verif.Real (real real_sized KeysOf)
open Verif.Dilithium (S128 S256 isShake128_S128 isShake256_S256)

variable {ι : Type}

section
variable {base : Nat} {G : Facts → Addr → Byte → Prop} {st : Nat → Option Bytes} {sp : Nat} {R S : Facts}

/-- Reading a local array from an offset on. -/
theorem safe_copyIn_localAt {Q : (Nat → Option Bytes) → Nat → Facts → Facts → Bytes → Prop} {dst b : Bytes} {k o n : Nat} (hk : base ≤ k) (hst : st k = some b) (hn : o + n ≤ b.length) (hd : n ≤ dst.length)
    (h : Q st sp R S (splice dst 0 (slice b o n))) : Safe base G Q (copyIn dst 0 ⟨k, 0⟩ o n) st sp R S := by
  have key : ∀ n i, o + (i + n) ≤ b.length → i + n ≤ dst.length → Q st sp R S (splice dst 0 (slice b o (i + n))) →
      Safe base G Q (loopM (fun i c => do let v ← load ⟨k, 0⟩ (o + i); liftC (wr c (0 + i) v)) i n (splice dst 0 (slice b o i))) st sp R S := by
    intro n
    induction n with
    | zero => intro i _ _ h; exact h
    | succ n ih =>
      intro i hl hl' h
      refine Safe.bind (Safe.bind ⟨fun hb => absurd hk (by simp only at hb; omega), fun _ x hx => safe_liftC fun c hc => ?_⟩)
      have hx' : b[o + i]? = some x := by
        unfold byteAt at hx
        simpa only [hst, Option.bind_some, Nat.zero_add] using hx
      have ht : (slice b o i).length = i := length_slice (by omega)
      rw [wr_ok (by rw [length_splice (by omega)]; omega)] at hc
      injection hc with hc
      have e : splice dst 0 (slice b o (i + 1)) = c := by
        have hxx : b[o + i]'(by omega) = x := by
          rw [List.getElem?_eq_getElem (by omega)] at hx'
          exact Option.some.inj hx'
        rw [slice_snoc (by omega), ← splice_snoc (by omega), ht, ← hc, hxx]
      rw [← e]
      exact ih (i + 1) (by omega) (by omega) (by rw [show i + 1 + n = i + (n + 1) by omega]; exact h)
  have := key n 0 (by omega) (by omega) (by simpa using h)
  unfold copyIn
  simpa [splice, slice] using this

/-- The loop that stores the Dilithium public key at two places. -/
theorem safe_storeBoth {Q : (Nat → Option Bytes) → Nat → Facts → Facts → Unit → Prop} {p q : Ptr} {src : Bytes} {o u n : Nat} (hp : p.blk < base) (hq : q.blk < base) (hn : n = src.length)
    (hG : ∀ f ∈ At p o src ∪ At q u src, G R f.1 f.2) (h : Q st sp R (S ∪ (At p o src ∪ At q u src)) ()) :
    Safe base G Q (loopM (fun i (_ : Unit) => do
      let v ← liftC (rd src i)
      store p (o + i) v
      let v ← liftC (rd src i)
      store q (u + i) v) 0 n ()) st sp R S := by
  have key : ∀ n i, i + n = src.length →
      Safe base G Q (loopM (fun i (_ : Unit) => do
        let v ← liftC (rd src i)
        store p (o + i) v
        let v ← liftC (rd src i)
        store q (u + i) v) i n ()) st sp R (S ∪ (At p o (src.take i) ∪ At q u (src.take i))) := by
    intro n
    induction n with
    | zero =>
      intro i hi
      rw [List.take_of_length_le (by omega)]
      exact h
    | succ n ih =>
      intro i hi
      have e : S ∪ (At p o (src.take i) ∪ At q u (src.take i)) ∪ {((p.blk, p.off + (o + i)), src[i])} ∪ {((q.blk, q.off + (u + i)), src[i])} =
          S ∪ (At p o (src.take (i + 1)) ∪ At q u (src.take (i + 1))) := by
        have ht : (src.take i).length = i := by rw [List.length_take]; omega
        rw [List.take_add_one, List.getElem?_eq_getElem (by omega), Option.toList_some, At_snoc, At_snoc, ht]
        ext f
        simp only [Set.mem_union]
        tauto
      have m1 : ((p.blk, p.off + (o + i)), src[i]) ∈ At p o src := ⟨rfl, i, by rw [List.getElem?_eq_getElem (by omega)], rfl⟩
      have m2 : ((q.blk, q.off + (u + i)), src[i]) ∈ At q u src := ⟨rfl, i, by rw [List.getElem?_eq_getElem (by omega)], rfl⟩
      refine Safe.bind (Safe.bind (safe_liftC fun v hv => ?_))
      rw [rd_ok (by omega)] at hv
      injection hv with hv
      subst hv
      refine Safe.bind ⟨fun _ => ⟨hG _ (Or.inl m1), ?_⟩, fun hb => absurd hp (by omega)⟩
      refine Safe.bind (safe_liftC fun v hv => ?_)
      rw [rd_ok (by omega)] at hv
      injection hv with hv
      subst hv
      refine ⟨fun _ => ⟨hG _ (Or.inr m2), ?_⟩, fun hb => absurd hq (by omega)⟩
      show Safe base G Q _ st sp R _
      rw [e]
      exact ih (i + 1) (by omega)
  have := key n 0 (by omega)
  simpa using this

end

/-- What the component functions compute from the parts of a seed. -/
theorem key_parts {fuel : Nat} {seedb : Bytes} (hl : seedb.length = 160) :
    (real fuel).edKeypairSeed (zeros 32) (zeros 64) (slice seedb 0 32) =
      .ok (0, Ed25519.Spec.publicKey (seedb.take 32), seedb.take 32 ++ Ed25519.Spec.publicKey (seedb.take 32)) ∧
    (∀ r pk2 sk2, (real fuel).dilKeypairSeed (zeros 1312) (zeros 2560) (slice seedb 32 32) = .ok (r, pk2, sk2) →
      r = 0 ∧ pk2.length = 1312 ∧ sk2.length = 2560 ∧ Dilithium.Spec.KeyGen S128 S256 ((seedb.drop 32).take 32) pk2 sk2) ∧
    (real fuel).spxKeypairSeed (zeros 64) (zeros 128) (slice seedb 64 96) =
      .ok (0, Sphincs.Spec.publicKey S256 ⟨seedb.drop 128, (seedb.drop 64).take 32⟩,
        seedb.drop 64 ++ (Sphincs.Spec.publicKey S256 ⟨seedb.drop 128, (seedb.drop 64).take 32⟩).drop 32) := by
  have l1 : (slice seedb 0 32).length = 32 := length_slice (by omega)
  have l2 : (slice seedb 32 32).length = 32 := length_slice (by omega)
  have l3 : (slice seedb 64 96).length = 96 := length_slice (by omega)
  have hz : (zeros 1312).length = 1312 := by simp
  have hz' : (zeros 2560).length = 2560 := by simp
  refine ⟨?_, fun r pk2 sk2 h => ?_, ?_⟩
  · have : (real fuel).edKeypairSeed (zeros 32) (zeros 64) (slice seedb 0 32) = Real.when _ (Ed25519.keypairSeed (zeros 32) (zeros 64) (slice seedb 0 32)) := rfl
    rw [this, Real.when_pos ⟨by simp, by simp, l1⟩, Ed25519.keypairSeed_ok (by simp) (by simp) l1, Real.take_slice_zero]
  · have hs := real_sized.dilKeypairSeed _ _ _ _ _ _ h
    rw [Real.dilKeypair_eq, Real.when_pos ⟨hz, hz', l2⟩] at h
    obtain ⟨h0, hg, -, -⟩ := (Dilithium.dil_keygen_spec isShake128_S128 isShake256_S256 hz hz' l2).2.1 fuel _ _ _ h
    exact ⟨h0, by rw [hs.1, hz], by rw [hs.2, hz'], hg⟩
  · have : (real fuel).spxKeypairSeed (zeros 64) (zeros 128) (slice seedb 64 96) =
      Real.when _ (Sphincs.seedKeypair Sphincs.shake256F (zeros 64) (zeros 128) (slice seedb 64 96)) := rfl
    have e : slice seedb 64 96 = seedb.drop 64 := by rw [slice, List.take_of_length_le (by rw [List.length_drop]; omega)]
    rw [this, Real.when_pos ⟨by simp, by simp, l3⟩, Sphincs.spx_keygen_spec Sphincs.length_shake256F _ _ _ (by simp) (by simp) l3, Real.shake256F_eq isShake256_S256, e, List.drop_drop]

/-- hybrid-dilithium-sphincs/hybrid.c:202-244: the part of `crypto_sign_dilithium_ed25519_sphincs_keypair_seed` after the seed has been copied. -/
def keyTail (P : Prims) (pk sk : Ptr) (seed1 seed2 seed3 : Bytes) : Prog Int := do
  let (r1, pk1, sk1) ← liftC (P.edKeypairSeed (zeros 32) (zeros 64) seed1)
  if r1 ≠ 0 then pure (-2) else do
  copyOut pk 0 pk1 0 32
  copyOut sk 0 sk1 0 64
  let (r2, pk2, sk2) ← liftC (P.dilKeypairSeed (zeros 1312) (zeros 2560) seed2)
  if r2 ≠ 0 then pure (-3) else do
  copyOut sk 64 sk2 0 2560
  loopM (fun i (_ : Unit) => do
    let v ← liftC (rd pk2 i)
    store pk (32 + i) v
    let v ← liftC (rd pk2 i)
    store sk (2624 + i) v) 0 1312 ()
  let (r3, pk3, sk3) ← liftC (P.spxKeypairSeed (zeros 64) (zeros 128) seed3)
  if r3 ≠ 0 then pure (-4) else do
  copyOut sk 3936 sk3 0 128
  copyOut pk 1344 pk3 0 64
  pure 0

theorem keypairSeed_split (P : Prims) (pk sk seed : Ptr) : keypairSeed P (some pk) (some sk) (some seed) = (do
    let seed1 ← copyIn (zeros 32) 0 seed 0 32
    let seed2 ← copyIn (zeros 32) 0 seed 32 32
    let seed3 ← copyIn (zeros 96) 0 seed 64 96
    keyTail P pk sk seed1 seed2 seed3) := rfl

theorem slice_self {x : Bytes} {n : Nat} (h : x.length = n) : slice x 0 n = x := by rw [slice, List.drop_zero, List.take_of_length_le (by omega)]

section
variable {base : Nat} {G : Facts → Addr → Byte → Prop} {st : Nat → Option Bytes} {sp : Nat} {R S : Facts}

set_option maxRecDepth 100000 in
/-- The part after the copying, for a seed of 160 bytes. -/
theorem safe_keyTail {fuel : Nat} {Q : (Nat → Option Bytes) → Nat → Facts → Facts → Int → Prop} {pk sk : Ptr} {seedb : Bytes} (hpk : pk.blk < base) (hsk : sk.blk < base) (hl : seedb.length = 160)
    (hE : ∀ f ∈ At pk 0 (Ed25519.Spec.publicKey (seedb.take 32)) ∪ At sk 0 (seedb.take 32 ++ Ed25519.Spec.publicKey (seedb.take 32)), G R f.1 f.2)
    (hG : ∀ pkb skb, KeysOf S128 S256 seedb pkb skb → ∀ f ∈ At pk 0 pkb ∪ At sk 0 skb, G R f.1 f.2)
    (hQ : ∀ pkb skb, KeysOf S128 S256 seedb pkb skb → Q st sp R (S ∪ (At pk 0 pkb ∪ At sk 0 skb)) 0) :
    Safe base G Q (keyTail (real fuel) pk sk (slice seedb 0 32) (slice seedb 32 32) (slice seedb 64 96)) st sp R S := by
  obtain ⟨e1, e2, e3⟩ := key_parts (fuel := fuel) hl
  have n1 := real_sized.edKeypairSeed _ _ _ _ _ _ e1
  have n3 := real_sized.spxKeypairSeed _ _ _ _ _ _ e3
  have hK : ∀ pk2 sk2, Dilithium.Spec.KeyGen S128 S256 ((seedb.drop 32).take 32) pk2 sk2 → KeysOf S128 S256 seedb
      (Ed25519.Spec.publicKey (seedb.take 32) ++ pk2 ++ Sphincs.Spec.publicKey S256 ⟨seedb.drop 128, (seedb.drop 64).take 32⟩)
      ((seedb.take 32 ++ Ed25519.Spec.publicKey (seedb.take 32)) ++ sk2 ++ pk2 ++ (seedb.drop 64 ++ (Sphincs.Spec.publicKey S256 ⟨seedb.drop 128, (seedb.drop 64).take 32⟩).drop 32)) :=
    fun pk2 sk2 h => ⟨pk2, sk2, h, rfl, rfl⟩
  have z : ∀ n, (zeros n).length = n := fun n => by simp
  rw [z, z] at n1 n3
  obtain ⟨n1, n1'⟩ := n1
  obtain ⟨n3, n3'⟩ := n3
  unfold keyTail
  rw [e1, e3]
  generalize seedb.drop 64 ++ (Sphincs.Spec.publicKey S256 ⟨seedb.drop 128, (seedb.drop 64).take 32⟩).drop 32 = ssk at *
  generalize Sphincs.Spec.publicKey S256 ⟨seedb.drop 128, (seedb.drop 64).take 32⟩ = spk at *
  generalize seedb.take 32 ++ Ed25519.Spec.publicKey (seedb.take 32) = esk at *
  generalize Ed25519.Spec.publicKey (seedb.take 32) = epk at *
  refine Safe.bind (safe_liftC fun x hx => ?_)
  obtain rfl := Except.ok.inj hx
  show Safe base G Q (if (0 : Int) ≠ 0 then _ else _) st sp R S
  rw [if_neg (by simp)]
  refine Safe.bind (safe_copyOut hpk (by omega) (fun f hf => hE f (Or.inl ?_)) ?_)
  · rwa [slice_self n1] at hf
  rw [slice_self n1]
  refine Safe.bind (safe_copyOut hsk (by omega) (fun f hf => hE f (Or.inr ?_)) ?_)
  · rwa [slice_self n1'] at hf
  rw [slice_self n1']
  refine Safe.bind (safe_liftC fun x hx => ?_)
  obtain ⟨r2, pk2, sk2⟩ := x
  obtain ⟨rfl, n2, n2', hg⟩ := e2 _ _ _ hx
  have hK := hK pk2 sk2 hg
  have hAp : At pk 0 (epk ++ pk2 ++ spk) = At pk 0 epk ∪ At pk 32 pk2 ∪ At pk 1344 spk := by
    rw [At_append, At_append, List.length_append, n1, n2]
  have hAs : At sk 0 (esk ++ sk2 ++ pk2 ++ ssk) = At sk 0 esk ∪ At sk 64 sk2 ∪ At sk 2624 pk2 ∪ At sk 3936 ssk := by
    rw [At_append, At_append, At_append, List.length_append, List.length_append, List.length_append, n1', n2, n2']
  have hG := hG _ _ hK
  have hQ := hQ _ _ hK
  rw [hAp, hAs] at hG hQ
  show Safe base G Q (if (0 : Int) ≠ 0 then _ else _) st sp R _
  rw [if_neg (by simp)]
  refine Safe.bind (safe_copyOut hsk (by omega) (fun f hf => hG f ?_) ?_)
  · rw [slice_self n2'] at hf
    exact Or.inr (Or.inl (Or.inl (Or.inr hf)))
  rw [slice_self n2']
  refine Safe.bind (safe_storeBoth hpk hsk n2.symm (fun f hf => hG f ?_) ?_)
  · rcases hf with hf | hf
    · exact Or.inl (Or.inl (Or.inr hf))
    · exact Or.inr (Or.inl (Or.inr hf))
  refine Safe.bind (safe_liftC fun x hx => ?_)
  obtain rfl := Except.ok.inj hx
  show Safe base G Q (if (0 : Int) ≠ 0 then _ else _) st sp R _
  rw [if_neg (by simp)]
  refine Safe.bind (safe_copyOut hsk (by omega) (fun f hf => hG f ?_) ?_)
  · rw [slice_self n3'] at hf
    exact Or.inr (Or.inr hf)
  rw [slice_self n3']
  refine Safe.bind (safe_copyOut hpk (by omega) (fun f hf => hG f ?_) ?_)
  · rw [slice_self n3] at hf
    exact Or.inl (Or.inr hf)
  rw [slice_self n3]
  refine safe_pure ?_
  convert hQ using 1
  ext f
  simp only [Set.mem_union]
  tauto

theorem slices_append {x y z : Bytes} (hx : x.length = 32) (hy : y.length = 32) (hz : z.length = 96) :
    slice (x ++ y ++ z) 0 32 = x ∧ slice (x ++ y ++ z) 32 32 = y ∧ slice (x ++ y ++ z) 64 96 = z := by
  refine ⟨?_, ?_, ?_⟩
  · rw [slice, List.drop_zero, List.append_assoc, List.take_append_of_le_length (by omega), List.take_of_length_le (by omega)]
  · rw [slice, List.append_assoc, List.drop_append_of_le_length (by omega), List.drop_of_length_le (by omega), List.nil_append, List.take_append_of_le_length (by omega), List.take_of_length_le (by omega)]
  · rw [slice, List.drop_append_of_le_length (by simp; omega), List.drop_of_length_le (by simp; omega), List.nil_append, List.take_of_length_le (by omega)]

/-- Seeded key generation with the seed in common memory. -/
theorem safe_keypairSeed {fuel : Nat} {Q : (Nat → Option Bytes) → Nat → Facts → Facts → Int → Prop} {pk sk seed : Ptr} (hpk : pk.blk < base) (hsk : sk.blk < base) (hseed : seed.blk < base)
    (hE : ∀ seedb : Bytes, seedb.length = 160 → ∀ f ∈ At pk 0 (Ed25519.Spec.publicKey (seedb.take 32)) ∪ At sk 0 (seedb.take 32 ++ Ed25519.Spec.publicKey (seedb.take 32)), G (R ∪ At seed 0 seedb) f.1 f.2)
    (hG : ∀ seedb pkb skb : Bytes, seedb.length = 160 → KeysOf S128 S256 seedb pkb skb → ∀ f ∈ At pk 0 pkb ∪ At sk 0 skb, G (R ∪ At seed 0 seedb) f.1 f.2)
    (hQ : ∀ seedb pkb skb : Bytes, seedb.length = 160 → KeysOf S128 S256 seedb pkb skb → Q st sp (R ∪ At seed 0 seedb) (S ∪ (At pk 0 pkb ∪ At sk 0 skb)) 0) :
    Safe base G Q (keypairSeed (real fuel) (some pk) (some sk) (some seed)) st sp R S := by
  rw [keypairSeed_split]
  refine Safe.bind (safe_copyIn hseed (by simp) fun x lx => ?_)
  refine Safe.bind (safe_copyIn hseed (by simp) fun y ly => ?_)
  refine Safe.bind (safe_copyIn hseed (by simp) fun z lz => ?_)
  rw [splice_all (by simp [lx]), splice_all (by simp [ly]), splice_all (by simp [lz])]
  obtain ⟨s1, s2, s3⟩ := slices_append lx ly lz
  have hl : (x ++ y ++ z).length = 160 := by rw [List.length_append, List.length_append, lx, ly, lz]
  have hA : R ∪ At seed 0 x ∪ At seed 32 y ∪ At seed 64 z = R ∪ At seed 0 (x ++ y ++ z) := by
    rw [At_append, At_append, List.length_append, lx, ly, Set.union_assoc, Set.union_assoc, Set.union_assoc]
  rw [hA]
  have := safe_keyTail (fuel := fuel) (G := G) (Q := Q) (st := st) (sp := sp) (R := R ∪ At seed 0 (x ++ y ++ z)) (S := S) hpk hsk hl (hE _ hl) (fun _ _ => hG _ _ _ hl) (fun _ _ => hQ _ _ _ hl)
  rwa [s1, s2, s3] at this

/-- Seeded key generation with the seed in a local array. -/
theorem safe_keypairSeed_local {fuel : Nat} {Q : (Nat → Option Bytes) → Nat → Facts → Facts → Int → Prop} {pk sk : Ptr} {k : Nat} {seedb : Bytes} (hpk : pk.blk < base) (hsk : sk.blk < base) (hk : base ≤ k)
    (hst : st k = some seedb) (hl : seedb.length = 160)
    (hE : ∀ f ∈ At pk 0 (Ed25519.Spec.publicKey (seedb.take 32)) ∪ At sk 0 (seedb.take 32 ++ Ed25519.Spec.publicKey (seedb.take 32)), G R f.1 f.2)
    (hG : ∀ pkb skb, KeysOf S128 S256 seedb pkb skb → ∀ f ∈ At pk 0 pkb ∪ At sk 0 skb, G R f.1 f.2)
    (hQ : ∀ pkb skb, KeysOf S128 S256 seedb pkb skb → Q st sp R (S ∪ (At pk 0 pkb ∪ At sk 0 skb)) 0) :
    Safe base G Q (keypairSeed (real fuel) (some pk) (some sk) (some ⟨k, 0⟩)) st sp R S := by
  rw [keypairSeed_split]
  refine Safe.bind (safe_copyIn_localAt hk hst (by omega) (by simp) ?_)
  refine Safe.bind (safe_copyIn_localAt hk hst (by omega) (by simp) ?_)
  refine Safe.bind (safe_copyIn_localAt hk hst (by omega) (by simp) ?_)
  rw [splice_all (by rw [length_slice (by omega)]; simp), splice_all (by rw [length_slice (by omega)]; simp), splice_all (by rw [length_slice (by omega)]; simp)]
  exact safe_keyTail hpk hsk hl hE hG hQ

end

section
variable {base : Nat} {G : Facts → Addr → Byte → Prop} {st : Nat → Option Bytes} {sp : Nat} {R S : Facts}

/-- The bytes at the even positions below 64 (no line of its own). -/
def EvenAt (seed : Ptr) (x : Bytes) : Facts := {f | ∃ j, j < 32 ∧ x[2 * j]? = some f.2 ∧ f.1 = (seed.blk, seed.off + 2 * j)}

/-- The copying loop of the seed expander: only the bytes at even positions are read, and the others stay zero. -/
theorem safe_expanderCopy {Q : (Nat → Option Bytes) → Nat → Facts → Facts → Bytes → Prop} {seed : Ptr} (hseed : seed.blk < base)
    (h : ∀ x : Bytes, x.length = 64 → (∀ k, k < 32 → x[2 * k + 1]? = some 0) → Q st sp (R ∪ EvenAt seed x) S x) : Safe base G Q (expanderCopy (zeros 64) seed) st sp R S := by
  have key : ∀ n i (b : Bytes) (R' : Facts), i + n = 32 → b.length = 64 → (∀ k, k < 32 → b[2 * k + 1]? = some 0) →
      (R' = R ∪ {f | ∃ j, j < i ∧ b[2 * j]? = some f.2 ∧ f.1 = (seed.blk, seed.off + 2 * j)}) →
      Safe base G Q (loopM (fun k b => do
        let v ← load seed (2 * k)
        liftC (wr b (2 * k) v)) i n b) st sp R' S := by
    intro n
    induction n with
    | zero =>
      intro i b R' hi hb ho hR
      obtain rfl : i = 32 := by omega
      rw [hR]
      exact h b hb ho
    | succ n ih =>
      intro i b R' hi hb ho hR
      refine Safe.bind (Safe.bind (safe_load hseed fun v => safe_liftC fun c hc => ?_))
      rw [wr_ok (by omega)] at hc
      obtain rfl := Except.ok.inj hc
      refine ih (i + 1) _ _ (by omega) (by rw [List.length_set, hb]) (fun k hk => ?_) ?_
      · rw [List.getElem?_set_ne (by omega)]
        exact ho k hk
      · rw [hR, Set.union_assoc]
        congr 1
        ext ⟨a, w⟩
        simp only [Set.mem_union, Set.mem_ofPred_eq, Set.mem_singleton_iff, Prod.mk.injEq]
        constructor
        · rintro (⟨j, h1, h2, h3⟩ | ⟨h1, h2⟩)
          · exact ⟨j, by omega, by rw [List.getElem?_set_ne (by omega)]; exact h2, h3⟩
          · exact ⟨i, by omega, by rw [List.getElem?_set_self (by omega), h2], h1⟩
        · rintro ⟨j, h1, h2, h3⟩
          by_cases hj : j = i
          · subst hj
            rw [List.getElem?_set_self (by omega)] at h2
            exact Or.inr ⟨h3, (Option.some.inj h2).symm⟩
          · rw [List.getElem?_set_ne (by omega)] at h2
            exact Or.inl ⟨j, by omega, h2, h3⟩
  refine key 32 0 _ R (by omega) (by simp) (fun k hk => ?_) (by simp)
  rw [zeros, List.getElem?_replicate, if_pos (by omega)]

end

/-! ### The first draw -/

section
variable {α : Type} [DecidableEq ι]

theorem step_draw_fun (x : Prog α) (W : World) : (step x W).2.rng.draw = W.rng.draw := by
  cases x with
  | ret a => rfl
  | fail e => rfl
  | load p i k => rw [step_load]; cases byteAt W.mem (p.blk, p.off + i) <;> rfl
  | store p i v k => rw [step_store]; cases byteAt W.mem (p.blk, p.off + i) <;> rfl
  | draw n k => rfl
  | push init k => rfl
  | pop p k => rfl

theorem run_draw (c : Conf ι α) (s : List ι) : (c.run s).rng.draw = c.rng.draw := by
  induction s generalizing c with
  | nil => rfl
  | cons i s ih => exact (ih _).trans (step_draw_fun _ _)

theorem run_unscheduled {c : Conf ι α} {i : ι} {s : List ι} (h : i ∉ s) : (c.run s).thr i = c.thr i := by
  induction s generalizing c with
  | nil => rfl
  | cons j s ih =>
    rw [List.mem_cons, not_or] at h
    exact (ih h.2).trans (next_thr_ne c h.1)

theorem run_got (c : Conf ι α) (s : List ι) (i : ι) : (c.thr i).got <+: ((c.run s).thr i).got := by
  induction s generalizing c with
  | nil => exact List.prefix_rfl
  | cons j s ih =>
    refine List.IsPrefix.trans ?_ (ih (c.next j))
    by_cases h : i = j
    · subst h
      simp [Conf.next]
    · rw [next_thr_ne c h]

theorem not_stored_unscheduled {c : Conf ι α} {i : ι} {s : List ι} (h : i ∉ s) (a : Addr) (v : Byte) : ¬ Stored c i s a v := by
  rintro ⟨t, u, q, j, k, rfl, -⟩
  exact h (by simp)

theorem stored_append {c : Conf ι α} {i : ι} {t : List ι} (ht : ∀ a v, ¬ Stored c i t a v) (u : List ι) (a : Addr) (v : Byte) : Stored c i (t ++ u) a v ↔ Stored (c.run t) i u a v := by
  induction u using List.reverseRecOn with
  | nil =>
    rw [List.append_nil]
    refine ⟨fun h => absurd h (ht a v), ?_⟩
    rintro ⟨t', u', q, j, k, h, -⟩
    simp at h
  | append_singleton u j ih => rw [← List.append_assoc, stored_snoc, stored_snoc, ih, run_append, run_base]

theorem Held.append {c : Conf ι α} {t u : List ι} {a : Addr} {v : Byte} : Held (c.run t) u a v → Held c (t ++ u) a v := by
  rintro ⟨t', ⟨w, hw⟩, h⟩
  exact ⟨t ++ t', ⟨w, by rw [List.append_assoc, hw]⟩, by rw [run_append]; exact h⟩

/-- A call that begins with a draw from the random source: nothing has happened, or the draw has been made and the rest is known for what it gave. -/
theorem safe_draw_run {G : Option Bytes → Facts → Addr → Byte → Prop} {Q : Option Bytes → (Nat → Option Bytes) → Nat → Facts → Facts → α → Prop} {W : World} {p : ι → Prog α} {i : ι} {n : Nat}
    {k : Option Bytes → Prog α} (hp : p i = .draw n k) (h : ∀ o, (∀ b, o = some b → b.length = n) → Safe W.sp (G o) (Q o) (k o) (fun _ => none) W.sp ∅ ∅) (s : List ι) :
    (((start W p).run s).thr i = (start W p).thr i ∧ ∀ a v, ¬ Stored (start W p) i s a v) ∨
    ∃ j, [j] <+: (((start W p).run s).thr i).got ∧
      (∀ a v, Stored (start W p) i s a v → ∃ R : Facts, (∀ f ∈ R, Held (start W p) s f.1 f.2) ∧ G (W.rng.draw j n) R a v) ∧
      ∃ st R S, (∀ f ∈ R, Held (start W p) s f.1 f.2) ∧ (∀ a v, (a, v) ∈ S ↔ Stored (start W p) i s a v) ∧
        Safe W.sp (G (W.rng.draw j n)) (Q (W.rng.draw j n)) (((start W p).run s).thr i).prog st (((start W p).run s).thr i).sp R S := by
  by_cases hi : i ∈ s
  swap
  · exact Or.inl ⟨run_unscheduled hi, not_stored_unscheduled hi⟩
  right
  obtain ⟨t, u, rfl, ht⟩ := List.eq_append_cons_of_mem hi
  generalize hc0 : (start W p).run t = c0
  have hthr : c0.thr i = (start W p).thr i := by rw [← hc0]; exact run_unscheduled ht
  have hpr : (c0.thr i).prog = .draw n k := by rw [hthr]; exact hp
  have hdr : c0.rng.draw = W.rng.draw := by rw [← hc0]; exact run_draw _ _
  have hb : c0.base = W.sp := by rw [← hc0]; exact run_base _ _
  have e : t ++ i :: u = (t ++ [i]) ++ u := by simp
  have hc1 : (start W p).run (t ++ [i]) = c0.next i := by rw [run_append, hc0]; rfl
  have hns : ∀ a v, ¬ Stored (start W p) i (t ++ [i]) a v := by
    intro a v hst
    rw [stored_snoc, hc0] at hst
    rcases hst with hst | ⟨-, q, o, k', h1, -⟩
    · exact not_stored_unscheduled ht a v hst
    · rw [hpr] at h1; cases h1
  have g1 : ((c0.next i).thr i).got = [c0.rng.log.length] := by
    simp only [Conf.next, Function.update_self, hpr]
    rw [hthr]
    show [] ++ List.range' c0.rng.log.length ((c0.rng.log ++ [_]).length - c0.rng.log.length) = _
    rw [List.length_append, List.length_singleton, Nat.add_sub_cancel_left]
    rfl
  have p1 : ((c0.next i).thr i).prog = k (W.rng.draw c0.rng.log.length n) := by
    rw [next_thr_self, hpr, ← hdr]
    rfl
  have sp1 : ((c0.next i).thr i).sp = W.sp := by
    simp only [Conf.next, Function.update_self, hpr]
    show (c0.thr i).sp = _
    rw [hthr]; rfl
  have st1 : ∀ b, (c0.next i).base ≤ b → (fun _ => none) b = ((c0.next i).thr i).stack b := by
    intro b hbb
    have hbb : c0.base ≤ b := hbb
    simp only [Conf.next, Function.update_self, hpr]
    show none = (if b < c0.base then _ else _)
    rw [if_neg (by omega), hthr]; rfl
  have b1 : (c0.next i).base = W.sp := hb
  have key := safe_run_from (c0 := c0.next i) (i := i) (G := G (W.rng.draw c0.rng.log.length n)) (Q := Q (W.rng.draw c0.rng.log.length n)) st1 (by rw [b1, sp1]) (by
    rw [b1, sp1, p1]
    exact h _ fun b hbs => W.rng.len_draw _ _ _ hbs) u
  obtain ⟨k1, st, R, S, -, -, hR, hS, hQ⟩ := key
  have hrun : (start W p).run (t ++ i :: u) = (c0.next i).run u := by rw [e, run_append, hc1]
  have hstored : ∀ a v, Stored (start W p) i (t ++ i :: u) a v ↔ Stored (c0.next i) i u a v := by
    intro a v
    rw [e, stored_append hns, hc1]
  have hheld : ∀ a v, Held (c0.next i) u a v → Held (start W p) (t ++ i :: u) a v := by
    intro a v hh
    rw [e]
    exact Held.append (by rw [hc1]; exact hh)
  rw [b1] at hQ
  refine ⟨c0.rng.log.length, ?_, fun a v hst => ?_, st, R, S, fun f hf => hheld _ _ (hR f hf), fun a v => (hS a v).trans (hstored a v).symm, ?_⟩
  · rw [hrun, ← g1]
    exact run_got _ _ _
  · obtain ⟨R', hR', hG⟩ := k1 a v ((hstored a v).1 hst)
    exact ⟨R', fun f hf => hheld _ _ (hR' f hf), hG⟩
  · rw [hrun]
    exact hQ

end

/-! ### Without interruption -/

/-- `keyTail` in the memory model without interruption (hybrid-dilithium-sphincs/hybrid.c:202-244). -/
def keyTailM (P : Prims) (pk sk : Ptr) (seed1 seed2 seed3 : Bytes) : M Int := do
  let (r1, pk1, sk1) ← Verif.liftC (P.edKeypairSeed (zeros 32) (zeros 64) seed1)
  if r1 ≠ 0 then pure (-2) else do
  Verif.copyOut pk 0 pk1 0 32
  Verif.copyOut sk 0 sk1 0 64
  let (r2, pk2, sk2) ← Verif.liftC (P.dilKeypairSeed (zeros 1312) (zeros 2560) seed2)
  if r2 ≠ 0 then pure (-3) else do
  Verif.copyOut sk 64 sk2 0 2560
  Verif.loopM (fun i (_ : Unit) => do
    let v ← Verif.liftC (rd pk2 i)
    Verif.store pk (32 + i) v
    let v ← Verif.liftC (rd pk2 i)
    Verif.store sk (2624 + i) v) 0 1312 ()
  let (r3, pk3, sk3) ← Verif.liftC (P.spxKeypairSeed (zeros 64) (zeros 128) seed3)
  if r3 ≠ 0 then pure (-4) else do
  Verif.copyOut sk 3936 sk3 0 128
  Verif.copyOut pk 1344 pk3 0 64
  pure 0

theorem exec_keyTail (P : Prims) (pk sk : Ptr) (x y z : Bytes) : exec (keyTail P pk sk x y z) = keyTailM P pk sk x y z := by
  unfold keyTail keyTailM
  repeat' exec_step
  rw [exec_bind, exec_loopM _ _ (fun k s => by simp only [exec_bind, exec_store, exec_liftC]; rfl)]
  refine bc fun _ => ?_
  repeat' exec_step

section
open Verif.Hybrid

theorem keyTailM_run {P : Prims} {W : World} (hP : P.Sized) {pk sk : Ptr} {seedb : Bytes}
    (hpk : (W.view pk 1408).isSome) (hsk : (W.view sk 4064).isSome)
    (hd : Disj pk 1408 sk 4064) :
    keyTailM P pk sk (slice seedb 0 32) (slice seedb 32 32) (slice seedb 64 96) W =
      (keyBytes P seedb >>= fun r => .ok (r.1, (W.write pk r.2.1).write sk r.2.2)) := by
  simp only [keyTailM, keyBytes]
  simp only [M_bind_apply]
  cases he : P.edKeypairSeed (zeros 32) (zeros 64) (slice seedb 0 32) with
  | error e => rfl
  | ok t1 =>
    obtain ⟨r1, pk1, sk1⟩ := t1
    obtain ⟨l1, l1'⟩ := hP.edKeypairSeed _ _ _ _ _ _ he
    simp only [length_zeros] at l1 l1'
    simp only [liftC_ok, ok_bind]
    by_cases c1 : r1 = 0
    swap
    · rw [if_pos c1, if_pos c1]; simp [write_nil]
    rw [if_neg (not_not.2 c1), if_neg (not_not.2 c1)]
    simp only [M_bind_apply]
    rw [← write_nil W pk, copyOut_append hpk (by rfl) (by omega) (by omega)]; simp only [ok_bind]
    rw [slice_full l1, List.nil_append, write_nil]
    rw [← write_nil (W.write pk pk1) sk,
      copyOut_append (write_view_isSome hsk) (by rfl) (by omega) (by omega)]; simp only [ok_bind]
    rw [slice_full l1', List.nil_append]
    cases hdk : P.dilKeypairSeed (zeros 1312) (zeros 2560) (slice seedb 32 32) with
    | error e => rfl
    | ok t2 =>
      obtain ⟨r2, pk2, sk2⟩ := t2
      obtain ⟨l2, l2'⟩ := hP.dilKeypairSeed _ _ _ _ _ _ hdk
      simp only [length_zeros] at l2 l2'
      simp only [liftC_ok, ok_bind]
      by_cases c2 : r2 = 0
      swap
      · rw [if_pos c2, if_pos c2]; rfl
      rw [if_neg (not_not.2 c2), if_neg (not_not.2 c2)]
      simp only [M_bind_apply]
      rw [copyOut_append (write_view_isSome hsk) (by omega) (by omega) (by omega)]; simp only [ok_bind]
      rw [slice_full l2']
      obtain ⟨u, W2, e2, hW2⟩ := loopM_ok
        (fun k _ W' => W' = (W.write pk (pk1 ++ slice pk2 0 k)).write sk (sk1 ++ sk2 ++ slice pk2 0 k))
        (fun i (_ : Unit) => do
          let v ← Verif.liftC (rd pk2 i)
          Verif.store pk (32 + i) v
          let v ← Verif.liftC (rd pk2 i)
          Verif.store sk (2624 + i) v) 0 1312 () ((W.write pk pk1).write sk (sk1 ++ sk2)) (by simp [slice])
        (by
          rintro k _ W' _ hk rfl
          have hl : (slice pk2 0 k).length = k := length_slice (by omega)
          refine ⟨(), _, ?_, rfl⟩
          simp only [M_bind_apply]
          rw [rd_ok (by omega)]; simp only [liftC_ok, ok_bind]
          rw [store_first hpk hd (by simp; omega) (by simp; omega) (by omega)]; simp only [ok_bind]
          rw [store_append (write_view_isSome hsk) (by simp; omega) (by omega)]
          have hsn := slice_snoc (b := pk2) (o := 0) (n := k) (by omega)
          simp only [Nat.zero_add] at hsn
          rw [hsn]
          simp only [List.append_assoc])
      simp only [Nat.zero_add] at hW2
      rw [e2]; simp only [ok_bind]
      rw [hW2, slice_full l2]
      cases hsx : P.spxKeypairSeed (zeros 64) (zeros 128) (slice seedb 64 96) with
      | error e => rfl
      | ok t3 =>
        obtain ⟨r3, pk3, sk3⟩ := t3
        obtain ⟨l3, l3'⟩ := hP.spxKeypairSeed _ _ _ _ _ _ hsx
        simp only [length_zeros] at l3 l3'
        simp only [liftC_ok, ok_bind]
        by_cases c3 : r3 = 0
        swap
        · rw [if_pos c3, if_pos c3]; rfl
        rw [if_neg (not_not.2 c3), if_neg (not_not.2 c3)]
        simp only [M_bind_apply]
        rw [copyOut_append (write_view_isSome hsk) (by simp; omega) (by omega) (by omega)]; simp only [ok_bind]
        rw [copyOut_first hpk hd (by simp [slice]; omega) (by simp; omega) (by omega) (by omega)]; simp only [ok_bind]
        rw [slice_full l3, slice_full l3']
        rfl


end

end Verif.Conc
