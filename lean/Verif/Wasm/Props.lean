import Verif.Wasm.Model
import Verif.Real.Props3
import Verif.Hybrid.Toy

/-! The properties C81 to C84: wasm/hybrid-pqc.c. -/

namespace Verif.Wasm
open Verif Verif.Hybrid Verif.Real Verif.Dilithium Verif.Hybrid.Toy

variable {H128 H256 : Bytes → Nat → Bytes}

/-! ### Lemmas -/

theorem view_none {W : World} {p : Ptr} {n : Nat} (h : W.view p n = none) : ∀ b, W.mem p.blk = some b → b.length < p.off + n := by
  intro b hb
  unfold World.view at h
  rw [hb] at h
  simp only at h
  split at h
  · cases h
  · omega

theorem write_view_none {W : World} {p q : Ptr} {x : Bytes} {k : Nat} (h : W.view q k = none) : (W.write p x).view q k = none := by
  have := view_write_isSome (W := W) (p := p) (q := q) (x := x) (k := k)
  rw [h] at this
  simpa using this

theorem store_loop_ub {src : Bytes} {p : Ptr} : ∀ (n i : Nat) (W : World), i + n ≤ src.length → 0 < n → (∀ b, W.mem p.blk = some b → b.length < p.off + i + n) →
    loopM (fun i (_ : Unit) => do
      let v ← liftC (rd src (0 + i))
      store p (0 + i) v) i n () W = .error .ub
  | 0, _, _, _, h, _ => by omega
  | n + 1, i, W, hs, _, hb => by
    have hr : rd src (0 + i) = .ok (src[i]'(by omega)) := by simp only [Nat.zero_add]; exact rd_ok (by omega)
    unfold loopM
    rw [M_bind_apply, M_bind_apply, hr, liftC_ok, ok_bind]
    simp only [Nat.zero_add]
    cases hm : W.mem p.blk with
    | none => unfold store; rw [hm]; rfl
    | some b =>
      unfold store
      rw [hm]
      simp only []
      by_cases hl : p.off + i < b.length
      · rw [wr_ok hl]
        simp only [ok_bind]
        have := hb b hm
        have ih := store_loop_ub (src := src) (p := p) n (i + 1) { W with mem := Function.update W.mem p.blk (some (b.set (p.off + i) (src[i]'(by omega)))) }
          (by omega) (by omega) (by
            intro b' hb'
            simp only [Function.update_self, Option.some.injEq] at hb'
            subst hb'
            rw [List.length_set]
            omega)
        simp only [Nat.zero_add] at ih
        exact ih
      · unfold wr
        rw [if_neg hl]
        rfl

theorem copyOut_ub {W : World} {p : Ptr} {src : Bytes} {n : Nat} (hs : n ≤ src.length) (hn : 0 < n) (h : W.view p n = none) : copyOut p 0 src 0 n W = .error .ub := by
  unfold copyOut
  exact store_loop_ub n 0 W (by omega) hn (fun b hb => by have := view_none h b hb; omega)

theorem storeU64_ub {W : World} {p : Ptr} {v : Nat} (h : W.view p 8 = none) : storeU64 p v W = .error .ub := by
  unfold storeU64
  exact copyOut_ub (by simp) (by omega) h

theorem signTail_ub {W : World} {sm smlen m : Ptr} {mlen : Nat} {mb pre : Bytes} (hpre : pre.length = 2526)
    (hm : W.view m mlen = some mb) (hsm : (W.view sm (2526 + mlen)).isSome) (hl : W.view smlen 8 = none)
    (hd : Disj sm (2526 + mlen) m mlen) : signTail sm smlen m mlen (W.write sm pre) = .error .ub := by
  simp only [signTail, M_bind_apply]
  rw [copyMem_append (y := mb) hsm hpre (by omega) (by simpa [Ptr.add] using hm) (by simpa [Ptr.add] using hd)]
  simp only [ok_bind]
  rw [storeU64_ub (write_view_none hl)]
  rfl

theorem copyOut_all {W : World} {p : Ptr} {b : Bytes} (hv : (W.view p b.length).isSome) : copyOut p 0 b 0 b.length W = .ok ((), W.write p b) := by
  rw [copyOut_ok (by simpa [Ptr.add] using hv) (by omega), show slice b 0 b.length = b by simp [slice]]
  rfl

theorem onWorld_ok {α : Type} {x : M α} {h h' : Heap} {a : α} : onWorld x h = .ok (a, h') ↔ x h.world = .ok (a, h'.world) ∧ h' = { h with world := h'.world } := by
  unfold onWorld
  split
  · rename_i b W e
    rw [e]
    constructor
    · intro hh; cases hh; exact ⟨rfl, rfl⟩
    · rintro ⟨h1, h2⟩
      cases h1
      rw [h2]
  · rename_i e he
    rw [he]
    constructor
    · intro hh; cases hh
    · rintro ⟨hh, -⟩; cases hh

theorem onWorld_run {α : Type} {x : M α} {h : Heap} {a : α} {W : World} (e : x h.world = .ok (a, W)) : onWorld x h = .ok (a, { h with world := W }) := by
  unfold onWorld
  rw [e]

theorem onWorld_error {α : Type} {x : M α} {h : Heap} {f : Fault} (e : x h.world = .error f) : onWorld x h = .error f := by
  unfold onWorld
  rw [e]

/-! ### C81: dp_sign -/

/-- With eight bytes behind `smlen`, `dp_sign` makes compact signatures as the specification says, and touches neither the heap nor any other memory. -/
theorem wasm_sign (h1 : IsShake128 H128) (h2 : IsShake256 H256) {h : Heap} {sm smlen m sk : Ptr} {mlen : Nat} {mb skb : Bytes}
    (hm : h.world.view m mlen = some mb) (hsk : h.world.view sk 4064 = some skb) (hsm : (h.world.view sm (2526 + mlen)).isSome) (hl : (h.world.view smlen 8).isSome)
    (hd : Disj sm (2526 + mlen) m mlen) (hlo : 1 ≤ mlen) (hhi : mlen ≤ 64) :
    (∀ fuel r h', dpSign (real fuel) (some sm) (some smlen) (some m) mlen (some sk) h = .ok (r, h') →
      (r = -1 ∧ h.world.rng.draw h.world.rng.log.length 40 = none ∧ h' = { h with world := { h.world with rng := Sphincs.drawn h.world.rng 40 } }) ∨
      (r = 0 ∧ ∃ nonce sig, h.world.rng.draw h.world.rng.log.length 40 = some nonce ∧ CompactSigned H128 H256 skb mb nonce sig ∧
        h' = { h with world := (({ h.world with rng := Sphincs.drawn h.world.rng 40 } : World).write sm sig).write smlen (le64 (2526 + mlen)) })) ∧
    (∀ nonce sig, h.world.rng.draw h.world.rng.log.length 40 = some nonce → CompactSigned H128 H256 skb mb nonce sig → ∃ F, ∀ fuel, F ≤ fuel →
      dpSign (real fuel) (some sm) (some smlen) (some m) mlen (some sk) h =
        .ok (0, { h with world := (({ h.world with rng := Sphincs.drawn h.world.rng 40 } : World).write sm sig).write smlen (le64 (2526 + mlen)) })) := by
  have hr := real_compact_sign h1 h2 hm hsk hsm hl hd hlo hhi
  constructor
  · intro fuel r h' e
    obtain ⟨e1, e2⟩ := onWorld_ok.1 e
    rcases hr.1 _ _ _ e1 with ⟨a, b, c⟩ | ⟨a, nonce, sig, b, c, d⟩
    · exact Or.inl ⟨a, b, by rw [e2, c]⟩
    · exact Or.inr ⟨a, nonce, sig, b, c, by rw [e2, d]⟩
  · intro nonce sig a b
    obtain ⟨F, hF⟩ := hr.2 nonce sig a b
    exact ⟨F, fun fuel hf => onWorld_run (hF fuel hf)⟩

/-- A module memory for examples: the memory of Verif/Hybrid/Toy.lean, with three blocks from `malloc` (no line of its own; wasm/hybrid-pqc.c:13-27). -/
def demoHeap : Heap := { world := demo, live := [1, 3, 7], freed := [] }

example : demoHeap.world.view ⟨2, 0⟩ 20 = some (List.replicate 20 5) ∧ (demoHeap.world.view ⟨3, 0⟩ 4064).isSome ∧ (demoHeap.world.view ⟨0, 0⟩ (2526 + 20)).isSome ∧
    (demoHeap.world.view ⟨1, 0⟩ 8).isSome ∧ Disj ⟨0, 0⟩ (2526 + 20) ⟨2, 0⟩ 20 ∧ demoHeap.world.rng.draw demoHeap.world.rng.log.length 40 = some (List.replicate 40 0) :=
  ⟨demo_m 20 (by omega), some_isSome demo_sk, some_isSome (demo_sm _ (by omega)), some_isSome demo_len, Or.inl (by decide), rfl⟩

/-- But the parameter is declared `size_t *`, and a `size_t` has four bytes in WebAssembly: if fewer than eight bytes are there, every call that would succeed writes behind
the object, and none returns 0. -/
theorem wasm_sign_size_t_overflow (h1 : IsShake128 H128) (h2 : IsShake256 H256) {h : Heap} (hW : h.world.WF) {sm smlen m sk : Ptr} {mlen : Nat} {mb skb : Bytes}
    (hm : h.world.view m mlen = some mb) (hsk : h.world.view sk 4064 = some skb) (hsm : (h.world.view sm (2526 + mlen)).isSome) (hl : h.world.view smlen 8 = none)
    (hd : Disj sm (2526 + mlen) m mlen) (hlo : 1 ≤ mlen) (hhi : mlen ≤ 64) :
    (∀ fuel r h', dpSign (real fuel) (some sm) (some smlen) (some m) mlen (some sk) h = .ok (r, h') → r = -1 ∧ h.world.rng.draw h.world.rng.log.length 40 = none) ∧
    (∀ nonce sig, h.world.rng.draw h.world.rng.log.length 40 = some nonce → CompactSigned H128 H256 skb mb nonce sig → ∃ F, ∀ fuel, F ≤ fuel →
      dpSign (real fuel) (some sm) (some smlen) (some m) mlen (some sk) h = .error .ub) := by
  have key : ∀ fuel, signCompact (real fuel) (some sm) (some smlen) (some m) mlen (some sk) h.world =
      (compactSig (real fuel) mb skb h.world.rng >>= fun p => match p.1 with
        | .error c => .ok (c, { h.world with rng := p.2 })
        | .ok _ => .error .ub) := by
    intro fuel
    rw [signCompact_gen real_sized hm hsk hsm hlo hhi]
    cases hs : compactSig (real fuel) mb skb h.world.rng with
    | error e => rfl
    | ok t =>
      obtain ⟨x, R'⟩ := t
      cases x with
      | error c => rfl
      | ok sig =>
        obtain ⟨pre, hp, rfl⟩ := compactSig_form real_sized hs
        simp only [ok_bind]
        rw [List.take_append_of_le_length (by omega), List.take_of_length_le (by omega)]
        exact signTail_ub (W := { h.world with rng := R' }) hp hm hsm hl hd
  generalize hV : push h.world (zeros 8) = V
  have vr : V.rng = h.world.rng := by rw [← hV]; rfl
  have vm : V.view m mlen = some mb := by rw [← hV]; exact push_view hW _ hm
  have vsk : V.view sk 4064 = some skb := by rw [← hV]; exact push_view hW _ hsk
  have vsm : (V.view sm (2526 + mlen)).isSome := by rw [← hV]; exact push_view_isSome hW _ hsm
  have vl : (V.view ⟨h.world.sp, 0⟩ 8).isSome := by rw [← hV, push_view_new _ _ (by simp)]; rfl
  have hr := real_compact_sign h1 h2 vm vsk vsm vl hd hlo hhi
  have run : ∀ fuel, signCompact (real fuel) (some sm) (some ⟨h.world.sp, 0⟩) (some m) mlen (some sk) V = _ := fun fuel =>
    signCompact_run real_sized vm vsk vsm vl hd hlo hhi
  rw [vr] at hr
  constructor
  · intro fuel r h' e
    obtain ⟨e1, -⟩ := onWorld_ok.1 e
    rw [key] at e1
    have r1 := run fuel
    rw [vr] at r1
    cases hs : compactSig (real fuel) mb skb h.world.rng with
    | error f => rw [hs] at e1; cases e1
    | ok t =>
      obtain ⟨x, R'⟩ := t
      rw [hs] at e1 r1
      cases x with
      | ok sig => cases e1
      | error c =>
        simp only [ok_bind] at e1 r1
        rcases hr.1 _ _ _ r1 with ⟨a, b, -⟩ | ⟨a, -⟩
        · simp only [Except.ok.injEq, Prod.mk.injEq] at e1
          exact ⟨e1.1 ▸ a, b⟩
        · exfalso
          subst a
          exact compactSig_code hs rfl
  · intro nonce sig a b
    obtain ⟨F, hF⟩ := hr.2 nonce sig a b
    refine ⟨F, fun fuel hf => onWorld_error ?_⟩
    rw [key]
    have r1 := run fuel
    rw [hF fuel hf, vr] at r1
    cases hs : compactSig (real fuel) mb skb h.world.rng with
    | error f => rw [hs] at r1; cases r1
    | ok t =>
      obtain ⟨x, R'⟩ := t
      rw [hs] at r1
      cases x with
      | ok sig => rfl
      | error c =>
        simp only [ok_bind, Except.ok.injEq, Prod.mk.injEq] at r1
        exact absurd r1.1.symm (compactSig_code hs)


/-! The last four bytes of a block are such a cell. -/
example : demoHeap.world.WF ∧ (demoHeap.world.view ⟨7, 4⟩ 4).isSome ∧ demoHeap.world.view ⟨7, 4⟩ 8 = none :=
  ⟨demo_WF, some_isSome (view_eq_some.2 ⟨_, rfl, by decide, rfl⟩), by rfl⟩

/-! ### C82: mem_alloc and mem_free -/

/-- `mem_alloc` returns NULL and changes nothing, or returns a new block of the length and contents that the allocator chose, which may be freed, and changes no other block. -/
theorem wasm_mem_alloc (A : Nat → Option Bytes) (size : Nat) (h : Heap) (hW : h.world.WF) :
    (A size = none → memAlloc A size h = .ok (none, h) ∧ memAllocLongLong A size h = .ok (none, h)) ∧
    (∀ c, A size = some c → ∃ b h', memAlloc A size h = .ok (some ⟨b, 0⟩, h') ∧ memAllocLongLong A size h = .ok (some ⟨b, 0⟩, h') ∧
      h.world.mem b = none ∧ h'.world.mem b = some c ∧ (∀ x, x ≠ b → h'.world.mem x = h.world.mem x) ∧ h'.live = b :: h.live ∧
      h'.freed = h.freed ∧ h'.world.rng = h.world.rng ∧ h'.world.WF) := by
  unfold memAlloc memAllocLongLong malloc
  constructor
  · intro e
    rw [e]
    exact ⟨rfl, rfl⟩
  · intro c e
    rw [e]
    refine ⟨h.world.sp, _, rfl, rfl, hW _ (Nat.le_refl _), Function.update_self .., fun x hx => Function.update_of_ne hx .., rfl, rfl, rfl, ?_⟩
    intro x hx
    simp only [] at hx ⊢
    rw [Function.update_of_ne (by omega)]
    exact hW _ (by omega)

/-- `mem_free` overwrites `size` bytes and gives the block back.  It is undefined for NULL (also for `size` 0), for more bytes than the block has, inside a block,
and for a block that is not allocated. -/
theorem wasm_mem_free (size : Nat) (h : Heap) :
    memFree none size h = .error .ub ∧
    (∀ p, h.world.view p size = none ∨ p.off ≠ 0 ∨ p.blk ∉ h.live → memFree (some p) size h = .error .ub) ∧
    (∀ b c, h.world.mem b = some c → b ∈ h.live → size ≤ c.length → ∃ h', memFree (some ⟨b, 0⟩) size h = .ok ((), h') ∧
      h'.freed = h.freed ++ [List.replicate size 0 ++ c.drop size] ∧ h'.live = h.live.erase b ∧ h'.world.mem b = none ∧
      (∀ x, x ≠ b → h'.world.mem x = h.world.mem x) ∧ h'.world.rng = h.world.rng ∧
      (h.live.Nodup → ∀ k, memFree (some ⟨b, 0⟩) k h' = .error .ub)) := by
  have bad : ∀ (size : Nat) (h : Heap) (p : Ptr), h.world.view p size = none ∨ p.off ≠ 0 ∨ p.blk ∉ h.live → memFree (some p) size h = .error .ub := by
    intro size h p hp
    cases hv : h.world.view p size with
    | none =>
      by_cases h0 : 0 < size
      · have : memset0 (some p) size h = .error .ub := onWorld_error (copyOut_ub (by simp) h0 hv)
        show (memset0 (some p) size h >>= fun q => free (some p) q.2) = _
        rw [this]; rfl
      · obtain rfl : size = 0 := by omega
        have : memset0 (some p) 0 h = .ok ((), h) := rfl
        show (memset0 (some p) 0 h >>= fun q => free (some p) q.2) = _
        rw [this, ok_bind]
        unfold free
        simp only []
        cases hm : h.world.mem p.blk with
        | none => rfl
        | some c =>
          have := view_none hv c hm
          simp only []
          rw [if_neg (by omega)]
    | some y =>
      have hp' : p.off ≠ 0 ∨ p.blk ∉ h.live := by
        rcases hp with e | e
        · rw [e] at hv; cases hv
        · exact e
      have hc := copyOut_ok (W := h.world) (p := p) (o := 0) (s := 0) (n := size) (src := List.replicate size 0) (by simp [Ptr.add, hv]) (by simp)
      have : memset0 (some p) size h = _ := onWorld_run hc
      show (memset0 (some p) size h >>= fun q => free (some p) q.2) = _
      rw [this, ok_bind]
      unfold free
      simp only []
      split
      · rfl
      · rw [if_neg (by
          rintro ⟨a, b⟩
          rcases hp' with e | e
          · exact e a
          · exact e b)]
  refine ⟨rfl, bad size h, ?_⟩
  intro b c hm hl hs
  have hv : (h.world.view ⟨b, 0⟩ size).isSome := by
    unfold World.view
    simp only [hm]
    rw [if_pos (by omega)]
    rfl
  have hc := copyOut_ok (W := h.world) (p := ⟨b, 0⟩) (o := 0) (s := 0) (n := size) (src := List.replicate size 0) (by simpa [Ptr.add] using hv) (by simp)
  have e1 : memset0 (some ⟨b, 0⟩) size h = _ := onWorld_run hc
  have hsl : slice (List.replicate size (0 : Byte)) 0 size = List.replicate size 0 := by simp [slice]
  rw [hsl] at e1
  have hw : h.world.write (Ptr.add ⟨b, 0⟩ 0) (List.replicate size 0) = { h.world with mem := Function.update h.world.mem b (some (List.replicate size 0 ++ c.drop size)) } := by
    rw [write_eq (b := c) (by simpa [Ptr.add] using hm) (by simpa [Ptr.add] using hs)]
    simp [Ptr.add, splice]
  rw [hw] at e1
  have e2 : memFree (some ⟨b, 0⟩) size h = .ok ((), Heap.mk (World.mk (Function.update (Function.update h.world.mem b (some (List.replicate size 0 ++ c.drop size))) b none)
      h.world.sp h.world.rng) (h.live.erase b) (h.freed ++ [List.replicate size 0 ++ c.drop size])) := by
    show (memset0 (some ⟨b, 0⟩) size h >>= fun q => free (some ⟨b, 0⟩) q.2) = _
    rw [e1, ok_bind]
    unfold free
    simp only [Function.update_self]
    rw [if_pos ⟨trivial, hl⟩]
  refine ⟨_, e2, rfl, rfl, Function.update_self .., fun x hx => ?_, rfl, fun hn k => bad _ _ _ (Or.inr (Or.inr ?_))⟩
  · simp only []
    rw [Function.update_of_ne hx, Function.update_of_ne hx]
  · exact fun hmem => absurd rfl ((List.Nodup.mem_erase_iff hn).1 hmem).1

example : demoHeap.world.mem 1 = some (List.replicate 8 9) ∧ 1 ∈ demoHeap.live ∧ 5 ≤ (List.replicate 8 (9 : Byte)).length ∧ demoHeap.live.Nodup ∧
    demoHeap.world.view ⟨1, 0⟩ 9 = none ∧ (⟨1, 3⟩ : Ptr).off ≠ 0 ∧ (⟨2, 0⟩ : Ptr).blk ∉ demoHeap.live :=
  ⟨rfl, by decide, by decide, by decide, rfl, by decide, by decide⟩

/-- A block of `mem_alloc(size)` that is given back with the same size holds only zeros at that time, whatever was written to it in between. -/
theorem wasm_alloc_free {A : Nat → Option Bytes} (hA : ∀ n c, A n = some c → c.length = n) {size : Nat} {h h1 : Heap} {p : Ptr}
    (e : memAlloc A size h = .ok (some p, h1)) {h2 : Heap} (hlen : ∀ x c, h1.world.mem x = some c → ∃ c', h2.world.mem x = some c' ∧ c'.length = c.length)
    (hlive : h2.live = h1.live) :
    ∃ h3, memFree (some p) size h2 = .ok ((), h3) ∧ h3.freed = h2.freed ++ [List.replicate size 0] ∧ h3.live = h.live := by
  unfold memAlloc malloc at e
  cases ha : A size with
  | none => rw [ha] at e; cases e
  | some c =>
    rw [ha] at e
    simp only [Except.ok.injEq, Prod.mk.injEq, Option.some.injEq] at e
    obtain ⟨rfl, rfl⟩ := e
    obtain ⟨c', m1, m2⟩ := hlen h.world.sp c (Function.update_self ..)
    have hc := hA _ _ ha
    have hl2 : h2.live = h.world.sp :: h.live := hlive
    obtain ⟨h3, f1, f2, f3, -⟩ := (wasm_mem_free size h2).2.2 h.world.sp c' m1 (by simp [hl2]) (by omega)
    refine ⟨h3, f1, ?_, ?_⟩
    · rw [f2, List.drop_of_length_le (by omega), List.append_nil]
    · rw [f3, hl2, List.erase_cons_head]

example : ∃ p h1, memAlloc (fun n => if n ≤ 100 then some (List.replicate n 7) else none) 16 demoHeap = .ok (some p, h1) := ⟨_, _, rfl⟩
example : (fun n => if n ≤ 100 then some (List.replicate n (7 : Byte)) else none) 101 = none := rfl

/-! ### C83: a whole session -/

/-- The key generation exports make the keys of the specification for their seed, in the right buffers, and touch neither the heap nor any other memory. -/
theorem wasm_keypair (h1 : IsShake128 H128) (h2 : IsShake256 H256) {h : Heap} {pk sk : Ptr}
    (hpk : (h.world.view pk 1408).isSome) (hsk : (h.world.view sk 4064).isSome) (hd : Disj pk 1408 sk 4064) :
    (∀ seed seedb, h.world.view seed 160 = some seedb →
      (∀ fuel r h', dpSignKeypairSeed (real fuel) (some pk) (some sk) (some seed) h = .ok (r, h') →
        r = 0 ∧ ∃ pkb skb, KeysOf H128 H256 seedb pkb skb ∧ h' = { h with world := (h.world.write pk pkb).write sk skb }) ∧
      (∀ pkb skb, KeysOf H128 H256 seedb pkb skb → ∃ F, ∀ fuel, F ≤ fuel →
        dpSignKeypairSeed (real fuel) (some pk) (some sk) (some seed) h = .ok (0, { h with world := (h.world.write pk pkb).write sk skb }))) ∧
    (h.world.WF →
      (∀ fuel r h', dpSignKeypair (real fuel) (some pk) (some sk) h = .ok (r, h') →
        (r = -1 ∧ h.world.rng.draw h.world.rng.log.length 160 = none ∧ h' = { h with world := { h.world with rng := Sphincs.drawn h.world.rng 160 } }) ∨
        (r = 0 ∧ ∃ seedb pkb skb, h.world.rng.draw h.world.rng.log.length 160 = some seedb ∧ KeysOf H128 H256 seedb pkb skb ∧
          h' = { h with world := (({ h.world with rng := Sphincs.drawn h.world.rng 160 } : World).write pk pkb).write sk skb })) ∧
      (∀ seedb pkb skb, h.world.rng.draw h.world.rng.log.length 160 = some seedb → KeysOf H128 H256 seedb pkb skb → ∃ F, ∀ fuel, F ≤ fuel →
        dpSignKeypair (real fuel) (some pk) (some sk) h =
          .ok (0, { h with world := (({ h.world with rng := Sphincs.drawn h.world.rng 160 } : World).write pk pkb).write sk skb }))) := by
  constructor
  · intro seed seedb hs
    obtain ⟨a, b⟩ := real_keypair h1 h2 hs hpk hsk hd
    refine ⟨fun fuel r h' e => ?_, fun pkb skb hk => ?_⟩
    · obtain ⟨e1, e2⟩ := onWorld_ok.1 e
      obtain ⟨r0, pkb, skb, hk, hw⟩ := a _ _ _ e1
      exact ⟨r0, pkb, skb, hk, by rw [e2, hw]⟩
    · obtain ⟨F, hF⟩ := b pkb skb hk
      exact ⟨F, fun fuel hf => onWorld_run (hF fuel hf)⟩
  · intro hW
    obtain ⟨a, b⟩ := real_keypair_unseeded h1 h2 hW hpk hsk hd
    refine ⟨fun fuel r h' e => ?_, fun seedb pkb skb hr hk => ?_⟩
    · obtain ⟨e1, e2⟩ := onWorld_ok.1 e
      rcases a _ _ _ e1 with ⟨r0, hr, hw⟩ | ⟨r0, seedb, pkb, skb, hr, hk, hw⟩
      · exact Or.inl ⟨r0, hr, by rw [e2, hw]⟩
      · exact Or.inr ⟨r0, seedb, pkb, skb, hr, hk, by rw [e2, hw]⟩
    · obtain ⟨F, hF⟩ := b seedb pkb skb hr hk
      exact ⟨F, fun fuel hf => onWorld_run (hF fuel hf)⟩

/-- `dp_sign_seedexpander` expands 96 bytes to 160 as the specification of C18 says. -/
theorem wasm_expander {fuel : Nat} {h : Heap} {seed ex : Ptr} {seedb : Bytes} (hs : h.world.view seed 96 = some seedb) (hx : (h.world.view ex 160).isSome)
    (hd : Disj ex 160 seed 96) :
    ∃ s tmp, EffectiveSeed seedb s ∧ tmp.length = 128 ∧ Keccak.Spec.bits tmp = Keccak.Spec.SHAKE256 (Keccak.Spec.bits (s ++ [2])) 1024 ∧
      dpSignSeedexpander (real fuel) (some seed) (some ex) h =
        .ok (0, { h with world := h.world.write ex (tmp.take 32 ++ (seedb.drop 64).take 32 ++ tmp.drop 32) }) := by
  obtain ⟨s, tmp, a, b, c, e⟩ := real_expander (fuel := fuel) hs hx hd
  exact ⟨s, tmp, a, b, c, onWorld_run e⟩

example : (demoHeap.world.view ⟨5, 0⟩ 160).isSome ∧ (demoHeap.world.view ⟨5, 0⟩ 96).isSome ∧ (demoHeap.world.view ⟨4, 0⟩ 1408).isSome ∧ (demoHeap.world.view ⟨3, 0⟩ 4064).isSome ∧
    (demoHeap.world.view ⟨0, 0⟩ 160).isSome ∧ Disj ⟨4, 0⟩ 1408 ⟨3, 0⟩ 4064 ∧ Disj ⟨0, 0⟩ 160 ⟨5, 0⟩ 96 ∧ demoHeap.world.WF :=
  ⟨some_isSome (demo_seed 160 (by omega)), some_isSome (demo_seed 96 (by omega)), some_isSome demo_pk, some_isSome demo_sk,
   some_isSome (demo_sm _ (by omega)), Or.inl (by decide), Or.inl (by decide), demo_WF⟩

/-- The bytes that one of the two key generation exports left in the buffers of the caller (wasm/hybrid-pqc.c:29-37). -/
def Made (fuel : Nat) (pkb skb : Bytes) : Prop :=
  ∃ (g g' : Heap) (pk sk : Ptr), (g.world.view pk 1408).isSome ∧ (g.world.view sk 4064).isSome ∧ Disj pk 1408 sk 4064 ∧
    ((∃ seed, (g.world.view seed 160).isSome ∧ dpSignKeypairSeed (real fuel) (some pk) (some sk) (some seed) g = .ok (0, g')) ∨
      (g.world.WF ∧ dpSignKeypair (real fuel) (some pk) (some sk) g = .ok (0, g'))) ∧
    g'.world.view pk 1408 = some pkb ∧ g'.world.view sk 4064 = some skb

theorem made_generated {fuel : Nat} {pkb skb : Bytes} (h : Made fuel pkb skb) : ∃ F, Generated (real F) pkb skb := by
  obtain ⟨g, g', pk, sk, hpk, hsk, hd, h, v1, v2⟩ := h
  have key : ∀ (W : World) (seedb p s : Bytes), seedb.length = 160 → KeysOf Dilithium.S128 Dilithium.S256 seedb p s → (W.view pk 1408).isSome → (W.view sk 4064).isSome →
      g'.world = (W.write pk p).write sk s → ∃ F, Generated (real F) pkb skb := by
    intro W seedb p s hl hk hpk hsk hw
    obtain ⟨lp, ls, -⟩ := keysOf_parts Dilithium.isShake128_S128 Dilithium.isShake256_S256 hl hk
    rw [hw, view_write_same' (write_view_isSome hsk) ls] at v2
    rw [hw, view_write_disj (by rw [ls]; exact disj_symm hd), view_write_same' hpk lp] at v1
    cases v1
    cases v2
    obtain ⟨F, hF⟩ := keysOf_generated Dilithium.isShake128_S128 Dilithium.isShake256_S256 hl hk
    exact ⟨F, hF F (Nat.le_refl _)⟩
  obtain ⟨a, b⟩ := wasm_keypair Dilithium.isShake128_S128 Dilithium.isShake256_S256 hpk hsk hd
  rcases h with ⟨seed, hs, e⟩ | ⟨hW, e⟩
  · obtain ⟨seedb, hs⟩ := Option.isSome_iff_exists.1 hs
    obtain ⟨-, p, s, hk, rfl⟩ := (a seed seedb hs).1 _ _ _ e
    exact key _ _ p s (length_of_view hs) hk hpk hsk rfl
  · rcases (b hW).1 _ _ _ e with ⟨h0, -⟩ | ⟨-, seedb, p, s, hr, hk, rfl⟩
    · omega
    · exact key { g.world with rng := Sphincs.drawn g.world.rng 160 } _ p s (g.world.rng.len_draw _ _ _ hr) hk hpk hsk rfl

/-- With keys that `dp_sign_keypair_seed` or `dp_sign_keypair` made, every signature of `dp_sign` is accepted by `dp_sign_verify`, wherever the bytes lie. -/
theorem wasm_session {fk fs : Nat} {pkb skb : Bytes} (hg : Made fk pkb skb) {h h' : Heap} {sm smlen m sk : Ptr} {mlen : Nat} {mb : Bytes}
    (hm : h.world.view m mlen = some mb) (hsk : h.world.view sk 4064 = some skb)
    (hsm : (h.world.view sm (2526 + mlen)).isSome) (hl : (h.world.view smlen 8).isSome) (hd : Disj smlen 8 sm (2526 + mlen)) (hdm : Disj sm (2526 + mlen) m mlen)
    (e : dpSign (real fs) (some sm) (some smlen) (some m) mlen (some sk) h = .ok (0, h')) :
    ∃ n sb, h'.world.view smlen 8 = some (le64 n) ∧ h'.world.view sm n = some sb ∧
      ∀ (g : Heap) (m' sm' pk' : Ptr), g.world.WF → g.world.view m' mlen = some mb → g.world.view sm' n = some sb → g.world.view pk' 1408 = some pkb →
        (∀ fv r g', dpSignVerify (real fv) (some m') mlen (some sm') n (some pk') g = .ok (r, g') → r = 0 ∧ g' = g) ∧
        ∃ F, ∀ fv, F ≤ fv → dpSignVerify (real fv) (some m') mlen (some sm') n (some pk') g = .ok (0, g) := by
  obtain ⟨F, hg⟩ := made_generated hg
  obtain ⟨e1, -⟩ := onWorld_ok.1 e
  obtain ⟨n, sb, v1, v2, hv⟩ := real_compact_roundtrip hg hm hsk hsm hl hd hdm e1
  refine ⟨n, sb, v1, v2, fun g m' sm' pk' hg1 a b c => ?_⟩
  obtain ⟨x, F, y⟩ := hv g.world m' sm' pk' hg1 a b c
  refine ⟨fun fv r g' e => ?_, F, fun fv hf => onWorld_run (y fv hf)⟩
  obtain ⟨e1, e2⟩ := onWorld_ok.1 e
  obtain ⟨r0, r1⟩ := x _ _ _ e1
  exact ⟨r0, by rw [e2, r1]⟩

example : Disj ⟨1, 0⟩ 8 ⟨0, 0⟩ (2526 + 20) ∧ Disj ⟨0, 0⟩ (2526 + 20) ⟨2, 0⟩ 20 ∧ demoHeap.world.view ⟨4, 0⟩ 1408 = some (List.replicate 1408 4) :=
  ⟨Or.inl (by decide), Or.inl (by decide), demo_pk⟩

/-! ### C84: dp_seedexpander_wrapper and dp_randombytes -/

/-- The four outcomes of `dp_seedexpander_wrapper`: the error codes change nothing and read nothing; otherwise the output is SHAKE256 of the seed and one byte 2. -/
theorem wasm_seedexpander (h : Heap) (seedlen outlen : Nat) :
    (∀ seed out, seed = none ∨ out = none → dpSeedexpander seed seedlen out outlen h = .ok (-1, h)) ∧
    (∀ s o, (seedlen < 32 → dpSeedexpander (some s) seedlen (some o) outlen h = .ok (-2, h)) ∧
      (32 ≤ seedlen → outlen ≤ seedlen → dpSeedexpander (some s) seedlen (some o) outlen h = .ok (-3, h)) ∧
      (32 ≤ seedlen → seedlen < outlen → ∀ sb, h.world.view s seedlen = some sb → (h.world.view o outlen).isSome →
        ∃ d, d.length = outlen ∧ Keccak.Spec.bits d = Keccak.Spec.SHAKE256 (Keccak.Spec.bits (sb ++ [2])) (8 * outlen) ∧
          dpSeedexpander (some s) seedlen (some o) outlen h = .ok (0, { h with world := h.world.write o d }))) := by
  refine ⟨?_, fun s o => ⟨fun h1 => ?_, fun h1 h2 => ?_, fun h1 h2 sb hs ho => ?_⟩⟩
  · rintro seed out (rfl | rfl)
    · rfl
    · cases seed <;> rfl
  · refine onWorld_run ?_
    simp only [if_pos h1]
    rfl
  · refine onWorld_run ?_
    simp only [if_neg (show ¬ seedlen < 32 by omega), if_pos h2]
    rfl
  · have hl := length_of_view hs
    obtain ⟨d, d1, d2, d3⟩ := ((Keccak.seedexpander_wrapper_spec (some sb) (some (List.replicate outlen 0)) outlen).2 _ _ rfl rfl).2.2 (by omega) (by omega) (by rw [List.length_replicate])
    refine ⟨d, d1, d3, onWorld_run ?_⟩
    rw [List.drop_of_length_le (by rw [List.length_replicate]), List.append_nil] at d2
    simp only [if_neg (show ¬ seedlen < 32 by omega), if_neg (show ¬ outlen ≤ seedlen by omega)]
    rw [M_bind_apply, readMem_ok hs, ok_bind, M_bind_apply]
    simp only []
    rw [← hl, d2, liftC_ok, ok_bind, M_bind_apply]
    simp only [Option.getD_some]
    rw [copyOut_ok (by simpa [Ptr.add] using ho) (by omega)]
    rw [← d1, show slice d 0 d.length = d by simp [slice]]
    rfl

example : 32 ≤ 64 ∧ 64 < 1000 ∧ demoHeap.world.view ⟨2, 0⟩ 64 = some (List.replicate 64 5) ∧ (demoHeap.world.view ⟨0, 0⟩ 1000).isSome :=
  ⟨by decide, by decide, demo_m 64 (by omega), some_isSome (demo_sm _ (by omega))⟩

/-- `dp_randombytes(buf, n)` makes one draw of `n` bytes; it writes them and returns 0, or returns a nonzero code, and then only the `n` bytes of the buffer are changed, to `left`, whatever the failed source left there. -/
theorem wasm_randombytes (h : Heap) (p : Ptr) (n : Nat) (left : Bytes) (hleft : left.length = n) (hv : (h.world.view p n).isSome) :
    (h.world.rng.draw h.world.rng.log.length n = none →
      dpRandombytes left (some p) n h = .ok (-1, { h with world := ({ h.world with rng := Sphincs.drawn h.world.rng n } : World).write p left })) ∧
    (∀ b, h.world.rng.draw h.world.rng.log.length n = some b →
      dpRandombytes left (some p) n h = .ok (0, { h with world := ({ h.world with rng := Sphincs.drawn h.world.rng n } : World).write p b })) := by
  have hr : liftR (randombytes n) h.world = .ok (h.world.rng.draw h.world.rng.log.length n, { h.world with rng := Sphincs.drawn h.world.rng n }) := rfl
  constructor
  · intro e
    refine onWorld_run ?_
    rw [M_bind_apply, hr, ok_bind, e]
    simp only []
    subst hleft
    rw [M_bind_apply, copyOut_all (W := { h.world with rng := Sphincs.drawn h.world.rng _ }) hv]
    rfl
  · intro b e
    have hb := h.world.rng.len_draw _ _ _ e
    refine onWorld_run ?_
    rw [M_bind_apply, hr, ok_bind, e]
    simp only []
    subst hb
    rw [M_bind_apply, copyOut_all (W := { h.world with rng := Sphincs.drawn h.world.rng _ }) hv]
    rfl

example : (List.replicate 64 (1 : Byte)).length = 64 ∧ (demoHeap.world.view ⟨2, 0⟩ 64).isSome ∧ demoHeap.world.rng.draw demoHeap.world.rng.log.length 64 = some (List.replicate 64 0) :=
  ⟨List.length_replicate, some_isSome (demo_m 64 (by omega)), rfl⟩

end Verif.Wasm
