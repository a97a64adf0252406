import Verif.Random.Entropy
import Verif.Random.Props

/-! The property C87: the wait for entropy, and the files of the /dev/urandom variant. -/

namespace Verif.Random
open Verif

variable {α β : Type}

/-- If `x` ends without a fault it does so in a state and with a result that satisfy `P`. -/
def Post (x : E α) (s : St) (P : α → St → Prop) : Prop := ∀ a s', x s = .ok (a, s') → P a s'

/-- `x` has no undefined behaviour unless an `fclose` is interrupted. -/
def Sound (os : OS) (x : E α) : Prop := ∀ s, x s = .error .ub → ∃ l, os l .fclose = .again

theorem E_bind_apply (x : E α) (f : α → E β) (s : St) : (x >>= f) s = (x s >>= fun q => f q.1 q.2) := rfl

theorem Post.pure {a : α} {s : St} {P : α → St → Prop} (h : P a s) : Post (pure a) s P := by
  intro b s' e
  cases e
  exact h

theorem Post.bind {x : E α} {f : α → E β} {s : St} {Q : α → St → Prop} {P : β → St → Prop} (hx : Post x s Q) (hf : ∀ a s', Q a s' → Post (f a) s' P) : Post (x >>= f) s P := by
  intro b s' e
  rw [E_bind_apply] at e
  obtain ⟨⟨a, s1⟩, e1, e2⟩ := bind_eq_ok.1 e
  exact hf a s1 (hx a s1 e1) b s' e2

theorem Post.mono {x : E α} {s : St} {Q P : α → St → Prop} (hx : Post x s Q) (h : ∀ a s', Q a s' → P a s') : Post x s P := fun a s' e => h a s' (hx a s' e)

theorem Post.sys {os : OS} {c : Call} {s : St} : Post (sys os c) s (fun a s' => a = os s.log c ∧ s' = { s with log := s.log ++ [(c, a)] }) := by
  intro a s' e
  cases e
  exact ⟨rfl, rfl⟩

theorem Post.diverge {s : St} {P : α → St → Prop} : Post divergeE s P := fun _ _ e => by cases e

theorem Post.ub {s : St} {P : α → St → Prop} : Post ubE s P := fun _ _ e => by cases e

theorem Post.opened {f : File} {s : St} : Post (opened f) s (fun _ s' => s' = { s with files := f :: s.files }) := by
  intro a s' e
  cases e
  rfl

theorem Post.closed {f : File} {s : St} : Post (closed f) s (fun _ s' => s' = { s with files := s.files.erase f }) := by
  intro a s' e
  cases e
  rfl

/-- Between `s` and `s'` the calls `new` were made. -/
def Since (s s' : St) (new : List (Call × Ans)) : Prop := s'.log = s.log ++ new

/-- An entropy count of at least 128 bits was read. -/
def Enough (l : List (Call × Ans)) : Prop := ∃ c n, (c, Ans.entropy n) ∈ l ∧ 128 ≤ n

theorem Enough.left {l m : List (Call × Ans)} (h : Enough l) : Enough (l ++ m) := by
  obtain ⟨c, n, h1, h2⟩ := h
  exact ⟨c, n, List.mem_append_left _ h1, h2⟩

theorem Enough.right {l m : List (Call × Ans)} (h : Enough m) : Enough (l ++ m) := by
  obtain ⟨c, n, h1, h2⟩ := h
  exact ⟨c, n, List.mem_append_right _ h1, h2⟩

theorem post_ioctl {os : OS} {e : Int} {s : St} : Post (readEntropyIoctl os e) s (fun r s' => s'.files = s.files ∧ ∃ new, Since s s' new ∧
    ((r.1 = 0 ∧ (.ioctl, .entropy r.2.2) ∈ new) ∨ (r.1 = -1 ∧ r.2.2 = e))) := by
  refine Post.bind Post.sys ?_
  rintro a s' ⟨ha, rfl⟩
  cases a with
  | entropy n => exact Post.pure ⟨rfl, _, rfl, Or.inl ⟨rfl, List.mem_singleton.2 rfl⟩⟩
  | ok => exact Post.pure ⟨rfl, _, rfl, Or.inr ⟨rfl, rfl⟩⟩
  | again => exact Post.pure ⟨rfl, _, rfl, Or.inr ⟨rfl, rfl⟩⟩
  | unsupported => exact Post.pure ⟨rfl, _, rfl, Or.inr ⟨rfl, rfl⟩⟩
  | fail => exact Post.pure ⟨rfl, _, rfl, Or.inr ⟨rfl, rfl⟩⟩

theorem Since.trans {s s' s'' : St} {l m : List (Call × Ans)} (h : Since s s' l) (h' : Since s' s'' m) : Since s s'' (l ++ m) := by
  unfold Since at *
  rw [h', h, List.append_assoc]

theorem Since.one {s : St} {x : Call × Ans} {f : List File} : Since s ⟨s.log ++ [x], f⟩ [x] := rfl

theorem post_proc {os : OS} {e : Int} (fuel : Nat) (s : St) : Post (readEntropyProc os e fuel) s (fun r s' => s'.files = s.files ∧ ∃ new, Since s s' new ∧
    ((r.1 = 0 ∧ (.scan, .entropy r.2) ∈ new) ∨ r.1 = -1)) := by
  induction fuel generalizing s with
  | zero => exact Post.diverge
  | succ fuel ih =>
    refine Post.bind Post.sys ?_
    rintro a s' ⟨ha, rfl⟩
    cases a with
    | entropy n => exact Post.pure ⟨rfl, _, rfl, Or.inl ⟨rfl, List.mem_singleton.2 rfl⟩⟩
    | ok => exact Post.pure ⟨rfl, _, rfl, Or.inr rfl⟩
    | unsupported => exact Post.pure ⟨rfl, _, rfl, Or.inr rfl⟩
    | fail => exact Post.pure ⟨rfl, _, rfl, Or.inr rfl⟩
    | again =>
      refine (ih _).mono ?_
      rintro r s' ⟨h1, new, h2, h3⟩
      refine ⟨h1, _, Since.trans Since.one h2, ?_⟩
      rcases h3 with h3 | h3
      · exact Or.inl ⟨h3.1, List.mem_append_right _ h3.2⟩
      · exact Or.inr h3

theorem post_open {os : OS} {c : Call} {f : File} (fuel : Nat) (s : St) : Post (openLoop os c f fuel) s (fun r s' => ∃ new, Since s s' new ∧
    ((r = true ∧ s'.files = f :: s.files ∧ (c, .ok) ∈ new) ∨ (r = false ∧ s'.files = s.files ∧ ∃ a, new.getLast? = some (c, a) ∧ a ≠ .ok ∧ a ≠ .again))) := by
  induction fuel generalizing s with
  | zero => exact Post.diverge
  | succ fuel ih =>
    refine Post.bind Post.sys ?_
    rintro a s' ⟨ha, rfl⟩
    cases a with
    | ok =>
      refine Post.bind Post.opened ?_
      rintro _ s' rfl
      exact Post.pure ⟨_, rfl, Or.inl ⟨rfl, rfl, List.mem_singleton.2 rfl⟩⟩
    | entropy n => exact Post.pure ⟨_, rfl, Or.inr ⟨rfl, rfl, _, rfl, by simp, by simp⟩⟩
    | unsupported => exact Post.pure ⟨_, rfl, Or.inr ⟨rfl, rfl, _, rfl, by simp, by simp⟩⟩
    | fail => exact Post.pure ⟨_, rfl, Or.inr ⟨rfl, rfl, _, rfl, by simp, by simp⟩⟩
    | again =>
      refine (ih _).mono ?_
      rintro r s' ⟨new, h2, h3⟩
      refine ⟨_, Since.trans Since.one h2, ?_⟩
      rcases h3 with h3 | ⟨h3, h4, a, h5, h6⟩
      · exact Or.inl ⟨h3.1, h3.2.1, List.mem_append_right _ h3.2.2⟩
      · refine Or.inr ⟨h3, h4, a, ?_, h6⟩
        rw [List.getLast?_append, h5]; rfl

theorem post_poll {os : OS} {proc : Bool} (fuel : Nat) (e : Int) (s : St) : Post (pollLoop os proc e fuel) s (fun r s' => s'.files = s.files ∧ ∃ new, Since s s' new ∧
    ((r = 0 ∧ Enough new) ∨ r = -1)) := by
  induction fuel generalizing s e with
  | zero => exact Post.diverge
  | succ fuel ih =>
    refine Post.bind Post.sys ?_
    rintro a s' ⟨ha, rfl⟩
    cases a with
    | entropy n => exact Post.pure ⟨rfl, _, rfl, Or.inr rfl⟩
    | unsupported => exact Post.pure ⟨rfl, _, rfl, Or.inr rfl⟩
    | fail => exact Post.pure ⟨rfl, _, rfl, Or.inr rfl⟩
    | again =>
      refine (ih _ _).mono ?_
      rintro r s' ⟨h1, new, h2, h3⟩
      exact ⟨h1, _, Since.trans Since.one h2, h3.imp (fun h => ⟨h.1, h.2.right⟩) id⟩
    | ok =>
      refine Post.bind (Q := fun (r : Int × Int) s' => s'.files = s.files ∧ ∃ new, Since s s' new ∧ ((r.1 = 0 ∧ ∃ c, (c, .entropy r.2) ∈ new) ∨ r.1 = -1)) ?_ ?_
      · cases proc with
        | true =>
          refine (post_proc fuel _).mono ?_
          rintro r s' ⟨h1, new, h2, h3⟩
          exact ⟨h1, _, Since.trans Since.one h2, h3.imp (fun h => ⟨h.1, _, List.mem_append_right _ h.2⟩) id⟩
        | false =>
          refine Post.bind post_ioctl ?_
          rintro ⟨r, u, e'⟩ s' ⟨h1, new, h2, h3⟩
          exact Post.pure ⟨h1, _, Since.trans Since.one h2, h3.imp (fun h => ⟨h.1, _, List.mem_append_right _ h.2⟩) fun h => h.1⟩
      · rintro ⟨r, e'⟩ s' ⟨h1, new, h2, h3⟩
        simp only at h3 ⊢
        by_cases hr : r ≠ 0
        · rw [if_pos hr]
          exact Post.pure ⟨h1, new, h2, Or.inr (h3.resolve_left fun h => hr h.1)⟩
        · rw [if_neg hr]
          by_cases he : e' ≥ 128
          · rw [if_pos he]
            rcases h3 with ⟨_, c, h3⟩ | h3
            · exact Post.pure ⟨h1, new, h2, Or.inl ⟨rfl, c, e', h3, he⟩⟩
            · omega
          · rw [if_neg he]
            refine (ih _ _).mono ?_
            rintro r s'' ⟨k1, new', k2, k3⟩
            exact ⟨k1.trans h1, _, h2.trans k2, k3.imp (fun h => ⟨h.1, h.2.right⟩) id⟩

theorem post_close {os : OS} (fuel : Nat) (s : St) : Post (closeLoop os fuel) s (fun r s' => s'.files = s.files.erase .random ∧ (∃ new, Since s s' new) ∧ (r = 0 ∨ r = -1)) := by
  induction fuel generalizing s with
  | zero => exact Post.diverge
  | succ fuel ih =>
    refine Post.bind Post.sys ?_
    rintro a s' ⟨ha, rfl⟩
    cases a with
    | again =>
      refine (ih _).mono ?_
      rintro r s' ⟨h1, ⟨new, h2⟩, h3⟩
      exact ⟨h1, ⟨_, Since.trans Since.one h2⟩, h3⟩
    | ok =>
      refine Post.bind Post.closed ?_
      rintro _ s' rfl
      exact Post.pure ⟨rfl, ⟨_, rfl⟩, Or.inl rfl⟩
    | entropy n =>
      refine Post.bind Post.closed ?_
      rintro _ s' rfl
      exact Post.pure ⟨rfl, ⟨_, rfl⟩, Or.inr rfl⟩
    | unsupported =>
      refine Post.bind Post.closed ?_
      rintro _ s' rfl
      exact Post.pure ⟨rfl, ⟨_, rfl⟩, Or.inr rfl⟩
    | fail =>
      refine Post.bind Post.closed ?_
      rintro _ s' rfl
      exact Post.pure ⟨rfl, ⟨_, rfl⟩, Or.inr rfl⟩

theorem post_fclose {os : OS} (s : St) : Post (fcloseLoop os) s (fun r s' => s'.files = s.files.erase .proc ∧ (∃ new, Since s s' new) ∧ (r = 0 ∨ r = -1)) := by
  refine Post.bind Post.sys ?_
  rintro a s' ⟨ha, rfl⟩
  cases a with
  | again => exact Post.ub
  | ok =>
    refine Post.bind Post.closed ?_
    rintro _ s' rfl
    exact Post.pure ⟨rfl, ⟨_, rfl⟩, Or.inl rfl⟩
  | entropy n =>
    refine Post.bind Post.closed ?_
    rintro _ s' rfl
    exact Post.pure ⟨rfl, ⟨_, rfl⟩, Or.inr rfl⟩
  | unsupported =>
    refine Post.bind Post.closed ?_
    rintro _ s' rfl
    exact Post.pure ⟨rfl, ⟨_, rfl⟩, Or.inr rfl⟩
  | fail =>
    refine Post.bind Post.closed ?_
    rintro _ s' rfl
    exact Post.pure ⟨rfl, ⟨_, rfl⟩, Or.inr rfl⟩

/-- The last call was an `open` of /dev/random that failed. -/
def NoRandom (l : List (Call × Ans)) : Prop := ∃ a, l.getLast? = some (.openRandom, a) ∧ a ≠ .ok

theorem post_waitPoll {os : OS} {proc : Bool} {e : Int} (fuel : Nat) (s : St) (base : List File) (hs : s.files = if proc then .proc :: base else base) (hp : proc = true → e < 128) :
    Post (waitPoll os fuel proc e) s (fun r s' => ∃ new, Since s s' new ∧ ((r = 0 ∧ (e ≥ 128 ∨ Enough new) ∧ s'.files = base) ∨
      (r = -1 ∧ (s'.files = base ∨ (s'.files = .proc :: base ∧ NoRandom new))))) := by
  unfold waitPoll
  by_cases he : e ≥ 128
  · rw [if_pos he]
    cases proc with
    | true => have := hp rfl; omega
    | false => exact Post.pure ⟨[], by simp [Since], Or.inl ⟨rfl, Or.inl he, hs⟩⟩
  · rw [if_neg he]
    refine Post.bind (post_open fuel s) ?_
    rintro r s1 ⟨n1, h1, ⟨rfl, h2, _⟩ | ⟨rfl, h2, a, h3, h4, _⟩⟩
    · rw [if_pos rfl]
      refine Post.bind (post_poll fuel e s1) ?_
      rintro err s2 ⟨f2, n2, g2, h3⟩
      refine Post.bind (post_close fuel s2) ?_
      rintro r3 s3 ⟨f3, ⟨n3, g3⟩, h4⟩
      have hf : s3.files = s.files := by rw [f3, f2, h2, List.erase_cons_head]
      cases proc with
      | true =>
        rw [if_pos rfl]
        refine Post.bind (post_fclose s3) ?_
        rintro r4 s4 ⟨f4, ⟨n4, g4⟩, h5⟩
        have hf4 : s4.files = base := by rw [f4, hf, hs, if_pos rfl, List.erase_cons_head]
        have hlog : Since s s4 (n1 ++ (n2 ++ (n3 ++ n4))) := h1.trans (g2.trans (g3.trans g4))
        dsimp only
        by_cases c : err ≠ 0
        · rw [if_pos c]
          exact Post.pure ⟨_, hlog, Or.inr ⟨h3.resolve_left fun h => c h.1, Or.inl hf4⟩⟩
        · rw [if_neg c]
          rcases h3 with h3 | h3
          · rcases h5 with h5 | h5
            · exact Post.pure ⟨_, hlog, Or.inl ⟨h5, Or.inr h3.2.left.right, hf4⟩⟩
            · exact Post.pure ⟨_, hlog, Or.inr ⟨h5, Or.inl hf4⟩⟩
          · omega
      | false =>
        rw [if_neg (by simp)]
        refine Post.bind (Post.pure (P := fun a s' => a = r3 ∧ s' = s3) ⟨rfl, rfl⟩) ?_
        rintro r4 s4 ⟨rfl, rfl⟩
        have hf4 : s4.files = base := by rw [hf, hs, if_neg (by simp)]
        have hlog : Since s s4 (n1 ++ (n2 ++ n3)) := h1.trans (g2.trans g3)
        dsimp only
        by_cases c : err ≠ 0
        · rw [if_pos c]
          exact Post.pure ⟨_, hlog, Or.inr ⟨h3.resolve_left fun h => c h.1, Or.inl hf4⟩⟩
        · rw [if_neg c]
          rcases h3 with h3 | h3
          · rcases h4 with h5 | h5
            · exact Post.pure ⟨_, hlog, Or.inl ⟨h5, Or.inr h3.2.left.right, hf4⟩⟩
            · exact Post.pure ⟨_, hlog, Or.inr ⟨h5, Or.inl hf4⟩⟩
          · omega
    · rw [if_neg (by simp)]
      refine Post.pure ⟨n1, h1, Or.inr ⟨rfl, ?_⟩⟩
      cases proc with
      | true => exact Or.inr ⟨by rw [h2, hs, if_pos rfl], a, h3, h4⟩
      | false => exact Or.inl (by rw [h2, hs, if_neg (by simp)])

theorem NoRandom.right {l m : List (Call × Ans)} (h : NoRandom m) : NoRandom (l ++ m) := by
  obtain ⟨a, h1, h2⟩ := h
  exact ⟨a, by rw [List.getLast?_append, h1]; rfl, h2⟩

/-- C87: the wait ends with 0 only after an entropy count of at least 128 bits was read, and then every file it opened is closed; otherwise it ends with -1, and the one file that can stay
open is /proc/sys/kernel/random/entropy_avail, when /dev/random could not be opened. -/
theorem entropy_wait (os : OS) (fuel : Nat) (s : St) (r : Int) (s' : St) (h : waitForEntropy os fuel s = .ok (r, s')) :
    ∃ new, s'.log = s.log ++ new ∧ ((r = 0 ∧ Enough new ∧ s'.files = s.files) ∨
      (r = -1 ∧ (s'.files = s.files ∨ (s'.files = .proc :: s.files ∧ NoRandom new)))) := by
  refine (Post.bind (P := fun r s' => ∃ new, Since s s' new ∧ ((r = 0 ∧ Enough new ∧ s'.files = s.files) ∨
      (r = -1 ∧ (s'.files = s.files ∨ (s'.files = .proc :: s.files ∧ NoRandom new))))) post_ioctl ?_) r s' h
  rintro ⟨ret, u, e⟩ s1 ⟨f1, n1, g1, h1⟩
  simp only at h1 ⊢
  by_cases c1 : ret ≠ 0 ∧ u = true
  · rw [if_pos c1]
    obtain ⟨_, rfl⟩ := h1.resolve_left fun h => c1.1 h.1
    refine Post.bind Post.sys ?_
    rintro a s2 ⟨ha, rfl⟩
    cases a with
    | ok =>
      refine Post.bind Post.opened ?_
      rintro _ s3 rfl
      refine (post_waitPoll fuel _ s.files (by simp [f1]) (fun _ => by decide)).mono ?_
      rintro r s' ⟨new, k1, k2⟩
      refine ⟨(n1 ++ [(Call.fopen, Ans.ok)]) ++ new, Since.trans (g1.trans Since.one) k1, ?_⟩
      rcases k2 with ⟨k2, k3 | k3, k4⟩ | ⟨k2, k3⟩
      · simp at k3
      · exact Or.inl ⟨k2, k3.right, k4⟩
      · exact Or.inr ⟨k2, k3.imp id fun k => ⟨k.1, k.2.right⟩⟩
    | entropy n => exact Post.pure ⟨_, g1.trans rfl, Or.inr ⟨rfl, Or.inl f1⟩⟩
    | again => exact Post.pure ⟨_, g1.trans rfl, Or.inr ⟨rfl, Or.inl f1⟩⟩
    | unsupported => exact Post.pure ⟨_, g1.trans rfl, Or.inr ⟨rfl, Or.inl f1⟩⟩
    | fail => exact Post.pure ⟨_, g1.trans rfl, Or.inr ⟨rfl, Or.inl f1⟩⟩
  · rw [if_neg c1]
    by_cases c2 : ret ≠ 0
    · rw [if_pos c2]
      exact Post.pure ⟨_, g1, Or.inr ⟨rfl, Or.inl f1⟩⟩
    · rw [if_neg c2]
      have h2 := (h1.resolve_right (fun h => by omega)).2
      refine (post_waitPoll fuel s1 s.files (by simp [f1]) (by simp)).mono ?_
      rintro r s' ⟨new, k1, k2⟩
      refine ⟨_, g1.trans k1, ?_⟩
      rcases k2 with ⟨k2, k3 | k3, k4⟩ | ⟨k2, k3⟩
      · exact Or.inl ⟨k2, Enough.left ⟨_, _, h2, k3⟩, k4⟩
      · exact Or.inl ⟨k2, k3.right, k4⟩
      · exact Or.inr ⟨k2, k3.imp id fun k => ⟨k.1, k.2.right⟩⟩

theorem splice_zero {buf b : Bytes} : splice buf 0 b = b ++ buf.drop b.length := by
  unfold splice
  rw [List.take_zero, List.nil_append, Nat.zero_add]

/-- C87: `randombytes` over /dev/urandom returns 0 only after 128 bits of entropy were seen; then the buffer holds the bytes that were read and no file stays open.  In every other case it returns -1,
the bytes behind those that were read are unchanged, and if /dev/urandom could be opened it stays open. -/
theorem urandom_entropy {k : Kernel} (hk : KernelOk k) (os : OS) {fuel n : Nat} {buf : Bytes} (hb : n ≤ buf.length) (s : St) (r : Int) (buf' : Bytes) (i : Nat) (s' : St)
    (h : urandom os k fuel n buf s = .ok ((r, buf', i), s')) :
    ∃ new, s'.log = s.log ++ new ∧
      ((r = 0 ∧ Enough new ∧ s'.files = s.files ∧ ∃ b, Delivers k (2 ^ 63 - 1) 0 n b i ∧ b.length = n ∧ buf' = b ++ buf.drop n) ∨
       (r = -1 ∧ Enough new ∧ s'.files = .urandom :: s.files ∧ ∃ b, Breaks k (2 ^ 63 - 1) 0 n b i ∧ b.length < n ∧ buf' = b ++ buf.drop b.length) ∨
       (r = -1 ∧ buf' = buf ∧ i = 0 ∧ s'.files = s.files ∧ ∃ a, new.getLast? = some (.openUrandom, a) ∧ a ≠ .ok) ∨
       (r = -1 ∧ buf' = buf ∧ i = 0 ∧ (.openUrandom, .ok) ∈ new ∧ (s'.files = .urandom :: s.files ∨ (s'.files = .proc :: .urandom :: s.files ∧ NoRandom new)))) := by
  unfold urandom at h
  refine (Post.bind (P := fun (q : Int × Bytes × Nat) s' => ∃ new, Since s s' new ∧
      ((q.1 = 0 ∧ Enough new ∧ s'.files = s.files ∧ ∃ b, Delivers k (2 ^ 63 - 1) 0 n b q.2.2 ∧ b.length = n ∧ q.2.1 = b ++ buf.drop n) ∨
       (q.1 = -1 ∧ Enough new ∧ s'.files = .urandom :: s.files ∧ ∃ b, Breaks k (2 ^ 63 - 1) 0 n b q.2.2 ∧ b.length < n ∧ q.2.1 = b ++ buf.drop b.length) ∨
       (q.1 = -1 ∧ q.2.1 = buf ∧ q.2.2 = 0 ∧ s'.files = s.files ∧ ∃ a, new.getLast? = some (.openUrandom, a) ∧ a ≠ .ok) ∨
       (q.1 = -1 ∧ q.2.1 = buf ∧ q.2.2 = 0 ∧ (.openUrandom, .ok) ∈ new ∧ (s'.files = .urandom :: s.files ∨ (s'.files = .proc :: .urandom :: s.files ∧ NoRandom new))))) (post_open fuel s) ?_) (r, buf', i) s' h
  rintro o s1 ⟨n1, g1, ⟨rfl, f1, m1⟩ | ⟨rfl, f1, a, h3, h4, _⟩⟩
  · rw [if_pos rfl]
    refine Post.bind (fun w s2 e => entropy_wait os fuel s1 w s2 e) ?_
    rintro w s2 ⟨n2, g2, ⟨rfl, h2, f2⟩ | ⟨rfl, f2⟩⟩
    · rw [if_neg (by decide)]
      refine Post.bind (Q := fun q s3 => s3 = s2 ∧ readLoop k fuel 0 n 0 buf = .ok q) ?_ ?_
      · intro q s3 e
        have e : (readLoop k fuel 0 n 0 buf >>= fun q => .ok (q, s2)) = .ok (q, s3) := e
        obtain ⟨p, h1, h2⟩ := bind_eq_ok.1 e
        cases h2
        exact ⟨rfl, h1⟩
      rintro ⟨r, b', j⟩ s3 ⟨rfl, e⟩
      dsimp only
      rcases readLoop_out hk (by omega) e with ⟨rfl, b, hd, e⟩ | ⟨rfl, b, hd, e⟩
      · rw [if_pos rfl]
        refine Post.bind Post.sys ?_
        rintro a s4 ⟨_, rfl⟩
        refine Post.bind Post.closed ?_
        rintro _ s5 rfl
        refine Post.pure ⟨n1 ++ (n2 ++ [(Call.close, a)]), g1.trans (Since.trans (show Since s1 s3 n2 from g2) Since.one), Or.inl ⟨rfl, h2.left.right, ?_, b, hd, hd.length hk, ?_⟩⟩
        · simp [f2, f1]
        · rw [e, splice_zero, hd.length hk]
      · rw [if_neg (by decide)]
        exact Post.pure ⟨n1 ++ n2, g1.trans g2, Or.inr (Or.inl ⟨rfl, h2.right, f2.trans f1, b, hd, hd.length hk, by rw [e, splice_zero]⟩)⟩
    · rw [if_pos rfl]
      refine Post.pure ⟨n1 ++ n2, g1.trans g2, Or.inr (Or.inr (Or.inr ⟨rfl, rfl, rfl, List.mem_append_left _ m1, ?_⟩))⟩
      rw [← f1]
      refine f2.imp id fun h => ⟨h.1, ?_⟩
      obtain ⟨a, e1, e2⟩ := h.2
      exact ⟨a, by rw [List.getLast?_append, e1]; rfl, e2⟩
  · rw [if_neg (by decide)]
    exact Post.pure ⟨n1, g1, Or.inr (Or.inr (Or.inl ⟨rfl, rfl, rfl, f1, a, h3, h4⟩))⟩

/-! ### Undefined behaviour -/

theorem Sound.bind {os : OS} {x : E α} {f : α → E β} (hx : Sound os x) (hf : ∀ a, Sound os (f a)) : Sound os (x >>= f) := by
  intro s e
  rw [E_bind_apply] at e
  cases h : x s with
  | error y =>
    rw [h] at e
    cases e
    exact hx s h
  | ok q =>
    rw [h] at e
    exact hf q.1 q.2 e

theorem Sound.pure {os : OS} {a : α} : Sound os (pure a) := fun _ e => by cases e

theorem Sound.sys {os : OS} {c : Call} : Sound os (sys os c) := fun _ e => by cases e

theorem Sound.opened {os : OS} {f : File} : Sound os (opened f) := fun _ e => by cases e

theorem Sound.closed {os : OS} {f : File} : Sound os (closed f) := fun _ e => by cases e

theorem Sound.diverge {os : OS} : Sound os (divergeE : E α) := fun _ e => by cases e

theorem sound_ioctl {os : OS} {e : Int} : Sound os (readEntropyIoctl os e) := Sound.bind Sound.sys fun a => by cases a <;> exact Sound.pure

theorem sound_proc {os : OS} {e : Int} (fuel : Nat) : Sound os (readEntropyProc os e fuel) := by
  induction fuel with
  | zero => exact Sound.diverge
  | succ fuel ih =>
    refine Sound.bind Sound.sys fun a => ?_
    cases a <;> first | exact ih | exact Sound.pure

theorem sound_open {os : OS} {c : Call} {f : File} (fuel : Nat) : Sound os (openLoop os c f fuel) := by
  induction fuel with
  | zero => exact Sound.diverge
  | succ fuel ih =>
    refine Sound.bind Sound.sys fun a => ?_
    cases a <;> first | exact ih | exact Sound.pure | exact Sound.bind Sound.opened fun _ => Sound.pure

theorem sound_ite {os : OS} {c : Prop} [Decidable c] {x y : E α} (hx : Sound os x) (hy : Sound os y) : Sound os (if c then x else y) := by
  split
  · exact hx
  · exact hy

theorem sound_poll {os : OS} {proc : Bool} (fuel : Nat) (e : Int) : Sound os (pollLoop os proc e fuel) := by
  induction fuel generalizing e with
  | zero => exact Sound.diverge
  | succ fuel ih =>
    refine Sound.bind Sound.sys fun a => ?_
    cases a with
    | again => exact ih e
    | ok =>
      refine Sound.bind (sound_ite (sound_proc fuel) (Sound.bind sound_ioctl fun _ => Sound.pure)) fun q => ?_
      exact sound_ite Sound.pure (sound_ite Sound.pure (ih _))
    | entropy n => exact Sound.pure
    | unsupported => exact Sound.pure
    | fail => exact Sound.pure

theorem sound_close {os : OS} (fuel : Nat) : Sound os (closeLoop os fuel) := by
  induction fuel with
  | zero => exact Sound.diverge
  | succ fuel ih =>
    refine Sound.bind Sound.sys fun a => ?_
    cases a <;> first | exact ih | exact Sound.bind Sound.closed fun _ => Sound.pure

theorem sound_fclose {os : OS} : Sound os (fcloseLoop os) := by
  intro s e
  cases h : os s.log .fclose with
  | again => exact ⟨_, h⟩
  | ok => simp only [fcloseLoop, E_bind_apply, sys, h, ok_bind] at e; cases e
  | entropy n => simp only [fcloseLoop, E_bind_apply, sys, h, ok_bind] at e; cases e
  | unsupported => simp only [fcloseLoop, E_bind_apply, sys, h, ok_bind] at e; cases e
  | fail => simp only [fcloseLoop, E_bind_apply, sys, h, ok_bind] at e; cases e

theorem sound_waitPoll {os : OS} {proc : Bool} {e : Int} (fuel : Nat) : Sound os (waitPoll os fuel proc e) := by
  unfold waitPoll
  refine sound_ite Sound.pure (Sound.bind (sound_open fuel) fun a => sound_ite (Sound.bind (sound_poll fuel e) fun err => Sound.bind (sound_close fuel) fun r => ?_) Sound.pure)
  cases proc with
  | true => exact Sound.bind sound_fclose fun _ => sound_ite Sound.pure Sound.pure
  | false => exact Sound.bind Sound.pure fun _ => sound_ite Sound.pure Sound.pure

theorem sound_wait {os : OS} (fuel : Nat) : Sound os (waitForEntropy os fuel) := by
  refine Sound.bind sound_ioctl fun q => sound_ite (Sound.bind Sound.sys fun a => ?_) (sound_ite Sound.pure (sound_waitPoll fuel))
  cases a <;> first | exact Sound.pure | exact Sound.bind Sound.opened fun _ => sound_waitPoll fuel

/-- C87: which source of the entropy count is used.  A count of at least 128 bits from the first `ioctl` ends the wait with 0 and an error other than "unsupported" ends it with -1, both without any further call; only
after "unsupported" the file in /proc is opened, and if that fails the wait ends with -1 (random/randombytes.c:199-223). -/
theorem entropy_source (os : OS) (fuel : Nat) (s : St) :
    (∀ n, os s.log .ioctl = .entropy n → 128 ≤ n → waitForEntropy os fuel s = .ok (0, { s with log := s.log ++ [(.ioctl, .entropy n)] })) ∧
    ((∀ n, os s.log .ioctl ≠ .entropy n) → os s.log .ioctl ≠ .unsupported → waitForEntropy os fuel s = .ok (-1, { s with log := s.log ++ [(.ioctl, os s.log .ioctl)] })) ∧
    (os s.log .ioctl = .unsupported → ∀ a, os (s.log ++ [(.ioctl, .unsupported)]) .fopen = a → a ≠ .ok →
      waitForEntropy os fuel s = .ok (-1, { s with log := s.log ++ [(.ioctl, .unsupported), (.fopen, a)] })) ∧
    (os s.log .ioctl = .unsupported → ∀ r s', waitForEntropy os fuel s = .ok (r, s') → ∃ a rest, s'.log = s.log ++ (.ioctl, .unsupported) :: (.fopen, a) :: rest) := by
  have go : ∀ a, os s.log .ioctl = a → readEntropyIoctl os 0 s = .ok (match a with | .entropy n => (0, false, n) | .unsupported => (-1, true, 0) | _ => (-1, false, 0), { s with log := s.log ++ [(.ioctl, a)] }) := by
    intro a ha
    unfold readEntropyIoctl sys
    simp only [bind, StateT.bind, Except.bind, ha]
    cases a <;> rfl
  refine ⟨fun n h hn => ?_, fun h1 h2 => ?_, fun h a ha hne => ?_, fun h r s' hr => ?_⟩
  · unfold waitForEntropy
    rw [E_bind_apply, go _ h]
    simp only [ok_bind]
    rw [if_neg (by simp), if_neg (by simp)]
    unfold waitPoll
    rw [if_pos (by omega)]; rfl
  · unfold waitForEntropy
    rw [E_bind_apply, go _ rfl]
    simp only [ok_bind]
    generalize os s.log .ioctl = a at *
    cases a with
    | entropy n => exact absurd rfl (h1 n)
    | unsupported => exact absurd rfl h2
    | ok => rfl
    | again => rfl
    | fail => rfl
  · unfold waitForEntropy
    rw [E_bind_apply, go _ h]
    simp only [ok_bind]
    rw [if_pos (by simp), E_bind_apply]
    unfold sys
    dsimp only
    rw [ha]
    simp only [ok_bind]
    cases a with
    | ok => exact absurd rfl hne
    | entropy n => simp only [List.append_assoc]; rfl
    | unsupported => simp only [List.append_assoc]; rfl
    | again => simp only [List.append_assoc]; rfl
    | fail => simp only [List.append_assoc]; rfl
  · unfold waitForEntropy at hr
    rw [E_bind_apply, go _ h] at hr
    simp only [ok_bind] at hr
    rw [if_pos (by simp)] at hr
    refine Post.bind (P := fun _ s' => ∃ a rest, s'.log = s.log ++ (.ioctl, .unsupported) :: (.fopen, a) :: rest) Post.sys ?_ _ _ hr
    rintro a s1 ⟨-, rfl⟩
    cases a with
    | ok =>
      refine Post.bind Post.opened ?_
      rintro _ s2 rfl
      refine (post_waitPoll (base := s.files) fuel _ rfl (by decide)).mono ?_
      rintro r s3 ⟨new, h3, -⟩
      refine ⟨.ok, new, ?_⟩
      rw [h3]; simp
    | entropy n => exact Post.pure ⟨.entropy n, [], by simp⟩
    | unsupported => exact Post.pure ⟨.unsupported, [], by simp⟩
    | again => exact Post.pure ⟨.again, [], by simp⟩
    | fail => exact Post.pure ⟨.fail, [], by simp⟩

/-- A case of each kind: an error ends the wait at once, "unsupported" leads to the file in /proc. -/
example : waitForEntropy (fun _ _ => .fail) 1 ⟨[], []⟩ = .ok (-1, ⟨[(.ioctl, .fail)], []⟩) ∧
    waitForEntropy (fun _ _ => .unsupported) 1 ⟨[], []⟩ = .ok (-1, ⟨[(.ioctl, .unsupported), (.fopen, .unsupported)], []⟩) ∧
    waitForEntropy (fun _ _ => .entropy 128) 1 ⟨[], []⟩ = .ok (0, ⟨[(.ioctl, .entropy 128)], []⟩) := ⟨rfl, rfl, rfl⟩

/-- C87: the variant has no undefined behaviour as long as no `fclose` is interrupted. -/
theorem urandom_sound {k : Kernel} (hk : KernelOk k) (os : OS) (ho : ∀ l, os l .fclose ≠ .again) {fuel n : Nat} {buf : Bytes} (hb : n ≤ buf.length) (s : St) :
    urandom os k fuel n buf s ≠ .error .ub := by
  have key : Sound os (urandom os k fuel n buf) := by
    refine Sound.bind (sound_open fuel) fun a => sound_ite (Sound.bind (sound_wait fuel) fun w => sound_ite Sound.pure (Sound.bind ?_ fun q => ?_)) Sound.pure
    · intro s e
      have e : (readLoop k fuel 0 n 0 buf >>= fun q => .ok (q, s)) = .error .ub := e
      cases h : readLoop k fuel 0 n 0 buf with
      | error x =>
        rw [h] at e
        cases e
        exact absurd h (readLoop_not_ub hk (by omega))
      | ok q => rw [h] at e; cases e
    · exact sound_ite (Sound.bind Sound.sys fun _ => Sound.bind Sound.closed fun _ => Sound.pure) Sound.pure
  intro e
  obtain ⟨l, h⟩ := key s e
  exact ho l h

/-- Without the entropy ioctl, all other calls succeeding at once, but `fclose` interrupted. -/
def interruptedClose : OS := fun _ c => match c with
  | .ioctl => .unsupported
  | .scan => .entropy 256
  | .fclose => .again
  | _ => .ok

/-- C87: but if `fclose` is interrupted, the loop calls it again on the same stream, which is undefined. -/
theorem urandom_fclose_ub (k : Kernel) (n : Nat) (buf : Bytes) : urandom interruptedClose k 9 n buf ⟨[], []⟩ = .error .ub := by rfl

/-- An entropy count of 100 bits at first, then 200; `open` and `poll` are interrupted once. -/
def slowOS : OS := fun l c => match c with
  | .ioctl => if l.length < 4 then .entropy 100 else .entropy 200
  | .poll => if l.length < 5 then .again else .ok
  | .openUrandom => if l.length = 0 then .again else .ok
  | _ => .ok

/-- The hypotheses of `urandom_entropy` and `urandom_sound` in a run that waits. -/
example : KernelOk exampleKernel ∧ (∀ l, slowOS l .fclose ≠ .again) ∧ (urandom slowOS exampleKernel 9 5 [9, 9, 9, 9, 9, 9] ⟨[], []⟩).map (fun q => (q.1, q.2.files, q.2.log.length)) =
    .ok ((0, [1, 1, 2, 2, 2, 9], 3), [], 9) := by
  refine ⟨exampleKernel_ok, fun l => by simp [slowOS], by rfl⟩

/-- /dev/random cannot be opened and the ioctl is not supported: both files stay open. -/
example : (urandom (fun _ c => if c = .ioctl then .unsupported else if c = .openRandom then .fail else .ok) exampleKernel 9 5 [9, 9, 9, 9, 9, 9] ⟨[], []⟩).map (fun q => (q.1, q.2.files)) =
    .ok ((-1, [9, 9, 9, 9, 9, 9], 0), [.proc, .urandom]) := by rfl

/-- The hypothesis of `entropy_wait`. -/
example : ∃ s', waitForEntropy slowOS 9 ⟨[], []⟩ = .ok (0, s') := ⟨_, rfl⟩

end Verif.Random
