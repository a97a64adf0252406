import Verif.Random.Other
import Verif.Random.Props

/-! The properties C88 and C89: the random sources of Windows, WASI, BSD and JavaScript. -/

namespace Verif.Random
open Verif

/-- The Windows functions write no more than they are asked for, and all of it when they succeed. -/
def WinOk (w : Win) : Prop :=
  (∀ c, (w.bcrypt c).2.length ≤ c ∧ ((w.bcrypt c).1 = true → (w.bcrypt c).2.length = c)) ∧
  (∀ i c, (w.gen i c).2.length ≤ c ∧ ((w.gen i c).1 = true → (w.gen i c).2.length = c))

/-- From call `i` on CryptGenRandom gives the `n` bytes `b`, at most 0xFFFFFFFF of them in one call. -/
inductive WinGives (w : Win) : Nat → Nat → Bytes → Prop
  | done (i) : WinGives w i 0 []
  | step {i n d b} : 0 < n → w.gen i (min n 0xFFFFFFFF) = (true, d) → WinGives w (i + 1) (n - d.length) b → WinGives w i n (d ++ b)

/-- `b` consists of `n` bytes of one of the two generators. -/
def WinRandom (w : Win) (n : Nat) (b : Bytes) : Prop := b.length = n ∧ (w.bcrypt n = (true, b) ∨ WinGives w 0 n b)

theorem WinGives.length {w : Win} (hw : WinOk w) {i n : Nat} {b : Bytes} (h : WinGives w i n b) : b.length = n := by
  induction h with
  | done i => rfl
  | @step i n d b hn hd _ ih =>
    have := (hw.2 i (min n 0xFFFFFFFF)).1
    rw [hd] at this
    simp only at this
    rw [List.length_append, ih]
    omega

theorem drop_splice {buf b : Bytes} {o m : Nat} (h : o + b.length ≤ m) (ho : o ≤ buf.length) : (splice buf o b).drop m = buf.drop m := by
  unfold splice
  rw [List.drop_append, List.drop_of_length_le (by rw [List.length_append, List.length_take]; omega), List.nil_append, List.drop_drop, List.length_append, List.length_take]
  congr 1
  omega

theorem winLoop_run {w : Win} (hw : WinOk w) (fuel i o n : Nat) (buf : Bytes) (hf : n < fuel) (hb : o + n ≤ buf.length) :
    ∃ ok buf', winLoop w fuel i o n buf = .ok (ok, buf') ∧ buf'.length = buf.length ∧ buf'.drop (o + n) = buf.drop (o + n) ∧
      (ok = true → ∃ b, WinGives w i n b ∧ buf' = splice buf o b) := by
  induction fuel generalizing i o n buf with
  | zero => omega
  | succ fuel ih =>
    unfold winLoop
    by_cases hn : 0 < n
    · rw [if_pos hn]
      have hm : (if n < 0xFFFFFFFF then n else 0xFFFFFFFF) = min n 0xFFFFFFFF := by split <;> omega
      simp only [hm]
      cases hg : w.gen i (min n 0xFFFFFFFF) with
      | mk ok d =>
      have hd := hw.2 i (min n 0xFFFFFFFF)
      rw [hg] at hd
      simp only [hg] at hd ⊢
      rw [copy_all (by omega), ok_bind]
      have hs : (splice buf o d).length = buf.length := length_splice (by omega)
      cases ok with
      | false =>
        refine ⟨false, _, by rw [if_neg (by simp)], hs, ?_, by simp⟩
        exact drop_splice (by omega) (by omega)
      | true =>
        have hl := hd.2 rfl
        rw [if_pos rfl, ← hl]
        obtain ⟨ok, buf', e, h1, h2, h3⟩ := ih (i + 1) (o + d.length) (n - d.length) (splice buf o d) (by omega) (by omega)
        have ho : o + d.length + (n - d.length) = o + n := by omega
        rw [ho] at h2
        refine ⟨ok, buf', e, h1.trans hs, by rw [h2]; exact drop_splice (by omega) (by omega), fun h => ?_⟩
        obtain ⟨b, hb1, hb2⟩ := h3 h
        have := hb1.length hw
        exact ⟨d ++ b, .step hn hg hb1, by rw [hb2, splice_append (by omega)]⟩
    · rw [if_neg hn]
      obtain rfl : n = 0 := by omega
      exact ⟨true, buf, rfl, rfl, rfl, fun _ => ⟨[], .done i, by rw [splice_nil]⟩⟩

theorem zeros {n : Nat} {buf : Bytes} (hb : n ≤ buf.length) : copy buf 0 (List.replicate n 0) 0 n = .ok (List.replicate n 0 ++ buf.drop n) := by
  have := copy_all (buf := buf) (d := List.replicate n 0) (o := 0) (by rw [List.length_replicate]; omega)
  rw [List.length_replicate] at this
  rw [this]
  unfold splice
  rw [List.take_zero, List.nil_append, List.length_replicate, Nat.zero_add]

theorem overwrite {n : Nat} {buf b : Bytes} (hl : b.length ≤ n) (hb : n ≤ buf.length) :
    copy (List.replicate n 0 ++ buf.drop n) 0 b 0 b.length = .ok (b ++ List.replicate (n - b.length) 0 ++ buf.drop n) := by
  rw [copy_all (by rw [List.length_append, List.length_replicate]; omega)]
  unfold splice
  rw [List.take_zero, List.nil_append, Nat.zero_add, List.drop_append_of_le_length (by rw [List.length_replicate]; exact hl), List.drop_replicate, List.append_assoc]

/-- C88, for requests below 2^32 bytes: no undefined behaviour; 0 means that all bytes come from one of the system's generators; otherwise -1; nothing behind the `n` bytes changes. -/
theorem win32_fills_partial {w : Win} (hw : WinOk w) {n : Nat} (hn : n < 2 ^ 32) {buf : Bytes} (hb : n ≤ buf.length) :
    ∃ r buf', randombytesWin32 w n buf = .ok (r, buf') ∧ buf'.length = buf.length ∧ buf'.drop n = buf.drop n ∧ (r = 0 ∨ r = -1) ∧ (r = 0 → WinRandom w n (buf'.take n)) := by
  unfold randombytesWin32
  rw [zeros hb, ok_bind, Nat.mod_eq_of_lt hn]
  cases hg : w.bcrypt n with
  | mk ok b =>
  have hd := hw.1 n
  simp only [hg] at hd ⊢
  rw [overwrite hd.1 hb, ok_bind]
  have hl : (b ++ List.replicate (n - b.length) 0 ++ buf.drop n).length = buf.length := by
    simp only [List.length_append, List.length_replicate, List.length_drop]; omega
  have hdr : (b ++ List.replicate (n - b.length) 0 ++ buf.drop n).drop n = buf.drop n := by
    rw [List.drop_left' (by rw [List.length_append, List.length_replicate]; omega)]
  cases ok with
  | true =>
    have := hd.2 rfl
    refine ⟨0, _, if_pos rfl, hl, hdr, Or.inl rfl, fun _ => ?_⟩
    rw [this, Nat.sub_self, List.replicate_zero, List.append_nil, List.take_left' this]
    exact ⟨this, Or.inl hg⟩
  | false =>
    rw [if_neg (by simp)]
    cases hq : w.acquire with
    | false => exact ⟨-1, _, if_pos rfl, hl, hdr, Or.inr rfl, by simp⟩
    | true =>
      rw [if_neg (by simp)]
      obtain ⟨ok, buf', e, h1, h2, h3⟩ := winLoop_run hw (n + 1) 0 0 n (b ++ List.replicate (n - b.length) 0 ++ buf.drop n) (by omega) (by omega)
      rw [Nat.zero_add] at h2
      rw [e, ok_bind]
      cases ok with
      | false => exact ⟨-1, _, if_pos rfl, h1.trans hl, h2.trans hdr, Or.inr rfl, by simp⟩
      | true =>
        simp only [Bool.not_true, Bool.false_eq_true, if_false]
        cases w.release with
        | false => exact ⟨-1, _, if_pos rfl, h1.trans hl, h2.trans hdr, Or.inr rfl, by simp⟩
        | true =>
          refine ⟨0, _, if_neg (by simp), h1.trans hl, h2.trans hdr, Or.inl rfl, fun _ => ?_⟩
          obtain ⟨d, hd1, hd2⟩ := h3 rfl
          have := hd1.length hw
          rw [hd2]
          unfold splice
          rw [List.take_zero, List.nil_append, List.take_left' this]
          exact ⟨this, Or.inr hd1⟩

/-- C88 fails from 2^32 bytes on: BCryptGenRandom is asked for the length modulo 2^32, and the rest of the buffer is zero although the function returns 0. -/
theorem win32_truncates {w : Win} (hw : WinOk w) {n : Nat} {buf b : Bytes} (hb : n ≤ buf.length) (h : w.bcrypt (n % 2 ^ 32) = (true, b)) :
    randombytesWin32 w n buf = .ok (0, b ++ List.replicate (n - n % 2 ^ 32) 0 ++ buf.drop n) ∧ b.length = n % 2 ^ 32 := by
  have hd := hw.1 (n % 2 ^ 32)
  rw [h] at hd
  have hl := hd.2 rfl
  simp only at hl
  refine ⟨?_, hl⟩
  unfold randombytesWin32
  rw [zeros hb, ok_bind, h]
  dsimp only
  rw [overwrite (by rw [hl]; exact Nat.mod_le _ _) hb, ok_bind, if_pos rfl, hl]

/-- A generator that always succeeds with the byte 7. -/
def sevens : Win := ⟨fun c => (true, List.replicate c 7), true, fun _ c => (true, List.replicate c 7), true⟩

theorem sevens_ok : WinOk sevens :=
  ⟨fun c => ⟨Nat.le_of_eq List.length_replicate, fun _ => List.length_replicate⟩, fun _ c => ⟨Nat.le_of_eq List.length_replicate, fun _ => List.length_replicate⟩⟩

theorem sevens_gives {i n : Nat} {b : Bytes} (h : WinGives sevens i n b) : ∀ x ∈ b, x = 7 := by
  induction h with
  | done i => simp
  | @step i n d b hn hd _ ih =>
    cases hd
    intro x hx
    rcases List.mem_append.1 hx with hx | hx
    · exact List.eq_of_mem_replicate hx
    · exact ih x hx

/-- The witness: a request for 2^32 + 1 bytes gets 1 byte from the generator and 2^32 zeros, with result 0. -/
theorem win32_not_random : ¬ ∀ (w : Win), WinOk w → ∀ (n : Nat) (buf : Bytes), n ≤ buf.length → ∀ buf', randombytesWin32 w n buf = .ok (0, buf') → WinRandom w n (buf'.take n) := by
  intro h
  have hl : (List.replicate (2 ^ 32 + 1) (0 : Byte)).length = 2 ^ 32 + 1 := List.length_replicate
  have hr := (win32_truncates sevens_ok (n := 2 ^ 32 + 1) (buf := List.replicate (2 ^ 32 + 1) 0) (b := List.replicate 1 7) (Nat.le_of_eq hl.symm) rfl).1
  have := h sevens sevens_ok (2 ^ 32 + 1) _ (Nat.le_of_eq hl.symm) _ hr
  rw [List.drop_of_length_le (Nat.le_of_eq hl), List.append_nil] at this
  have e1 : (List.replicate 1 (7 : Byte) ++ List.replicate (2 ^ 32 + 1 - (2 ^ 32 + 1) % 2 ^ 32) 0).length = 2 ^ 32 + 1 := by
    rw [List.length_append, List.length_replicate, List.length_replicate]
  rw [List.take_of_length_le (Nat.le_of_eq e1)] at this
  have hm : (0 : Byte) ∈ List.replicate 1 (7 : Byte) ++ List.replicate (2 ^ 32 + 1 - (2 ^ 32 + 1) % 2 ^ 32) 0 :=
    List.mem_append_right _ (List.mem_replicate.2 ⟨by decide, rfl⟩)
  have all : ∀ x ∈ List.replicate 1 (7 : Byte) ++ List.replicate (2 ^ 32 + 1 - (2 ^ 32 + 1) % 2 ^ 32) 0, x = 7 := by
    rcases this.2 with h | h
    · have h : List.replicate (2 ^ 32 + 1) (7 : Byte) = _ := (Prod.mk.inj h).2
      rw [← h]
      exact fun x hx => List.eq_of_mem_replicate hx
    · exact sevens_gives h
  exact absurd (all 0 hm) (by decide)

/-- The fallback: BCryptGenRandom fails, CryptGenRandom delivers. -/
example : WinOk { sevens with bcrypt := fun _ => (false, []) } ∧ randombytesWin32 { sevens with bcrypt := fun _ => (false, []) } 3 [1, 2, 3, 4] = .ok (0, [7, 7, 7, 4]) :=
  ⟨⟨fun _ => ⟨Nat.zero_le _, by simp⟩, sevens_ok.2⟩, by rfl⟩

example : randombytesWin32 { sevens with bcrypt := fun _ => (false, [5]), acquire := false } 3 [1, 2, 3, 4] = .ok (-1, [5, 0, 0, 4]) := by rfl

/-- C89: on WASI and BSD the request always succeeds with the bytes of arc4random_buf. -/
theorem arc4_fills (a : (n : Nat) → { b : Bytes // b.length = n }) {n : Nat} {buf : Bytes} (hb : n ≤ buf.length) :
    randombytesArc4 a n buf = .ok (0, (a n).1 ++ buf.drop n) := by
  have hl := (a n).2
  have := copy_all (buf := buf) (d := (a n).1) (o := 0) (by omega)
  rw [hl] at this
  unfold randombytesArc4
  rw [this, ok_bind]
  unfold splice
  rw [List.take_zero, List.nil_append, hl, Nat.zero_add]

example : randombytesArc4 (fun n => ⟨List.replicate n 7, List.length_replicate⟩) 2 [1, 2, 3] = .ok (0, [7, 7, 3]) := by rfl

/-- The source that random/randombytes.c:320-341 chooses. -/
def Js.source (js : Js) (n : Nat) : Option Bytes := if js.window then js.getRandomValues n else if js.require then js.randomBytes n else none

/-- C89: in JavaScript, if the chosen source gives its `n` bytes the result is 0 and the buffer holds them; if not, the buffer is unchanged, and the result is -1, or, when it was the source of the
browser that failed, the exception leaves the function. errno is EINVAL if the source of Node failed, ENOSYS if there is none, and is left alone otherwise. -/
theorem nodejs_fills {js : Js} {n : Nat} {buf : Bytes} (hb : n ≤ buf.length) :
    (∀ b, js.source n = some b → b.length = n → randombytesNodejs js n buf = .ok (some (0, none), b ++ buf.drop n)) ∧
    (js.source n = none → randombytesNodejs js n buf = .ok (if js.window then none else some (-1, some (if js.require then .einval else .enosys)), buf)) := by
  constructor
  · intro b h hl
    have e : copy buf 0 b 0 b.length = .ok (b ++ buf.drop n) := by
      rw [copy_all (by omega)]
      unfold splice
      rw [List.take_zero, List.nil_append, hl, Nat.zero_add]
    unfold Js.source at h
    unfold randombytesNodejs jsRandom
    cases hw : js.window with
    | true =>
      rw [hw, if_pos rfl] at h
      simp only [if_true, h, e, ok_bind]
    | false =>
      rw [hw, if_neg (by simp)] at h
      cases hr : js.require with
      | true =>
        rw [hr, if_pos rfl] at h
        simp only [Bool.false_eq_true, if_false, Bool.not_true, h, e, ok_bind, if_true]
      | false => rw [hr] at h; simp at h
  · intro h
    unfold Js.source at h
    unfold randombytesNodejs jsRandom
    cases hw : js.window with
    | true =>
      rw [hw, if_pos rfl] at h
      simp only [if_true, h, ok_bind]
    | false =>
      rw [hw, if_neg (by simp)] at h
      cases hr : js.require with
      | true =>
        rw [hr, if_pos rfl] at h
        simp only [Bool.false_eq_true, if_false, Bool.not_true, h, ok_bind]
        rfl
      | false =>
        simp only [Bool.false_eq_true, if_false, Bool.not_false, if_true, ok_bind]
        rfl

/-- A browser, whose generator throws for more than 65536 bytes, and Node. -/
def browser : Js := ⟨true, fun n => if n ≤ 65536 then some (List.replicate n 7) else none, false, fun _ => none⟩

example : randombytesNodejs browser 2 [1, 2, 3] = .ok (some (0, none), [7, 7, 3]) := (nodejs_fills (by decide)).1 [7, 7] rfl rfl

example : randombytesNodejs browser 70000 (List.replicate 70000 1) = .ok (none, List.replicate 70000 1) := (nodejs_fills (Nat.le_of_eq List.length_replicate.symm)).2 rfl

example : randombytesNodejs ⟨false, fun _ => none, true, fun n => some (List.replicate n 9)⟩ 2 [1, 2, 3] = .ok (some (0, none), [9, 9, 3]) := by rfl

end Verif.Random
