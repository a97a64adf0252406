import Verif.Ct.Base
import Verif.Keccak.Model

/-!
common/fips202.c and common/shake_prng.c with traces.  The definitions are those of Verif/Keccak/Model.lean, with every access and every condition
of the source recorded.  The rounds of the permutation work on local words and have neither.  The loops that set
a state or a local array to zeros before use are not recorded.
-/

namespace Verif.Ct.Keccak
open Verif.Keccak (W64 Inc Lanes roundAE roundEA roundConstants incInit SHAKE128_RATE SHAKE256_RATE SHA3_256_RATE SHA3_384_RATE SHA3_512_RATE SEEDEXPANDER_DOMAIN)

/-- Records events (no line of its own; used for the accesses of common/fips202.c:89-114 and 308-333 and the conditions of while loops). -/
def touch (e : List Ev) : T Unit := ⟨.ok (), e⟩

/-- A loop that does not end (no line of its own). -/
def diverge {α : Type} : T α := ⟨.error .diverge, []⟩

/-- common/fips202.c:27-34 `load64(x + o)` -/
def load64 (x : Bytes) (o : Nat) : T W64 :=
  loop (fun i r => do
    let b ← rd x (o + i)
    pure (r ||| (b.setWidth 64 <<< (8 * i)))) 0 8 0

/-- common/fips202.c:44-48 `store64(x + o, u)` -/
def store64 (x : Bytes) (o : Nat) (u : W64) : T Bytes :=
  loop (fun i x => wr x (o + i) ((u >>> (8 * i)).setWidth 8)) 0 8 x

/-- common/fips202.c:116-306: `for (round = 0; round < NROUNDS; round += 2)`; the k-th iteration has round = 2k. -/
def permuteLanes (A : Lanes) : T Lanes :=
  loop (fun k A => do
    let rc0 ← rd roundConstants (2 * k)
    let rc1 ← rd roundConstants (2 * k + 1)
    pure (roundEA rc1 (roundAE rc0 A))) 0 12 A

/-- common/fips202.c:73-334 `KeccakF1600_StatePermute`, with copyFromState (89-114) and copyToState (308-333). -/
def permute (s : List W64) : T (List W64) :=
  match s with
  | [s0, s1, s2, s3, s4, s5, s6, s7, s8, s9, s10, s11, s12, s13, s14, s15, s16, s17, s18, s19, s20, s21, s22, s23, s24] => do
    touch ((List.range 25).map .read)
    let A ← permuteLanes ⟨s0, s1, s2, s3, s4, s5, s6, s7, s8, s9, s10, s11, s12, s13, s14, s15, s16, s17, s18, s19, s20, s21, s22, s23, s24⟩
    touch ((List.range 25).map .write)
    pure [A.ba, A.be, A.bi, A.bo, A.bu, A.ga, A.ge, A.gi, A.go, A.gu, A.ka, A.ke, A.ki, A.ko, A.ku, A.ma, A.me, A.mi, A.mo, A.mu, A.sa, A.se, A.si, A.so, A.su]
  | _ => ub

/-- The body of the loops `for (i = 0; i < r / 8; ++i) s[i] ^= load64(m + o + 8 * i);` (common/fips202.c:361-363 and 377-379). -/
def xorBlock (s : List W64) (r : Nat) (m : Bytes) (o : Nat) : T (List W64) :=
  loop (fun i s => do
    let v ← load64 m (o + 8 * i)
    let x ← rd s i
    wr s i (x ^^^ v)) 0 (r / 8) s

/-- common/fips202.c:360-368: the loop `while (mlen >= r)`; `o` is how far `m` has been advanced.  Returns s, o, mlen.
For r = 0 the loop does not end. -/
def absorbLoop (r : Nat) (m : Bytes) (s : List W64) (o mlen : Nat) : T (List W64 × Nat × Nat) :=
  if r ≤ mlen then
    if r = 0 then diverge else do
    touch [.branch true]
    let s ← xorBlock s r m o
    let s ← permute s
    absorbLoop r m s (o + r) (mlen - r)
  else do
    touch [.branch false]
    pure (s, o, mlen)
termination_by mlen

/-- common/fips202.c:349-380 `keccak_absorb(s, r, m, mlen, p)`.  The bytes of `t` beyond `r` are never read; they are zero here. -/
def absorb (r : Nat) (m : Bytes) (mlen : Nat) (p : Byte) : T (List W64) := do
  let s := List.replicate 25 0
  let (s, o, mlen) ← absorbLoop r m s 0 mlen
  let t ← loop (fun i t => wr t i 0) 0 r (List.replicate 200 0)
  let t ← loop (fun i t => do
    let b ← rd m (o + i)
    wr t i b) 0 mlen t
  let t ← wr t mlen p
  if r = 0 then ub else do
  let last ← rd t (r - 1)
  let t ← wr t (r - 1) (last ||| 128)
  xorBlock s r t 0

/-- common/fips202.c:395-405 `keccak_squeezeblocks(h, nblocks, s, r)` -/
def squeezeblocks (h : Bytes) (nblocks : Nat) (s : List W64) (r : Nat) : T (Bytes × List W64) :=
  loop (fun j (q : Bytes × List W64) => do
    let s ← permute q.2
    let h ← loop (fun i h => do
      let x ← rd s i
      store64 h (r * j + 8 * i) x) 0 (r / 8) q.1
    pure (h, s)) 0 nblocks (h, s)

/-- common/fips202.c:449 and 459: `s_inc[pos >> 3] ^= (uint64_t) b << (8 * (pos & 0x07));` -/
def xorByte (s : List W64) (pos : Nat) (b : Byte) : T (List W64) := do
  let x ← rd s (pos / 8)
  wr s (pos / 8) (x ^^^ (b.setWidth 64 <<< (8 * (pos % 8))))

/-- common/fips202.c:445-462: `o` is how far `m` has been advanced.  The counter of a context is below r whenever this is called;
otherwise `r - (uint32_t)s_inc[25]` wraps and the access runs out of the state. -/
def incAbsorbLoop (r : Nat) (m : Bytes) (st : Inc) (o mlen : Nat) : T Inc :=
  if r ≤ mlen + st.cnt then
    if r ≤ st.cnt then ub else do
    touch [.branch true]
    let s ← loop (fun i s => do
      let b ← rd m (o + i)
      xorByte s (st.cnt + i) b) 0 (r - st.cnt) st.s
    let s ← permute s
    incAbsorbLoop r m ⟨s, 0⟩ (o + (r - st.cnt)) (mlen - (r - st.cnt))
  else do
    touch [.branch false]
    let s ← loop (fun i s => do
      let b ← rd m (o + i)
      xorByte s (st.cnt + i) b) 0 mlen st.s
    pure ⟨s, st.cnt + mlen⟩
termination_by mlen

/-- common/fips202.c:440-462 `keccak_inc_absorb(s_inc, r, m, mlen)` -/
def incAbsorb (st : Inc) (r : Nat) (m : Bytes) (mlen : Nat) : T Inc := incAbsorbLoop r m st 0 mlen

/-- common/fips202.c:477-483 `keccak_inc_finalize(s_inc, r, p)` -/
def incFinalize (st : Inc) (r : Nat) (p : Byte) : T Inc := do
  let s ← xorByte st.s st.cnt p
  let s ← xorByte s (r - 1) 128
  pure ⟨s, 0⟩

/-- common/fips202.c:505 and 517: `(uint8_t)(s_inc[pos >> 3] >> (8 * (pos & 0x07)))` -/
def getByte (s : List W64) (pos : Nat) : T Byte := do
  let x ← rd s (pos / 8)
  pure ((x >>> (8 * (pos % 8))).setWidth 8)

/-- common/fips202.c:512-522: `while (outlen > 0)`; `o` is how far `h` has been advanced. -/
def incSqueezeLoop (r : Nat) (h : Bytes) (st : Inc) (o outlen : Nat) : T (Bytes × Inc) :=
  if 0 < outlen then
    if r = 0 then diverge else do
    touch [.branch true]
    let s ← permute st.s
    let n := min outlen r
    let h ← loop (fun i h => do
      let b ← getByte s i
      wr h (o + i) b) 0 n h
    incSqueezeLoop r h ⟨s, r - n⟩ (o + n) (outlen - n)
  else do
    touch [.branch false]
    pure (h, st)
termination_by outlen

/-- common/fips202.c:498-523 `keccak_inc_squeeze(h, outlen, s_inc, r)`; `r - s_inc[25]` is unsigned and does not wrap when the counter
is at most r. -/
def incSqueeze (h : Bytes) (outlen : Nat) (st : Inc) (r : Nat) : T (Bytes × Inc) :=
  if r < st.cnt then ub else do
  let n := min outlen st.cnt
  let h ← loop (fun i h => do
    let b ← getByte st.s (r - st.cnt + i)
    wr h i b) 0 n h
  incSqueezeLoop r h ⟨st.s, st.cnt - n⟩ n (outlen - n)

/-- common/fips202.c:695-715 `shake128` and 726-746 `shake256`, which differ in the rate only. -/
def shake (rate : Nat) (output : Bytes) (outlen : Nat) (input : Bytes) (inlen : Nat) : T Bytes := do
  let nblocks := outlen / rate
  let s ← absorb rate input inlen 0x1F
  let (output, s) ← squeezeblocks output nblocks s rate
  let rest := outlen - nblocks * rate
  cond (rest ≠ 0)
    (do
      let (t, _) ← squeezeblocks (List.replicate rate 0) 1 s rate
      copy output (nblocks * rate) t 0 rest)
    (pure output)

/-- common/fips202.c:695-715 `shake128` -/
def shake128 (output : Bytes) (outlen : Nat) (input : Bytes) (inlen : Nat) : T Bytes := shake SHAKE128_RATE output outlen input inlen

/-- common/fips202.c:726-746 `shake256` -/
def shake256 (output : Bytes) (outlen : Nat) (input : Bytes) (inlen : Nat) : T Bytes := shake SHAKE256_RATE output outlen input inlen

/-- common/fips202.c:793-806 `sha3_256`, 854-867 `sha3_384`, 915-928 `sha3_512`, which differ in rate and output length only. -/
def sha3 (rate n : Nat) (output : Bytes) (input : Bytes) (inlen : Nat) : T Bytes := do
  let s ← absorb rate input inlen 0x06
  let (t, _) ← squeezeblocks (List.replicate rate 0) 1 s rate
  copy output 0 t 0 n

/-- common/fips202.c:793-806 -/
def sha3_256 (output : Bytes) (input : Bytes) (inlen : Nat) : T Bytes := sha3 SHA3_256_RATE 32 output input inlen

/-- common/fips202.c:854-867 -/
def sha3_384 (output : Bytes) (input : Bytes) (inlen : Nat) : T Bytes := sha3 SHA3_384_RATE 48 output input inlen

/-- common/fips202.c:915-928 -/
def sha3_512 (output : Bytes) (input : Bytes) (inlen : Nat) : T Bytes := sha3 SHA3_512_RATE 64 output input inlen

/-- common/fips202.c:771-782 `sha3_256_inc_finalize`, 832-843 `sha3_384_inc_finalize`, 893-904 `sha3_512_inc_finalize`: incremental SHA-3 output. -/
def sha3IncFinalize (rate n : Nat) (output : Bytes) (st : Inc) : T Bytes := do
  let st ← incFinalize st rate 0x06
  let (t, _) ← squeezeblocks (List.replicate rate 0) 1 st.s rate
  copy output 0 t 0 n

/-- common/shake_prng.c:19-25 `seedexpander_init` -/
def seedexpanderInit (seed : Bytes) (seedlen : Nat) : T Inc := do
  let st ← incAbsorb incInit SHAKE256_RATE seed seedlen
  let st ← incAbsorb st SHAKE256_RATE [SEEDEXPANDER_DOMAIN] 1
  incFinalize st SHAKE256_RATE 0x1F

/-- common/shake_prng.c:37-50 `seedexpander(state, output, outlen)`.  The loop counter of the last loop is a `uint8_t` below 8. -/
def seedexpander (st : Inc) (output : Bytes) (outlen : Nat) : T (Bytes × Inc) := do
  let remainder := outlen % 8
  let (output, st) ← incSqueeze output (outlen - remainder) st SHAKE256_RATE
  cond (remainder ≠ 0)
    (do
      let (tmp, st) ← incSqueeze (List.replicate 8 0) 8 st SHAKE256_RATE
      let output ← copy output (outlen - remainder) tmp 0 remainder
      pure (output, st))
    (pure (output, st))

/-- common/shake_prng.c:67-83 `seedexpander_wrapper(seed, seedlen, output, outlen)`; `none` is NULL. -/
def seedexpanderWrapper (seed : Option Bytes) (seedlen : Nat) (output : Option Bytes) (outlen : Nat) : T (Int × Option Bytes) :=
  match seed, output with
  | some seed, some out => do
    touch [.branch false, .branch false]
    cond (seedlen < 32) (pure (-2, some out)) (cond (outlen ≤ seedlen) (pure (-3, some out)) do
    let st ← seedexpanderInit seed seedlen
    let (out, _) ← seedexpander st out outlen
    pure (0, some out))
  | none, output => do
    touch [.branch true]
    pure (-1, output)
  | some _, none => do
    touch [.branch false, .branch true]
    pure (-1, none)

end Verif.Ct.Keccak
