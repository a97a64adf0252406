import Verif.Base

/-!
Model of common/fips202.c and common/shake_prng.c.

`uint64_t` is `BitVec 64`; `size_t` and `uint32_t` lengths are `Nat` (the sums formed from them are below 2^64).
The 26-word incremental context is the pair of its 25 state words and its counter `s_inc[25]` (a `Nat` that stays below 200);
an access that would hit word 25 through the state index is counted as undefined.
The contexts are allocated with malloc; failure of malloc ends the process (`exit(111)`) and is not modelled.
-/

namespace Verif.Keccak
open Verif

/-- `uint64_t`, as in common/fips202.c:418-425. -/
abbrev W64 := BitVec 64

/-- common/fips202.c:16 `ROL` -/
def rol (a : W64) (offset : Nat) : W64 := (a <<< offset) ^^^ (a >>> (64 - offset))

/-- common/fips202.c:27-34 `load64(x + o)` -/
def load64 (x : Bytes) (o : Nat) : C W64 :=
  loop (fun i r => do
    let b ← rd x (o + i)
    .ok (r ||| (b.setWidth 64 <<< (8 * i)))) 0 8 0

/-- common/fips202.c:44-48 `store64(x + o, u)` -/
def store64 (x : Bytes) (o : Nat) (u : W64) : C Bytes :=
  loop (fun i x => wr x (o + i) ((u >>> (8 * i)).setWidth 8)) 0 8 x

/-- common/fips202.c:51-64 `KeccakF_RoundConstants` -/
def roundConstants : List W64 := [
  0x0000000000000001, 0x0000000000008082, 0x800000000000808a, 0x8000000080008000,
  0x000000000000808b, 0x0000000080000001, 0x8000000080008081, 0x8000000000008009,
  0x000000000000008a, 0x0000000000000088, 0x0000000080008009, 0x000000008000000a,
  0x000000008000808b, 0x800000000000008b, 0x8000000000008089, 0x8000000000008003,
  0x8000000000008002, 0x8000000000000080, 0x000000000000800a, 0x800000008000000a,
  0x8000000080008081, 0x8000000000008080, 0x0000000080000001, 0x8000000080008008]

/-- common/fips202.c:76-87: the 25 local words (Aba..Asu, and again Eba..Esu). -/
structure Lanes where
  (ba be bi bo bu : W64)
  (ga ge gi go gu : W64)
  (ka ke ki ko ku : W64)
  (ma me mi mo mu : W64)
  (sa se si so su : W64)
  deriving DecidableEq

/-- common/fips202.c:117-211: first half of the loop body of `KeccakF1600_StatePermute` (round `round`, from A to E),
with `rc` for `KeccakF_RoundConstants[round]`.  `X ^= Y` and `X = Y` are `let`s that shadow. -/
def roundAE (rc : W64) : Lanes → Lanes
  | ⟨Aba, Abe, Abi, Abo, Abu, Aga, Age, Agi, Ago, Agu, Aka, Ake, Aki, Ako, Aku, Ama, Ame, Ami, Amo, Amu, Asa, Ase, Asi, Aso, Asu⟩ =>
    -- prepareTheta
    let BCa := Aba ^^^ Aga ^^^ Aka ^^^ Ama ^^^ Asa
    let BCe := Abe ^^^ Age ^^^ Ake ^^^ Ame ^^^ Ase
    let BCi := Abi ^^^ Agi ^^^ Aki ^^^ Ami ^^^ Asi
    let BCo := Abo ^^^ Ago ^^^ Ako ^^^ Amo ^^^ Aso
    let BCu := Abu ^^^ Agu ^^^ Aku ^^^ Amu ^^^ Asu
    -- thetaRhoPiChiIotaPrepareTheta(round  , A, E)
    let Da := BCu ^^^ (rol BCe 1)
    let De := BCa ^^^ (rol BCi 1)
    let Di := BCe ^^^ (rol BCo 1)
    let Do := BCi ^^^ (rol BCu 1)
    let Du := BCo ^^^ (rol BCa 1)
    let Aba := Aba ^^^ Da
    let BCa := Aba
    let Age := Age ^^^ De
    let BCe := rol Age 44
    let Aki := Aki ^^^ Di
    let BCi := rol Aki 43
    let Amo := Amo ^^^ Do
    let BCo := rol Amo 21
    let Asu := Asu ^^^ Du
    let BCu := rol Asu 14
    let Eba := BCa ^^^ ((~~~BCe) &&& BCi)
    let Eba := Eba ^^^ rc
    let Ebe := BCe ^^^ ((~~~BCi) &&& BCo)
    let Ebi := BCi ^^^ ((~~~BCo) &&& BCu)
    let Ebo := BCo ^^^ ((~~~BCu) &&& BCa)
    let Ebu := BCu ^^^ ((~~~BCa) &&& BCe)
    let Abo := Abo ^^^ Do
    let BCa := rol Abo 28
    let Agu := Agu ^^^ Du
    let BCe := rol Agu 20
    let Aka := Aka ^^^ Da
    let BCi := rol Aka 3
    let Ame := Ame ^^^ De
    let BCo := rol Ame 45
    let Asi := Asi ^^^ Di
    let BCu := rol Asi 61
    let Ega := BCa ^^^ ((~~~BCe) &&& BCi)
    let Ege := BCe ^^^ ((~~~BCi) &&& BCo)
    let Egi := BCi ^^^ ((~~~BCo) &&& BCu)
    let Ego := BCo ^^^ ((~~~BCu) &&& BCa)
    let Egu := BCu ^^^ ((~~~BCa) &&& BCe)
    let Abe := Abe ^^^ De
    let BCa := rol Abe 1
    let Agi := Agi ^^^ Di
    let BCe := rol Agi 6
    let Ako := Ako ^^^ Do
    let BCi := rol Ako 25
    let Amu := Amu ^^^ Du
    let BCo := rol Amu 8
    let Asa := Asa ^^^ Da
    let BCu := rol Asa 18
    let Eka := BCa ^^^ ((~~~BCe) &&& BCi)
    let Eke := BCe ^^^ ((~~~BCi) &&& BCo)
    let Eki := BCi ^^^ ((~~~BCo) &&& BCu)
    let Eko := BCo ^^^ ((~~~BCu) &&& BCa)
    let Eku := BCu ^^^ ((~~~BCa) &&& BCe)
    let Abu := Abu ^^^ Du
    let BCa := rol Abu 27
    let Aga := Aga ^^^ Da
    let BCe := rol Aga 36
    let Ake := Ake ^^^ De
    let BCi := rol Ake 10
    let Ami := Ami ^^^ Di
    let BCo := rol Ami 15
    let Aso := Aso ^^^ Do
    let BCu := rol Aso 56
    let Ema := BCa ^^^ ((~~~BCe) &&& BCi)
    let Eme := BCe ^^^ ((~~~BCi) &&& BCo)
    let Emi := BCi ^^^ ((~~~BCo) &&& BCu)
    let Emo := BCo ^^^ ((~~~BCu) &&& BCa)
    let Emu := BCu ^^^ ((~~~BCa) &&& BCe)
    let Abi := Abi ^^^ Di
    let BCa := rol Abi 62
    let Ago := Ago ^^^ Do
    let BCe := rol Ago 55
    let Aku := Aku ^^^ Du
    let BCi := rol Aku 39
    let Ama := Ama ^^^ Da
    let BCo := rol Ama 41
    let Ase := Ase ^^^ De
    let BCu := rol Ase 2
    let Esa := BCa ^^^ ((~~~BCe) &&& BCi)
    let Ese := BCe ^^^ ((~~~BCi) &&& BCo)
    let Esi := BCi ^^^ ((~~~BCo) &&& BCu)
    let Eso := BCo ^^^ ((~~~BCu) &&& BCa)
    let Esu := BCu ^^^ ((~~~BCa) &&& BCe)
    ⟨Eba, Ebe, Ebi, Ebo, Ebu, Ega, Ege, Egi, Ego, Egu, Eka, Eke, Eki, Eko, Eku, Ema, Eme, Emi, Emo, Emu, Esa, Ese, Esi, Eso, Esu⟩

/-- common/fips202.c:212-305: second half of the loop body (round `round + 1`, from E to A). -/
def roundEA (rc : W64) : Lanes → Lanes
  | ⟨Eba, Ebe, Ebi, Ebo, Ebu, Ega, Ege, Egi, Ego, Egu, Eka, Eke, Eki, Eko, Eku, Ema, Eme, Emi, Emo, Emu, Esa, Ese, Esi, Eso, Esu⟩ =>
    -- prepareTheta
    let BCa := Eba ^^^ Ega ^^^ Eka ^^^ Ema ^^^ Esa
    let BCe := Ebe ^^^ Ege ^^^ Eke ^^^ Eme ^^^ Ese
    let BCi := Ebi ^^^ Egi ^^^ Eki ^^^ Emi ^^^ Esi
    let BCo := Ebo ^^^ Ego ^^^ Eko ^^^ Emo ^^^ Eso
    let BCu := Ebu ^^^ Egu ^^^ Eku ^^^ Emu ^^^ Esu
    -- thetaRhoPiChiIotaPrepareTheta(round+1, E, A)
    let Da := BCu ^^^ (rol BCe 1)
    let De := BCa ^^^ (rol BCi 1)
    let Di := BCe ^^^ (rol BCo 1)
    let Do := BCi ^^^ (rol BCu 1)
    let Du := BCo ^^^ (rol BCa 1)
    let Eba := Eba ^^^ Da
    let BCa := Eba
    let Ege := Ege ^^^ De
    let BCe := rol Ege 44
    let Eki := Eki ^^^ Di
    let BCi := rol Eki 43
    let Emo := Emo ^^^ Do
    let BCo := rol Emo 21
    let Esu := Esu ^^^ Du
    let BCu := rol Esu 14
    let Aba := BCa ^^^ ((~~~BCe) &&& BCi)
    let Aba := Aba ^^^ rc
    let Abe := BCe ^^^ ((~~~BCi) &&& BCo)
    let Abi := BCi ^^^ ((~~~BCo) &&& BCu)
    let Abo := BCo ^^^ ((~~~BCu) &&& BCa)
    let Abu := BCu ^^^ ((~~~BCa) &&& BCe)
    let Ebo := Ebo ^^^ Do
    let BCa := rol Ebo 28
    let Egu := Egu ^^^ Du
    let BCe := rol Egu 20
    let Eka := Eka ^^^ Da
    let BCi := rol Eka 3
    let Eme := Eme ^^^ De
    let BCo := rol Eme 45
    let Esi := Esi ^^^ Di
    let BCu := rol Esi 61
    let Aga := BCa ^^^ ((~~~BCe) &&& BCi)
    let Age := BCe ^^^ ((~~~BCi) &&& BCo)
    let Agi := BCi ^^^ ((~~~BCo) &&& BCu)
    let Ago := BCo ^^^ ((~~~BCu) &&& BCa)
    let Agu := BCu ^^^ ((~~~BCa) &&& BCe)
    let Ebe := Ebe ^^^ De
    let BCa := rol Ebe 1
    let Egi := Egi ^^^ Di
    let BCe := rol Egi 6
    let Eko := Eko ^^^ Do
    let BCi := rol Eko 25
    let Emu := Emu ^^^ Du
    let BCo := rol Emu 8
    let Esa := Esa ^^^ Da
    let BCu := rol Esa 18
    let Aka := BCa ^^^ ((~~~BCe) &&& BCi)
    let Ake := BCe ^^^ ((~~~BCi) &&& BCo)
    let Aki := BCi ^^^ ((~~~BCo) &&& BCu)
    let Ako := BCo ^^^ ((~~~BCu) &&& BCa)
    let Aku := BCu ^^^ ((~~~BCa) &&& BCe)
    let Ebu := Ebu ^^^ Du
    let BCa := rol Ebu 27
    let Ega := Ega ^^^ Da
    let BCe := rol Ega 36
    let Eke := Eke ^^^ De
    let BCi := rol Eke 10
    let Emi := Emi ^^^ Di
    let BCo := rol Emi 15
    let Eso := Eso ^^^ Do
    let BCu := rol Eso 56
    let Ama := BCa ^^^ ((~~~BCe) &&& BCi)
    let Ame := BCe ^^^ ((~~~BCi) &&& BCo)
    let Ami := BCi ^^^ ((~~~BCo) &&& BCu)
    let Amo := BCo ^^^ ((~~~BCu) &&& BCa)
    let Amu := BCu ^^^ ((~~~BCa) &&& BCe)
    let Ebi := Ebi ^^^ Di
    let BCa := rol Ebi 62
    let Ego := Ego ^^^ Do
    let BCe := rol Ego 55
    let Eku := Eku ^^^ Du
    let BCi := rol Eku 39
    let Ema := Ema ^^^ Da
    let BCo := rol Ema 41
    let Ese := Ese ^^^ De
    let BCu := rol Ese 2
    let Asa := BCa ^^^ ((~~~BCe) &&& BCi)
    let Ase := BCe ^^^ ((~~~BCi) &&& BCo)
    let Asi := BCi ^^^ ((~~~BCo) &&& BCu)
    let Aso := BCo ^^^ ((~~~BCu) &&& BCa)
    let Asu := BCu ^^^ ((~~~BCa) &&& BCe)
    ⟨Aba, Abe, Abi, Abo, Abu, Aga, Age, Agi, Ago, Agu, Aka, Ake, Aki, Ako, Aku, Ama, Ame, Ami, Amo, Amu, Asa, Ase, Asi, Aso, Asu⟩

/-- common/fips202.c:116-306: `for (round = 0; round < NROUNDS; round += 2)`; the k-th iteration has round = 2k. -/
def permuteLanes (A : Lanes) : C Lanes :=
  loop (fun k A => do
    let rc0 ← rd roundConstants (2 * k)
    let rc1 ← rd roundConstants (2 * k + 1)
    .ok (roundEA rc1 (roundAE rc0 A))) 0 12 A

/-- common/fips202.c:73-334 `KeccakF1600_StatePermute`, with copyFromState (89-114) and copyToState (308-333). -/
def permute (s : List W64) : C (List W64) :=
  match s with
  | [s0, s1, s2, s3, s4, s5, s6, s7, s8, s9, s10, s11, s12, s13, s14, s15, s16, s17, s18, s19, s20, s21, s22, s23, s24] => do
    let A ← permuteLanes ⟨s0, s1, s2, s3, s4, s5, s6, s7, s8, s9, s10, s11, s12, s13, s14, s15, s16, s17, s18, s19, s20, s21, s22, s23, s24⟩
    .ok [A.ba, A.be, A.bi, A.bo, A.bu, A.ga, A.ge, A.gi, A.go, A.gu, A.ka, A.ke, A.ki, A.ko, A.ku, A.ma, A.me, A.mi, A.mo, A.mu, A.sa, A.se, A.si, A.so, A.su]
  | _ => .error .ub

/-- The body of the loops `for (i = 0; i < r / 8; ++i) s[i] ^= load64(m + o + 8 * i);` (common/fips202.c:361-363 and 377-379). -/
def xorBlock (s : List W64) (r : Nat) (m : Bytes) (o : Nat) : C (List W64) :=
  loop (fun i s => do
    let v ← load64 m (o + 8 * i)
    let x ← rd s i
    wr s i (x ^^^ v)) 0 (r / 8) s

/-- common/fips202.c:360-368: the loop `while (mlen >= r)`; `o` is how far `m` has been advanced.  Returns s, o, mlen.
For r = 0 the loop does not end. -/
def absorbLoop (r : Nat) (m : Bytes) (s : List W64) (o mlen : Nat) : C (List W64 × Nat × Nat) :=
  if r ≤ mlen then
    if r = 0 then .error .diverge else do
    let s ← xorBlock s r m o
    let s ← permute s
    absorbLoop r m s (o + r) (mlen - r)
  else .ok (s, o, mlen)
termination_by mlen

/-- common/fips202.c:349-380 `keccak_absorb(s, r, m, mlen, p)`.  The bytes of `t` beyond `r` are never read; they are zero here. -/
def absorb (r : Nat) (m : Bytes) (mlen : Nat) (p : Byte) : C (List W64) := do
  let s := List.replicate 25 0
  let (s, o, mlen) ← absorbLoop r m s 0 mlen
  let t ← loop (fun i t => wr t i 0) 0 r (List.replicate 200 0)
  let t ← loop (fun i t => do
    let b ← rd m (o + i)
    wr t i b) 0 mlen t
  let t ← wr t mlen p
  if r = 0 then .error .ub else do
  let last ← rd t (r - 1)
  let t ← wr t (r - 1) (last ||| 128)
  xorBlock s r t 0

/-- common/fips202.c:395-405 `keccak_squeezeblocks(h, nblocks, s, r)` -/
def squeezeblocks (h : Bytes) (nblocks : Nat) (s : List W64) (r : Nat) : C (Bytes × List W64) :=
  loop (fun j (h, s) => do
    let s ← permute s
    let h ← loop (fun i h => do
      let x ← rd s i
      store64 h (r * j + 8 * i) x) 0 (r / 8) h
    .ok (h, s)) 0 nblocks (h, s)

/-- The incremental context `s_inc` (common/fips202.h:27-29: 26 words, of which the last is the counter). -/
structure Inc where
  s : List W64
  cnt : Nat
  deriving DecidableEq

/-- common/fips202.c:418-425 `keccak_inc_init` -/
def incInit : Inc := ⟨List.replicate 25 0, 0⟩

/-- common/fips202.c:449 and 459: `s_inc[pos >> 3] ^= (uint64_t) b << (8 * (pos & 0x07));` -/
def xorByte (s : List W64) (pos : Nat) (b : Byte) : C (List W64) := do
  let x ← rd s (pos / 8)
  wr s (pos / 8) (x ^^^ (b.setWidth 64 <<< (8 * (pos % 8))))

/-- common/fips202.c:445-462: `o` is how far `m` has been advanced.  The counter of a context is below r whenever this is called;
otherwise `r - (uint32_t)s_inc[25]` wraps and the access runs out of the state. -/
def incAbsorbLoop (r : Nat) (m : Bytes) (st : Inc) (o mlen : Nat) : C Inc :=
  if r ≤ mlen + st.cnt then
    if r ≤ st.cnt then .error .ub else do
    let s ← loop (fun i s => do
      let b ← rd m (o + i)
      xorByte s (st.cnt + i) b) 0 (r - st.cnt) st.s
    let s ← permute s
    incAbsorbLoop r m ⟨s, 0⟩ (o + (r - st.cnt)) (mlen - (r - st.cnt))
  else do
    let s ← loop (fun i s => do
      let b ← rd m (o + i)
      xorByte s (st.cnt + i) b) 0 mlen st.s
    .ok ⟨s, st.cnt + mlen⟩
termination_by mlen

/-- common/fips202.c:440-462 `keccak_inc_absorb(s_inc, r, m, mlen)` -/
def incAbsorb (st : Inc) (r : Nat) (m : Bytes) (mlen : Nat) : C Inc := incAbsorbLoop r m st 0 mlen

/-- common/fips202.c:477-483 `keccak_inc_finalize(s_inc, r, p)` -/
def incFinalize (st : Inc) (r : Nat) (p : Byte) : C Inc := do
  let s ← xorByte st.s st.cnt p
  let s ← xorByte s (r - 1) 128
  .ok ⟨s, 0⟩

/-- common/fips202.c:505 and 517: `(uint8_t)(s_inc[pos >> 3] >> (8 * (pos & 0x07)))` -/
def getByte (s : List W64) (pos : Nat) : C Byte := do
  let x ← rd s (pos / 8)
  .ok ((x >>> (8 * (pos % 8))).setWidth 8)

/-- common/fips202.c:512-522: `while (outlen > 0)`; `o` is how far `h` has been advanced. -/
def incSqueezeLoop (r : Nat) (h : Bytes) (st : Inc) (o outlen : Nat) : C (Bytes × Inc) :=
  if 0 < outlen then
    if r = 0 then .error .diverge else do
    let s ← permute st.s
    let n := min outlen r
    let h ← loop (fun i h => do
      let b ← getByte s i
      wr h (o + i) b) 0 n h
    incSqueezeLoop r h ⟨s, r - n⟩ (o + n) (outlen - n)
  else .ok (h, st)
termination_by outlen

/-- common/fips202.c:498-523 `keccak_inc_squeeze(h, outlen, s_inc, r)`; `r - s_inc[25]` is unsigned and does not wrap when the counter
is at most r. -/
def incSqueeze (h : Bytes) (outlen : Nat) (st : Inc) (r : Nat) : C (Bytes × Inc) :=
  if r < st.cnt then .error .ub else do
  let n := min outlen st.cnt
  let h ← loop (fun i h => do
    let b ← getByte st.s (r - st.cnt + i)
    wr h i b) 0 n h
  incSqueezeLoop r h ⟨st.s, st.cnt - n⟩ n (outlen - n)

/-! common/fips202.h:7-11 -/
abbrev SHAKE128_RATE : Nat := 168
/-- common/fips202.h:8. -/
abbrev SHAKE256_RATE : Nat := 136
/-- common/fips202.h:9. -/
abbrev SHA3_256_RATE : Nat := 136
/-- common/fips202.h:10. -/
abbrev SHA3_384_RATE : Nat := 104
/-- common/fips202.h:11. -/
abbrev SHA3_512_RATE : Nat := 72

/-- common/fips202.c:695-715 `shake128` and 726-746 `shake256`, which differ in the rate only. -/
def shake (rate : Nat) (output : Bytes) (outlen : Nat) (input : Bytes) (inlen : Nat) : C Bytes := do
  let nblocks := outlen / rate
  let s ← absorb rate input inlen 0x1F
  let (output, s) ← squeezeblocks output nblocks s rate
  let rest := outlen - nblocks * rate
  if rest ≠ 0 then do
    let (t, _) ← squeezeblocks (List.replicate rate 0) 1 s rate
    copy output (nblocks * rate) t 0 rest
  else .ok output

/-- common/fips202.c:695-715 `shake128` -/
def shake128 (output : Bytes) (outlen : Nat) (input : Bytes) (inlen : Nat) : C Bytes := shake SHAKE128_RATE output outlen input inlen

/-- common/fips202.c:726-746 `shake256` -/
def shake256 (output : Bytes) (outlen : Nat) (input : Bytes) (inlen : Nat) : C Bytes := shake SHAKE256_RATE output outlen input inlen

/-- common/fips202.c:793-806 `sha3_256`, 854-867 `sha3_384`, 915-928 `sha3_512`, which differ in rate and output length only. -/
def sha3 (rate n : Nat) (output : Bytes) (input : Bytes) (inlen : Nat) : C Bytes := do
  let s ← absorb rate input inlen 0x06
  let (t, _) ← squeezeblocks (List.replicate rate 0) 1 s rate
  copy output 0 t 0 n

/-- common/fips202.c:793-806 -/
def sha3_256 (output : Bytes) (input : Bytes) (inlen : Nat) : C Bytes := sha3 SHA3_256_RATE 32 output input inlen
/-- common/fips202.c:854-867 -/
def sha3_384 (output : Bytes) (input : Bytes) (inlen : Nat) : C Bytes := sha3 SHA3_384_RATE 48 output input inlen
/-- common/fips202.c:915-928 -/
def sha3_512 (output : Bytes) (input : Bytes) (inlen : Nat) : C Bytes := sha3 SHA3_512_RATE 64 output input inlen

/-- common/fips202.c:771-782 `sha3_256_inc_finalize`, 832-843 `sha3_384_inc_finalize`, 893-904 `sha3_512_inc_finalize`: incremental SHA-3 output. -/
def sha3IncFinalize (rate n : Nat) (output : Bytes) (st : Inc) : C Bytes := do
  let st ← incFinalize st rate 0x06
  let (t, _) ← squeezeblocks (List.replicate rate 0) 1 st.s rate
  copy output 0 t 0 n

/-- common/domains.h `SEEDEXPANDER_DOMAIN` -/
abbrev SEEDEXPANDER_DOMAIN : Byte := 2

/-- common/shake_prng.c:19-25 `seedexpander_init` -/
def seedexpanderInit (seed : Bytes) (seedlen : Nat) : C Inc := do
  let st ← incAbsorb incInit SHAKE256_RATE seed seedlen
  let st ← incAbsorb st SHAKE256_RATE [SEEDEXPANDER_DOMAIN] 1
  incFinalize st SHAKE256_RATE 0x1F

/-- common/shake_prng.c:37-50 `seedexpander(state, output, outlen)`.  The loop counter of the last loop is a `uint8_t` below 8. -/
def seedexpander (st : Inc) (output : Bytes) (outlen : Nat) : C (Bytes × Inc) := do
  let remainder := outlen % 8
  let (output, st) ← incSqueeze output (outlen - remainder) st SHAKE256_RATE
  if remainder ≠ 0 then do
    let (tmp, st) ← incSqueeze (List.replicate 8 0) 8 st SHAKE256_RATE
    let output ← copy output (outlen - remainder) tmp 0 remainder
    .ok (output, st)
  else .ok (output, st)

/-- common/shake_prng.c:67-83 `seedexpander_wrapper(seed, seedlen, output, outlen)`; `none` is NULL. -/
def seedexpanderWrapper (seed : Option Bytes) (seedlen : Nat) (output : Option Bytes) (outlen : Nat) : C (Int × Option Bytes) :=
  match seed, output with
  | some seed, some out =>
    if seedlen < 32 then .ok (-2, some out) else
    if outlen ≤ seedlen then .ok (-3, some out) else do
    let st ← seedexpanderInit seed seedlen
    let (out, _) ← seedexpander st out outlen
    .ok (0, some out)
  | _, output => .ok (-1, output)

end Verif.Keccak
