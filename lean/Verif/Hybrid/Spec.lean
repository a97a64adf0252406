import Verif.Hybrid.Model

/-!
Specification of the hybrid API, independent of how hybrid.c computes it: wire formats, key layout and what
"a component accepts" means.  Sources: the layout comments in hybrid-dilithium-sphincs/hybrid.c:259-268, 468-476
and README.md.
-/

namespace Verif.Hybrid
open Verif

/-! Parts of the 1408-byte public key and of the 4064-byte secret key (hybrid-dilithium-sphincs/hybrid.c:174-182). -/
def pkEd (pk : Bytes) : Bytes := pk.take 32
/-- Dilithium part of a public key. -/
def pkDil (pk : Bytes) : Bytes := (pk.drop 32).take 1312
/-- SPHINCS+ part of a public key. -/
def pkSpx (pk : Bytes) : Bytes := (pk.drop 1344).take 64
/-- Ed25519 part of a secret key. -/
def skEd (sk : Bytes) : Bytes := sk.take 64
/-- Dilithium part of a secret key. -/
def skDil (sk : Bytes) : Bytes := (sk.drop 64).take 2560
/-- Dilithium public key inside a secret key. -/
def skDilPk (sk : Bytes) : Bytes := (sk.drop 2624).take 1312
/-- SPHINCS+ part of a secret key. -/
def skSpx (sk : Bytes) : Bytes := (sk.drop 3936).take 128
/-- SPHINCS+ public key inside a secret key. -/
def skSpxPk (sk : Bytes) : Bytes := (sk.drop 4000).take 64

/-- Full-mode signature: id 2, message length, Ed25519 signature, message, Dilithium signature, SPHINCS+ signature. -/
def fullWire (ed msg dil spx : Bytes) : Bytes :=
  2 :: BitVec.ofNat 8 msg.length :: (ed ++ msg ++ dil ++ spx)

/-- Compact signature: id 1, message length, Ed25519 signature, Dilithium signature, nonce, message. -/
def compactWire (ed dil nonce msg : Bytes) : Bytes :=
  1 :: BitVec.ofNat 8 msg.length :: (ed ++ dil ++ nonce ++ msg)

/-- What compact mode signs. -/
def compactHash (P : Prims) (nonce msg spxPk : Bytes) : Bytes := P.sha3_512 (nonce ++ msg ++ spxPk)

/-- The Ed25519 component accepts `sig` as a signature of `msg` under `pk`
(the opener is called with a 128-byte array whose unused rest is zero). -/
def EdAccepts (P : Prims) (pk sig msg : Bytes) : Prop :=
  ∃ out len, P.edOpen (List.replicate 128 0) 0 (sig ++ msg ++ List.replicate (64 - msg.length) 0)
    (sig.length + msg.length) pk = .ok (0, out, len)

/-- The Dilithium component accepts. -/
def DilAccepts (P : Prims) (pk sig msg : Bytes) : Prop := P.dilVerify sig msg pk = .ok 0

/-- The SPHINCS+ component accepts. -/
def SpxAccepts (P : Prims) (pk sig msg : Bytes) : Prop := P.spxVerify sig msg pk = .ok 0

/-- A buffer that full mode must accept for `msg` under `pk`, and no other. -/
def FullValid (P : Prims) (pk msg sm : Bytes) : Prop :=
  1 ≤ msg.length ∧ msg.length ≤ 64 ∧ ∃ ed dil spx,
    ed.length = 64 ∧ dil.length = 2420 ∧ spx.length = 49856 ∧ sm = fullWire ed msg dil spx ∧
    EdAccepts P (pkEd pk) ed msg ∧ DilAccepts P (pkDil pk) dil msg ∧ SpxAccepts P (pkSpx pk) spx msg

/-- A buffer that compact mode must accept for `msg` under `pk`, and no other. -/
def CompactValid (P : Prims) (pk msg sm : Bytes) : Prop :=
  1 ≤ msg.length ∧ msg.length ≤ 64 ∧ ∃ ed dil nonce,
    ed.length = 64 ∧ dil.length = 2420 ∧ nonce.length = 40 ∧ sm = compactWire ed dil nonce msg ∧
    EdAccepts P (pkEd pk) ed (compactHash P nonce msg (pkSpx pk)) ∧
    DilAccepts P (pkDil pk) dil (compactHash P nonce msg (pkSpx pk))

/-! ### Contracts of the component functions
The hybrid theorems hold for every set of components that meets these; `Verif/Real` shows that the models of the
component code do. -/

/-- The component functions keep the sizes of the buffers they are given. -/
structure Prims.Sized (P : Prims) : Prop where
  edKeypairSeed : ∀ pk sk s r pk' sk', P.edKeypairSeed pk sk s = .ok (r, pk', sk') →
    pk'.length = pk.length ∧ sk'.length = sk.length
  edSign : ∀ b n m sk r b' n', P.edSign b n m sk = .ok (r, b', n') → b'.length = b.length
  edOpen : ∀ b n sm k pk r b' n', P.edOpen b n sm k pk = .ok (r, b', n') → b'.length = b.length
  dilKeypairSeed : ∀ pk sk s r pk' sk', P.dilKeypairSeed pk sk s = .ok (r, pk', sk') →
    pk'.length = pk.length ∧ sk'.length = sk.length
  dilSign : ∀ b n m sk r b' n', P.dilSign b n m sk = .ok (r, b', n') → b'.length = b.length
  spxKeypairSeed : ∀ pk sk s r pk' sk', P.spxKeypairSeed pk sk s = .ok (r, pk', sk') →
    pk'.length = pk.length ∧ sk'.length = sk.length
  spxSign : ∀ b n m sk R r b' n' R', P.spxSign b n m sk R = .ok ((r, b', n'), R') → b'.length = b.length
  sha3_512 : ∀ x, (P.sha3_512 x).length = 64
  seedexpander : ∀ s n r out, P.seedexpander s n = .ok (r, out) → out.length = n

/-- Ed25519 signing appends the message, opening returns it. -/
structure Prims.EdShape (P : Prims) : Prop where
  sign : ∀ m sk b n, m.length ≤ 64 → P.edSign (List.replicate 128 0) 0 m sk = .ok (0, b, n) →
    n = 64 + m.length ∧ (b.drop 64).take m.length = m
  open_ : ∀ sm n pk out l, sm.length = 128 → 64 ≤ n → n ≤ 128 →
    P.edOpen (List.replicate 128 0) 0 sm n pk = .ok (0, out, l) → l = n - 64 ∧ out.take l = (sm.drop 64).take l

/-- The Ed25519 secret key ends with its public key, and so does the SPHINCS+ secret key. -/
structure Prims.KeyShape (P : Prims) : Prop where
  ed : ∀ s pk sk, P.edKeypairSeed (List.replicate 32 0) (List.replicate 64 0) s = .ok (0, pk, sk) → sk.drop 32 = pk
  spx : ∀ s pk sk, P.spxKeypairSeed (List.replicate 64 0) (List.replicate 128 0) s = .ok (0, pk, sk) → sk.drop 64 = pk

/-- SPHINCS+ signing makes exactly one draw of 32 bytes and reports its failure. -/
structure Prims.SpxDraw (P : Prims) : Prop where
  log : ∀ b n m sk R r R', P.spxSign b n m sk R = .ok (r, R') →
    R'.draw = R.draw ∧ R'.log = R.log ++ [(32, R.draw R.log.length 32)]
  fail : ∀ b n m sk R r R', P.spxSign b n m sk R = .ok (r, R') → R.draw R.log.length 32 = none → r.1 ≠ 0

/-- Signatures that the component signers make are accepted by the component verifiers under the key of the same
generated key pair. -/
structure Prims.Correct (P : Prims) : Prop where
  ed : ∀ s pk sk m b n, m.length ≤ 64 → P.edKeypairSeed (List.replicate 32 0) (List.replicate 64 0) s = .ok (0, pk, sk) →
    P.edSign (List.replicate 128 0) 0 m sk = .ok (0, b, n) → EdAccepts P pk (b.take 64) m
  dil : ∀ s pk sk m b, P.dilKeypairSeed (List.replicate 1312 0) (List.replicate 2560 0) s = .ok (0, pk, sk) →
    P.dilSign (List.replicate 2420 0) 0 m sk = .ok (0, b, 2420) → DilAccepts P pk b m
  spx : ∀ s pk sk m b R R', P.spxKeypairSeed (List.replicate 64 0) (List.replicate 128 0) s = .ok (0, pk, sk) →
    P.spxSign (List.replicate 49856 0) 0 m sk R = .ok ((0, b, 49856), R') → SpxAccepts P pk b m

/-- No component function has undefined behaviour. -/
structure Prims.NoUB (P : Prims) : Prop where
  edKeypairSeed : ∀ s, s.length = 32 → P.edKeypairSeed (List.replicate 32 0) (List.replicate 64 0) s ≠ .error .ub
  edSign : ∀ m sk, m.length ≤ 64 → sk.length = 64 → P.edSign (List.replicate 128 0) 0 m sk ≠ .error .ub
  edOpen : ∀ sm n pk, sm.length = 128 → n ≤ 128 → pk.length = 32 → P.edOpen (List.replicate 128 0) 0 sm n pk ≠ .error .ub
  dilKeypairSeed : ∀ s, s.length = 32 → P.dilKeypairSeed (List.replicate 1312 0) (List.replicate 2560 0) s ≠ .error .ub
  dilSign : ∀ m sk, sk.length = 2560 → P.dilSign (List.replicate 2420 0) 0 m sk ≠ .error .ub
  dilVerify : ∀ s m pk, s.length = 2420 → pk.length = 1312 → P.dilVerify s m pk ≠ .error .ub
  spxKeypairSeed : ∀ s, s.length = 96 → P.spxKeypairSeed (List.replicate 64 0) (List.replicate 128 0) s ≠ .error .ub
  spxSign : ∀ m sk R, sk.length = 128 → P.spxSign (List.replicate 49856 0) 0 m sk R ≠ .error .ub
  spxVerify : ∀ s m pk, s.length = 49856 → pk.length = 64 → P.spxVerify s m pk ≠ .error .ub
  seedexpander : ∀ s, s.length = 64 → P.seedexpander s 128 ≠ .error .ub

end Verif.Hybrid
