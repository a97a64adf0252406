# Design of the model and the proofs

Subject: DogeProtocol/hybrid-pqc at the pinned commit, read as text in `/repo`.
Nothing in `/repo` is built or run.

## 1. Shape of the model

The C code is modelled function by function in Lean 4 under `lean/Verif/`.

* `C` monad: `Except Fault`, `Fault = ub | diverge`. `ub` is the outcome of every
  operation whose behaviour C leaves undefined and that the model can meet: out-of-bounds
  array access, dereference of NULL or of a pointer outside its block, signed overflow,
  use of an uninitialised object. `diverge` is the outcome of an unbounded loop that did not
  finish within the fuel given to the model (rejection sampling in Dilithium, getrandom
  retry loop). A theorem of the form "the call returns code r" therefore includes "no
  undefined behaviour".
* Bytes are `BitVec 8`, unsigned words `BitVec 32/64`, signed integers are `Int` with an
  explicit range check after every operation that can overflow.
* Caller memory (hybrid layer) is a block memory: a pointer is NULL or (block, offset), every
  block has a fixed length. Overlapping buffers are two pointers into one block.
  Local arrays are Lean lists, or fresh blocks when their address is passed on.
* The random source is an arbitrary oracle: the n-th draw of k bytes either fails or returns
  k arbitrary bytes. The world carries the number of draws made.
* The hybrid layer is parameterised by the component algorithms (`Prims`), because
  its decision logic has to be right for every behaviour of the components; it is then
  instantiated with the models of the component code to get end-to-end theorems.

## 2. Trusted base

* The Lean kernel, and the axioms `propext`, `Classical.choice`, `Quot.sound` (at most; no
  other axiom is used, which the gate checks for every theorem).
* The translation from C to Lean done by hand. Every definition cites file and lines.
* Platform assumptions: LP64, two's complement, `>>` of negative values is arithmetic, `<<` of
  negative values multiplies by a power of two (formally undefined in C11, used all
  over TweetNaCl), `char` has 8 bits, conversions to signed types wrap.
* Side channels: only control flow and memory addresses as they stand in the source (C91 and following). In these copies `rd`, `wr`, `cond`, `loop` and `copy` log events; the checks of the model
  itself (`if ... then ub`) do not. Loops that clear a fresh array and accesses to scalars are not logged. Time per instruction, caches beyond the addresses, speculation and compilers are not modelled.
* Not modelled: the inside of the operating system, compilers. In Random/ a system call is an arbitrary answer; in
  Random/Entropy.lean the answer may depend on the whole history of calls. A failing call is taken to leave its output arguments alone.
* In Real/Model.lean every component call is guarded by the array sizes its header documents (`when`); a wrong size is `ub`, and
  `real_safe` shows that it does not happen. `sha3_512` has no failure result in C; a fault inside it would become the empty list,
  which `sha3_real` excludes.
* The component models pass Keccak states as values. The heap version (Keccak/Heap.lean, Dilithium/Heap.lean, Sphincs/Heap.lean) has every `malloc`, NULL check,
  `exit(111)` and `free` of the contexts; C85, C86 and C114 connect the two for common/, dilithium2/ and sphincs/. Real/Heap.lean repeats
  the hybrid layer over that heap (C118).
* No cryptographic hardness is claimed. Properties are functional.

## 3. Properties: what is modelled and how it is proved

| id | model | proof |
|---|---|---|
| C01, C03 | hybrid layer with all three component algorithms put in (Real/Model.lean) | C68 gives the signature that signing writes, C69 that it is valid, C66 that verification accepts it; the outcome does not depend on the fuel (`fullOpen_fuel`) |
| C02, C04 | same | same, with the frame statements of C13 |
| C66, C67, C68 | same | the contracts of the hybrid layer are proved for the component models (Real/Contracts.lean), the decision logic comes from C05-C08 and C14, the component specifications from C50, C51, C59, C61 |
| C69 | the specifications only (Real/Spec.lean) | `valid_sign`, `dil_scheme_correct`, `sign_valid` |
| C05, C06 | sign functions of hybrid.c on block memory | symbolic execution with a copy-loop lemma |
| C07, C08 | open and verify functions | symbolic execution, both directions |
| C09, C10 | same | from C07, C08; open against verify (Hybrid/Props3.lean) through the mode byte that both load |
| C11, C12, C13 | same | symbolic execution, frame = equality of final memory with an explicit update of the initial memory |
| C14, C15 | key generation | symbolic execution; C47 for the SPHINCS+ part |
| C16, C24 | all randomness users; histories of calls | induction over the call history |
| C17 | seed expander | negation with a concrete pair of seeds; exact dependency as `_partial` |
| C18, C29 | seed expander, SHAKE PRNG | loop lemma + C26 |
| C19 | compact signing input | list injectivity |
| C20 | full sign, compact open | constructive conversion of signatures |
| C21 | Ed25519 open, both modes | `[L]B = 0` and C51, lifted to both wire formats with C66; positive part: C32 and Real/MalleableProps.lean (from C100): with S below L and the same first 32 bytes of each part the buffer is determined, or a hard problem is broken |
| C22 | crypto_verify_dilithium | symbolic execution; with the component code `real_dilithium_verify` says it in terms of the Dilithium specification alone |
| C23 | sign functions with overlapping buffers | symbolic execution; counterexample; the positive part for every message that lies apart from the first 2526 bytes of the output |
| C25 | Keccak-f unrolled code (Keccak/Model.lean) | each unrolled double round equals theta, rho, pi, chi, iota of the bit-level specification Keccak/Spec.lean; induction over 12 double rounds (Keccak/Perm.lean) |
| C26, C27, C28 | absorb/squeeze, one-shot and incremental | both interfaces refine one byte-wise machine (`feed`, `next` in Keccak/Sponge.lean), which is proved equal to the bit-level sponge with pad10*1 (Keccak/Fips.lean) |
| C58 | two seedexpander calls | position in the same stream |
| C30, C65 | getrandom and /dev/urandom loops against an arbitrary kernel schedule (Random/) | induction over the fuel; the specification is an inductive relation `Delivers` / `Breaks` on schedules |
| C31, C61, C62 | whole of dilithium2/ (Dilithium/Model.lean) | refinement to the specification Dilithium/Spec.lean, which knows no NTT and no Montgomery form (Run, Correct, Final); correctness of the scheme proved on the specification (`signs_valid`) |
| C63, C64 | attached and random-key wrappers, in-place variants as separate definitions | copy-loop lemmas |
| C32, C33 | packing.c, poly.c packers | bit-level lemmas, loop invariants |
| C34, C35, C36 | reduce.c, ntt.c, rounding.c | integer arithmetic; invariant over NTT layers |
| C37, C38, C41 | samplers, signing loop | loop invariants |
| C39, C40 | verification, attached API | ranges through the whole computation |
| C42, C47, C48, C49, C59, C60 | whole of sphincs/ (Sphincs/Model.lean) over a hash parameter, instantiated by the Keccak model | refinement to the functional specification Sphincs/Spec.lean (Tree, Wots, Exec, Top); round trip proved on the specification by induction over tree height and layers |
| C43 | treehashx1, compute_root | stack invariant: after leaf idx the stack holds the left siblings of the path of idx+1 (Tree.lean) |
| C45, C46 | message_to_indices, hash_message, address.c | bit and byte lemmas (Exec, Lemmas, Props2) |
| C44 | WOTS+ encoding | checksum argument (Props2) |
| C70-C74 | Salsa20, XSalsa20, Poly1305 and secretbox of tweetnacl.c (Nacl/Model.lean), with the width of `unsigned long` as a parameter | refinement of each loop to the published function (Nacl/Spec.lean); Poly1305 by the value of the limbs modulo 2^130-5 with explicit bounds |
| C75-C78 | the Montgomery ladder of tweetnacl.c on the limb model of Ed25519/ | `XRep` relates a projective pair to a point of Mathlib's `WeierstrassCurve.Affine` over an arbitrary extension field; doubling and differential addition are proved for all points, the exceptional ones included; uniqueness and commutativity by a point over the algebraic closure |
| C79, C80 | crypto_box, crypto_box_open, crypto_box_keypair | C70, C74, C76; the random source of Verif/Rand; what a failed draw leaves in the caller's secret key buffer is an arbitrary parameter (`left`), because the source may write before it fails (C65) |
| C81, C83 | wasm/hybrid-pqc.c on block memory with a heap (Wasm/Model.lean) | C68 and the round trip C03 carried over; for the short size cell the store of eight bytes fails at the first byte behind the block, and the signature itself is the one computed in a memory with a longer cell |
| C82 | malloc with an arbitrary allocator, memset, free; the contents of a block at the time of its release are recorded | case distinction; says nothing about a compiler that drops the memset before free, which C allows |
| C84 | same, and C29 | C29, symbolic execution |
| C85 | contexts as heap blocks with an arbitrary pattern of malloc failures (Keccak/Heap.lean) | symbolic execution; `Single` says one context is made and released; `RunAt` relates an operation on the context `p` to the function on values |
| C86 | every function of dilithium2/ and sphincs/ that makes contexts, repeated over the heap | `Uses N`: exactly N allocations, composed along the calls; induction over the rejection loops; C27 for the pieces of SPHINCS+ |
| C87 | random/randombytes.c:163-304 with a log of all calls and the set of open files (Random/Entropy.lean) | postconditions composed along the code (`Post`), induction over the fuel of each loop; the read loop is that of C65 |
| C88, C89 | the other variants of random/randombytes.c (Random/Other.lean) | symbolic execution; `WinGives` describes the bytes of the fallback loop |
| C90 | sessions of a client with the signing functions, any interleaving (Real/Session.lean) | induction over the session gives what each answer is (`session_answers`); C66 takes the accepted buffer apart; equality of hash inputs is decided, the remaining case is a collision |
| C91, C92, C93 | copies of tweetnacl.c, fips202.c and shake_prng.c that also log every array index and every condition (Ct/Base.lean: the type `T`) | each copy erases to the model (`*_res`), so the functional theorems carry over; two runs are compared function by function (`*_same`): equal public data give equal logs |
| C94 | the same for SPHINCS+ key generation and signing (Ct/Sphincs.lean), on top of the Keccak with traces | `*_res` and `*_same` as for C91. Signing looks at the FORS indices and at the digits of the string signed on each layer (the root of the tree below), so its log is not constant; `sign_roots` shows by the round-trip theorems behind C42 that two keys with equal public seed and equal signatures have signed equal strings on all layers, so the log is a function of (public key, message, signature) |
| C95 | the same for Dilithium key generation and signing (Ct/Dilithium.lean): sampling, NTT, products, rounding, norm checks, hints, packing, the rejection loop; what is shown is defined in Ct/DilithiumSpec.lean from the specification alone | `*_res` and `*_same` as for C91; the loops that reject are compared with their streams (`rejEtaLoop_same`, `polyChknorm_same`, `signAttempt_same`, `signLoop_same`). `accepted_leak`: under a generated key the high parts of w and the errors are determined by public key and signature (`signs_facts`, the identity behind C31), so what the accepted attempt shows is public. What the rejected attempts show (challenge hash, place of the first coefficient that is too big, hint classes when only the number of hints is too big) stays a parameter: that it is independent of the key is a statement about distributions, argued in the Dilithium paper, not here |
| C96 | SPHINCS+ of C59 with the notions of Sphincs/ForgeSpec.lean (which strings are hashed at which address in the trees of a key pair, which strings verification hashes, second preimage among them, chain value before the one given out) | by descent through the layers: `climb_inv` (an authentication path that reaches the root either repeats the tree or gives a second preimage), `chain_inv`, `wots_inv` with `digit_lt_of_ne` (the checksum forces a smaller digit when the signed strings differ), `xmss_inv`, `ht_inv`, `fors_inv`, together `forge_inv`; then the FORS leaves are compared with those of the given signatures (`breaks_of_valid`). A FORS secret value counts as new when its address bytes differ from those of all values in the given signatures (`forsPrfAdrs_iff`: the bytes determine tree, key and leaf); the other case says that all 35 values are copies of values in them. For the hybrid scheme with `full_forgery` (C90) and the answers of a session. No assumption on the hash function is made beyond its output length, which is proved for SHAKE256 |
| C97 | Dilithium2 as in C31 and C61; the relation to SelfTargetMSIS is stated in Dilithium/ForgeSpec.lean with plain ring equations over integer polynomials | the specification `Valid` of verification is unfolded; `useHint_err` bounds the vector u by the low part that the hint allows, `useHint_inj` and `encodeSig_decode` show that hints and encoding have no freedom; differences with `equation_diff` and `short_diff`. The vectors in the statement are determined by public key and signature (`checked_unique`), so the collisions are about fixed strings. No cryptographic assumption is made |
| C98 | Ed25519 as in C50, C51, C57 | the order of B is L because L is prime (Pratt certificate in Ed25519/PrimeL.lean), L B = 0 and B is not 0; the encoding of points is injective by `decodes_unique`; the rest is arithmetic in the field of L elements |
| C99 | treehash (Sphincs/Treehash.lean) | before leaf number n the stack holds one node for every one in the binary representation of n (`StackIs`, `ones`); `treehashMerge_run` follows the merging of equal heights |
| C100 | the hybrid functions with the components (C66 to C69), C96, C97, C98 | the acceptance condition of C66 takes a buffer apart; the parts by `valid_solution`, `forge_inv`, `equation_iff`. All breaks are stated for strings that are computed from the given signatures (`verifyCalls`, `hashed`, `diffV`): that some collision exists would be true of every hash function |
| C101 | same | `same_challenge_of_valid` with one signature; the secret scalar is not 0 modulo L (`scalar_ne_zero`), so equal S and R give equal hash values modulo L; `fors_part` for SPHINCS+; "one value is the secret of two leaves" is stated with different address bytes and equal values of the pseudorandom function |
| C102 | the same as C91 to C95 for hybrid.c (Ct/Hybrid.lean): a state monad over the world with a log, caller pointers recorded by index relative to the pointer; what `randombytes` does inside is not recorded | `*_res` theorems (Ct/HybridLemmas.lean) erase the log; Ct/HybridTraces.lean computes the log of each function step by step from the logs of C91 to C95; the parts of the signature are recognised by `dil_deterministic` and the wire format (C03) |
| C103 | the verification functions with the components (C66 to C69) | partial, the full claim is false (`hybrid_owner_false`, defect 30). `dil_owner` compares the strings hashed by two verifications of one Dilithium signature; the Ed25519 part is exchanged with `neutral_valid` (signature with R neutral and S = 0), `neutral_decodes` and `neutral'_decodes` (both encodings of y = 1 are accepted) |
| C104 | open, compact sign and the seed expander as in C01 to C24, with no assumption that buffers are apart | the copy loops are run one byte at a time on one memory (`copyMem_any`); `forward` is the closed form of the result and `forward_spec` says what it is |
| C105 | the samplers as in C61; `Unbiased` (Dilithium/UnbiasedSpec.lean) compares the sizes of the sets of strings | a string can be changed so that the sampler gives any other value, keeping rejected candidates and unused bits, and changed back (`Lens`, `pick_put`); for the challenge the draws are counted: every ball element with t nonzero coefficients has t predecessors, so 39! sequences of draws (`card_hist`, `ballOf_count`) |
| C106 | one attempt of signing as mathematics (`Releases`, `commitOf`, `responseOf`, `hintsOf` in Dilithium/SimSpec.lean) and the simulator (`SimReleases`, `simCommit`, `simHints`), which reads A, t, c and z only | z determines y since y = z - c s1 stays in range when z passes its test (`response_bij`); the low-bits test gives that the high parts of A y and of A y - c s2 = A z - c t are equal (`sim_identity`); the code's signatures come in through `keypairSeed_sound` and `signature_sound` |
| C107 | `hashMessage`, `messageToIndices`, `reduce`, `clamp`; for the digest the model gets the 49 bytes in place of the hash function | the indices are the base-512 digits of the first 315 bits (`digits512`), so 5 + 4 bits are free (`digestOf`); the Ed25519 counts come from `scalar_reduce` and `clamp_ok` and counting numbers below 2^512 and 2^256 (`ncard_bytes`, `ncard_mod`) |
| C108 | the whole code as in C31 with the real components; the forged parts `zeroSig`, `neutralSig` are explicit byte strings | `zeroSig_valid` unfolds the specification `Valid`: with t1 = 0 and z = 0 the vector A z - c t1 2^13 is 0, its high part is 0; `neutral_valid` from C103; one case is computed in the kernel (`weak_ball`, `weak_key_exists`) |
| C109 | `onetimeauth`, `onetimeauthVerify` as in C72 | 2^130 - 5 is prime by a Pratt certificate (`prime1305`); the chunks determine the message (`chunks_inj`), so the difference of two polynomials is never constant (`pol_ne`) and has at most q roots; 8 differences of the reduced sums agree modulo 2^128 (`badR`), 2^22 first halves share a multiplier (`ncard_clamp`), and the tag fixes the second half (`tag_iff`) |
| C110 | `permute`, `absorb`, `incAbsorb`, `seedexpanderInit` as in C25 to C29 | through the FIPS 202 steps: theta acts on the column parities as D = 1 + x + x^4 z, and D^64 has the inverse 1 + x^2 + x^3 (`spread_injective`); chi by its 2^5 rows; the blocks are then peeled off from the end (`same_state`), the padding is injective (`pad_injective`) |
| C111 | the curve, `unpackneg`, `signOpen` as in C51, C57 | no point counting algorithm: a point is determined by y and the parity of x, so there are at most 2p < 16 L points; B has order L (C98) and T order 8, so 8 L divides the number of points (`card_points`). The group is generated by T + B, which gives the parts j and a (`exists_parts`, `parts_unique`) and the 8 points of small order (`eight_iff`). The 26 further strings come from the 12 numbers below 19 that are y coordinates (Euler criterion, all 19 numbers) and from the sign bit at x = 0 |
| C112, C78 | `scalarmultX`, `scalarmultBase` as in C75 | y to (1+y)/(1-y) maps the y coordinates of Ed25519 to the u of Curve25519, which counts the u for which u^3 + 486662 u^2 + u is a square (`card_square`, from C111). Over the algebraic closure the points that the Frobenius map fixes, and those that it negates, are subgroups (`E1`, `E2`) of 8 L and 4 L' elements, with L' prime by a Pratt certificate (`prime_T`). Lagrange's theorem and the doubling formula then leave five coordinates for zero (`eight_low`) and the stated pairs of scalars (`same_result`) |
| C113 | `seedExpander` then `keypairSeed` with the component code | Two calls in one world, the second on what the first wrote (`MadeFrom`). `madeFrom_iff` reduces them to the bytes; `expanded_keys` then reads off the parts of both keys in terms of FIPS 202 and the published schemes. Seeds that agree at the positions that count have the same expansion; the other 32 bytes are free (`weave`, injective: 2^256 seeds per key pair), and the 64 bytes that count determine the key pair (2^512 at most). The example is a seed for which the run really ends, from the computed run of Dilithium. |
| C114 | all functions of /repo/sphincs that hash, repeated over the heap of contexts (Sphincs/HeapAll.lean), and those of dilithium2 from C86 | `Between lo hi`: a refinement of `Uses N` of C86 with bounds on N that add up along the calls. The count of `treehashx1` follows the leaf numbers alone (`innerN`, `outerN`, evaluated at the heights 4 and 9); the digits of the strings signed only enter in verification: `verifySteps` follows the layers by the specification of the roots (`verifyLayer_run` gives the string of the next layer), and `steps_bounds` bounds a layer by 45 and 990 from the checksum. For Dilithium the number of attempts is the k of `Signs` in the specification, and verification takes 20 contexts exactly for the strings that encode a short response and hints (`dil_verify_contexts` says when by `encodeSig`), none for others. The results are those of C59 and C61. |
| C115 | `cryptoHash`, `hashblocks` as in C54 | from C54 (`hashblocks_ok`: the code folds `compress` of FIPS 180-4 over the blocks); a round has an inverse (`unround`); the last sixteen bytes of the padded message give its length, so messages of different lengths collide in the last block and messages of one length in the last block where chain value or block differ |
| C116 | `core` as in C70, now with arbitrary constants (`coreSalsa20_with`) | the quarterround has an inverse (`unquarter`); a sum of two words does not change when the top bits of both change, and exclusive-or with a changed word changes the top bit (`quarter_flip`); HSalsa20 by subtracting the known words from the block |
| C117 | The signing functions of the hybrid layer over memory (`signCompact`, `signFull`); for the consequence the real components. `seen` is what a caller sees of a call; `CompactPair` states which parts of a secret key must belong to a public key, in terms of the component specifications. | `compact_key_use`, `full_key_use`: signing is a function of slices of the secret key that avoid the bytes in question. `compact_without_sphincs`: the compact round trip needs only `CompactPair`; `generated_compact_pair`: generated pairs have it with anything in bytes 2624 to 3999. The example uses a real run whose SPHINCS+ secrets are zero. `Verif/Real/KeyUseProps.lean` |
| C118 | `Real/Heap.lean` is hybrid.c once more, with the component functions replaced by their versions on the heap (`Dilithium/Heap.lean`, `Sphincs/HeapAll.lean`, `Keccak/Heap.lean`); Ed25519 and `sha3_512` allocate nothing. `OnHeap` states the claim without any helper of the proof. | `Real/HeapProps.lean`, ten theorems `hybrid_*_contexts`. `CountsAt` (call on the heap, call on values, number of contexts) is closed under sequencing, branches and local arrays; the components come from C114, the codes that cannot occur are excluded with the specifications of the three components. |
| C119 | sessions of signing calls (`Session` of C90: any calls, any memory and any random source between them) | The answers are those of the specifications (C68, `session_answers`). `ht_drop`: after i layers of a hypertree signature stands the signature of what the key at that place signs (`signed` of C96), by induction on i; the place on layer i is the index of the FORS key divided by 16^i. Dilithium parts agree by C62. The bounds on the number of values and the collision among seventeen are pigeonhole. |
| C120 | two sessions (C90) with two secret keys that share some bytes | `full_parts` cuts an answer into its Ed25519 and Dilithium parts (C68, wire layout). Ed25519: nonce and R depend on the first 32 bytes and the message alone, the hash also on the copy of the public key; the rest is algebra in the field of L elements (L is prime, C97). `scalar_suffices` is the verification equation. Dilithium: the mask depends on bytes 96-191 and the message alone, so it cancels in z - z'; the case where two attempts differ in number says nothing and is left out of the claim. SPHINCS+: `full_tail` of C119, whose values depend on the two seeds alone. The example for the Dilithium statement uses keys that differ outside the Dilithium part only (c = c'); no second signature under a changed matrix is computed. |
| C121 | `seedKeypair` and `signature` with the hash function as a parameter | `Replaced` lists the strings with new hash values; by C46 each of them belongs to one place, so the new values do not contradict each other (`replaced_unique`) and `patched` is a function. Then every tree is followed from the leaves to the root: chains agree from the signed digit on (`chain_old`), so all leaves, roots, paths and signed strings agree; R and the digest are hashes of strings that do not occur in `Replaced` (they begin with the PRF key, or are longer than 96 bytes, hence the two hypotheses). The statement is about one scheme with its own hash function: in the hybrid scheme Dilithium uses SHAKE256 too, and no claim is made about its strings. |
| C122 | two runs of `signature` with one secret key | `signature_sound` gives the attempt of each run; `signsAt_decode` shows that the bytes decode to the computed challenge and response (the bounds of the accepted attempt make the encoding injective), so the theorem speaks of the signature bytes and not of some vector that encodes to them. Strings: attempts are below 16384 (`signs_bound`), so the 16-bit numbers do not wrap and are injective; the rest is a case split. The collisions are named strings, not existentials. C120 uses the same decoding lemma. The example signs two different messages with one generated key. |
| C123 | the ten hybrid functions as trees of single steps (`Conc/Base.lean`, `Conc/Model.lean`): one byte read, one byte written, one draw, one local array entered or left. `Conf.next` lets one thread make one step; blocks below `base` and the random source are common, every thread has its own stack above. `Call.reads` and `Call.writes` (Conc/Foot.lean) are the ranges | `exec_call` proves that the steps without interruption are the functions of Hybrid/Model.lean, so every other theorem applies to them. `w_call` proves that every access to common memory is inside the ranges whatever is read or drawn. The invariant `Inv` says for each thread: the call alone, from the initial memory with any random source that agrees with the draws received so far, equals what is still to do from a memory that agrees with the common one on the ranges of the thread; `Inv.next` keeps it for a step of any thread. Ending is by induction on the tree. Simplifications: steps are sequentially consistent, which is sound where there are no data races (proved); `randombytes` is one step (the operating system serves each call separately; the library keeps no state, there is no mutable static variable in the files of the library); what the components compute on copies is part of a step, `readMem` reads the bytes that a component reads through a caller pointer in order, once for each place in the text that reads them (in full signing four times); Dilithium's rejection loop has fuel as everywhere, so "ends" means ends or uses up the fuel; one call per thread |
| C124 | the step model of C123 with other threads that are arbitrary programs (`p : ι → Prog Int` is unconstrained except for the one call). `Held` = the byte was at the address after some prefix of the schedule, `Stored` = the thread stored the byte there (Conc/Race.lean) | `Safe` is a weakest-precondition of one thread in which every read of common memory may give any byte and only reads from its own stack are known; it collects the facts read and the bytes stored. `safe_run` proves by induction on the schedule that a safe program has its postcondition in every run. `safe_openFull` shows that the copies in locals are what `fullOpen` gets, and `fullValid_sound` turns its success into the specifications |
| C125 | same; the other thread of the attack is `replaceMessage` (Conc/AttackProps.lean), which only overwrites the message part of the signature buffer | same for the `_partial` theorems, with the second read as separate facts. `Leads` (Conc/Attack.lean) brings the call to the state just before the last loop; the other thread runs; the rest runs to the end. For the negation the weak key of C108 gives a signature of [2]; `byte_origin` shows that every other byte of the buffer and the key kept its value, and three hashes computed in the kernel show that the buffer with [3] is not a signature (`weak_other`) |
| C126 | same; the other thread of the attack is `overwrite` (Conc/SignAttack.lean), which only writes the replacement over the message. `signFull` reads the message separately for each of the three algorithms (hybrid.c:294-296), for SPHINCS+ twice (sphincs/sign.c:130, 133; `signTwice` in Sphincs/Twice.lean is `signBody` with two messages) | `safe_signCompact`, `safe_signFull` for the `_partial` theorems: every reading of the message is a separate fact. For the attack `leads_signCompact` and `leads_signFull` bring the call to the state after the first reading, `overwrite` runs, the rest of the call runs to the end. For the negations the signature buffer initially holds every final byte plus one, so by `byte_origin` the call itself has stored every byte that is there at the end; `signed_valid_iff` (Dilithium/Other.lean) reduces the question whether the Dilithium signature of one hash is also valid for another to two hashes, which the kernel computes (Witness/Only.lean) |
| C127 | same as C124, with the component code of `real`; `keyTail` (Conc/RaceKey.lean) is the part of seeded key generation after the seed has been copied. For the call without a seed, `got` lists the numbers of the draws that the thread made | `keypair_seed_under_writers`, `keypair_under_writers`, `expander_under_writers` (Conc/RaceKeyProps.lean): the relation `Safe` of C124 for the three programs (one copy of every seed byte, stores only of computed bytes); for the draw the run is cut at the first step of the thread (`safe_draw_run`) and the rest started from there (`safe_run_from`). `keypair_seed_torn`: the call, the other thread after the first 32 bytes have been copied, the rest of the call; `torn_demo` is a run with concrete seeds, the keys coming from Verif/Witness |
| C128 | `verifyDilithiumSteps` (Conc/VerifySteps.lean): `crypto_verify_dilithium` with Dilithium verification taken apart into single byte reads as far as the signature, the key and the message are concerned; `hintPoly`, `hints`, `hintRest` are the three loops of the hint decoder and read every byte where the text does. The arithmetic between the reads is that of the model of Dilithium verification. The memory model as in C123 | `verify_dilithium_steps_alone`: the run without other threads is that of the sequential model (`exec_verifyDilithiumSteps`, by induction over the loops). `ReadsIn` (Conc/VerifyRace.lean) is a logic of programs that only read, with what may be assumed about the value read; it gives `verify_dilithium_reads_bounded` (nothing assumed) and `verify_dilithium_reads_within_partial` (the counts keep their values). `verify_dilithium_overread`: the call runs to just after the check of the first count (`before_verify`), the other thread stores its byte, the loop runs to index 84 (`leads_over`). `verify_dilithium_reads_within_false` is the case of `upSig`. `other_calls_access_within`: the footprints of C123 are invariant under steps of any thread (`within_run`). `verify_dilithium_no_ub_partial` and `verify_dilithium_slack_no_ub` add that nothing else is undefined: `ReadsIn` carries the sizes and ranges of what was decoded from arbitrary bytes, and `verifyRest_safe` (Conc/VerifySafe.lean) goes through the arithmetic with these ranges, as `verify_run` does for one fixed signature |
| C129 | The steps of C128 (`verifyDilithiumSteps`); validity is the `Valid` of the Dilithium specification (Dilithium/Spec.lean), `Shown` is that of C124: every byte was at its place at some moment. `SameUsed x y`: `y` is `x` up to the hint positions `x` does not use | `verify_dilithium_accepts_malformed`: `Sw W W' x r` says that the program runs for a while in one memory and to the end in another; `sw_hints` goes through the hint loop up to the last read of the last count (`unpackHints_iff` shows that the hints of `y` are those of `x`), and with a count of at least 80 `hintRest` reads nothing; the rest is the run on `x` (`verify_complete`). `malformed_not_valid`: a valid signature decodes, and the decoder has then seen zeros (`valid_shape`). `verify_dilithium_under_writers_false`: the signature with z = 0 under the weak key of C108 with a 1 in the first hint position; `malformed_stays_invalid`: the byte there never changes and the last count is only ever the old one or the stored one (`byte_kept`, `byte_origin` and `safe_run`). `verify_dilithium_under_writers_partial`: `reads_accept`, with the logic `ReadsIn` of C128 where what is known of a byte read is that memory held it at some moment, and its value if it belongs to the signature or the key |
| C130 | The steps of C128. `Equation ct z h rho t1 pk2 msg`: the equation of the Dilithium specification with the matrix of a seed, a vector t1 and the hash of a key that need not belong together. `readVec` (Conc/Windows.lean) decodes z and t1 in single reads: every coefficient reads its three or two bytes, so a byte with bits of two coefficients is read for each of them. Simplified: the coefficients of z are subtracted from 2^17 one by one, not by groups of four (no memory is accessed in between) | `verify_dilithium_equation`: the logic `ReadsIn` of C128, what is known of a byte read being that memory held it at some moment (`reads_found`; `reads_readVec` follows the coefficients to their bytes; `verifyRest_eq` computes what follows the last read; `hints_hints` follows the ones of the hint polynomials to the bytes that put them there). `verify_dilithium_two_keys`: the program runs in one memory up to the second read of the key and in the other from then on (`Sw` of C129). `verify_dilithium_one_key_false`: the weak key of C108 and the key that differs from it in byte 33 (first coefficient of t1 512 instead of 0), and the signature with z = 0 whose challenge is the hash for w1 = 0 under the other key: it satisfies the mixed equation as t1 of the first key is 0; it is invalid under the first key as the hashes differ, and under the other as w1 is then 22 at the 39 places of the challenge and the hash of that is different (`mixed_not_first`, `mixed_not_other`; hashes and challenge by kernel computation, Conc/TwoKeys.lean); `mixed_shown`: no other key can be read from the buffer |
| C131 | The programs of C123 and, for `crypto_verify_dilithium`, of C128. A step is an access to memory, a draw, or a local array entered or left; computing on local data takes no step of its own, so that rejection sampling and the repetitions of Dilithium signing, which depend on local data only, are not counted (in the model they have fuel) | `Takes x n`: the program `x` ends after at most `n` steps whatever it reads; by recursion over the program, with a rule for sequences (`Takes.step`) and one for every kind of loop; `takes_hintPoly` for the loop whose bound is read again before every iteration: the bound is a byte, so that there are at most 255 iterations. `calls_end`: every turn uses up one step (`takes_run`). `verify_dilithium_ends` adds `verify_dilithium_slack_no_ub` of C128. `verify_dilithium_undisturbed`: with the bytes of the three buffers fixed, `ReadsIn` of C128 follows the run alone (`reads_exec_end`), and stays inside the 2420 bytes because the counts are fixed; `verify_dilithium_shared`: verification writes nothing. `calls_turn`: `Paths x Q` says of every way through the program what it returns after how many steps; the ways that return 0 of the nine functions other than `crypto_verify_dilithium` all have the length of the table `Call.turns` (`paths_*`), and `paths_turn` carries this to schedules. So a call of the nine that returns 0 with a message of 64 bytes uses all the turns of its bound; `verify_dilithium_least` gives a lower bound for acceptance by Dilithium-only verification, where the number of turns depends on the hints; that 10728 is reached is not shown |
| C50, C51, C56, C57 | Ed25519 part of tweetnacl.c | refinement to the twisted Edwards group over `ZMod (2^255-19)` |
| C52, C53, C54, C55 | field, scalar and hash arithmetic | limb bounds and congruences; FIPS 180-4 specification |

### Evidence that the hypotheses can be met

Theorems about successful calls would be empty if no call could succeed. For the hybrid layer with arbitrary components this is shown with toy components; for the real components
`Verif/Witness/` has one complete run that the kernel evaluates: key generation from a seed, a full-mode signature and its verification (`complete_run`). `compact_run` does the same for compact mode, but with zero bytes in place of the SPHINCS+ key: evaluating the SPHINCS+ public key in the kernel would take too long, and compact mode only hashes it. `Witness/Keccak.lean`, `Sponge.lean`
and `Poly.lean` restate Keccak and the arithmetic of Dilithium on natural numbers, which the kernel evaluates fast, and prove them equal to the specification; `Data.lean` has the numbers of the run,
`Check.lean` evaluates every equation, `Sound.lean` concludes that the specification has this run.

### Tests of the model

Besides the proofs the model was run (with the Lean interpreter, outside of this project, so these are tests and nothing rests on them) on the vectors in `tests/test_hybrid.c`: the seed expander gives the
expected 160 bytes (lines 87, 89), key generation from the seed (lines 750, 773, 774) gives the three parts of the expected public and secret key, a compact signature made with this key verifies, opens to the message, and is rejected after a
change of one byte. `Verif/Vectors.lean` has those that the kernel evaluates in reasonable time: the seed expander vectors of both test programs, and published values of SHA-3, SHAKE, SHA-512, HSalsa20 and Poly1305. The unused functions of TweetNaCl were run on published vectors (X25519 and Poly1305 of RFC 7748 and RFC 8439, HSalsa20 of the NaCl paper).

## 4. Defects and disagreements found

Kept up to date as work goes on.

1. `hybrid.c:145-148` increments the loop counter twice, so the odd-numbered bytes among the first
   64 seed bytes are never used by the seed expander (C17). The repository's own
   known-answer test was generated with the defect.
2. Full mode signs the raw message with Ed25519 and Dilithium and compact mode signs a 64-byte hash with
   the same keys and no domain tag, so full signatures on chosen 64-byte messages convert to compact
   signatures (C20).
3. `tweetnacl.c:crypto_sign_open` does not check `S < L` (C21).
4. Compact sign reads the message again after writing the output (C23).
5. `sphincs/sign.c` attached `crypto_sign` ignores failure of `crypto_sign_signature` and
   uses an uninitialised length (C49).
6. The seed expander does not check for NULL, unlike every other function of the API.
7. Dilithium's signing nonce is 16 bits and is multiplied by L = 4, so masking nonces repeat after 16384
   rejections (C41).
8. `wasm/hybrid-pqc.c` passes `size_t*` where `unsigned long long*` is expected; on wasm32 the callee
   writes 8 bytes through a pointer to a 4-byte type (C81).
9. `sphincs/merkle.c:merkle_gen_root` makes `chain_lengths` read the not yet written root area of the
   secret key (harmless, C47).
10. `seedexpander` called twice on one state drops up to 7 bytes of the stream between calls when the
   first length is not a multiple of 8.
11. Comments in `sphincs/api.h:54` and `sphincs/nistapi.h:43` give the layout of the public key as [root || PUB_SEED]; the code writes
   [PUB_SEED || root] (C59 states what the code does).
12. `dilithium2/reduce.c`: the comment on `montgomery_reduce` claims -Q < r < Q for -2^31 Q <= a <= Q 2^31; at a = Q 2^31 the result is Q (C34).
    The code never passes that value.
13. `dilithium2/reduce.c`: the comment on `reduce32` claims r <= 6283007 for a <= 2^31 - 2^22 - 1; at the end point the result is 6283008 (C34).
14. `dilithium2/sign.c:crypto_sign_open` has lost the cleanup of the reference code: a rejected signature gives -2, `*mlen` is the length of the
    unverified message and the buffer is left alone; a too short input gives -1 and nothing is written (C40). The comment promises only
    "0 if signed message could be verified correctly and -1 otherwise".
15. If the first 16384 attempts of Dilithium signing are all rejected, the 16-bit counter has gone round and signing never ends (C41). No effect in practice.
16. Key generation relies on a bound that is not documented: `caddq` after `invntt_tomont` gives a canonical t only because the output is
    below 4211178 in absolute value (the documented bound is Q); proved in `invntt_ok`.
17. `tweetnacl.c:crypto_sign_open` counts with an `int`: for a signed message of 2^31 bytes or more under a decodable key the counter overflows, which is undefined (C56).
    The hybrid layer never passes more than 128 bytes.
18. After a failed check `crypto_sign_open` clears only the first n-64 bytes of the caller's buffer; the last 64 bytes of the rejected message (or of R, the key and the
    message, for n < 128) stay behind it (C56, `ed_open_tail_kept`). The hybrid layer does not copy them out.
19. `tweetnacl.c:car25519` and `modL` shift negative values to the left (`c<<16`, `carry<<8`), undefined in ISO C; modelled as multiplication, see section 2.
20. `tweetnacl.c:unpackneg` accepts non-canonical encodings (y >= p, and x = 0 with the sign bit set), unlike RFC 8032 5.1.3; `Decodes` states what the code does (C51).
21. `random/randombytes.c:277-304`: if reading /dev/urandom returns 0 bytes the loop never ends (C65), and the file descriptor stays open when the wait for entropy or a read fails.
22. `tweetnacl.c:crypto_scalarmult` and `crypto_box_beforenm` do not reject public keys of low order: the shared key is then a constant and no error is reported (C78). X25519 is
    usually deployed this way, but RFC 7748 section 6.1 leaves the check to the caller and the exported functions do not mention it.
23. `tweetnacl.c:10` declares `randombytes(u8 *, unsigned long)` while `random/randombytes.h` declares `randombytes(uint8_t *, size_t)`: the types are incompatible where `unsigned long` is
    not `size_t` (64-bit Windows), and the call is then undefined. Not modelled.
24. `wasm/hybrid-pqc.c:23-27`: `mem_free(NULL, 0)` is undefined (memset of a null pointer), unlike `free(NULL)`; the memset directly before `free` is a dead store that a
   compiler may remove, so the wiping of secrets is not guaranteed (C82 holds for the C program as written).
25. `common/fips202.c`: a failed `malloc` of a 200-byte context ends the whole process with `exit(111)` from inside a library function, so no API function can report it (C85, C86);
    and the `..._ctx_release` functions free the Keccak state, which has absorbed secret keys and seeds, without wiping it.
26. `random/randombytes.c:265-267` calls `fclose` again on the same stream after EINTR; the stream is gone after the first call (C11 7.21.5.1), so this is undefined (C87, `urandom_fclose_ub`).
    Also, the /proc stream leaks when /dev/random cannot be opened, and /dev/urandom leaks on every error after it was opened (C87).
27. `random/randombytes.c:89-93` passes a `size_t` length to BCryptGenRandom, which takes 32 bits: on 64-bit Windows a request for n >= 2^32 bytes gets n mod 2^32 random bytes, the rest is zero and the
    result is 0 (C88, `win32_not_random`). The callers in this repository ask for far less.
28. `random/randombytes.c:323-327`: `getRandomValues` throws for more than 65536 bytes and is called outside of `try`, so in a browser a longer request throws a JavaScript exception through the C code
    instead of returning an error (C89).
29. `sphincs/utils.c:141-144`: `treehash` copies the root behind the authentication path when the leaf index lies in the range of the next tree (C99, `treehash_index`). Nothing calls the function.
30. `tweetnacl/tweetnacl.c:760-825`: the Ed25519 public key may be a point of small order and in a second encoding (y not reduced modulo p); with the neutral point, R neutral and S = 0 verify for every message. So the Ed25519 part of a hybrid public key is not bound by a signature: whoever has a valid buffer can show a second and third public key under which a buffer with the same Dilithium and SPHINCS+ signatures is accepted (C103).
31. `hybrid-dilithium-sphincs/hybrid.c:659-662`: compact open copies the message forward, byte by byte, from the signed buffer to the output. If the output begins d bytes inside the embedded message, 0 < d < length, the call returns 0 and delivers the first d bytes over and over (C104). Full open copies to a buffer of its own first and does not have this.
32. No function examines a public key before it is used. With the neutral Ed25519 point and a Dilithium key with t1 = 0 everybody can sign in compact mode, and in full mode only the SPHINCS+ part protects (C108). Keys from key generation are not of this form; the point matters where a key of another party is taken as that party's identity (repudiation).
33. hybrid.c:295-296 and hybrid.c:519 pass `unsigned long long *` where dilithium2/api.h and sphincs/api.h declare `size_t *siglen`. The pointer types are incompatible, which C calls a constraint violation. Where `size_t` has 8 bytes the value is right; on wasm32 only the low 4 bytes of the zero-initialised cell are written, and the value is right because wasm is little-endian. The model has one natural number for the cell.
34. Comments that disagree with the code: hybrid.h:22 says that the seed needs 64 chars, and the code reads 160 bytes; hybrid.c:69-72 calls the SPHINCS+ signature a dilithium signature; the table of the compact message (hybrid.c:91) allows a message of 0 bytes, and the code rejects it.
35. No function of hybrid.c wipes its local copies of the seed or of the secret keys before it returns. The model has no notion of what remains on the stack.
36. With the expander the Dilithium key pair is made of seed bytes 64 to 95 as they are, so those 32 bytes get no domain separation (C113); together with defect 1 on the odd positions a 768-bit seed yields at most 2^512 key pairs.
37. No signing function compares the copies of public values in the composite secret key with what belongs to the secret parts. A key whose copy of the Ed25519 public key was damaged or replaced signs with the right R but another hash, and together with one good signature of the same message this reveals the secret scalar (C120). RFC 8032 has the same layout problem in implementations that take the public key as an argument.
38. Compact open reads the message bytes of `sm` twice: into `hybridMsg` for the hash (hybrid.c:600-603) and, after all checks, into `m` (hybrid.c:656-658). If another thread (or another process, when the buffer is in shared memory) changes them in between, open returns 0 with a message that nobody signed, and verify, which calls open, accepts it (`compact_open_swapped`, `compact_verify_swapped`, C125). Full mode copies each byte once and is not affected (C124); copying from `hybridMsg` would repair compact mode. The step model is sequentially consistent and takes each read in the text once; in C a data race is undefined behaviour and a compiler may read memory again, so C124 says that the text gives no occasion for such an attack, not that every compiled program is immune.
39. Signing reads the message several times: compact mode for the hash (hybrid.c:507-511) and again to put it into the output (hybrid.c:557-559), full mode for Ed25519 (with the copy in the output, tweetnacl.c:740), for Dilithium (dilithium2/sign.c:133) and for SPHINCS+ (sphincs/sign.c:130, 133). If another thread changes it in between, the call returns 0 and leaves something that is not a signature of any message, or component signatures of different messages (`compact_sign_other`, `full_sign_other`, C126). A caller who signs a buffer that somebody else can write to can so be made to publish component signatures of a message other than the one in the output. Copying the message into a local array first would repair both.
40. `crypto_verify_dilithium` passes the caller's buffers straight to Dilithium verification (hybrid.c:705). The hint decoder checks the byte `sig[OMEGA + i]` (dilithium2/packing.c:237) and reads it again as the bound of the loop (line 241), so a thread, or a process sharing the memory, that changes it in between makes the decoder read up to 171 bytes behind the signature (`verify_dilithium_overread`, `verify_dilithium_reads_bounded`, C128). Open and verify of the hybrid modes copy the signature to a local array first and are not affected. Reading the count into a local variable would repair it. A compiler may merge the two reads, and then the read behind the buffer does not happen; nothing in the text asks for that.
41. The same decoder reads the last count a further time (dilithium2/packing.c:249) and lets that value decide which positions must be zero (line 253). A thread that stores 80 or more there after the check makes `crypto_verify_dilithium` accept a signature with garbage in the unused positions, which the check in line 252-257 ("for strong unforgeability") is there to reject, and no state of the buffer was ever a valid signature (`verify_dilithium_accepts_malformed`, C129). The repair is that of 40.
42. Dilithium verification reads the key twice, for the matrix and t1 (dilithium2/sign.c:277) and for its hash (line 286), and `crypto_verify_dilithium` gives it the caller's buffer (hybrid-dilithium-sphincs/hybrid.c:705). The hash is there to bind the signature to the key; if the key changes between the two reads, a signature can be accepted that is valid under neither key (`verify_dilithium_one_key_false`, C130). The repair is that of 40: copy the buffers first.
